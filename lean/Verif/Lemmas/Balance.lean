import Verif.Lemmas.DecArith
/-
Lemmas about sums of amounts and balances.
-/
namespace Ledger

/-- A rational number with at most `S` decimals. -/
def OnGrid (S : Nat) (x : ℚ) : Prop := ∃ z : Int, x = z / 10 ^ S

theorem OnGrid.add {S : Nat} {x y : ℚ} (hx : OnGrid S x) (hy : OnGrid S y) : OnGrid S (x + y) := by
  obtain ⟨a, rfl⟩ := hx; obtain ⟨b, rfl⟩ := hy
  exact ⟨a + b, by push_cast; ring⟩

theorem OnGrid.neg {S : Nat} {x : ℚ} (hx : OnGrid S x) : OnGrid S (-x) := by
  obtain ⟨a, rfl⟩ := hx
  exact ⟨-a, by push_cast; ring⟩

theorem OnGrid.sub {S : Nat} {x y : ℚ} (hx : OnGrid S x) (hy : OnGrid S y) : OnGrid S (x - y) := by
  rw [sub_eq_add_neg]; exact hx.add hy.neg

theorem OnGrid.zero (S : Nat) : OnGrid S 0 := ⟨0, by simp⟩

theorem onGrid_val (d : Dec) (S : Nat) (h : d.scale ≤ S) : OnGrid S d.val := by
  refine ⟨(if d.neg then -1 else 1) * (d.mant * 10 ^ (S - d.scale) : Nat), ?_⟩
  rw [Dec.align d S h]
  unfold Dec.sgn
  cases d.neg <;> simp

theorem representable_of_grid {S : Nat} {x : ℚ} (hS : S ≤ 28) (hx : OnGrid S x)
    (hb : |x| * 10 ^ S < 2 ^ 96) : Representable x := by
  obtain ⟨z, rfl⟩ := hx
  refine ⟨⟨decide (z < 0), z.natAbs, S⟩, ⟨?_, hS⟩, ?_⟩
  · rw [abs_div, abs_of_pos (Dec.pow10_pos S), div_mul_cancel₀ _ (ne_of_gt (Dec.pow10_pos S))] at hb
    have : (z.natAbs : ℚ) < 2 ^ 96 := by rw [Nat.cast_natAbs]; exact_mod_cast hb
    exact_mod_cast this
  · unfold Dec.val Dec.signed
    simp only [decide_eq_true_eq]
    congr 1
    split
    · rename_i h
      have : -(z.natAbs : Int) = z := by omega
      rw [this]
    · rename_i h
      have : (z.natAbs : Int) = z := by omega
      rw [this]

/-- Addition of quantities on a grid. -/
theorem dec_add_grid {S : Nat} (hS : S ≤ 28) (a b : Dec) (ha : a.Valid) (hb : b.Valid) (sa : a.scale ≤ S)
    (sb : b.scale ≤ S) (h : (|a.val| + |b.val|) * 10 ^ S < 2 ^ 96) :
    ∃ r, a.add b = .ok r ∧ r.val = a.val + b.val ∧ r.Valid ∧ r.scale ≤ S := by
  have hr : Representable (a.val + b.val) := by
    apply representable_of_grid hS ((onGrid_val a S sa).add (onGrid_val b S sb))
    refine lt_of_le_of_lt ?_ h
    exact mul_le_mul_of_nonneg_right (abs_add_le _ _) (le_of_lt (Dec.pow10_pos S))
  obtain ⟨r, h1, h2, h3, h4⟩ := Dec.add_exact a b ha hb hr
  exact ⟨r, h1, h2, h3, by omega⟩

theorem dec_sub_grid {S : Nat} (hS : S ≤ 28) (a b : Dec) (ha : a.Valid) (hb : b.Valid) (sa : a.scale ≤ S)
    (sb : b.scale ≤ S) (h : (|a.val| + |b.val|) * 10 ^ S < 2 ^ 96) :
    ∃ r, a.sub b = .ok r ∧ r.val = a.val - b.val ∧ r.Valid ∧ r.scale ≤ S := by
  have hr : Representable (a.val - b.val) := by
    apply representable_of_grid hS ((onGrid_val a S sa).sub (onGrid_val b S sb))
    refine lt_of_le_of_lt ?_ h
    exact mul_le_mul_of_nonneg_right (abs_sub _ _) (le_of_lt (Dec.pow10_pos S))
  obtain ⟨r, h1, h2, h3, h4⟩ := Dec.sub_exact a b ha hb hr
  exact ⟨r, h1, h2, h3, by omega⟩

theorem mass_cons (a : Amount) (as : List Amount) : mass (a :: as) = |a.qty.val| + mass as := rfl

theorem sumIn_cons (c : Option Str) (a : Amount) (as : List Amount) :
    sumIn c (a :: as) = a.valIn c + sumIn c as := rfl

theorem mass_nonneg (as : List Amount) : 0 ≤ mass as := by
  induction as with
  | nil => simp [mass]
  | cons a as ih => unfold mass; have := abs_nonneg a.qty.val; linarith

theorem mass_append (as bs : List Amount) : mass (as ++ bs) = mass as + mass bs := by
  induction as with
  | nil => simp [mass]
  | cons a as ih => simp only [List.cons_append, mass, ih]; ring

theorem mass_perm {as bs : List Amount} (h : as.Perm bs) : mass as = mass bs := by
  induction h with
  | nil => rfl
  | cons a _ ih => simp only [mass, ih]
  | swap a b l => simp only [mass]; ring
  | trans _ _ ih1 ih2 => rw [ih1, ih2]

theorem sumIn_append (c : Option Str) (as bs : List Amount) : sumIn c (as ++ bs) = sumIn c as + sumIn c bs := by
  induction as with
  | nil => simp [sumIn]
  | cons a as ih => simp only [List.cons_append, sumIn, ih]; ring

theorem sumIn_perm (c : Option Str) {as bs : List Amount} (h : as.Perm bs) : sumIn c as = sumIn c bs := by
  induction h with
  | nil => rfl
  | cons a _ ih => simp only [sumIn, ih]
  | swap a b l => simp only [sumIn]; ring
  | trans _ _ ih1 ih2 => rw [ih1, ih2]

theorem inRange_perm {as bs : List Amount} (h : as.Perm bs) (hr : InRange as) : InRange bs := by
  obtain ⟨S, hS, h1, h2⟩ := hr
  exact ⟨S, hS, fun a ha => h1 a (h.mem_iff.mpr ha), by rw [← mass_perm h]; exact h2⟩

/-- A list of amounts on the grid of `S` decimals. -/
def GridList (S : Nat) (as : List Amount) : Prop := ∀ a ∈ as, a.qty.Valid ∧ a.qty.scale ≤ S

theorem amount_add_grid {S : Nat} (hS : S ≤ 28) (a b : Amount) (hc : a.comm = b.comm)
    (ha : a.qty.Valid ∧ a.qty.scale ≤ S) (hb : b.qty.Valid ∧ b.qty.scale ≤ S)
    (h : (|a.qty.val| + |b.qty.val|) * 10 ^ S < 2 ^ 96) :
    ∃ r, a.add b = .ok r ∧ r.qty.val = a.qty.val + b.qty.val ∧ r.comm = a.comm ∧ r.qty.Valid ∧ r.qty.scale ≤ S := by
  unfold Amount.add
  have : ¬ (a.comm ≠ b.comm) := by simpa using hc
  rw [if_neg this]
  split
  · rename_i hz
    exact ⟨a, rfl, by rw [Dec.zero_val _ hz, add_zero], rfl, ha⟩
  · obtain ⟨r, h1, h2, h3, h4⟩ := dec_add_grid hS a.qty b.qty ha.1 hb.1 ha.2 hb.2 h
    rw [h1]
    exact ⟨{ a with qty := r }, rfl, h2, rfl, h3, h4⟩

/-- Commodities listed in a balance after adding commodity `c`. -/
def addComm (cs : List (Option Str)) (c : Option Str) : List (Option Str) :=
  if c ∈ cs then cs else cs ++ [c]

theorem addComm_cons_ne (x : Option Str) (cs : List (Option Str)) (c : Option Str) (h : x ≠ c) :
    addComm (x :: cs) c = x :: addComm cs c := by
  unfold addComm
  by_cases hc : c ∈ cs
  · rw [if_pos hc, if_pos (List.mem_cons_of_mem _ hc)]
  · rw [if_neg hc, if_neg]
    · rfl
    · intro hm
      rcases List.mem_cons.mp hm with h' | h'
      · exact h h'.symm
      · exact hc h'

/-- The commodities of a balance after a successful addition, whatever the magnitudes. -/
theorem addGo_comms (l l' : List Amount) (a : Amount) (h : Balance.addGo l a = .ok l') :
    l'.map (·.comm) = addComm (l.map (·.comm)) a.comm := by
  induction l generalizing l' with
  | nil => simp [Balance.addGo] at h; subst h; simp [addComm]
  | cons x xs ih =>
    unfold Balance.addGo at h
    split at h
    · rename_i hc
      cases hx : x.add a with
      | error e => rw [hx] at h; simp [bind, Except.bind] at h
      | ok x' =>
        rw [hx] at h
        simp only [bind, Except.bind, Except.ok.injEq] at h
        subst h
        have hcomm : x'.comm = x.comm := by
          unfold Amount.add at hx
          split at hx
          · cases hx
          · split at hx
            · injection hx with hx; rw [hx]
            · cases hq : x.qty.add a.qty with
              | error e => rw [hq] at hx; simp [bind, Except.bind] at hx
              | ok q => rw [hq] at hx; simp only [bind, Except.bind, Except.ok.injEq] at hx; rw [← hx]
        simp [addComm, hc, hcomm]
    · rename_i hc
      cases hx : Balance.addGo xs a with
      | error e => rw [hx] at h; simp [bind, Except.bind] at h
      | ok xs' =>
        rw [hx] at h
        simp only [bind, Except.bind, Except.ok.injEq] at h
        subst h
        rw [List.map_cons, List.map_cons, ih _ hx, addComm_cons_ne _ _ _ hc]

theorem addComm_nodup (cs : List (Option Str)) (c : Option Str) (h : cs.Nodup) : (addComm cs c).Nodup := by
  unfold addComm
  split
  · exact h
  · rename_i hc
    rw [List.nodup_append]
    exact ⟨h, by simp, by intro x hx y hy e; simp at hy; subst hy; subst e; exact hc hx⟩

theorem mem_addComm (cs : List (Option Str)) (c x : Option Str) : x ∈ addComm cs c ↔ x ∈ cs ∨ x = c := by
  unfold addComm
  split
  · rename_i h
    constructor
    · exact Or.inl
    · rintro (h' | rfl) <;> assumption
  · simp

/-- Adding to a balance, within the decimal range. -/
theorem addGo_grid {S : Nat} (hS : S ≤ 28) (l : List Amount) (a : Amount) (hl : GridList S l)
    (ha : a.qty.Valid ∧ a.qty.scale ≤ S) (h : (mass l + |a.qty.val|) * 10 ^ S < 2 ^ 96) :
    ∃ l', Balance.addGo l a = .ok l' ∧ GridList S l' ∧ mass l' ≤ mass l + |a.qty.val| ∧
      ∀ c, sumIn c l' = sumIn c l + a.valIn c := by
  induction l with
  | nil =>
    refine ⟨[a], rfl, ?_, by simp [mass], by intro c; simp [sumIn]⟩
    intro x hx; simp at hx; rw [hx]; exact ha
  | cons x xs ih =>
    have hx := hl x (by simp)
    have hxs : GridList S xs := fun y hy => hl y (List.mem_cons_of_mem _ hy)
    have hp := Dec.pow10_pos S
    unfold mass at h
    have m0 := mass_nonneg xs
    have a0 := abs_nonneg x.qty.val
    unfold Balance.addGo
    split
    · rename_i hc
      obtain ⟨r, h1, h2, h3, h4, h5⟩ := amount_add_grid hS x a hc hx ha (by
        refine lt_of_le_of_lt ?_ h
        apply mul_le_mul_of_nonneg_right _ (le_of_lt hp); linarith)
      rw [h1]
      refine ⟨r :: xs, rfl, ?_, ?_, ?_⟩
      · intro y hy
        rcases List.mem_cons.mp hy with rfl | hy
        · exact ⟨h4, h5⟩
        · exact hxs y hy
      · unfold mass
        rw [h2]
        have := abs_add_le x.qty.val a.qty.val
        linarith
      · intro c
        unfold sumIn Amount.valIn
        rw [h3, h2, hc]
        split
        · ring
        · ring
    · rename_i hc
      obtain ⟨l', h1, h2, h3, h4⟩ := ih hxs (by
        refine lt_of_le_of_lt ?_ h
        apply mul_le_mul_of_nonneg_right _ (le_of_lt hp); linarith)
      rw [h1]
      refine ⟨x :: l', rfl, ?_, ?_, ?_⟩
      · intro y hy
        rcases List.mem_cons.mp hy with rfl | hy
        · exact hx
        · exact h2 y hy
      · unfold mass; linarith
      · intro c; unfold sumIn; rw [h4 c]; ring

/-- Adding a list of amounts to a balance, within the decimal range. -/
theorem addAll_grid {S : Nat} (hS : S ≤ 28) (as : List Amount) (b : Balance) (hb : GridList S b.amounts)
    (has : GridList S as) (h : (mass b.amounts + mass as) * 10 ^ S < 2 ^ 96) :
    ∃ b', b.addAll as = .ok b' ∧ GridList S b'.amounts ∧ mass b'.amounts ≤ mass b.amounts + mass as ∧
      ∀ c, b'.totalIn c = b.totalIn c + sumIn c as := by
  induction as generalizing b with
  | nil => exact ⟨b, rfl, hb, by simp [mass], by intro c; simp [sumIn]⟩
  | cons a as ih =>
    have ha := has a (by simp)
    have has' : GridList S as := fun y hy => has y (List.mem_cons_of_mem _ hy)
    rw [mass_cons] at h
    have hp := Dec.pow10_pos S
    have m0 := mass_nonneg as
    obtain ⟨l, h1, h2, h3, h4⟩ := addGo_grid hS b.amounts a hb ha (by
      refine lt_of_le_of_lt ?_ h
      apply mul_le_mul_of_nonneg_right _ (le_of_lt hp); linarith)
    obtain ⟨b', g1, g2, g3, g4⟩ := ih ⟨l⟩ h2 has' (by
      refine lt_of_le_of_lt ?_ h
      apply mul_le_mul_of_nonneg_right _ (le_of_lt hp)
      show mass l + mass as ≤ _; linarith)
    refine ⟨b', ?_, g2, ?_, ?_⟩
    · unfold Balance.addAll Balance.add
      rw [h1]; exact g1
    · rw [mass_cons]
      have g3' : mass b'.amounts ≤ mass l + mass as := g3
      linarith
    · intro c
      rw [g4 c]
      rw [sumIn_cons]
      show sumIn c l + _ = sumIn c b.amounts + _
      rw [h4 c]; ring

theorem addAll_comms (as : List Amount) (b b' : Balance) (h : b.addAll as = .ok b') :
    b'.amounts.map (·.comm) = (as.map (·.comm)).foldl addComm (b.amounts.map (·.comm)) := by
  induction as generalizing b with
  | nil => simp [Balance.addAll] at h; rw [h]; rfl
  | cons a as ih =>
    unfold Balance.addAll at h
    cases hx : b.add a with
    | error e => rw [hx] at h; simp [bind, Except.bind] at h
    | ok b1 =>
      rw [hx] at h
      rw [ih b1 h]
      unfold Balance.add at hx
      cases hy : Balance.addGo b.amounts a with
      | error e => rw [hy] at hx; simp [bind, Except.bind] at hx
      | ok l =>
        rw [hy] at hx
        simp only [bind, Except.bind, Except.ok.injEq] at hx
        subst hx
        rw [addGo_comms _ _ _ hy]
        rfl

theorem foldl_addComm_nodup (cs ds : List (Option Str)) (h : ds.Nodup) : (cs.foldl addComm ds).Nodup := by
  induction cs generalizing ds with
  | nil => exact h
  | cons c cs ih => exact ih _ (addComm_nodup _ _ h)

theorem mem_foldl_addComm (cs ds : List (Option Str)) (x : Option Str) :
    x ∈ cs.foldl addComm ds ↔ x ∈ ds ∨ x ∈ cs := by
  induction cs generalizing ds with
  | nil => simp
  | cons c cs ih => rw [List.foldl_cons, ih, mem_addComm, List.mem_cons, or_assoc]

theorem inRange_append_left {as bs : List Amount} (h : InRange (as ++ bs)) : InRange as := by
  obtain ⟨S, hS, h1, h2⟩ := h
  refine ⟨S, hS, fun a ha => h1 a (List.mem_append_left _ ha), ?_⟩
  rw [mass_append] at h2
  have hp := Dec.pow10_pos S
  have := mass_nonneg bs
  refine lt_of_le_of_lt ?_ h2
  apply mul_le_mul_of_nonneg_right _ (le_of_lt hp); linarith

/-- Adding a list of amounts to a balance succeeds and is exact within the decimal range. -/
theorem addAll_inRange (b : Balance) (as : List Amount) (h : InRange (b.amounts ++ as)) :
    ∃ b', b.addAll as = .ok b' ∧ ∀ c, b'.totalIn c = b.totalIn c + sumIn c as := by
  obtain ⟨S, hS, h1, h2⟩ := h
  rw [mass_append] at h2
  obtain ⟨b', g1, _, _, g4⟩ := addAll_grid hS as b (fun a ha => h1 a (List.mem_append_left _ ha))
    (fun a ha => h1 a (List.mem_append_right _ ha)) h2
  exact ⟨b', g1, g4⟩

end Ledger
