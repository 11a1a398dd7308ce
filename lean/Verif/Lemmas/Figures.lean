import Verif.Spec.Figures
import Verif.Lemmas.Totals
import Verif.Lemmas.LineOrder
/-
The figures of a report, digit by digit.
-/
namespace Ledger
open List

/-! ### sums and products -/

theorem Dec.digitsAt_val (d : Dec) {s : Nat} (h : d.scale ≤ s) : (d.digitsAt s : ℚ) = d.val * 10 ^ s := by
  unfold digitsAt val
  push_cast
  obtain ⟨k, rfl⟩ := Nat.exists_eq_add_of_le h
  rw [Nat.add_sub_cancel_left, pow_add]
  have := pow10_pos d.scale
  field_simp

theorem Dec.natAbs_lt {n : Int} {x : ℚ} (h : (n : ℚ) = x) (hx : |x| < 2 ^ 96) : n.natAbs < 2 ^ 96 := by
  have h1 : ((n.natAbs : ℤ) : ℚ) = |x| := by rw [Int.natCast_natAbs, Int.cast_abs, h]
  rw [← h1] at hx
  exact_mod_cast hx

/-- Within the range, addition is addition of the digits. -/
theorem Dec.add_plus {S : Nat} (hS : S ≤ 28) {a b : Dec} (ha : a.scale ≤ S) (hb : b.scale ≤ S) (h0 : b.mant ≠ 0)
    (hm : (|a.val| + |b.val|) * 10 ^ S < 2 ^ 96) : a.add b = .ok (a.plus b) := by
  unfold add plus isZero
  by_cases za : a.mant = 0
  · simp [za, h0]
  · simp only [beq_iff_eq, za, if_false, h0]
    have hs : max a.scale b.scale ≤ S := Nat.max_le.mpr ⟨ha, hb⟩
    have key : (a.digitsAt (max a.scale b.scale) + b.digitsAt (max a.scale b.scale)).natAbs < 2 ^ 96 := by
      refine natAbs_lt (x := (a.val + b.val) * 10 ^ max a.scale b.scale) ?_ ?_
      · push_cast
        rw [digitsAt_val a (Nat.le_max_left _ _), digitsAt_val b (Nat.le_max_right _ _)]; ring
      · rw [abs_mul, abs_of_pos (pow10_pos _)]
        refine lt_of_le_of_lt ?_ hm
        exact mul_le_mul (abs_add_le _ _) (pow_le_pow_right₀ (by norm_num) hs) (le_of_lt (pow10_pos _))
          (by positivity)
    generalize hsm : max a.scale b.scale = s at key hs ⊢
    have ea : a.digitsAt s = if a.neg then -((a.mant * 10 ^ (s - a.scale) : Nat) : Int) else ((a.mant * 10 ^ (s - a.scale) : Nat) : Int) := by
      unfold digitsAt signed; split <;> push_cast <;> ring
    have eb : b.digitsAt s = if b.neg then -((b.mant * 10 ^ (s - b.scale) : Nat) : Int) else ((b.mant * 10 ^ (s - b.scale) : Nat) : Int) := by
      unfold digitsAt signed; split <;> push_cast <;> ring
    have pa : 0 < a.mant * 10 ^ (s - a.scale) := Nat.mul_pos (Nat.pos_of_ne_zero za) (Nat.pow_pos (by norm_num))
    have pb : 0 < b.mant * 10 ^ (s - b.scale) := Nat.mul_pos (Nat.pos_of_ne_zero h0) (Nat.pow_pos (by norm_num))
    rw [ea, eb] at key ⊢
    generalize a.mant * 10 ^ (s - a.scale) = ma at *
    generalize b.mant * 10 ^ (s - b.scale) = mb at *
    have hs28 : s ≤ 28 := Nat.le_trans hs hS
    generalize hB : 2 ^ 96 = B at key
    have fs : ∀ neg m, m < B → fit neg m s = .ok ⟨neg, m, s⟩ := fun neg m h => fit_small neg m s (by rw [hB]; exact h) hs28
    clear ea eb
    revert key
    cases a.neg <;> cases b.neg <;> intro key <;>
      simp only [Bool.false_eq_true, if_false, if_true, reduceCtorEq] at key ⊢
    · rw [fs _ _ (by omega)]
      congr 2
    · split
      · rw [fs _ _ (by omega)]
        congr 2
        · simp; omega
        · omega
      · split
        · rw [fs _ _ (by omega)]
          congr 2
          · simp; omega
          · omega
        · rw [fs _ _ (by omega)]
          congr 2
          · simp; omega
          · omega
    · split
      · rw [fs _ _ (by omega)]
        congr 2
        · simp; omega
        · omega
      · split
        · rw [fs _ _ (by omega)]
          congr 2
          · simp; omega
          · omega
        · rw [fs _ _ (by omega)]
          congr 2
          · simp; omega
          · omega
    · rw [fs _ _ (by omega)]
      congr 2
      · simp; omega
      · omega

theorem Dec.mul_times {a b : Dec} (h : (a.times b).Valid) : a.mul b = .ok (a.times b) := by
  unfold mul times isZero at *
  by_cases hz : a.mant = 0 ∨ b.mant = 0
  · rw [if_pos hz, if_pos (by simpa using hz)]; rfl
  · rw [if_neg hz] at h ⊢
    rw [if_neg (by simpa using hz)]
    exact fit_small _ _ _ h.1 h.2

/-! ### entering amounts -/

theorem amount_add_plus {S : Nat} (hS : S ≤ 28) {x a : Amount} (hc : x.comm = a.comm) (hx : x.qty.scale ≤ S)
    (ha : a.qty.scale ≤ S) (hm : (|x.qty.val| + |a.qty.val|) * 10 ^ S < 2 ^ 96) :
    x.add a = .ok ⟨x.qty.plus a.qty, x.comm⟩ := by
  unfold Amount.add Dec.isZero
  rw [if_neg (by simpa using hc)]
  by_cases h0 : a.qty.mant = 0
  · rw [if_pos (by simpa using h0)]
    unfold Dec.plus
    rw [if_pos h0]
  · rw [if_neg (by simpa using h0), Dec.add_plus hS hx ha h0 hm]
    rfl

theorem addGo_enter {S : Nat} (hS : S ≤ 28) (l : List Amount) (a : Amount) (hl : GridList S l) (ha : a.qty.scale ≤ S)
    (hm : (mass l + |a.qty.val|) * 10 ^ S < 2 ^ 96) : Balance.addGo l a = .ok (enter l a) := by
  induction l with
  | nil => rfl
  | cons x xs ih =>
    have hp := Dec.pow10_pos S
    rw [mass_cons] at hm
    have m0 := mass_nonneg xs
    have a0 := abs_nonneg x.qty.val
    unfold Balance.addGo enter
    split
    · rename_i hc
      rw [amount_add_plus hS hc (hl x (by simp)).2 ha (by
        refine lt_of_le_of_lt ?_ hm
        apply mul_le_mul_of_nonneg_right _ (le_of_lt hp); linarith)]
      rfl
    · rw [ih (fun y hy => hl y (List.mem_cons_of_mem _ hy)) (by
        refine lt_of_le_of_lt ?_ hm
        apply mul_le_mul_of_nonneg_right _ (le_of_lt hp); linarith)]
      rfl

theorem addAll_enter {S : Nat} (hS : S ≤ 28) (as : List Amount) (b : Balance) (hb : GridList S b.amounts)
    (has : GridList S as) (hm : (mass b.amounts + mass as) * 10 ^ S < 2 ^ 96) :
    b.addAll as = .ok ⟨as.foldl enter b.amounts⟩ := by
  induction as generalizing b with
  | nil => rfl
  | cons a as ih =>
    have ha := has a (by simp)
    rw [mass_cons] at hm
    have hp := Dec.pow10_pos S
    have m0 := mass_nonneg as
    have hm1 : (mass b.amounts + |a.qty.val|) * 10 ^ S < 2 ^ 96 := by
      refine lt_of_le_of_lt ?_ hm
      apply mul_le_mul_of_nonneg_right _ (le_of_lt hp); linarith
    have h1 := addGo_enter hS b.amounts a hb ha.2 hm1
    obtain ⟨l, g1, g2, g3, _⟩ := addGo_grid hS b.amounts a hb ha hm1
    rw [h1] at g1
    injection g1 with g1
    subst g1
    unfold Balance.addAll Balance.add
    rw [h1]
    simp only [bind, Except.bind]
    rw [ih ⟨_⟩ g2 (fun y hy => has y (List.mem_cons_of_mem _ hy)) (by
      refine lt_of_le_of_lt ?_ hm
      apply mul_le_mul_of_nonneg_right _ (le_of_lt hp)
      show mass (enter b.amounts a) + mass as ≤ _
      linarith)]
    rfl

theorem tally_append (as bs : List Amount) : tally (as ++ bs) = bs.foldl enter (tally as) := List.foldl_append

theorem addAll_tally {as : List Amount} (hr : InRange as) : Balance.empty.addAll as = .ok ⟨tally as⟩ := by
  obtain ⟨S, hS, hg, hm⟩ := hr
  exact addAll_enter hS as Balance.empty (by intro x hx; cases hx) hg (by
    have e : mass Balance.empty.amounts = 0 := rfl
    rw [e, zero_add]; exact hm)

/-! ### names -/

theorem before_iff (a b : Str) : before a b = true ↔ StrBefore a b := by
  induction a generalizing b with
  | nil =>
    cases b with
    | nil => simp only [before, Bool.false_eq_true, false_iff]; intro h; cases h
    | cons b bs => simp only [before, true_iff]; exact List.Lex.nil
  | cons a as ih =>
    cases b with
    | nil => simp only [before, Bool.false_eq_true, false_iff]; intro h; cases h
    | cons b bs =>
      simp only [before, Bool.or_eq_true, decide_eq_true_eq, Bool.and_eq_true, ih]
      constructor
      · rintro (h | ⟨rfl, h⟩)
        · exact List.Lex.rel h
        · exact List.Lex.cons h
      · intro h
        cases h with
        | rel h => exact Or.inl h
        | cons h => exact Or.inr ⟨rfl, h⟩

theorem mem_sortIn (n m : Str) (l : List Str) : m ∈ sortIn n l ↔ m = n ∨ m ∈ l := by
  induction l with
  | nil => simp [sortIn]
  | cons x xs ih =>
    unfold sortIn
    split
    · rename_i h; subst h; simp
    · split
      · simp
      · simp only [List.mem_cons, ih]; tauto

theorem sortIn_sorted (n : Str) (l : List Str) (h : l.Pairwise StrBefore) : (sortIn n l).Pairwise StrBefore := by
  induction l with
  | nil => exact List.pairwise_singleton _ _
  | cons x xs ih =>
    rw [List.pairwise_cons] at h
    unfold sortIn
    split
    · exact List.pairwise_cons.mpr h
    · rename_i hne
      split
      · rename_i hb
        rw [before_iff] at hb
        refine List.pairwise_cons.mpr ⟨?_, List.pairwise_cons.mpr h⟩
        intro y hy
        rcases List.mem_cons.mp hy with rfl | hy
        · exact hb
        · exact strBefore_trans hb (h.1 y hy)
      · rename_i hb
        rw [before_iff] at hb
        refine List.pairwise_cons.mpr ⟨?_, ih h.2⟩
        intro y hy
        rcases (mem_sortIn n y xs).mp hy with rfl | hy
        · rcases strBefore_tri y x with h | h | h
          · exact absurd h hb
          · exact absurd h hne
          · exact h
        · exact h.1 y hy

theorem mem_foldr_sortIn (m : Str) (l : List Str) : m ∈ l.foldr sortIn [] ↔ m ∈ l := by
  induction l with
  | nil => rfl
  | cons x xs ih => rw [List.foldr_cons, mem_sortIn, ih, List.mem_cons]

theorem foldr_sortIn_sorted (l : List Str) : (l.foldr sortIn []).Pairwise StrBefore := by
  induction l with
  | nil => exact List.Pairwise.nil
  | cons x xs ih => exact sortIn_sorted x _ ih

theorem nextName_iff (p q : Path) (n : Str) : nextName p q = some n ↔ p ++ [n] <+: q := by
  induction p generalizing q with
  | nil =>
    cases q with
    | nil => simp [nextName]
    | cons m q => simp [nextName, List.cons_prefix_cons, eq_comm]
  | cons a p ih =>
    cases q with
    | nil => simp [nextName]
    | cons m q =>
      rw [List.cons_append, List.cons_prefix_cons, nextName]
      split
      · rename_i h; rw [ih]; simp [h]
      · rename_i h; simp [h]

theorem mem_names (b : Bookings) (p : Path) (n : Str) : n ∈ b.names p ↔ ∃ x ∈ b, p ++ [n] <+: x.1 := by
  unfold Bookings.names
  rw [mem_foldr_sortIn, List.mem_filterMap]
  simp only [nextName_iff]

theorem colons_eq (p : Path) : Account.fullname p = colons p := by
  cases p using List.reverseRecOn with
  | nil => rfl
  | append_singleton q n =>
    unfold colons
    simp only [List.dropLast_concat, List.getLast?_concat, Option.toList_some]
    induction q with
    | nil => simp [List.intercalate, Account.fullname]
    | cons m q ih =>
      have e : Account.fullname (m :: (q ++ [n])) =
          if m = [] then Account.fullname (q ++ [n]) else m ++ ':' :: Account.fullname (q ++ [n]) := by
        cases q <;> rfl
      rw [List.cons_append, e, ih (fun e => by simp at e)]
      by_cases hm : m = []
      · simp [hm]
      · rw [if_neg hm, List.filter_cons_of_pos (by simpa using hm)]
        cases hq : q.filter (· ≠ []) with
        | nil => simp [List.intercalate]
        | cons k ks => simp [List.intercalate]

/-! ### totals -/

theorem totalGo_enter {S : Nat} (hS : S ≤ 28) (f : Account → Res Balance) (g T : Account → List Amount) (cs : List Account)
    (b : Balance) (as : List Amount) (hb : SumOf S b as)
    (hc : ∀ c ∈ cs, f c = .ok ⟨T c⟩ ∧ SumOf S ⟨T c⟩ (g c))
    (hm : Ledger.mass (as ++ cs.flatMap g) * 10 ^ S < 2 ^ 96) :
    Journal.totalGo (cs.map (fun c => (c.name, f c))) b = .ok ⟨(cs.flatMap T).foldl enter b.amounts⟩ := by
  induction cs generalizing b as with
  | nil => rfl
  | cons c cs ih =>
    obtain ⟨hr, hs⟩ := hc c (by simp)
    rw [List.flatMap_cons, ← List.append_assoc] at hm
    have hp := Dec.pow10_pos S
    have hm1 : Ledger.mass (as ++ g c) * 10 ^ S < 2 ^ 96 := by
      refine lt_of_le_of_lt (mul_le_mul_of_nonneg_right ?_ (le_of_lt hp)) hm
      exact mass_sublist (Perm.refl _)
    obtain ⟨b', hb', hs'⟩ := hb.merge hS hs hm1
    have h1 := hb.mass
    have h2 := hs.mass
    rw [mass_append] at hm1
    have e := addAll_enter hS (T c) b hb.grid hs.grid (by
      refine lt_of_le_of_lt (mul_le_mul_of_nonneg_right ?_ (le_of_lt hp)) hm1; linarith)
    have e2 : b.addBalance ⟨T c⟩ = .ok ⟨(T c).foldl enter b.amounts⟩ := e
    rw [e2] at hb'
    injection hb' with hb'
    subst hb'
    simp only [List.map_cons, Journal.totalGo, hr, bind, Except.bind, e2]
    rw [ih _ _ hs' (fun c hc' => hc c (List.mem_cons_of_mem _ hc')) hm, List.flatMap_cons, List.foldl_append]

/-- The accounts below `a`, which is at `p`, and their postings are those of the bookings. -/
structure Mirrors (j : Journal) (b : Bookings) (a : Account) (p : Path) : Prop where
  names : ∀ q n, a.Has q → (n ∈ b.names (p ++ q) ↔ a.Has (q ++ [n]))
  own : ∀ q c, a.at? q = some c → amountsOf j c.posts = b.own (p ++ q)

theorem Mirrors.child {j : Journal} {b : Bookings} {n : Str} {ps : List PostRef} {cs : List Account} {p : Path}
    (h : Mirrors j b (.mk n ps cs) p) (hn : (cs.map Account.name).Nodup) {c : Account} (hc : c ∈ cs) :
    Mirrors j b c (p ++ [c.name]) := by
  have e : ∀ q, (Account.mk n ps cs).at? (c.name :: q) = c.at? q := by
    intro q; rw [Account.at?_cons, Account.getChild_mem hn hc]; rfl
  constructor
  · intro q m hq
    have := h.names (c.name :: q) m (by unfold Account.Has; rw [e]; exact hq)
    rw [List.append_assoc, List.singleton_append, this]
    unfold Account.Has
    rw [List.cons_append, e]
  · intro q d hd
    have := h.own (c.name :: q) d (by rw [e]; exact hd)
    rw [this, List.append_assoc, List.singleton_append]

theorem sorted_children (cs : List Account) (hn : (cs.map Account.name).Nodup) :
    ∃ cs' : List Account, cs'.Perm cs ∧ (cs'.map Account.name).Pairwise StrBefore ∧
      ∀ {β : Type} (f : Account → β), sortByKey (cs.map (fun c => (c.name, f c))) = cs'.map (fun c => (c.name, f c)) := by
  obtain ⟨cs', h1, h2⟩ := sortByKey_map (fun c => (c.name, c)) cs
  refine ⟨cs', h1, ?_, ?_⟩
  · have := sortByKey_strict (cs.map (fun c => (c.name, c))) (by rw [List.map_map]; exact hn)
    rw [h2, List.pairwise_map] at this
    rw [List.pairwise_map]
    exact this
  · intro β f
    have := sortByKey_mapVal f (cs.map (fun c => (c.name, c)))
    rw [h2, List.map_map, List.map_map] at this
    exact this

theorem mirrors_report {S : Nat} (hS : S ≤ 28) (j : Journal) (b : Bookings) (a : Account) (hw : a.WF)
    (hv : RefsValid j (subtreePosts a)) (hg : GridList S (amountsOf j (subtreePosts a)))
    (hm : mass (amountsOf j (subtreePosts a)) * 10 ^ S < 2 ^ 96) (p : Path) (d : Nat) (hr : Mirrors j b a p)
    (hd : ∀ q, a.Has q → q.length < d) :
    j.accountTotal a = .ok ⟨b.total d p⟩ ∧ Report.childrenLines j p a = .ok (b.lines d p) := by
  induction a using Account.ind generalizing p d with
  | h n ps cs ih =>
    have hp := Dec.pow10_pos S
    have hw' := (Account.wf_mk n ps cs).mp hw
    obtain ⟨d, rfl⟩ : ∃ d', d = d' + 1 := by
      have := hd [] (by unfold Account.Has; rw [Account.at?_nil]; rfl)
      exact ⟨d - 1, by simp at this; omega⟩
    rw [subtreePosts_mk, amountsOf_append, amountsOf_flatMap] at hg hm
    rw [subtreePosts_mk, refsValid_append] at hv
    have hc : ∀ c ∈ cs, (j.accountTotal c = .ok ⟨b.total d (p ++ [c.name])⟩ ∧
        Report.childrenLines j (p ++ [c.name]) c = .ok (b.lines d (p ++ [c.name]))) ∧
        SumOf S ⟨b.total d (p ++ [c.name])⟩ (amountsOf j (subtreePosts c)) := by
      intro c hc
      have c1 : RefsValid j (subtreePosts c) := fun r hr => hv.2 r (List.mem_flatMap.mpr ⟨c, hc, hr⟩)
      have c2 : GridList S (amountsOf j (subtreePosts c)) :=
        fun x hx => hg x (List.mem_append_right _ (List.mem_flatMap.mpr ⟨c, hc, hx⟩))
      have c3 : mass (amountsOf j (subtreePosts c)) * 10 ^ S < 2 ^ 96 := by
        obtain ⟨l1, l2, rfl⟩ := List.append_of_mem hc
        refine lt_of_le_of_lt (mul_le_mul_of_nonneg_right ?_ (le_of_lt hp)) hm
        simp only [List.flatMap_append, List.flatMap_cons, mass_append]
        have h1 := mass_nonneg (amountsOf j ps)
        have h2 := mass_nonneg (l1.flatMap (fun c => amountsOf j (subtreePosts c)))
        have h3 := mass_nonneg (l2.flatMap (fun c => amountsOf j (subtreePosts c)))
        linarith
      have c4 := ih c hc (hw'.2.2 c hc) c1 c2 c3 (p ++ [c.name]) d (hr.child hw'.1 hc) (by
        intro q hq
        have := hd (c.name :: q) (by
          unfold Account.Has; rw [Account.at?_cons, Account.getChild_mem hw'.1 hc]; exact hq)
        simp at this; omega)
      obtain ⟨r, r1, r2⟩ := accountTotal_sum hS j c c1 c2 c3
      rw [c4.1] at r1
      injection r1 with r1
      subst r1
      exact ⟨c4, r2⟩
    obtain ⟨cs', hperm, hsort, hs⟩ := sorted_children cs hw'.1
    have hnames : b.names p = cs'.map Account.name := by
      refine sorted_unique (r := StrBefore) strBefore_irrefl (fun a b c => strBefore_trans) _ _ (foldr_sortIn_sorted _) hsort ?_
      intro m
      have := hr.names [] m (by unfold Account.Has; rw [Account.at?_nil]; rfl)
      rw [List.append_nil] at this
      rw [this]
      unfold Account.Has
      rw [List.nil_append, Account.at?_cons, (hperm.map _).mem_iff]
      constructor
      · intro h
        cases hgc : Account.getChild m cs with
        | none => rw [hgc] at h; cases h
        | some c =>
          have := Account.getChild_some hgc
          exact List.mem_map.mpr ⟨c, this.1, this.2⟩
      · intro h
        obtain ⟨c, h1, rfl⟩ := List.mem_map.mp h
        rw [Account.getChild_mem hw'.1 h1]
        simp [Account.at?_nil]
    have hperm2 := flatMap_perm_left (fun c => amountsOf j (subtreePosts c)) hperm
    have hmc : Ledger.mass ([] ++ cs'.flatMap (fun c => amountsOf j (subtreePosts c))) * 10 ^ S < 2 ^ 96 := by
      rw [List.nil_append, mass_perm hperm2]
      refine lt_of_le_of_lt (mul_le_mul_of_nonneg_right ?_ (le_of_lt hp)) hm
      rw [mass_append]; have := mass_nonneg (amountsOf j ps); linarith
    have t1 := totalGo_enter hS j.accountTotal (fun c => amountsOf j (subtreePosts c)) (fun c => b.total d (p ++ [c.name])) cs'
      Balance.empty [] (SumOf.empty S) (fun c hc' => ⟨(hc c (hperm.mem_iff.mp hc')).1.1, (hc c (hperm.mem_iff.mp hc')).2⟩) hmc
    obtain ⟨r1, s1, s2⟩ := totalGo_sum hS j.accountTotal (fun c => amountsOf j (subtreePosts c)) cs'
      Balance.empty [] (SumOf.empty S) (fun c hc' => ⟨_, (hc c (hperm.mem_iff.mp hc')).1.1, (hc c (hperm.mem_iff.mp hc')).2⟩) hmc
    rw [t1] at s1
    injection s1 with s1
    subst s1
    have hmo : Ledger.mass (amountsOf j ps) * 10 ^ S < 2 ^ 96 := by
      refine lt_of_le_of_lt (mul_le_mul_of_nonneg_right ?_ (le_of_lt hp)) hm
      exact mass_sublist (Perm.refl _)
    have hgo : GridList S (amountsOf j ps) := fun x hx => hg x (List.mem_append_left _ hx)
    obtain ⟨r2, o1, o2⟩ := SumOf.addAll hS hgo hmo
    have o3 := addAll_tally ⟨S, hS, hgo, hmo⟩
    rw [o3] at o1
    injection o1 with o1
    subst o1
    have hown : amountsOf j ps = b.own p := by
      have := hr.own [] _ (Account.at?_nil _)
      rw [List.append_nil] at this
      exact this
    have hfin := addAll_enter hS (tally (amountsOf j ps)) _ s2.grid o2.grid (by
      refine lt_of_le_of_lt (mul_le_mul_of_nonneg_right ?_ (le_of_lt hp)) hm
      have h1 := s2.mass
      have h2 := o2.mass
      rw [List.nil_append, mass_perm hperm2] at h1
      rw [mass_append]; linarith)
    have htotal : j.accountTotal (.mk n ps cs) = .ok ⟨b.total (d + 1) p⟩ := by
      rw [accountTotal_mk, hs, t1]
      simp only [bind, Except.bind, amountGo_eq j ps _ hv.1, o3]
      rw [Bookings.total, tally_append, hnames, List.flatMap_map, ← hown]
      exact hfin
    refine ⟨htotal, ?_⟩
    have hl := linesFold_total j (.mk n ps cs)
    unfold Report.childrenLines
    rw [linesFold_mk] at hl ⊢
    simp only at hl ⊢
    rw [hl, htotal, hs]
    simp only [bind, Except.bind, List.map_map]
    have hcs := concatLines_ok cs' (fun c => Report.childrenLines j (p ++ [c.name]) c) (fun c => b.lines d (p ++ [c.name]))
      (fun c hc' => (hc c (hperm.mem_iff.mp hc')).1.2)
    have he : (cs'.map ((fun r : Str × (Res Balance × (Path → Res (List Str))) => r.2.2 (p ++ [r.1])) ∘
        fun c => (c.name, Report.linesFold j c))) = cs'.map (fun c => Report.childrenLines j (p ++ [c.name]) c) := rfl
    rw [he, hcs, balanceLine_eq, colons_eq, Bookings.lines, hnames, List.flatMap_map]

end Ledger
