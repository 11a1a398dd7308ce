import Verif.Lemmas.Balance
import Verif.Props.Quantity
/-
Properties C07-C10: balances.
-/
namespace Ledger

/-- **C07** Adding a list of amounts to an empty balance succeeds and holds, for every commodity, the exact sum of
the amounts in that commodity; one entry per commodity; an entry exactly for the commodities added. -/
theorem C07_balance_is_sum (as : List Amount) (h : InRange as) :
    ∃ b, Balance.empty.addAll as = .ok b ∧ (∀ c, b.totalIn c = sumIn c as) ∧ b.OneEach ∧
      ∀ c, c ∈ b.amounts.map (·.comm) ↔ c ∈ as.map (·.comm) := by
  obtain ⟨b, h1, h2⟩ := addAll_inRange Balance.empty as (by simpa [Balance.empty] using h)
  refine ⟨b, h1, ?_, ?_, ?_⟩
  · intro c; rw [h2 c]; simp [Balance.empty, Balance.totalIn, sumIn]
  · unfold Balance.OneEach; rw [addAll_comms as _ _ h1]
    exact foldl_addComm_nodup _ _ (by simp [Balance.empty])
  · intro c; rw [addAll_comms as _ _ h1, mem_foldl_addComm]; simp [Balance.empty]

/-- **C07** The one entry of a commodity is the total (so the entries, not just their sum, are right). -/
theorem C07_entry_is_total (b : Balance) (h : b.OneEach) (a : Amount) (ha : a ∈ b.amounts) :
    a.qty.val = b.totalIn a.comm := by
  obtain ⟨l⟩ := b
  unfold Balance.OneEach at h
  unfold Balance.totalIn
  simp only at *
  induction l with
  | nil => cases ha
  | cons x xs ih =>
    rw [List.map_cons, List.nodup_cons] at h
    rw [sumIn_cons]
    rcases List.mem_cons.mp ha with rfl | ha
    · have : sumIn a.comm xs = 0 := by
        have hn := h.1
        clear ih ha h
        induction xs with
        | nil => rfl
        | cons y ys ih =>
          rw [sumIn_cons, ih (fun hy => hn (by simp only [List.map_cons, List.mem_cons]; exact Or.inr hy))]
          have : y.comm ≠ a.comm := fun e => hn (by simp [e])
          unfold Amount.valIn; rw [if_neg this]; simp
      rw [this]; unfold Amount.valIn; simp
    · have hne : x.comm ≠ a.comm := by
        intro e; apply h.1; rw [e]; exact List.mem_map_of_mem ha
      rw [← ih h.2 ha]; unfold Amount.valIn; rw [if_neg hne]; simp

/-- **C07** Outside the decimal range nothing wraps either: one entry per commodity, and the entries are exactly the
commodities added, whenever the additions succeed at all. -/
theorem C07_entries_always (as : List Amount) (b b' : Balance) (h : b.addAll as = .ok b') (ho : b.OneEach) :
    b'.OneEach ∧ ∀ c, c ∈ b'.amounts.map (·.comm) ↔ c ∈ b.amounts.map (·.comm) ∨ c ∈ as.map (·.comm) := by
  constructor
  · unfold Balance.OneEach; rw [addAll_comms as _ _ h]; exact foldl_addComm_nodup _ _ ho
  · intro c; rw [addAll_comms as _ _ h, mem_foldl_addComm]

example : InRange [⟨⟨false, 1050, 2⟩, some (str "EUR")⟩, ⟨⟨true, 3, 0⟩, none⟩, ⟨⟨true, 1, 0⟩, some (str "EUR")⟩] ∧
    Balance.empty.addAll [⟨⟨false, 1050, 2⟩, some (str "EUR")⟩, ⟨⟨true, 3, 0⟩, none⟩, ⟨⟨true, 1, 0⟩, some (str "EUR")⟩]
      = .ok ⟨[⟨⟨false, 950, 2⟩, some (str "EUR")⟩, ⟨⟨true, 3, 0⟩, none⟩]⟩ := by
  refine ⟨⟨2, by omega, by decide, ?_⟩, by decide +kernel⟩
  simp [mass, Dec.val_mk, Dec.sgn]; norm_num

/-- **C08** The order of the additions is irrelevant for the total of every commodity. -/
theorem C08_order_irrelevant (as bs : List Amount) (hp : as.Perm bs) (h : InRange as) :
    ∃ b1 b2, Balance.empty.addAll as = .ok b1 ∧ Balance.empty.addAll bs = .ok b2 ∧
      (∀ c, b1.totalIn c = b2.totalIn c) ∧
      ∀ c, c ∈ b1.amounts.map (·.comm) ↔ c ∈ b2.amounts.map (·.comm) := by
  obtain ⟨b1, h1, h2, _, h4⟩ := C07_balance_is_sum as h
  obtain ⟨b2, g1, g2, _, g4⟩ := C07_balance_is_sum bs (inRange_perm hp h)
  refine ⟨b1, b2, h1, g1, fun c => by rw [h2, g2, sumIn_perm c hp], fun c => ?_⟩
  rw [h4, g4]
  exact (hp.map _).mem_iff

example : (Balance.empty.addAll [⟨⟨false, 2, 0⟩, none⟩, ⟨⟨false, 5, 1⟩, none⟩] = .ok ⟨[⟨⟨false, 25, 1⟩, none⟩]⟩) ∧
    (Balance.empty.addAll [⟨⟨false, 5, 1⟩, none⟩, ⟨⟨false, 2, 0⟩, none⟩] = .ok ⟨[⟨⟨false, 25, 1⟩, none⟩]⟩) := by
  decide +kernel

/-- **C09** (violated) Subtracting -20 EUR from an empty balance leaves -20 EUR instead of 20 EUR. -/
theorem C09_subtract_violated :
    ∃ (b b' : Balance) (a : Amount), b.subAssign a = .ok b' ∧ InRange (b.amounts ++ [a]) ∧
      b'.totalIn a.comm ≠ b.totalIn a.comm - a.qty.val := by
  refine ⟨⟨[]⟩, ⟨[⟨⟨true, 20, 0⟩, some (str "EUR")⟩]⟩, ⟨⟨true, 20, 0⟩, some (str "EUR")⟩, by decide, ?_, ?_⟩
  · refine ⟨0, by omega, by decide, ?_⟩
    simp [mass, Dec.val_mk, Dec.sgn]; norm_num
  · simp [Balance.totalIn, sumIn, Amount.valIn, Dec.val_mk, Dec.sgn]; norm_num

theorem subGo_grid {S : Nat} (hS : S ≤ 28) (l : List Amount) (a : Amount) (hl : GridList S l)
    (ha : a.qty.Valid ∧ a.qty.scale ≤ S) (h : (mass l + |a.qty.val|) * 10 ^ S < 2 ^ 96)
    (hok : 0 ≤ a.qty.val ∨ a.comm ∈ l.map (·.comm)) :
    ∃ l', Balance.subGo l a = .ok l' ∧ ∀ c, sumIn c l' = sumIn c l - a.valIn c := by
  induction l with
  | nil =>
    have h0 : 0 ≤ a.qty.val := by simpa using hok
    refine ⟨[a.inverse], rfl, fun c => ?_⟩
    have := C03_inverse_partial a ha.1 h0
    simp only [sumIn, Amount.valIn]
    rw [this.1, this.2.1]
    split <;> simp
  | cons x xs ih =>
    have hx := hl x List.mem_cons_self
    have hp := Dec.pow10_pos S
    have hm := mass_nonneg xs
    rw [mass_cons] at h
    unfold Balance.subGo
    by_cases hc : x.comm = a.comm
    · rw [if_pos hc]
      have hle : (|x.qty.val| + |a.qty.val|) * 10 ^ S < 2 ^ 96 := by
        refine lt_of_le_of_lt (mul_le_mul_of_nonneg_right ?_ (le_of_lt hp)) h
        linarith
      obtain ⟨r, h1, h2, _⟩ := dec_sub_grid hS x.qty a.qty hx.1 ha.1 hx.2 ha.2 hle
      refine ⟨{ x with qty := r } :: xs, ?_, fun c => ?_⟩
      · unfold Amount.subAssign
        rw [if_neg (by simpa using hc), h1]; rfl
      · rw [sumIn_cons, sumIn_cons]
        unfold Amount.valIn
        simp only [← hc]
        split
        · rw [h2]; ring
        · ring
    · rw [if_neg hc]
      have hle : (mass xs + |a.qty.val|) * 10 ^ S < 2 ^ 96 := by
        have := abs_nonneg x.qty.val
        refine lt_of_le_of_lt (mul_le_mul_of_nonneg_right ?_ (le_of_lt hp)) h
        linarith
      obtain ⟨l', h1, h2⟩ := ih (fun y hy => hl y (List.mem_cons_of_mem _ hy)) hle (by
        rcases hok with h0 | h0
        · exact Or.inl h0
        · rw [List.map_cons, List.mem_cons] at h0
          rcases h0 with e | e
          · exact absurd e.symm hc
          · exact Or.inr e)
      refine ⟨x :: l', by rw [h1]; rfl, fun c => ?_⟩
      rw [sumIn_cons, h2, sumIn_cons]; ring

/-- **C09** (partial) `-=` lowers the total of that commodity by the amount and leaves all other totals alone.
Missing: a negative amount in a commodity not present, where the claim is false (`C09_subtract_violated`). -/
theorem C09_subtract_partial (b : Balance) (a : Amount) (h : InRange (b.amounts ++ [a]))
    (hok : 0 ≤ a.qty.val ∨ a.comm ∈ b.amounts.map (·.comm)) :
    ∃ b', b.subAssign a = .ok b' ∧ b'.totalIn a.comm = b.totalIn a.comm - a.qty.val ∧
      ∀ c, c ≠ a.comm → b'.totalIn c = b.totalIn c := by
  obtain ⟨S, hS, h1, h2⟩ := h
  rw [mass_append] at h2
  obtain ⟨l', g1, g2⟩ := subGo_grid hS b.amounts a (fun y hy => h1 y (List.mem_append_left _ hy))
    (h1 a (by simp)) (by simpa [mass] using h2) hok
  refine ⟨⟨l'⟩, by unfold Balance.subAssign; rw [g1]; rfl, ?_, ?_⟩
  · show sumIn _ l' = sumIn _ _ - _
    rw [g2]; simp [Amount.valIn]
  · intro c hc
    show sumIn _ l' = sumIn _ _
    rw [g2]; simp [Amount.valIn, Ne.symm hc]

/-- **C09** (partial) Subtracting right after adding the same amount restores every total, whatever the sign: the
commodity is then present. -/
theorem C09_undo_partial (b : Balance) (a : Amount) (S : Nat) (hS : S ≤ 28)
    (hg : GridList S (a :: b.amounts)) (hm : (mass b.amounts + 2 * |a.qty.val|) * 10 ^ S < 2 ^ 96) :
    ∃ b1 b2, b.add a = .ok b1 ∧ b1.subAssign a = .ok b2 ∧ ∀ c, b2.totalIn c = b.totalIn c := by
  have hp := Dec.pow10_pos S
  have ha := hg a List.mem_cons_self
  have hb : GridList S b.amounts := fun x hx => hg x (List.mem_cons_of_mem _ hx)
  have h0 := abs_nonneg a.qty.val
  obtain ⟨l1, g1, g2, g3, g4⟩ := addGo_grid hS b.amounts a hb ha (by
    refine lt_of_le_of_lt (mul_le_mul_of_nonneg_right ?_ (le_of_lt hp)) hm; linarith)
  obtain ⟨l2, k1, k2⟩ := subGo_grid hS l1 a g2 ha (by
    refine lt_of_le_of_lt (mul_le_mul_of_nonneg_right ?_ (le_of_lt hp)) hm; linarith) (by
    right; rw [addGo_comms _ _ _ g1, mem_addComm]; exact Or.inr rfl)
  refine ⟨⟨l1⟩, ⟨l2⟩, by unfold Balance.add; rw [g1]; rfl, by unfold Balance.subAssign; rw [k1]; rfl, fun c => ?_⟩
  show sumIn c l2 = sumIn c b.amounts
  rw [k2, g4]; ring

example : (Balance.mk [⟨⟨false, 100, 0⟩, some (str "EUR")⟩]).subAssign ⟨⟨true, 5, 1⟩, some (str "EUR")⟩
    = .ok ⟨[⟨⟨false, 1005, 1⟩, some (str "EUR")⟩]⟩ := by decide +kernel

/-- **C10** Merging balances adds the totals of every commodity and keeps one entry per commodity, and the
commodities are those of either side. -/
theorem C10_merge (b other : Balance) (ho : b.OneEach) (h : InRange (b.amounts ++ other.amounts)) :
    ∃ r, b.addBalance other = .ok r ∧ (∀ c, r.totalIn c = b.totalIn c + other.totalIn c) ∧ r.OneEach ∧
      ∀ c, c ∈ r.amounts.map (·.comm) ↔ c ∈ b.amounts.map (·.comm) ∨ c ∈ other.amounts.map (·.comm) := by
  obtain ⟨r, h1, h2⟩ := addAll_inRange b other.amounts h
  have := C07_entries_always _ _ _ h1 ho
  exact ⟨r, h1, h2, this.1, this.2⟩

example : (Balance.mk [⟨⟨false, 1, 0⟩, some (str "EUR")⟩]).addBalance
      ⟨[⟨⟨true, 2, 0⟩, none⟩, ⟨⟨true, 4, 0⟩, some (str "EUR")⟩]⟩
    = .ok ⟨[⟨⟨true, 3, 0⟩, some (str "EUR")⟩, ⟨⟨true, 2, 0⟩, none⟩]⟩ := by decide +kernel

end Ledger
