import Verif.Model.Compare
import Verif.Lemmas.BestFit
import Verif.Lemmas.Classify
import Verif.Props.Quantity
/-
C115: quantities count as numbers: comparison, and results that depend on the numbers only.
-/
namespace Ledger

theorem signed_scaled (a b : Dec) : (a.signed * 10 ^ b.scale : ℤ) = a.val * (10 ^ a.scale * 10 ^ b.scale) := by
  unfold Dec.val
  have p := Dec.pow10_pos a.scale
  push_cast
  field_simp

theorem scales_pos (a b : Dec) : (0 : ℚ) < 10 ^ a.scale * 10 ^ b.scale := mul_pos (Dec.pow10_pos _) (Dec.pow10_pos _)

/-- C115: quantities compare as the numbers that they denote, whatever their decimals and the sign of a zero. -/
theorem C115_order (a b : Dec) : (a.cmp b = .lt ↔ a.val < b.val) ∧ (a.cmp b = .eq ↔ a.val = b.val) ∧ (a.cmp b = .gt ↔ b.val < a.val) := by
  have ha := signed_scaled a b
  have hb := signed_scaled b a
  rw [mul_comm ((10 : ℚ) ^ b.scale)] at hb
  have hp := scales_pos a b
  have hlt : a.signed * 10 ^ b.scale < b.signed * 10 ^ a.scale ↔ a.val < b.val := by
    rw [← Int.cast_lt (R := ℚ), ha, hb, mul_lt_mul_iff_left₀ hp]
  have heq : a.signed * 10 ^ b.scale = b.signed * 10 ^ a.scale ↔ a.val = b.val := by
    rw [← Int.cast_inj (α := ℚ), ha, hb, mul_left_inj' hp.ne']
  have hc : a.cmp b = if a.signed * 10 ^ b.scale < b.signed * 10 ^ a.scale then .lt
      else if a.signed * 10 ^ b.scale = b.signed * 10 ^ a.scale then .eq else .gt := rfl
  rw [hc]
  simp only [hlt, heq]
  rcases lt_trichotomy a.val b.val with h | h | h
  · simp [h, h.ne, h.le]
  · simp [h]
  · simp [h.not_gt, h.ne', h]

/-- C115: equality of quantities is that of the numbers, and it is the equality of the order. -/
theorem C115_equal (a b : Dec) : (a.numEq b = true ↔ a.val = b.val) ∧ (a.numEq b = true ↔ a.cmp b = .eq) := by
  have h : a.numEq b = true ↔ a.val = b.val := by
    rw [← (C115_order a b).2.1]
    have hc : a.cmp b = if a.signed * 10 ^ b.scale < b.signed * 10 ^ a.scale then .lt
      else if a.signed * 10 ^ b.scale = b.signed * 10 ^ a.scale then .eq else .gt := rfl
    have h1 : a.cmp b = .eq ↔ a.signed * 10 ^ b.scale = b.signed * 10 ^ a.scale := by
      rw [hc]; split <;> [skip; split] <;> simp_all <;> omega
    rw [h1]
    unfold Dec.numEq Dec.signed
    simp only [Bool.and_eq_true, beq_iff_eq, Bool.or_eq_true]
    have e1 : ((a.mant : ℤ) * 10 ^ b.scale) = ((a.mant * 10 ^ b.scale : Nat) : ℤ) := by push_cast; rfl
    have e2 : ((b.mant : ℤ) * 10 ^ a.scale) = ((b.mant * 10 ^ a.scale : Nat) : ℤ) := by push_cast; rfl
    have e3 : ((if a.neg then -(a.mant : ℤ) else a.mant) * 10 ^ b.scale) =
        if a.neg then -((a.mant * 10 ^ b.scale : Nat) : ℤ) else (a.mant * 10 ^ b.scale : Nat) := by split <;> simp only [neg_mul, e1]
    have e4 : ((if b.neg then -(b.mant : ℤ) else b.mant) * 10 ^ a.scale) =
        if b.neg then -((b.mant * 10 ^ a.scale : Nat) : ℤ) else (b.mant * 10 ^ a.scale : Nat) := by split <;> simp only [neg_mul, e2]
    rw [e3, e4]
    generalize a.mant * 10 ^ b.scale = x
    generalize b.mant * 10 ^ a.scale = y
    cases a.neg <;> cases b.neg <;> simp <;> omega
  exact ⟨h, h.trans (C115_order a b).2.1.symm⟩

/-- C115: amounts are equal if the numbers and the commodities are; an amount is zero if its number is, and null if moreover it has
no commodity. -/
theorem C115_amounts (a b : Amount) :
    (a.equal b = true ↔ a.qty.val = b.qty.val ∧ a.comm = b.comm) ∧ (a.isZero = true ↔ a.qty.val = 0) ∧
    (a.isNull = true ↔ a.qty.val = 0 ∧ a.comm = none) := by
  refine ⟨by simp [Amount.equal, (C115_equal a.qty b.qty).1], Dec.isZero_iff _, ?_⟩
  unfold Amount.isNull
  rw [← Dec.isZero_iff]
  cases a.qty.isZero <;> simp

/-- C115: there is one best fit of a number at most, and a number that fits exactly is its own. -/
theorem C115_best_fit (x : ℚ) : (∀ v w, BestFit x v → BestFit x w → v = w) ∧ (Representable x → BestFit x x) :=
  ⟨fun _ _ => bestFit_unique, bestFit_exact⟩

/-- C115: every sum, difference, product and quotient that is returned is the best fit of the exact one. -/
theorem C115_results (a b r : Amount) :
    (a.qty.Valid → b.qty.Valid → (∀ k : AddKind, k.run a b = .ok r → BestFit (a.qty.val + b.qty.val) r.qty.val) ∧
      (a.subAssign b = .ok r → BestFit (a.qty.val - b.qty.val) r.qty.val)) ∧
    (a.mul b = .ok r → BestFit (a.qty.val * b.qty.val) r.qty.val) ∧
    (a.div b = .ok r → BestFit (a.qty.val / b.qty.val) r.qty.val) := by
  refine ⟨fun ha hb => ⟨fun k h => ?_, fun h => ?_⟩, fun h => ?_, fun h => ?_⟩
  · have hc := (C05_add_sound k a b r ha hb h).1
    rcases addKind_eq k a b hc with e | ⟨e, hz⟩
    · rw [e] at h
      cases hq : a.qty.add b.qty with
      | error k => rw [hq] at h; cases h
      | ok q =>
        rw [hq] at h
        injection h with h
        rw [← h]
        exact Dec.add_best _ _ _ ha hb hq
    · rw [e] at h
      injection h with h
      rw [← h, Dec.zero_val _ hz, add_zero]
      exact bestFit_exact (Dec.representable_val _ ha)
  · unfold Amount.subAssign at h
    split at h
    · cases h
    · cases hq : a.qty.sub b.qty with
      | error k => rw [hq] at h; cases h
      | ok q =>
        rw [hq] at h
        injection h with h
        rw [← h]
        exact Dec.sub_best _ _ _ ha hb hq
  · unfold Amount.mul at h
    cases hq : a.qty.mul b.qty with
    | error k => rw [hq] at h; cases h
    | ok q =>
      rw [hq] at h
      injection h with h
      rw [← h]
      exact Dec.mul_best _ _ _ hq
  · unfold Amount.div at h
    cases hq : a.qty.div b.qty with
    | error k => rw [hq] at h; cases h
    | ok q =>
      rw [hq] at h
      injection h with h
      rw [← h]
      exact Dec.div_best _ _ _ hq

/-- Two results that count as the same: equal amounts, or the same panic. -/
def SameResult : Res Amount → Res Amount → Prop
  | .ok r, .ok r' => r.equal r' = true
  | .error e, .error e' => e = e'
  | _, _ => False

theorem sameResult_of {x y : Res Amount} (hok : (∃ r, x = .ok r) ↔ ∃ r, y = .ok r)
    (hr : ∀ r s, x = .ok r → y = .ok s → r.qty.val = s.qty.val ∧ r.comm = s.comm)
    (he : ∀ e f, x = .error e → y = .error f → e = f) : SameResult x y := by
  cases x with
  | ok r =>
    obtain ⟨s, hs⟩ := hok.mp ⟨r, rfl⟩
    rw [hs]
    exact (C115_amounts r s).1.mpr (hr r s rfl hs)
  | error e =>
    cases hy : y with
    | ok s => obtain ⟨r, h⟩ := hok.mpr ⟨s, hy⟩; cases h
    | error f => exact he e f rfl hy

/-- C115: so equal amounts give equal results, or the same panic, in whatever way they are written: sums in either order, differences,
products and quotients. -/
theorem C115_respects {a a' b b' : Amount} (ha : a.equal a' = true) (hb : b.equal b' = true) :
    (a.qty.Valid → a'.qty.Valid → b.qty.Valid → b'.qty.Valid →
      (∀ k k' : AddKind, SameResult (k.run a b) (k'.run a' b') ∧ SameResult (k.run a b) (k'.run b' a')) ∧
      SameResult (a.subAssign b) (a'.subAssign b')) ∧
    SameResult (a.mul b) (a'.mul b') ∧ SameResult (a.div b) (a'.div b') := by
  obtain ⟨va, ca⟩ := (C115_amounts a a').1.mp ha
  obtain ⟨vb, cb⟩ := (C115_amounts b b').1.mp hb
  have hadd : ∀ {x y x' y' : Amount} (k k' : AddKind), x.qty.Valid → y.qty.Valid → x'.qty.Valid → y'.qty.Valid →
      x.qty.val + y.qty.val = x'.qty.val + y'.qty.val → (x.comm = y.comm ↔ x'.comm = y'.comm) → (x.comm = y.comm → x.comm = x'.comm) →
      SameResult (k.run x y) (k'.run x' y') := by
    intro x y x' y' k k' hx hy hx' hy' hv hc hc'
    refine sameResult_of ?_ ?_ ?_
    · rw [C05_accepted k x y hx hy, C05_accepted k' x' y' hx' hy', hv, hc]
    · intro r s h h'
      obtain ⟨k1, k2, _⟩ := C05_add_sound k x y r hx hy h
      obtain ⟨_, k3, _⟩ := C05_add_sound k' x' y' s hx' hy' h'
      have b1 := ((C115_results x y r).1 hx hy).1 k h
      rw [hv] at b1
      exact ⟨bestFit_unique b1 (((C115_results x' y' s).1 hx' hy').1 k' h'), by rw [k2, k3, hc' k1]⟩
    · intro e f h h'
      by_cases h0 : x.comm = y.comm
      · have hm : ¬ Moderate (x.qty.val + y.qty.val) := fun hm => by
          obtain ⟨r, hr⟩ := (C05_accepted k x y hx hy).mpr ⟨h0, hm⟩
          rw [hr] at h; cases h
        rw [C05_add_overflow k x y h0 hx hy hm] at h
        rw [hv] at hm
        rw [C05_add_overflow k' x' y' (hc.mp h0) hx' hy' hm] at h'
        injection h with h; injection h' with h'
        rw [← h, ← h']
      · rw [C05_add_different k x y h0] at h
        rw [C05_add_different k' x' y' (fun h1 => h0 (hc.mpr h1))] at h'
        injection h with h; injection h' with h'
        rw [← h, ← h']
  refine ⟨fun h1 h2 h3 h4 => ⟨fun k k' => ⟨?_, ?_⟩, ?_⟩, ?_, ?_⟩
  · exact hadd k k' h1 h3 h2 h4 (by rw [va, vb]) (by rw [ca, cb]) (fun _ => ca)
  · exact hadd k k' h1 h3 h4 h2 (by rw [va, vb, add_comm]) (by rw [ca, cb]; exact eq_comm) (fun h => by rw [h, cb])
  · refine sameResult_of ?_ ?_ ?_
    · rw [(C05_sub a b h1 h3).1, (C05_sub a' b' h2 h4).1, va, vb, ca, cb]
    · intro r s h h'
      have b1 := ((C115_results a b r).1 h1 h3).2 h
      rw [va, vb] at b1
      exact ⟨bestFit_unique b1 (((C115_results a' b' s).1 h2 h4).2 h'),
        by rw [((C05_sub a b h1 h3).2.2 r h).1, ((C05_sub a' b' h2 h4).2.2 s h').1, ca]⟩
    · intro e f h h'
      by_cases h0 : a.comm = b.comm
      · have h0' : a'.comm = b'.comm := by rw [← ca, ← cb, h0]
        unfold Amount.subAssign at h h'
        rw [if_neg (not_not.mpr h0)] at h
        rw [if_neg (not_not.mpr h0')] at h'
        cases hq : a.qty.sub b.qty with
        | ok q => rw [hq] at h; cases h
        | error e1 =>
          cases hq' : a'.qty.sub b'.qty with
          | ok q => rw [hq'] at h'; cases h'
          | error e2 =>
            rw [hq] at h; rw [hq'] at h'
            injection h with h; injection h' with h'
            rw [← h, ← h', Dec.sub_error _ _ _ hq, Dec.sub_error _ _ _ hq']
      · rw [(C05_sub a b h1 h3).2.1 h0] at h
        rw [(C05_sub a' b' h2 h4).2.1 (by rw [← ca, ← cb]; exact h0)] at h'
        injection h with h; injection h' with h'
        rw [← h, ← h']
  · refine sameResult_of ?_ ?_ ?_
    · rw [(C06_accepted a b).1, (C06_accepted a' b').1, va, vb]
    · intro r s h h'
      have b1 := (C115_results a b r).2.1 h
      rw [va, vb] at b1
      refine ⟨bestFit_unique b1 ((C115_results a' b' s).2.1 h'), ?_⟩
      rw [((C06_sound a b r).1 h).2, ((C06_sound a' b' s).1 h').2]
      unfold resultComm
      rw [ca, cb]
    · intro e f h h'
      have hm : ¬ Moderate (a.qty.val * b.qty.val) := fun hm => by
        obtain ⟨r, hr⟩ := (C06_accepted a b).1.mpr hm
        rw [hr] at h; cases h
      rw [(C06_refused a b).2.1 hm] at h
      rw [va, vb] at hm
      rw [(C06_refused a' b').2.1 hm] at h'
      injection h with h; injection h' with h'
      rw [← h, ← h']
  · refine sameResult_of ?_ ?_ ?_
    · rw [(C06_accepted a b).2.2, (C06_accepted a' b').2.2, va, vb]
    · intro r s h h'
      have b1 := (C115_results a b r).2.2 h
      rw [va, vb] at b1
      refine ⟨bestFit_unique b1 ((C115_results a' b' s).2.2 h'), ?_⟩
      rw [((C06_sound a b r).2 h).2, ((C06_sound a' b' s).2 h').2]
      unfold resultComm
      rw [ca, cb]
    · intro e f h h'
      by_cases h0 : b.qty.val = 0
      · rw [C06_div_zero a b h0] at h
        rw [C06_div_zero a' b' (by rw [← vb]; exact h0)] at h'
        injection h with h; injection h' with h'
        rw [← h, ← h']
      · have hm : ¬ Moderate (a.qty.val / b.qty.val) := fun hm => by
          obtain ⟨r, hr⟩ := (C06_accepted a b).2.2.mpr ⟨h0, hm⟩
          rw [hr] at h; cases h
        rw [(C06_refused a b).2.2.1 h0 hm] at h
        rw [va, vb] at hm
        rw [(C06_refused a' b').2.2.1 (by rw [← vb]; exact h0) hm] at h'
        injection h with h; injection h' with h'
        rw [← h, ← h']

/-- 1.0 and 1.00 are equal and print differently, −0 equals 0, and a tie goes to the even digit. -/
example : (Dec.mk false 10 1).numEq ⟨false, 100, 2⟩ = true ∧ (Dec.mk false 10 1).display ≠ (Dec.mk false 100 2).display ∧
    (Dec.mk true 0 0).numEq ⟨false, 0, 3⟩ = true ∧ (Dec.mk true 5 1).cmp ⟨true, 49, 2⟩ = .lt ∧
    (Dec.mk false 5 28).mul ⟨false, 1, 1⟩ = .ok ⟨false, 0, 28⟩ ∧ (Dec.mk false 15 28).mul ⟨false, 1, 1⟩ = .ok ⟨false, 2, 28⟩ := by decide +kernel

/-- A product does not depend on how many decimals its factors are written with; 70000000000000000000000000001.5 has no room and is
rounded to the even digit. -/
example : SameResult (Amount.mul ⟨⟨false, 20000000000000000000000000001, 0⟩, some (str "EUR")⟩ ⟨⟨false, 5, 1⟩, none⟩)
      (Amount.mul ⟨⟨false, 20000000000000000000000000001, 0⟩, some (str "EUR")⟩ ⟨⟨false, 500, 3⟩, none⟩) ∧
    SameResult (Amount.addOp ⟨⟨false, 70000000000000000000000000001, 0⟩, none⟩ ⟨⟨false, 5, 1⟩, none⟩)
      (.ok ⟨⟨false, 70000000000000000000000000002, 0⟩, none⟩) := by
  refine ⟨(C115_respects (by decide +kernel) (by decide +kernel)).2.1, ?_⟩
  have : Amount.addOp ⟨⟨false, 70000000000000000000000000001, 0⟩, none⟩ ⟨⟨false, 5, 1⟩, none⟩ =
      .ok ⟨⟨false, 70000000000000000000000000002, 0⟩, none⟩ := by decide +kernel
  rw [this]
  unfold SameResult
  decide +kernel

end Ledger
