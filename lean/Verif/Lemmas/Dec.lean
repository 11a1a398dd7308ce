import Verif.Spec.Value
import Mathlib.Tactic.Ring
import Mathlib.Tactic.Linarith
import Mathlib.Tactic.FieldSimp
import Mathlib.Tactic.Positivity
import Mathlib.Tactic.Push
/-
Lemmas about the decimal arithmetic of `Model/Quantity.lean`.
-/
namespace Ledger
namespace Dec

/-- `d` is the number `x` correctly rounded to the number of decimals of `d`. -/
def RoundedTo (d : Dec) (x : ℚ) : Prop := |d.val - x| ≤ 1 / 2 / 10 ^ d.scale

theorem roundDiv_mul (q d : Nat) (hd : 0 < d) : roundDiv (q * d) d = q := by
  unfold roundDiv
  simp [Nat.mul_mod_left, Nat.mul_div_cancel _ hd]
  omega

/-- Rounding is within half a unit. -/
theorem roundDiv_bound (n d : Nat) (hd : 0 < d) :
    2 * n ≤ 2 * (roundDiv n d * d) + d ∧ 2 * (roundDiv n d * d) ≤ 2 * n + d := by
  unfold roundDiv
  have h1 := Nat.div_add_mod n d
  have h2 := Nat.mod_lt n hd
  have h3 : n / d * d = d * (n / d) := Nat.mul_comm _ _
  simp only
  split
  · rename_i h
    simp only [Bool.or_eq_true, decide_eq_true_eq, Bool.and_eq_true, beq_iff_eq] at h
    have : (n / d + 1) * d = d * (n / d) + d := by ring
    rw [this]
    omega
  · rename_i h
    simp only [Bool.or_eq_true, decide_eq_true_eq, Bool.and_eq_true, beq_iff_eq, not_or] at h
    rw [h3]; omega

theorem roundDiv_one (n : Nat) : roundDiv n 1 = n := by
  have := roundDiv_mul n 1 (by omega); simpa using this

/-- Sign as a rational number. -/
def sgn (neg : Bool) : ℚ := if neg then -1 else 1

theorem val_mk (neg : Bool) (m s : Nat) : (Dec.mk neg m s).val = sgn neg * m / 10 ^ s := by
  unfold val signed sgn; cases neg <;> simp

theorem val_eq (d : Dec) : d.val = sgn d.neg * d.mant / 10 ^ d.scale := val_mk d.neg d.mant d.scale

theorem abs_sgn (neg : Bool) : |sgn neg| = 1 := by cases neg <;> simp [sgn]

theorem sgn_ne (neg : Bool) : sgn neg ≠ 0 := by cases neg <;> simp [sgn]

theorem sgn_not (neg : Bool) : sgn (!neg) = - sgn neg := by cases neg <;> simp [sgn]

theorem sgn_bne (a b : Bool) : sgn (a != b) = sgn a * sgn b := by cases a <;> cases b <;> simp [sgn]

theorem sgn_mul_self (a : Bool) : sgn a * sgn a = 1 := by cases a <;> simp [sgn]

theorem pow10_pos (n : Nat) : (0 : ℚ) < 10 ^ n := by positivity

theorem npow10_pos (n : Nat) : 0 < 10 ^ n := by positivity

theorem abs_val (d : Dec) : |d.val| = d.mant / 10 ^ d.scale := by
  rw [val_eq, abs_div, abs_mul, abs_sgn]; simp

theorem val_zero_iff (d : Dec) : d.val = 0 ↔ d.mant = 0 := by
  have h := abs_val d
  have p := pow10_pos d.scale
  constructor
  · intro h0
    rw [h0] at h
    simp only [abs_zero] at h
    have : (d.mant : ℚ) = 0 := by
      rcases div_eq_zero_iff.mp h.symm with h | h
      · exact h
      · exact absurd h (ne_of_gt p)
    exact_mod_cast this
  · intro h0
    rw [val_eq, h0]; simp

theorem isZero_iff (d : Dec) : d.isZero = true ↔ d.val = 0 := by
  rw [val_zero_iff]; simp [isZero]

theorem val_zero : zero.val = 0 := by rw [val_zero_iff]; rfl

theorem val_one : one.val = 1 := by rw [val_eq]; simp [one, sgn]

/-- `fitGo` finds the result at an offset `k'` when everything before is either exact or too large. -/
theorem fitGo_exact (neg : Bool) (m s K m' : Nat) (hm : m = m' * 10 ^ K) (hm' : m' < 2 ^ 96) (hK : K ≤ s) :
    ∀ f k, k ≤ K → K < k + f →
      ∃ r, fitGo neg m s f k = .ok r ∧ r.val = sgn neg * m / 10 ^ s ∧ r.mant < 2 ^ 96 ∧ r.scale ≤ s - k ∧
        r.neg = neg := by
  intro f
  induction f with
  | zero => intro k h1 h2; omega
  | succ f ih =>
    intro k h1 h2
    have hq : roundDiv m (10 ^ k) = m' * 10 ^ (K - k) := by
      have : m = (m' * 10 ^ (K - k)) * 10 ^ k := by
        rw [hm, Nat.mul_assoc, ← Nat.pow_add]; congr 2; omega
      rw [this]; exact roundDiv_mul _ _ (npow10_pos k)
    unfold fitGo
    simp only [hq]
    split
    · rename_i hlt
      refine ⟨_, rfl, ?_, hlt, Nat.le_refl _, rfl⟩
      rw [val_mk]
      have e1 : ((10 : ℚ) ^ s) = 10 ^ (s - k) * 10 ^ k := by rw [← pow_add]; congr 1; omega
      have e2 : (m : ℚ) = (m' * 10 ^ (K - k) : Nat) * 10 ^ k := by
        rw [hm]; push_cast; rw [mul_assoc, ← pow_add]; congr 2; omega
      have p1 := pow10_pos (s - k)
      have p2 := pow10_pos k
      rw [e1, e2]
      field_simp
    · rename_i hge
      have hne : k ≠ K := by
        intro e; subst e; simp at hge; omega
      obtain ⟨r, h1', h2', h3', h4', h5'⟩ := ih (k + 1) (by omega) (by omega)
      exact ⟨r, h1', h2', h3', by omega, h5'⟩

/-- If the exact result has a representation, `fit` gives it exactly. -/
theorem fit_exact (neg : Bool) (m s m' s' : Nat) (hm' : m' < 2 ^ 96) (hs' : s' ≤ 28)
    (h : (m : ℚ) / 10 ^ s = m' / 10 ^ s') :
    ∃ r, fit neg m s = .ok r ∧ r.val = sgn neg * m / 10 ^ s ∧ r.Valid ∧ r.scale ≤ s ∧ r.neg = neg := by
  have hnat : m * 10 ^ s' = m' * 10 ^ s := by
    have p1 := pow10_pos s; have p2 := pow10_pos s'
    have : (m : ℚ) * 10 ^ s' = m' * 10 ^ s := by
      field_simp at h; linarith
    exact_mod_cast this
  unfold fit
  by_cases hs : s' ≤ s
  · have hmm : m = m' * 10 ^ (s - s') := by
      have : m' * 10 ^ s = m' * 10 ^ (s - s') * 10 ^ s' := by
        rw [Nat.mul_assoc, ← Nat.pow_add]; congr 2; omega
      rw [this] at hnat
      exact Nat.eq_of_mul_eq_mul_right (npow10_pos s') hnat
    obtain ⟨r, h1, h2, h3, h4, h5⟩ := fitGo_exact neg m s (s - s') m' hmm hm' (by omega)
      (min s 28 + 1) (s - 28) (by omega) (by omega)
    exact ⟨r, h1, h2, ⟨h3, by omega⟩, by omega, h5⟩
  · have hlt : m < 2 ^ 96 := by
      have : m * 10 ^ (s' - s) = m' := by
        have e : m * 10 ^ s' = m * 10 ^ (s' - s) * 10 ^ s := by
          rw [Nat.mul_assoc, ← Nat.pow_add]; congr 2; omega
        rw [e] at hnat
        exact Nat.eq_of_mul_eq_mul_right (npow10_pos s) hnat
      have : m ≤ m' := by
        rw [← this]; exact Nat.le_mul_of_pos_right _ (npow10_pos _)
      omega
    obtain ⟨r, h1, h2, h3, h4, h5⟩ := fitGo_exact neg m s 0 m (by simp) hlt (by omega)
      (min s 28 + 1) (s - 28) (by omega) (by omega)
    exact ⟨r, h1, h2, ⟨h3, by omega⟩, by omega, h5⟩

theorem fit_small (neg : Bool) (m s : Nat) (hm : m < 2 ^ 96) (hs : s ≤ 28) :
    fit neg m s = .ok ⟨neg, m, s⟩ := by
  unfold fit
  have : s - 28 = 0 := by omega
  rw [this]
  unfold fitGo
  simp only [pow_zero, roundDiv_one, hm, if_true, Nat.sub_zero]

/-- Whatever `fitGo` returns is the exact value rounded to the scale of the result. -/
theorem fitGo_rounded (neg : Bool) (m s : Nat) :
    ∀ f k r, k + f ≤ s + 1 → fitGo neg m s f k = .ok r →
      RoundedTo r (sgn neg * m / 10 ^ s) ∧ r.mant < 2 ^ 96 ∧ r.scale ≤ s - k := by
  intro f
  induction f with
  | zero => intro k r _ h; simp [fitGo] at h
  | succ f ih =>
    intro k r hk h
    unfold fitGo at h
    simp only at h
    split at h
    · rename_i hlt
      injection h with h
      subst h
      refine ⟨?_, hlt, Nat.le_refl _⟩
      unfold RoundedTo
      rw [val_mk]
      obtain ⟨b1, b2⟩ := roundDiv_bound m (10 ^ k) (npow10_pos k)
      have e1 : ((10 : ℚ) ^ s) = 10 ^ (s - k) * 10 ^ k := by rw [← pow_add]; congr 1; omega
      have p1 := pow10_pos (s - k)
      have p2 := pow10_pos k
      have c1 : (2 * m : ℚ) ≤ 2 * (roundDiv m (10 ^ k) * 10 ^ k) + 10 ^ k := by exact_mod_cast b1
      have c2 : (2 : ℚ) * (roundDiv m (10 ^ k) * 10 ^ k) ≤ 2 * m + 10 ^ k := by exact_mod_cast b2
      have e2 : sgn neg * (roundDiv m (10 ^ k) : ℚ) / 10 ^ (s - k) - sgn neg * m / 10 ^ s
          = sgn neg * (((roundDiv m (10 ^ k) : ℚ) * 10 ^ k - m) / (10 ^ (s - k) * 10 ^ k)) := by
        rw [e1]; field_simp
      rw [e2, abs_mul, abs_sgn, one_mul, abs_div, abs_of_pos (mul_pos p1 p2)]
      rw [div_le_div_iff₀ (mul_pos p1 p2) p1]
      have : |(roundDiv m (10 ^ k) : ℚ) * 10 ^ k - m| ≤ 10 ^ k / 2 := by
        rw [abs_le]; constructor <;> linarith
      have h' := mul_le_mul_of_nonneg_right this (le_of_lt p1)
      linarith
    · obtain ⟨h1, h2, h3⟩ := ih (k + 1) r (by omega) h
      exact ⟨h1, h2, by omega⟩

theorem fit_rounded (neg : Bool) (m s : Nat) (r : Dec) (h : fit neg m s = .ok r) :
    RoundedTo r (sgn neg * m / 10 ^ s) ∧ r.Valid := by
  unfold fit at h
  obtain ⟨h1, h2, h3⟩ := fitGo_rounded neg m s _ _ r (by omega) h
  exact ⟨h1, h2, by omega⟩

theorem fit_error (neg : Bool) (m s : Nat) (e : Panic) (h : fit neg m s = .error e) :
    e = .decimalOverflow := by
  unfold fit at h
  generalize min s 28 + 1 = f at h
  generalize s - 28 = k at h
  induction f generalizing k with
  | zero => simp [fitGo] at h; exact h.symm
  | succ f ih =>
    unfold fitGo at h
    simp only at h
    split at h
    · cases h
    · exact ih _ h

/-- A result whose integer part needs more than 96 bits is refused. -/
theorem fit_overflow (neg : Bool) (m s : Nat) (h : (2 : ℚ) ^ 96 ≤ m / 10 ^ s) :
    fit neg m s = .error .decimalOverflow := by
  have hn : 2 ^ 96 * 10 ^ s ≤ m := by
    rw [le_div_iff₀ (pow10_pos s)] at h
    exact_mod_cast h
  have key : ∀ f k, k + f ≤ s + 1 → fitGo neg m s f k = .error .decimalOverflow := by
    intro f
    induction f with
    | zero => intro k _; rfl
    | succ f ih =>
      intro k hk
      unfold fitGo
      simp only
      have : ¬ roundDiv m (10 ^ k) < 2 ^ 96 := by
        have hle : (2 ^ 96) * 10 ^ k ≤ m := by
          refine le_trans ?_ hn
          exact Nat.mul_le_mul_left _ (Nat.pow_le_pow_right (by omega) (by omega))
        have hd : 2 ^ 96 ≤ m / 10 ^ k := (Nat.le_div_iff_mul_le (npow10_pos k)).mpr hle
        have : m / 10 ^ k ≤ roundDiv m (10 ^ k) := by
          unfold roundDiv; simp only; split <;> omega
        omega
      rw [if_neg this]
      exact ih (k + 1) (by omega)
  exact key _ _ (by omega)

end Dec
end Ledger
