import Verif.Lemmas.DecArith
/-
When the arithmetic of quantities succeeds, and how many decimals a rounded result keeps.
-/
namespace Ledger
namespace Dec

theorem roundDiv_lt_even (n d N : Nat) (hd : 0 < d) (hN : N % 2 = 0) (hN' : 2 ≤ N) :
    roundDiv n d < N ↔ 2 * n < 2 * (d * (N - 1)) + d := by
  have h1 := Nat.div_add_mod n d
  have h2 := Nat.mod_lt n hd
  unfold roundDiv
  generalize n / d = q at h1 ⊢
  generalize n % d = r at h1 h2 ⊢
  simp only
  rcases Nat.lt_trichotomy q (N - 1) with h | h | h
  · have : d * (q + 1) ≤ d * (N - 1) := Nat.mul_le_mul_left d (by omega)
    rw [Nat.mul_add] at this
    constructor
    · intro _; omega
    · intro _; split <;> omega
  · rw [← h]
    split
    · rename_i hs
      simp only [Bool.or_eq_true, decide_eq_true_eq, Bool.and_eq_true, beq_iff_eq] at hs
      omega
    · rename_i hs
      simp only [Bool.or_eq_true, decide_eq_true_eq, Bool.and_eq_true, beq_iff_eq, not_or] at hs
      omega
  · have : d * (N - 1 + 1) ≤ d * q := Nat.mul_le_mul_left d (by omega)
    rw [Nat.mul_add] at this
    constructor
    · intro h'; split at h' <;> omega
    · intro _; omega

/-- Rounding to an integer fits exactly if the number is of moderate size. -/
theorem roundDiv_moderate (neg : Bool) (n d : Nat) (hd : 0 < d) :
    roundDiv n d < 2 ^ 96 ↔ Moderate (sgn neg * ((n : ℚ) / d)) := by
  rw [roundDiv_lt_even n d (2 ^ 96) hd (by norm_num) (by norm_num)]
  unfold Moderate
  have hd' : (0 : ℚ) < d := by exact_mod_cast hd
  rw [abs_mul, abs_sgn, one_mul, abs_of_nonneg (by positivity), ← mul_div_assoc, div_lt_iff₀ hd']
  have e : ((2 * (d * (2 ^ 96 - 1)) + d : Nat) : ℚ) = (2 ^ 97 - 1) * d := by
    rw [Nat.cast_add, Nat.cast_mul, Nat.cast_mul, Nat.cast_sub (by norm_num)]
    push_cast
    ring
  rw [← e]
  constructor
  · intro h; exact_mod_cast h
  · intro h; exact_mod_cast h

theorem Moderate.mono {x y : ℚ} (h : |x| ≤ |y|) (hy : Moderate y) : Moderate x := by
  unfold Moderate at *; linarith

theorem moderate_of_scaled {x : ℚ} {k : Nat} (h : Moderate (x * 10 ^ k)) : Moderate x := by
  refine Moderate.mono ?_ h
  rw [abs_mul, abs_of_pos (pow10_pos k)]
  exact le_mul_of_one_le_right (abs_nonneg x) (one_le_pow₀ (by norm_num))

theorem moderate_val (d : Dec) (h : d.Valid) : Moderate d.val := by
  unfold Moderate
  rw [abs_val]
  have h1 : (d.mant : ℚ) ≤ 2 ^ 96 - 1 := by
    have : d.mant + 1 ≤ 2 ^ 96 := h.1
    have : ((d.mant + 1 : Nat) : ℚ) ≤ ((2 ^ 96 : Nat) : ℚ) := by exact_mod_cast this
    push_cast at this
    linarith
  have h2 : (1 : ℚ) ≤ 10 ^ d.scale := one_le_pow₀ (by norm_num)
  have h3 : (d.mant : ℚ) / 10 ^ d.scale ≤ d.mant := div_le_self (by positivity) h2
  have : (2 : ℚ) ^ 97 = 2 * 2 ^ 96 := by norm_num
  linarith

theorem fitGo_found (neg : Bool) (m s : Nat) : ∀ f k r, fitGo neg m s f k = .ok r →
    ∃ i, k ≤ i ∧ i < k + f ∧ r = ⟨neg, roundDiv m (10 ^ i), s - i⟩ ∧ roundDiv m (10 ^ i) < 2 ^ 96 ∧
      (i = k ∨ ¬ roundDiv m (10 ^ (i - 1)) < 2 ^ 96) := by
  intro f
  induction f with
  | zero => intro k r h; simp [fitGo] at h
  | succ f ih =>
    intro k r h
    unfold fitGo at h
    simp only at h
    split at h
    · rename_i hlt
      injection h with h
      exact ⟨k, Nat.le_refl _, by omega, h.symm, hlt, Or.inl rfl⟩
    · rename_i hge
      obtain ⟨i, h1, h2, h3, h4, h5⟩ := ih (k + 1) r h
      refine ⟨i, by omega, by omega, h3, h4, Or.inr ?_⟩
      rcases h5 with h5 | h5
      · rw [h5]; simpa using hge
      · exact h5

theorem fitGo_none (neg : Bool) (m s : Nat) : ∀ f k e, fitGo neg m s f k = .error e →
    ∀ i, k ≤ i → i < k + f → ¬ roundDiv m (10 ^ i) < 2 ^ 96 := by
  intro f
  induction f with
  | zero => intro k e _ i h1 h2; omega
  | succ f ih =>
    intro k e h i h1 h2
    unfold fitGo at h
    simp only at h
    split at h
    · cases h
    · rename_i hge
      rcases Nat.eq_or_lt_of_le h1 with h3 | h3
      · rw [← h3]; exact hge
      · exact ih _ _ h i (by omega) (by omega)

theorem scaled (neg : Bool) (m s k : Nat) (h : k ≤ s) :
    sgn neg * m / 10 ^ s * 10 ^ (s - k) = sgn neg * ((m : ℚ) / ((10 ^ k : Nat) : ℚ)) := by
  have e1 : ((10 : ℚ) ^ s) = 10 ^ (s - k) * 10 ^ k := by rw [← pow_add]; congr 1; omega
  have p1 := pow10_pos (s - k)
  have p2 := pow10_pos k
  rw [e1]; push_cast; field_simp

/-- `fit` succeeds exactly for numbers of moderate size. -/
theorem fit_ok_iff (neg : Bool) (m s : Nat) : (∃ r, fit neg m s = .ok r) ↔ Moderate (sgn neg * m / 10 ^ s) := by
  constructor
  · rintro ⟨r, h⟩
    unfold fit at h
    obtain ⟨i, h1, h2, -, h4, -⟩ := fitGo_found neg m s _ _ _ h
    rw [roundDiv_moderate neg m _ (npow10_pos i), ← scaled neg m s i (by omega)] at h4
    exact moderate_of_scaled h4
  · intro h
    cases hf : fit neg m s with
    | ok r => exact ⟨r, rfl⟩
    | error e =>
      unfold fit at hf
      have := fitGo_none neg m s _ _ _ hf s (by omega) (by omega)
      rw [roundDiv_moderate neg m _ (npow10_pos s), ← scaled neg m s s (Nat.le_refl _)] at this
      simp at this
      exact absurd h this

theorem fit_precise (neg : Bool) (m s : Nat) (r : Dec) (h : fit neg m s = .ok r) : PreciseTo r (sgn neg * m / 10 ^ s) := by
  have hr := (fit_rounded neg m s r h).1
  unfold fit at h
  obtain ⟨i, h1, h2, h3, h4, h5⟩ := fitGo_found neg m s _ _ _ h
  refine ⟨s - i, by rw [h3], by omega, by unfold RoundedTo at hr; rw [h3] at hr ⊢; exact hr, ?_⟩
  rcases h5 with h5 | h5
  · by_cases hs : s ≤ 28
    · left
      have : i = 0 := by omega
      rw [h3, this]
      simp [roundDiv_one, val_mk]
    · right; left; omega
  · by_cases hi : i = s - 28
    · by_cases hs : s ≤ 28
      · left
        have : i = 0 := by omega
        rw [h3, this]
        simp [roundDiv_one, val_mk]
      · right; left; omega
    · right; right
      rw [roundDiv_moderate neg m _ (npow10_pos _), ← scaled neg m s (i - 1) (by omega)] at h5
      have : s - i + 1 = s - (i - 1) := by omega
      rw [this]; exact h5

theorem precise_self (d : Dec) (h : d.Valid) : PreciseTo d d.val :=
  ⟨28, h.2, Nat.le_refl _, by rw [sub_self, abs_zero]; positivity, Or.inl rfl⟩

/-- A sum succeeds exactly if it is of moderate size. -/
theorem add_ok_iff (a b : Dec) (ha : a.Valid) (hb : b.Valid) : (∃ r, add a b = .ok r) ↔ Moderate (a.val + b.val) := by
  by_cases za : a.isZero = true
  · rw [zero_val a za, zero_add]
    exact ⟨fun _ => moderate_val b hb, fun _ => ⟨b, by simp [add, za]⟩⟩
  by_cases zb : b.isZero = true
  · rw [zero_val b zb, add_zero]
    exact ⟨fun _ => moderate_val a ha, fun _ => ⟨a, by simp [add, za, zb]⟩⟩
  obtain ⟨neg, m, h1, h2⟩ := add_form a b (by simpa using za) (by simpa using zb)
  rw [h1, h2]
  exact fit_ok_iff neg m _

theorem add_precise (a b r : Dec) (ha : a.Valid) (hb : b.Valid) (h : add a b = .ok r) : PreciseTo r (a.val + b.val) := by
  by_cases za : a.isZero = true
  · simp only [add, za, if_true, Except.ok.injEq] at h
    subst h
    rw [zero_val a za, zero_add]; exact precise_self _ hb
  by_cases zb : b.isZero = true
  · simp only [add, za, zb, if_true, Bool.false_eq_true, if_false, Except.ok.injEq] at h
    subst h
    rw [zero_val b zb, add_zero]; exact precise_self _ ha
  obtain ⟨neg, m, h1, h2⟩ := add_form a b (by simpa using za) (by simpa using zb)
  rw [h2]
  exact fit_precise _ _ _ _ (h1 ▸ h)

theorem sub_ok_iff (a b : Dec) (ha : a.Valid) (hb : b.Valid) : (∃ r, sub a b = .ok r) ↔ Moderate (a.val - b.val) := by
  by_cases zb : b.isZero = true
  · rw [zero_val b zb, sub_zero]
    refine ⟨fun _ => moderate_val a ha, fun _ => ?_⟩
    unfold sub
    rw [if_pos zb]
    split <;> exact ⟨_, rfl⟩
  · rw [sub_form a b (by simpa using zb), add_ok_iff _ _ ha (valid_neg b _ hb), val_flip, sub_eq_add_neg]

theorem sub_precise (a b r : Dec) (ha : a.Valid) (hb : b.Valid) (h : sub a b = .ok r) : PreciseTo r (a.val - b.val) := by
  by_cases zb : b.isZero = true
  · rw [zero_val b zb, sub_zero]
    unfold sub at h
    rw [if_pos zb] at h
    split at h <;> injection h with h <;> subst h
    · rename_i za
      rw [zero_val a za, ← zero_val b zb]; exact precise_self _ hb
    · exact precise_self _ ha
  · rw [sub_form a b (by simpa using zb)] at h
    have := add_precise _ _ _ ha (valid_neg b _ hb) h
    rwa [val_flip, ← sub_eq_add_neg] at this

theorem moderate_zero : Moderate 0 := by unfold Moderate; norm_num

/-- A product succeeds exactly if it is of moderate size. -/
theorem mul_ok_iff (a b : Dec) : (∃ r, mul a b = .ok r) ↔ Moderate (a.val * b.val) := by
  by_cases z : (a.isZero || b.isZero) = true
  · have : a.val * b.val = 0 := by
      rcases Bool.or_eq_true _ _ ▸ z with z | z
      · rw [zero_val a z]; ring
      · rw [zero_val b z]; ring
    rw [this]
    exact ⟨fun _ => moderate_zero, fun _ => ⟨zero, by simp [mul, z]⟩⟩
  · simp only [Bool.or_eq_true, not_or, Bool.not_eq_true] at z
    rw [mul_form a b z.1 z.2, mul_val]
    exact fit_ok_iff _ _ _

theorem mul_precise (a b r : Dec) (h : mul a b = .ok r) : PreciseTo r (a.val * b.val) := by
  by_cases z : (a.isZero || b.isZero) = true
  · simp only [mul, z, if_true, Except.ok.injEq] at h
    subst h
    have : a.val * b.val = zero.val := by
      rw [val_zero]
      rcases Bool.or_eq_true _ _ ▸ z with z | z
      · rw [zero_val a z]; ring
      · rw [zero_val b z]; ring
    rw [this]; exact precise_self _ valid_zero
  · simp only [Bool.or_eq_true, not_or, Bool.not_eq_true] at z
    rw [mul_form a b z.1 z.2] at h
    rw [mul_val]
    exact fit_precise _ _ _ _ h

theorem divGo_found (neg : Bool) (n d s : Nat) (r : Dec) (h : divGo neg n d s = .ok r) :
    ∃ S, S ≤ s ∧ r = strip neg (roundDiv (n * 10 ^ S) d) S ∧ roundDiv (n * 10 ^ S) d < 2 ^ 96 ∧
      (S = s ∨ ¬ roundDiv (n * 10 ^ (S + 1)) d < 2 ^ 96) := by
  induction s with
  | zero =>
    unfold divGo at h
    simp only at h
    split at h
    · rename_i hlt
      injection h with h
      exact ⟨0, Nat.le_refl _, by rw [← h]; simp [strip], by simpa using hlt, Or.inl rfl⟩
    · cases h
  | succ s ih =>
    unfold divGo at h
    simp only at h
    split at h
    · rename_i hlt
      injection h with h
      exact ⟨s + 1, Nat.le_refl _, h.symm, hlt, Or.inl rfl⟩
    · rename_i hge
      obtain ⟨S, h1, h2, h3, h4⟩ := ih h
      refine ⟨S, by omega, h2, h3, Or.inr ?_⟩
      rcases h4 with h4 | h4
      · rw [h4]; exact hge
      · exact h4

theorem divGo_none (neg : Bool) (n d s : Nat) (e : Panic) (h : divGo neg n d s = .error e) :
    ¬ roundDiv n d < 2 ^ 96 ∧ e = .decimalOverflow := by
  induction s with
  | zero =>
    unfold divGo at h
    simp only at h
    split at h
    · cases h
    · rename_i hge
      injection h with h
      exact ⟨hge, h.symm⟩
  | succ s ih =>
    unfold divGo at h
    simp only at h
    split at h
    · cases h
    · exact ih h

theorem div_scaled (neg : Bool) (n d S : Nat) :
    sgn neg * ((n : ℚ) / d) * 10 ^ S = sgn neg * (((n * 10 ^ S : Nat) : ℚ) / d) := by
  push_cast; ring

/-- A quotient by a non-zero quantity succeeds exactly if it is of moderate size. -/
theorem div_ok_iff (a b : Dec) (hb : b.val ≠ 0) : (∃ r, div a b = .ok r) ↔ Moderate (a.val / b.val) := by
  have zb : ¬ b.isZero = true := fun z => hb (zero_val b z)
  have hbm : b.mant ≠ 0 := by simpa [isZero] using zb
  by_cases za : a.isZero = true
  · rw [zero_val a za, zero_div]
    exact ⟨fun _ => moderate_zero, fun _ => ⟨zero, by simp [div, za, zb]⟩⟩
  have hpos : 0 < b.mant * 10 ^ a.scale := Nat.mul_pos (by omega) (npow10_pos _)
  have hdiv : div a b = divGo (a.neg != b.neg) (a.mant * 10 ^ b.scale) (b.mant * 10 ^ a.scale) 28 := by simp [div, za, zb]
  rw [hdiv, div_val a b hbm]
  constructor
  · rintro ⟨r, h⟩
    obtain ⟨S, h1, h2, h3, h4⟩ := divGo_found _ _ _ _ _ h
    rw [roundDiv_moderate (a.neg != b.neg) _ _ hpos, ← div_scaled] at h3
    exact moderate_of_scaled h3
  · intro h
    cases hg : divGo (a.neg != b.neg) (a.mant * 10 ^ b.scale) (b.mant * 10 ^ a.scale) 28 with
    | ok r => exact ⟨r, rfl⟩
    | error e =>
      have := (divGo_none _ _ _ _ _ hg).1
      rw [roundDiv_moderate (a.neg != b.neg) _ _ hpos] at this
      exact absurd h this

theorem div_error (a b : Dec) (e : Panic) (hb : b.val ≠ 0) (h : div a b = .error e) : e = .decimalOverflow := by
  have zb : ¬ b.isZero = true := fun z => hb (zero_val b z)
  unfold div at h
  rw [if_neg zb] at h
  split at h
  · cases h
  · exact (divGo_none _ _ _ _ _ h).2

theorem div_precise (a b r : Dec) (h : div a b = .ok r) : PreciseTo r (a.val / b.val) := by
  unfold div at h
  split at h
  · cases h
  · rename_i zb
    have hbm : b.mant ≠ 0 := by simpa [isZero] using zb
    have hpos : 0 < b.mant * 10 ^ a.scale := Nat.mul_pos (by omega) (npow10_pos _)
    split at h
    · rename_i za
      injection h with h; subst h
      rw [zero_val a za, zero_div, ← val_zero]; exact precise_self _ valid_zero
    · rw [div_val a b hbm]
      obtain ⟨S, h1, h2, h3, h4⟩ := divGo_found _ _ _ _ _ h
      obtain ⟨g1, g2, g3, g4⟩ := strip_val (a.neg != b.neg)
        (roundDiv (a.mant * 10 ^ b.scale * 10 ^ S) (b.mant * 10 ^ a.scale)) S
      rw [← h2] at g1 g3
      refine ⟨S, g3, h1, ?_, ?_⟩
      · have := rounded_div (a.neg != b.neg) (a.mant * 10 ^ b.scale) (b.mant * 10 ^ a.scale) S hpos _ rfl
          ⟨a.neg != b.neg, roundDiv (a.mant * 10 ^ b.scale * 10 ^ S) (b.mant * 10 ^ a.scale), S⟩ (val_mk _ _ _) (Nat.le_refl _)
        unfold RoundedTo at this
        rw [val_mk, ← g1] at this
        exact this
      · rcases h4 with h4 | h4
        · exact Or.inr (Or.inl h4)
        · right; right
          rw [roundDiv_moderate (a.neg != b.neg) _ _ hpos, ← div_scaled] at h4
          exact h4

theorem precise_abs {q q' : Dec} {x : ℚ} (h : PreciseTo q x) (hv : q'.val = |q.val|) (hs : q'.scale = q.scale) :
    PreciseTo q' |x| := by
  obtain ⟨S, h1, h2, h3, h4⟩ := h
  refine ⟨S, by omega, h2, ?_, ?_⟩
  · rw [hv]; exact le_trans (abs_abs_sub_abs_le_abs_sub _ _) h3
  · rcases h4 with h4 | h4 | h4
    · exact Or.inl (by rw [hv, h4])
    · exact Or.inr (Or.inl h4)
    · right; right
      unfold Moderate at h4 ⊢
      rwa [abs_mul, abs_abs, ← abs_mul]

/-- The error of a rounded result: half a unit of the 28th decimal, or ten parts in `2^97 - 1` of the exact result. -/
theorem precise_error {r : Dec} {x : ℚ} (h : PreciseTo r x) :
    |r.val - x| ≤ 1 / 2 / 10 ^ 28 ∨ |r.val - x| ≤ |x| * (10 / (2 ^ 97 - 1)) := by
  obtain ⟨S, h1, h2, h3, h4 | h4 | h4⟩ := h
  · left; rw [h4, sub_self, abs_zero]; positivity
  · left; rw [← h4]; exact h3
  · right
    unfold Moderate at h4
    rw [not_lt, abs_mul, abs_of_pos (pow10_pos _), pow_succ (10 : ℚ) S] at h4
    refine le_trans h3 ?_
    have p := pow10_pos S
    have hN : (0 : ℚ) < 2 ^ 97 - 1 := by norm_num
    rw [div_div, ← mul_div_assoc, div_le_div_iff₀ (by positivity) hN]
    linarith

end Dec
end Ledger
