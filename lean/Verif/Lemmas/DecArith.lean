import Verif.Lemmas.Dec
/-
Exactness, rounding and overflow of the arithmetic operations on quantities.
-/
namespace Ledger
namespace Dec

theorem zero_val (d : Dec) (h : d.isZero = true) : d.val = 0 := (isZero_iff d).mp h

theorem align (d : Dec) (s : Nat) (h : d.scale ≤ s) :
    d.val = sgn d.neg * (d.mant * 10 ^ (s - d.scale) : Nat) / 10 ^ s := by
  rw [val_eq]
  have e1 : ((10 : ℚ) ^ s) = 10 ^ (s - d.scale) * 10 ^ d.scale := by rw [← pow_add]; congr 1; omega
  have p1 := pow10_pos (s - d.scale)
  have p2 := pow10_pos d.scale
  rw [e1]; push_cast; field_simp

/-- Addition of two non-zero quantities is `fit` of the exact sum. -/
theorem add_form (a b : Dec) (ha : a.isZero = false) (hb : b.isZero = false) :
    ∃ neg m, add a b = fit neg m (max a.scale b.scale) ∧
      a.val + b.val = sgn neg * (m : Nat) / 10 ^ (max a.scale b.scale) := by
  have ea := align a (max a.scale b.scale) (by omega)
  have eb := align b (max a.scale b.scale) (by omega)
  unfold add
  simp only [ha, hb, Bool.false_eq_true, if_false]
  generalize max a.scale b.scale = s at *
  generalize a.mant * 10 ^ (s - a.scale) = ma at *
  generalize b.mant * 10 ^ (s - b.scale) = mb at *
  rw [ea, eb]
  split
  · rename_i h
    exact ⟨_, _, rfl, by rw [h]; push_cast; ring⟩
  · rename_i h
    have hs : sgn a.neg = - sgn b.neg := by
      have : a.neg = !b.neg := by cases ha : a.neg <;> cases hb : b.neg <;> simp_all
      rw [this, sgn_not]
    split
    · rename_i hlt
      refine ⟨_, _, rfl, ?_⟩
      rw [hs, Nat.cast_sub (le_of_lt hlt)]; ring
    · split
      · rename_i heq
        refine ⟨_, _, rfl, ?_⟩
        rw [hs, heq]; simp; ring
      · refine ⟨_, _, rfl, ?_⟩
        rw [Nat.cast_sub (by omega), hs]; ring

theorem fit_repr (neg : Bool) (m s : Nat) (x : ℚ) (hx : x = sgn neg * m / 10 ^ s) (h : Representable x) :
    ∃ r, fit neg m s = .ok r ∧ r.val = x ∧ r.Valid ∧ r.scale ≤ s := by
  obtain ⟨d, ⟨hd1, hd2⟩, hd⟩ := h
  have habs : (m : ℚ) / 10 ^ s = d.mant / 10 ^ d.scale := by
    rw [← abs_val, hd, hx, abs_div, abs_mul, abs_sgn]; simp
  obtain ⟨r, h1, h2, h3, h4, _⟩ := fit_exact neg m s _ _ hd1 hd2 habs
  exact ⟨r, h1, by rw [h2, hx], h3, h4⟩

/-- If the exact sum is representable, addition returns it. -/
theorem add_exact (a b : Dec) (ha : a.Valid) (hb : b.Valid) (h : Representable (a.val + b.val)) :
    ∃ r, add a b = .ok r ∧ r.val = a.val + b.val ∧ r.Valid ∧ r.scale ≤ max a.scale b.scale := by
  by_cases za : a.isZero = true
  · refine ⟨b, by simp [add, za], by rw [zero_val a za]; ring, hb, by omega⟩
  by_cases zb : b.isZero = true
  · refine ⟨a, by simp [add, za, zb], by rw [zero_val b zb]; ring, ha, by omega⟩
  obtain ⟨neg, m, h1, h2⟩ := add_form a b (by simpa using za) (by simpa using zb)
  obtain ⟨r, h3, h4, h5, h6⟩ := fit_repr neg m _ _ h2 h
  exact ⟨r, by rw [h1, h3], h4, h5, h6⟩

theorem rounded_self (d : Dec) : RoundedTo d d.val := by
  unfold RoundedTo; rw [sub_self, abs_zero]; positivity

/-- Whatever addition returns is the exact sum rounded to the decimals of the result. -/
theorem add_rounded (a b r : Dec) (ha : a.Valid) (hb : b.Valid) (h : add a b = .ok r) :
    RoundedTo r (a.val + b.val) ∧ r.Valid := by
  by_cases za : a.isZero = true
  · simp [add, za] at h; subst h
    rw [zero_val a za, zero_add]; exact ⟨rounded_self b, hb⟩
  by_cases zb : b.isZero = true
  · simp [add, za, zb] at h; subst h
    rw [zero_val b zb, add_zero]; exact ⟨rounded_self a, ha⟩
  obtain ⟨neg, m, h1, h2⟩ := add_form a b (by simpa using za) (by simpa using zb)
  rw [h1] at h
  rw [h2]
  exact fit_rounded _ _ _ _ h

theorem valid_lt (d : Dec) (h : d.Valid) : |d.val| < 2 ^ 96 := by
  rw [abs_val]
  have h1 : (d.mant : ℚ) < 2 ^ 96 := by exact_mod_cast h.1
  have h2 : (1 : ℚ) ≤ 10 ^ d.scale := one_le_pow₀ (by norm_num)
  have h3 : (d.mant : ℚ) / 10 ^ d.scale ≤ d.mant := div_le_self (by positivity) h2
  linarith

/-- A sum whose integer part needs more than 96 bits panics. -/
theorem add_overflow (a b : Dec) (ha : a.Valid) (hb : b.Valid) (h : 2 ^ 96 ≤ |a.val + b.val|) :
    add a b = .error .decimalOverflow := by
  by_cases za : a.isZero = true
  · rw [zero_val a za, zero_add] at h; have := valid_lt b hb; linarith
  by_cases zb : b.isZero = true
  · rw [zero_val b zb, add_zero] at h; have := valid_lt a ha; linarith
  obtain ⟨neg, m, h1, h2⟩ := add_form a b (by simpa using za) (by simpa using zb)
  rw [h1]
  apply fit_overflow
  rw [h2, abs_div, abs_mul, abs_sgn, one_mul] at h
  simpa using h

theorem add_error (a b : Dec) (e : Panic) (h : add a b = .error e) : e = .decimalOverflow := by
  by_cases za : a.isZero = true
  · simp [add, za] at h
  by_cases zb : b.isZero = true
  · simp [add, za, zb] at h
  obtain ⟨neg, m, h1, h2⟩ := add_form a b (by simpa using za) (by simpa using zb)
  rw [h1] at h
  exact fit_error _ _ _ _ h

/-- The quantity with the opposite sign. -/
theorem val_flip (d : Dec) : ({ d with neg := !d.neg } : Dec).val = - d.val := by
  rw [val_eq, val_eq]; simp only [sgn_not]; ring

theorem valid_neg (d : Dec) (b : Bool) (h : d.Valid) : ({ d with neg := b } : Dec).Valid := h

theorem sub_form (a b : Dec) (hb : b.isZero = false) : sub a b = add a { b with neg := !b.neg } := by
  simp [sub, hb]

theorem sub_exact (a b : Dec) (ha : a.Valid) (hb : b.Valid) (h : Representable (a.val - b.val)) :
    ∃ r, sub a b = .ok r ∧ r.val = a.val - b.val ∧ r.Valid ∧ r.scale ≤ max a.scale b.scale := by
  by_cases zb : b.isZero = true
  · by_cases za : a.isZero = true
    · exact ⟨b, by simp [sub, za, zb], by rw [zero_val a za, zero_val b zb]; ring, hb, by omega⟩
    · exact ⟨a, by simp [sub, za, zb], by rw [zero_val b zb]; ring, ha, by omega⟩
  · rw [sub_form a b (by simpa using zb)]
    have e : a.val - b.val = a.val + ({ b with neg := !b.neg } : Dec).val := by rw [val_flip]; ring
    rw [e] at h ⊢
    exact add_exact a _ ha (valid_neg b _ hb) h

theorem sub_rounded (a b r : Dec) (ha : a.Valid) (hb : b.Valid) (h : sub a b = .ok r) :
    RoundedTo r (a.val - b.val) ∧ r.Valid := by
  by_cases zb : b.isZero = true
  · by_cases za : a.isZero = true
    · simp [sub, za, zb] at h; subst h
      rw [zero_val a za, zero_val b zb, sub_zero, ← zero_val b zb]; exact ⟨rounded_self b, hb⟩
    · simp [sub, za, zb] at h; subst h
      rw [zero_val b zb, sub_zero]; exact ⟨rounded_self a, ha⟩
  · rw [sub_form a b (by simpa using zb)] at h
    have e : a.val - b.val = a.val + ({ b with neg := !b.neg } : Dec).val := by rw [val_flip]; ring
    rw [e]
    exact add_rounded a _ r ha (valid_neg b _ hb) h

theorem mul_form (a b : Dec) (ha : a.isZero = false) (hb : b.isZero = false) :
    mul a b = fit (a.neg != b.neg) (a.mant * b.mant) (a.scale + b.scale) := by
  simp [mul, ha, hb]

theorem mul_val (a b : Dec) :
    a.val * b.val = sgn (a.neg != b.neg) * (a.mant * b.mant : Nat) / 10 ^ (a.scale + b.scale) := by
  rw [val_eq, val_eq, sgn_bne, pow_add]; push_cast
  have p1 := pow10_pos a.scale
  have p2 := pow10_pos b.scale
  field_simp

/-- If the exact product is representable, multiplication returns it. -/
theorem mul_exact (a b : Dec) (h : Representable (a.val * b.val)) :
    ∃ r, mul a b = .ok r ∧ r.val = a.val * b.val ∧ r.Valid ∧ r.scale ≤ a.scale + b.scale := by
  by_cases z : (a.isZero || b.isZero) = true
  · refine ⟨zero, by simp [mul, z], ?_, by decide, by simp [zero]⟩
    rw [val_zero]
    rcases Bool.or_eq_true _ _ ▸ z with z | z
    · rw [zero_val a z]; ring
    · rw [zero_val b z]; ring
  · simp only [Bool.or_eq_true, not_or, Bool.not_eq_true] at z
    rw [mul_form a b z.1 z.2]
    exact fit_repr _ _ _ _ (mul_val a b) h

theorem valid_zero : zero.Valid := by decide

theorem mul_rounded (a b r : Dec) (h : mul a b = .ok r) :
    RoundedTo r (a.val * b.val) ∧ r.Valid := by
  by_cases z : (a.isZero || b.isZero) = true
  · simp [mul, z] at h; subst h
    have : a.val * b.val = zero.val := by
      rw [val_zero]
      rcases Bool.or_eq_true _ _ ▸ z with z | z
      · rw [zero_val a z]; ring
      · rw [zero_val b z]; ring
    rw [this]; exact ⟨rounded_self _, valid_zero⟩
  · simp only [Bool.or_eq_true, not_or, Bool.not_eq_true] at z
    rw [mul_form a b z.1 z.2] at h
    rw [mul_val]
    exact fit_rounded _ _ _ _ h

theorem mul_error (a b : Dec) (e : Panic) (h : mul a b = .error e) : e = .decimalOverflow := by
  unfold mul at h
  split at h
  · cases h
  · exact fit_error _ _ _ _ h

/-- The sign of a product. -/
theorem mul_neg (a b r : Dec) (h : mul a b = .ok r) (hr : r.isZero = false) :
    r.neg = (a.neg != b.neg) := by
  unfold mul at h
  split at h
  · injection h with h; subst h; simp [isZero, zero] at hr
  · have : ∀ neg m s f k, fitGo neg m s f k = .ok r → r.neg = neg := by
      intro neg m s f
      induction f with
      | zero => intro k h; simp [fitGo] at h
      | succ f ih =>
        intro k h
        unfold fitGo at h
        simp only at h
        split at h
        · injection h with h; subst h; rfl
        · exact ih _ h
    exact this _ _ _ _ _ h

theorem strip_val (neg : Bool) (m s : Nat) :
    (strip neg m s).val = sgn neg * m / 10 ^ s ∧ (strip neg m s).mant ≤ m ∧ (strip neg m s).scale ≤ s ∧
      (strip neg m s).neg = neg := by
  induction s generalizing m with
  | zero => unfold strip; rw [val_mk]; simp
  | succ s ih =>
    unfold strip
    split
    · rename_i h
      obtain ⟨h1, h2, h3, h4⟩ := ih (m / 10)
      refine ⟨?_, by omega, by omega, h4⟩
      rw [h1]
      have : m = m / 10 * 10 := by omega
      have e : (m : ℚ) = (m / 10 : Nat) * 10 := by exact_mod_cast this
      rw [e, pow_succ]
      have p := pow10_pos s
      field_simp
    · exact ⟨val_mk _ _ _, Nat.le_refl _, Nat.le_refl _, rfl⟩

theorem divGo_exact (neg : Bool) (n d m' s' : Nat) (hd : 0 < d) (hm' : m' < 2 ^ 96)
    (h : n * 10 ^ s' = m' * d) : ∀ s, s' ≤ s → s ≤ 28 →
      ∃ r, divGo neg n d s = .ok r ∧ r.val = sgn neg * m' / 10 ^ s' ∧ r.Valid ∧ r.neg = neg := by
  intro s
  induction s with
  | zero =>
    intro h1 _
    have : s' = 0 := by omega
    subst this
    have hn : n = m' * d := by simpa using h
    unfold divGo
    simp only [hn, roundDiv_mul _ _ hd, hm', if_true]
    exact ⟨_, rfl, by rw [val_mk], ⟨hm', by simp⟩, rfl⟩
  | succ s ih =>
    intro h1 h2
    have hq : n * 10 ^ (s + 1) = m' * 10 ^ (s + 1 - s') * d := by
      have : n * 10 ^ (s + 1) = n * 10 ^ s' * 10 ^ (s + 1 - s') := by
        rw [Nat.mul_assoc, ← Nat.pow_add]; congr 2; omega
      rw [this, h]; ring
    unfold divGo
    simp only [hq, roundDiv_mul _ _ hd]
    split
    · rename_i hlt
      obtain ⟨g1, g2, g3, g4⟩ := strip_val neg (m' * 10 ^ (s + 1 - s')) (s + 1)
      refine ⟨_, rfl, ?_, ⟨by omega, by omega⟩, g4⟩
      rw [g1]
      have e : ((10 : ℚ) ^ (s + 1)) = 10 ^ (s + 1 - s') * 10 ^ s' := by rw [← pow_add]; congr 1; omega
      rw [e]; push_cast
      have p := pow10_pos (s + 1 - s')
      have p' := pow10_pos s'
      field_simp
    · rename_i hge
      have : s' ≠ s + 1 := by
        intro e; subst e; simp at hge; omega
      exact ih (by omega) (by omega)

theorem div_val (a b : Dec) (hb : b.mant ≠ 0) :
    a.val / b.val = sgn (a.neg != b.neg) * ((a.mant * 10 ^ b.scale : Nat) / (b.mant * 10 ^ a.scale : Nat) : ℚ) := by
  rw [val_eq, val_eq, sgn_bne]
  have p1 := pow10_pos a.scale
  have p2 := pow10_pos b.scale
  have hb' : (b.mant : ℚ) ≠ 0 := by exact_mod_cast hb
  have e : sgn b.neg * sgn b.neg = 1 := sgn_mul_self _
  have e' : sgn b.neg ≠ 0 := sgn_ne _
  push_cast
  field_simp
  rw [pow_two, e, mul_one]

/-- If the exact quotient is representable, division returns it. -/
theorem div_exact (a b : Dec) (hb : b.isZero = false) (h : Representable (a.val / b.val)) :
    ∃ r, div a b = .ok r ∧ r.val = a.val / b.val ∧ r.Valid := by
  by_cases za : a.isZero = true
  · exact ⟨zero, by simp [div, hb, za], by rw [val_zero, zero_val a za]; simp, valid_zero⟩
  · have hbm : b.mant ≠ 0 := by simpa [isZero] using hb
    obtain ⟨x, ⟨hx1, hx2⟩, hx⟩ := h
    have hpos : 0 < b.mant * 10 ^ a.scale := Nat.mul_pos (by omega) (npow10_pos _)
    have hval := div_val a b hbm
    have habs : ((a.mant * 10 ^ b.scale : Nat) / (b.mant * 10 ^ a.scale : Nat) : ℚ) = x.mant / 10 ^ x.scale := by
      rw [← abs_val, hx, hval, abs_mul, abs_sgn, one_mul, abs_of_nonneg (by positivity)]
    have hnat : (a.mant * 10 ^ b.scale) * 10 ^ x.scale = x.mant * (b.mant * 10 ^ a.scale) := by
      have hpos' : (0 : ℚ) < (b.mant * 10 ^ a.scale : Nat) := by exact_mod_cast hpos
      have p := pow10_pos x.scale
      rw [div_eq_div_iff (ne_of_gt hpos') (ne_of_gt p)] at habs
      exact_mod_cast habs
    obtain ⟨r, h1, h2, h3, _⟩ := divGo_exact (a.neg != b.neg) _ _ _ _ hpos hx1 hnat 28 hx2 (Nat.le_refl _)
    refine ⟨r, ?_, ?_, h3⟩
    · unfold div
      simp only [hb, za, Bool.false_eq_true, if_false]
      exact h1
    · rw [h2, hval, habs]; ring

/-- Whatever a division returns is a non-negative multiple of the expected sign. -/
theorem divGo_neg (neg : Bool) (n d s : Nat) (r : Dec) (h : divGo neg n d s = .ok r) :
    r.neg = neg ∧ r.mant < 2 ^ 96 ∧ r.scale ≤ s := by
  induction s with
  | zero =>
    unfold divGo at h
    simp only at h
    split at h
    · rename_i hlt; injection h with h; subst h; exact ⟨rfl, hlt, Nat.le_refl _⟩
    · cases h
  | succ s ih =>
    unfold divGo at h
    simp only at h
    split at h
    · rename_i hlt
      injection h with h; subst h
      obtain ⟨_, g2, g3, g4⟩ := strip_val neg (roundDiv (n * 10 ^ (s + 1)) d) (s + 1)
      exact ⟨g4, by omega, g3⟩
    · obtain ⟨h1, h2, h3⟩ := ih h; exact ⟨h1, h2, by omega⟩

theorem div_valid (a b r : Dec) (h : div a b = .ok r) : r.Valid := by
  unfold div at h
  split at h
  · cases h
  · split at h
    · injection h with h; subst h; exact valid_zero
    · obtain ⟨_, h2, h3⟩ := divGo_neg _ _ _ _ _ h; exact ⟨h2, h3⟩

theorem rounded_div (neg : Bool) (n d s : Nat) (hd : 0 < d) (q : Nat)
    (hq : q = roundDiv (n * 10 ^ s) d) (r : Dec) (hr : r.val = sgn neg * q / 10 ^ s) (hs : r.scale ≤ s) :
    RoundedTo r (sgn neg * ((n : ℚ) / d)) := by
  unfold RoundedTo
  obtain ⟨b1, b2⟩ := roundDiv_bound (n * 10 ^ s) d hd
  rw [← hq] at b1 b2
  have hd' : (0 : ℚ) < d := by exact_mod_cast hd
  have p := pow10_pos s
  have c1 : (2 : ℚ) * (n * 10 ^ s) ≤ 2 * (q * d) + d := by exact_mod_cast b1
  have c2 : (2 : ℚ) * (q * d) ≤ 2 * (n * 10 ^ s) + d := by exact_mod_cast b2
  have e : r.val - sgn neg * ((n : ℚ) / d) = sgn neg * ((q * d - n * 10 ^ s) / (10 ^ s * d)) := by
    rw [hr]; field_simp
  rw [e, abs_mul, abs_sgn, one_mul, abs_div, abs_of_pos (mul_pos p hd')]
  have h1 : |(q : ℚ) * d - n * 10 ^ s| / (10 ^ s * d) ≤ 1 / 2 / 10 ^ s := by
    rw [div_le_div_iff₀ (mul_pos p hd') p]
    have : |(q : ℚ) * d - n * 10 ^ s| ≤ d / 2 := by rw [abs_le]; constructor <;> linarith
    have := mul_le_mul_of_nonneg_right this (le_of_lt p)
    linarith
  refine le_trans h1 ?_
  apply div_le_div_of_nonneg_left (by norm_num) (pow10_pos _)
  exact pow_le_pow_right₀ (by norm_num) hs

theorem divGo_rounded (neg : Bool) (n d s : Nat) (hd : 0 < d) (r : Dec) (h : divGo neg n d s = .ok r) :
    RoundedTo r (sgn neg * ((n : ℚ) / d)) := by
  induction s with
  | zero =>
    unfold divGo at h
    simp only at h
    split at h
    · injection h with h; subst h
      exact rounded_div neg n d 0 hd (roundDiv n d) (by simp) _ (by rw [val_mk]) (Nat.le_refl _)
    · cases h
  | succ s ih =>
    unfold divGo at h
    simp only at h
    split at h
    · injection h with h; subst h
      obtain ⟨g1, g2, g3, g4⟩ := strip_val neg (roundDiv (n * 10 ^ (s + 1)) d) (s + 1)
      exact rounded_div neg n d (s + 1) hd _ rfl _ g1 g3
    · exact ih h

/-- Whatever division returns is the exact quotient rounded to the decimals of the result. -/
theorem div_rounded (a b r : Dec) (h : div a b = .ok r) : RoundedTo r (a.val / b.val) ∧ r.Valid := by
  refine ⟨?_, div_valid a b r h⟩
  unfold div at h
  split at h
  · cases h
  · rename_i zb
    have hbm : b.mant ≠ 0 := by simpa [isZero] using zb
    split at h
    · rename_i za
      injection h with h; subst h
      rw [zero_val a za, zero_div, ← val_zero]; exact rounded_self _
    · rw [div_val a b hbm]
      exact divGo_rounded _ _ _ _ (Nat.mul_pos (by omega) (npow10_pos _)) _ h

theorem representable_val (d : Dec) (h : d.Valid) : Representable d.val := ⟨d, h, rfl⟩

theorem representable_neg (x : ℚ) (h : Representable x) : Representable (-x) := by
  obtain ⟨d, hd, rfl⟩ := h
  exact ⟨{ d with neg := !d.neg }, hd, val_flip d⟩

theorem representable_zero : Representable 0 := ⟨zero, valid_zero, val_zero⟩

end Dec
end Ledger
