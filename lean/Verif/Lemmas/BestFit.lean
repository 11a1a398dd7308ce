import Verif.Spec.BestFit
import Verif.Lemmas.DecRange
/-
The results of the arithmetic operations are the best fit of the exact results.
-/
namespace Ledger

theorem nearestEven_int (z : ℤ) : NearestEven z z := by
  unfold NearestEven
  rw [sub_self, abs_zero]
  exact ⟨by norm_num, by norm_num⟩

theorem nearestEven_unique {x : ℚ} {z w : ℤ} (hz : NearestEven x z) (hw : NearestEven x w) : z = w := by
  obtain ⟨h1, h2⟩ := hz
  obtain ⟨h3, h4⟩ := hw
  by_contra hne
  have hd : (1 : ℚ) ≤ |(z : ℚ) - w| := by
    have : 1 ≤ |z - w| := Int.one_le_abs (sub_ne_zero.mpr hne)
    have h5 : ((1 : ℤ) : ℚ) ≤ ((|z - w| : ℤ) : ℚ) := Int.cast_le.mpr this
    push_cast at h5
    exact h5
  have ht : |(z : ℚ) - w| ≤ |x - z| + |x - w| := by
    have : (z : ℚ) - w = (x - w) - (x - z) := by ring
    rw [this]
    have := abs_sub (x - w) (x - z)
    linarith
  have e1 := h2 (by linarith)
  have e2 := h4 (by linarith)
  have hle : |z - w| ≤ 1 := by
    have h5 : ((|z - w| : ℤ) : ℚ) ≤ ((1 : ℤ) : ℚ) := by push_cast; linarith
    exact Int.cast_le.mp h5
  have hev := e1.sub e2
  obtain ⟨k, hk⟩ := hev
  have : z - w ≠ 0 := sub_ne_zero.mpr hne
  rw [abs_le] at hle
  omega

theorem nearestEven_neg {x : ℚ} {z : ℤ} (h : NearestEven x z) : NearestEven (-x) (-z) := by
  obtain ⟨h1, h2⟩ := h
  have e : |(-x) - ((-z : ℤ) : ℚ)| = |x - z| := by
    push_cast
    rw [← abs_neg]
    congr 1; ring
  unfold NearestEven
  rw [e]
  exact ⟨h1, fun h => (h2 h).neg⟩

theorem roundDiv_nearest (n d : Nat) (hd : 0 < d) : NearestEven ((n : ℚ) / d) (Dec.roundDiv n d : Nat) := by
  have cast : ∀ k : Nat, (((k : Nat) : ℤ) : ℚ) = (k : ℚ) := fun k => Int.cast_natCast k
  have hdq : (0 : ℚ) < d := by exact_mod_cast hd
  have h1 : (n : ℚ) = d * (n / d : Nat) + (n % d : Nat) := by exact_mod_cast (Nat.div_add_mod n d).symm
  have h2 : (n % d : Nat) < d := Nat.mod_lt n hd
  have e : (n : ℚ) / d = (n / d : Nat) + ((n % d : Nat) : ℚ) / d := by
    rw [h1]
    field_simp
  have hf : (0 : ℚ) ≤ ((n % d : Nat) : ℚ) / d := by positivity
  unfold Dec.roundDiv
  simp only
  split
  · rename_i h
    simp only [Bool.or_eq_true, decide_eq_true_eq, Bool.and_eq_true, beq_iff_eq] at h
    have hr : (d : ℚ) ≤ 2 * (n % d : Nat) := by
      rcases h with h | ⟨h, _⟩
      · exact_mod_cast h.le
      · exact_mod_cast h.ge
    have hlt : ((n % d : Nat) : ℚ) / d < 1 := by rw [div_lt_one hdq]; exact_mod_cast h2
    have hge : (1 : ℚ) / 2 ≤ ((n % d : Nat) : ℚ) / d := by rw [div_le_div_iff₀ (by norm_num) hdq]; linarith
    have ea : |(n : ℚ) / d - (((n / d + 1 : Nat) : ℤ) : ℚ)| = 1 - ((n % d : Nat) : ℚ) / d := by
      rw [e, cast, Nat.cast_add, Nat.cast_one, abs_of_nonpos (by linarith)]; ring
    unfold NearestEven
    rw [ea]
    refine ⟨by linarith, fun h' => ?_⟩
    have h3 : ((n % d : Nat) : ℚ) / d = 1 / 2 := by linarith
    rw [div_eq_div_iff hdq.ne' (by norm_num)] at h3
    have h4 : 2 * (n % d) = d := by
      have : ((2 * (n % d) : Nat) : ℚ) = (d : Nat) := by push_cast; linarith
      exact_mod_cast this
    rcases h with h | ⟨_, h⟩
    · omega
    · refine Int.even_iff.mpr ?_
      push_cast
      omega
  · rename_i h
    simp only [Bool.or_eq_true, decide_eq_true_eq, Bool.and_eq_true, beq_iff_eq, not_or, not_and] at h
    have hr : (2 * (n % d : Nat) : ℚ) ≤ d := by
      have : 2 * (n % d) ≤ d := by omega
      exact_mod_cast this
    have hle : ((n % d : Nat) : ℚ) / d ≤ 1 / 2 := by rw [div_le_div_iff₀ hdq (by norm_num)]; linarith
    have ea : |(n : ℚ) / d - (((n / d : Nat) : ℤ) : ℚ)| = ((n % d : Nat) : ℚ) / d := by
      rw [e, cast, add_sub_cancel_left, abs_of_nonneg hf]
    unfold NearestEven
    rw [ea]
    refine ⟨hle, fun h' => ?_⟩
    rw [div_eq_div_iff hdq.ne' (by norm_num)] at h'
    have h4 : 2 * (n % d) = d := by
      have : ((2 * (n % d) : Nat) : ℚ) = (d : Nat) := by push_cast; linarith
      exact_mod_cast this
    have h5 := h.2 h4
    refine Int.even_iff.mpr ?_
    omega

theorem sgn_nearest (neg : Bool) {x : ℚ} {m : Nat} (h : NearestEven x (m : Nat)) :
    ∃ z : ℤ, NearestEven (Dec.sgn neg * x) z ∧ |z| = m ∧ (z : ℚ) = Dec.sgn neg * m := by
  cases neg with
  | false => exact ⟨m, by simpa [Dec.sgn] using h, by simp, by simp [Dec.sgn]⟩
  | true => exact ⟨-m, by simpa [Dec.sgn] using nearestEven_neg h, by simp, by simp [Dec.sgn]⟩

/-- A number too large for some number of decimals is too large for more. -/
theorem nearest_grows {x : ℚ} {S S' : Nat} {z z' : ℤ} (h : NearestEven (x * 10 ^ S) z) (h' : NearestEven (x * 10 ^ S') z') (hS : S ≤ S')
    (hz : 2 ^ 96 ≤ |z|) : 2 ^ 96 ≤ |z'| := by
  rcases Nat.eq_or_lt_of_le hS with rfl | hlt
  · rwa [← nearestEven_unique h h']
  have hzq : (2 : ℚ) ^ 96 ≤ |(z : ℚ)| := by exact_mod_cast hz
  have h1 : |(z : ℚ)| - 1 / 2 ≤ |x * 10 ^ S| := by
    have := abs_sub_abs_le_abs_sub (z : ℚ) (x * 10 ^ S)
    rw [abs_sub_comm] at this
    linarith [h.1]
  have h2 : |x * 10 ^ S'| - 1 / 2 ≤ |(z' : ℚ)| := by
    have := abs_sub_abs_le_abs_sub (x * 10 ^ S') (z' : ℚ)
    linarith [h'.1]
  have h3 : |x * 10 ^ S| * 10 ≤ |x * 10 ^ S'| := by
    have e : x * 10 ^ S' = x * 10 ^ S * 10 ^ (S' - S) := by
      rw [mul_assoc, ← pow_add]; congr 2; omega
    rw [e, abs_mul (x * 10 ^ S), abs_of_pos (Dec.pow10_pos (S' - S))]
    refine mul_le_mul_of_nonneg_left ?_ (abs_nonneg _)
    calc (10 : ℚ) = 10 ^ 1 := by norm_num
      _ ≤ 10 ^ (S' - S) := pow_le_pow_right₀ (by norm_num) (by omega)
  have h4 : (2 : ℚ) ^ 96 ≤ |(z' : ℚ)| := by
    have : (1 : ℚ) ≤ 2 ^ 96 := by norm_num
    linarith
  exact_mod_cast h4

theorem bestFit_unique {x v w : ℚ} (hv : BestFit x v) (hw : BestFit x w) : v = w := by
  obtain ⟨S, z, a1, a2, a3, rfl, a5⟩ := hv
  obtain ⟨T, y, b1, b2, b3, rfl, b5⟩ := hw
  rcases Nat.lt_trichotomy S T with h | rfl | h
  · exact absurd (a5 T y h b1 b2) (not_le.mpr b3)
  · rw [nearestEven_unique a2 b2]
  · exact absurd (b5 S z h a1 a2) (not_le.mpr a3)

/-- What fits exactly is its own best fit. -/
theorem bestFit_exact {x : ℚ} (h : Representable x) : BestFit x x := by
  obtain ⟨d, ⟨h1, h2⟩, rfl⟩ := h
  let P : Nat → Prop := fun S => d.scale ≤ S ∧ d.mant * 10 ^ (S - d.scale) < 2 ^ 96
  have hP : P d.scale := ⟨le_rfl, by simpa using h1⟩
  have hg := Nat.findGreatest_spec (P := P) h2 hP
  have hle := Nat.findGreatest_le (P := P) 28
  have hmax : ∀ k, Nat.findGreatest P 28 < k → k ≤ 28 → ¬ P k := fun k => Nat.findGreatest_is_greatest
  generalize Nat.findGreatest P 28 = S at hg hle hmax
  have hex : ∀ k, d.scale ≤ k → ∃ z : ℤ, d.val * 10 ^ k = z ∧ |z| = (d.mant * 10 ^ (k - d.scale) : Nat) := by
    intro k hk
    refine ⟨d.signed * 10 ^ (k - d.scale), ?_, ?_⟩
    · unfold Dec.val
      have e : ((10 : ℚ) ^ k) = 10 ^ (k - d.scale) * 10 ^ d.scale := by rw [← pow_add]; congr 1; omega
      have p := Dec.pow10_pos d.scale
      rw [e]; push_cast; field_simp
    · rw [abs_mul, abs_of_pos (by positivity : (0 : ℤ) < 10 ^ (k - d.scale))]
      push_cast
      congr 1
      unfold Dec.signed
      split <;> simp
  obtain ⟨z, e1, e2⟩ := hex S hg.1
  refine ⟨S, z, hle, by rw [e1]; exact nearestEven_int z, by rw [e2]; exact_mod_cast hg.2, ?_, ?_⟩
  · rw [← e1]; have p := Dec.pow10_pos S; field_simp
  · intro S' z' hlt h28 hn
    obtain ⟨y, f1, f2⟩ := hex S' (by have := hg.1; omega)
    rw [f1] at hn
    rw [← nearestEven_unique (nearestEven_int y) hn, f2]
    have := hmax S' hlt h28
    have hg1 := hg.1
    have : ¬ d.mant * 10 ^ (S' - d.scale) < 2 ^ 96 := fun h => this ⟨by omega, h⟩
    exact_mod_cast not_lt.mp this

theorem fit_best (neg : Bool) (m s : Nat) (r : Dec) (h : Dec.fit neg m s = .ok r) : BestFit (Dec.sgn neg * m / 10 ^ s) r.val := by
  unfold Dec.fit at h
  obtain ⟨i, h1, h2, h3, h4, h5⟩ := Dec.fitGo_found neg m s _ _ r h
  by_cases hs : s < 28 ∧ i = s - 28
  · have hi : i = 0 := by omega
    subst hi
    rw [pow_zero, Dec.roundDiv_one] at h3 h4
    have e : r.val = Dec.sgn neg * m / 10 ^ s := by rw [h3, Dec.val_mk]; simp
    rw [← e]
    exact bestFit_exact ⟨r, ⟨by rw [h3]; exact h4, by rw [h3]; simp; omega⟩, rfl⟩
  · have key : ∀ k ≤ s, ∃ z : ℤ, NearestEven (Dec.sgn neg * m / 10 ^ s * 10 ^ (s - k)) z ∧ |z| = Dec.roundDiv m (10 ^ k) ∧
        (z : ℚ) = Dec.sgn neg * Dec.roundDiv m (10 ^ k) := by
      intro k hk
      rw [Dec.scaled neg m s k hk]
      exact sgn_nearest neg (roundDiv_nearest m (10 ^ k) (Dec.npow10_pos k))
    obtain ⟨z, z1, z2, z3⟩ := key i (by omega)
    refine ⟨s - i, z, by omega, z1, by rw [z2]; exact_mod_cast h4, by rw [h3, Dec.val_mk, z3], ?_⟩
    intro S' z' hlt h28 hn
    have hik : i ≠ s - 28 := by omega
    obtain ⟨y, y1, y2, _⟩ := key (i - 1) (by omega)
    refine nearest_grows y1 hn (by omega) ?_
    rw [y2]
    exact_mod_cast not_lt.mp (h5.resolve_left hik)

namespace Dec

theorem add_best (a b r : Dec) (ha : a.Valid) (hb : b.Valid) (h : add a b = .ok r) : BestFit (a.val + b.val) r.val := by
  by_cases za : a.isZero = true
  · simp only [add, za, if_true] at h
    injection h with h
    rw [← h, zero_val a za, zero_add]
    exact bestFit_exact (representable_val b hb)
  by_cases zb : b.isZero = true
  · simp only [add, za, zb, if_true] at h
    injection h with h
    rw [← h, zero_val b zb, add_zero]
    exact bestFit_exact (representable_val a ha)
  obtain ⟨neg, m, h1, h2⟩ := add_form a b (by simpa using za) (by simpa using zb)
  rw [h2]
  exact fit_best neg m _ r (by rw [← h1]; exact h)

theorem sub_best (a b r : Dec) (ha : a.Valid) (hb : b.Valid) (h : sub a b = .ok r) : BestFit (a.val - b.val) r.val := by
  by_cases zb : b.isZero = true
  · rw [zero_val b zb, sub_zero]
    unfold sub at h
    rw [if_pos zb] at h
    split at h <;> injection h with h <;> subst h
    · rename_i za
      rw [zero_val a za, zero_val _ zb]
      exact bestFit_exact representable_zero
    · exact bestFit_exact (representable_val _ ha)
  · rw [sub_form a b (by simpa using zb)] at h
    have e : a.val - b.val = a.val + ({ b with neg := !b.neg } : Dec).val := by rw [val_flip]; ring
    rw [e]
    exact add_best a _ r ha (valid_neg b _ hb) h

theorem mul_best (a b r : Dec) (h : mul a b = .ok r) : BestFit (a.val * b.val) r.val := by
  by_cases z : (a.isZero || b.isZero) = true
  · simp only [mul, z, if_true] at h
    injection h with h
    have e : a.val * b.val = 0 := by
      rcases Bool.or_eq_true _ _ ▸ z with z | z
      · rw [zero_val a z]; ring
      · rw [zero_val b z]; ring
    rw [← h, val_zero, e]
    exact bestFit_exact representable_zero
  · simp only [Bool.or_eq_true, not_or, Bool.not_eq_true] at z
    rw [mul_form a b z.1 z.2] at h
    rw [mul_val]
    exact fit_best _ _ _ r h

theorem div_best (a b r : Dec) (h : div a b = .ok r) : BestFit (a.val / b.val) r.val := by
  unfold div at h
  split at h
  · cases h
  rename_i hb
  split at h
  · rename_i za
    injection h with h
    rw [← h, val_zero, zero_val a za, zero_div]
    exact bestFit_exact representable_zero
  · have hb' : b.mant ≠ 0 := by simpa [isZero] using hb
    rw [div_val a b hb']
    have hd : 0 < b.mant * 10 ^ a.scale := Nat.mul_pos (Nat.pos_of_ne_zero hb') (npow10_pos _)
    generalize a.mant * 10 ^ b.scale = n at *
    generalize b.mant * 10 ^ a.scale = d at *
    generalize (a.neg != b.neg) = neg at *
    obtain ⟨S, h1, h2, h3, h4⟩ := divGo_found neg n d 28 r h
    have key : ∀ k, ∃ z : ℤ, NearestEven (sgn neg * ((n : ℚ) / d) * 10 ^ k) z ∧ |z| = roundDiv (n * 10 ^ k) d ∧
        (z : ℚ) = sgn neg * roundDiv (n * 10 ^ k) d := by
      intro k
      rw [div_scaled]
      exact sgn_nearest neg (roundDiv_nearest _ d hd)
    obtain ⟨z, z1, z2, z3⟩ := key S
    refine ⟨S, z, h1, z1, by rw [z2]; exact_mod_cast h3, by rw [h2, (strip_val _ _ _).1, z3], ?_⟩
    intro S' z' hlt h28 hn
    obtain ⟨y, y1, y2, _⟩ := key (S + 1)
    refine nearest_grows y1 hn (by omega) ?_
    rw [y2]
    exact_mod_cast not_lt.mp (h4.resolve_left (by omega))

end Dec
end Ledger
