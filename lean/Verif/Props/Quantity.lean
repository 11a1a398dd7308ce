import Verif.Lemmas.DecText
import Verif.Lemmas.Balance
import Verif.Lemmas.DecRange
/-
Properties C01-C06 and C67: quantities and amounts.
-/
namespace Ledger

/-- **C01** Formatting a quantity and parsing the text gives the same quantity: same sign, mantissa and scale.
The quantifier is every quantity `from_str` can produce: representable, and not a negative zero. -/
theorem C01_text_round_trip (d : Dec) (hv : d.Valid) (hz : d.neg = true → d.mant ≠ 0) :
    Dec.fromStr d.display = some d := by
  rw [Dec.fromStr_display d hv]
  congr 1
  cases d with
  | mk neg m s =>
    cases neg
    · simp
    · simpa using hz rfl

/-- **C01** in terms of the API only: print what was parsed, parse it again. -/
theorem C01_parse_print_parse (s : Str) (d : Dec) (h : Dec.fromStr s = some d) :
    Dec.fromStr d.display = some d :=
  C01_text_round_trip d (Dec.fromStr_valid s d h).1 (Dec.fromStr_valid s d h).2

/-- **C01** for every representable quantity, negative zero included: the value and the number of decimals
survive. -/
theorem C01_value_round_trip (d : Dec) (hv : d.Valid) :
    ∃ d', Dec.fromStr d.display = some d' ∧ d'.val = d.val ∧ d'.scale = d.scale := by
  refine ⟨_, Dec.fromStr_display d hv, ?_, rfl⟩
  rw [Dec.val_mk, Dec.val_eq]
  by_cases h : d.mant = 0
  · simp [h]
  · have : (d.mant != 0) = true := by simpa using h
    simp [this]

example : (Dec.mk true 12345 3).Valid ∧ (Dec.mk true 12345 3).display = str "-12.345" ∧
    Dec.fromStr (str "-12.345") = some ⟨true, 12345, 3⟩ := by decide
example : (Dec.mk false 5 2).display = str "0.05" ∧ Dec.fromStr (str "0.05") = some ⟨false, 5, 2⟩ := by decide

/-- **C02** A text is read as a quantity exactly if it is a decimal number that fits, and then the quantity is the
number the text denotes, with as many decimals as written. -/
theorem C02_parse_exact (s : Str) (d : Dec) :
    Dec.fromStr s = some d ↔ Numeral s d := by
  unfold Numeral
  constructor
  · intro h
    have hv := Dec.fromStr_valid s d h
    obtain ⟨neg, I, F, h1, h2, h3, rfl⟩ := (Dec.fromStr_iff s d).mp h
    refine ⟨neg, I, F, h1, Dec.fromStr_val neg I F, rfl, hv.1, ?_⟩
    intro hn
    rw [Ne, Dec.val_zero_iff]
    exact hv.2 hn
  · rintro ⟨neg, I, F, h1, h2, h3, h4, h5⟩
    rw [Dec.fromStr_iff]
    have hval := Dec.fromStr_val neg I F
    rw [← h2] at hval
    have hp := Dec.pow10_pos d.scale
    have habs := congrArg (fun x : ℚ => |x|) hval
    simp only [Dec.abs_val] at habs
    have hm : Dec.horner 0 (I ++ F) = d.mant := by
      rw [← h3] at habs
      rw [div_left_inj' (ne_of_gt hp)] at habs
      exact_mod_cast habs
    refine ⟨neg, I, F, h1, by rw [hm]; exact h4.1, by rw [← h3]; exact h4.2, ?_⟩
    rw [hm, ← h3]
    rw [hm, ← h3] at hval
    cases d with
    | mk n m sc =>
      simp only [Dec.mk.injEq, and_true]
      by_cases h0 : m = 0
      · subst h0
        cases n
        · simp
        · exfalso; apply h5 rfl; rw [Dec.val_mk]; simp
      · simp only [Dec.val_mk] at hval
        have hm0 : (m : ℚ) ≠ 0 := by exact_mod_cast h0
        have hsc := Dec.pow10_pos sc
        rw [div_left_inj' (ne_of_gt hsc), mul_left_inj' hm0] at hval
        cases n <;> cases hb : (neg && m != 0) <;> rw [hb] at hval <;> simp_all [Dec.sgn] <;> norm_num at hval

/-- **C02** A text that is not a number, or a number that does not fit, is refused. -/
theorem C02_otherwise_none (s : Str)
    (h : ∀ neg I F, NumberText s neg I F → ∀ d : Dec, d.Valid → d.scale = digitCount F → d.val ≠ numberVal neg I F) :
    Dec.fromStr s = none := by
  cases hd : Dec.fromStr s with
  | none => rfl
  | some d =>
    obtain ⟨neg, I, F, h1, h2, h3, h4, _⟩ := (C02_parse_exact s d).mp hd
    exact absurd h2 (h neg I F h1 d h4 h3)

example : Dec.fromStr (str "-1_000.50") = some ⟨true, 100050, 2⟩ ∧ Dec.fromStr (str "1,000") = none ∧
    Dec.fromStr (str "12a") = none ∧ Dec.fromStr (str "79228162514264337593543950336") = none ∧
    Dec.fromStr (str "0.00000000000000000000000000001") = none := by decide +kernel
example : NumberText (str "-1_000.50") true (str "1_000") (str "50") := by
  refine ⟨⟨['-'], by simp, by simp, Or.inr (by decide)⟩, by decide, by decide, by decide⟩

/-- **C03** (violated) The inverse of a negative amount is that amount itself: the sum with its "inverse" is twice
the amount. -/
theorem C03_inverse_violated :
    ∃ a : Amount, a.qty.Valid ∧ a.inverse.qty.val ≠ -a.qty.val ∧ a.inverse = a := by
  refine ⟨⟨⟨true, 20, 0⟩, some (str "EUR")⟩, by decide, ?_, by decide⟩
  have : (Amount.mk ⟨true, 20, 0⟩ (some (str "EUR"))).inverse.qty = ⟨true, 20, 0⟩ := by decide
  rw [this]
  intro h
  have h20 : (Dec.mk true 20 0).val = -20 := by simp [Dec.val_mk, Dec.sgn]
  rw [h20] at h
  norm_num at h

/-- **C03** (violated) in general: every amount with the negative sign is returned unchanged. -/
theorem C03_inverse_of_negative_unchanged (a : Amount) (h : a.qty.neg = true) : a.inverse = a := by
  unfold Amount.inverse Dec.isSignPositive
  rw [h]
  cases a; rfl

/-- **C03** (partial) For an amount that is not negative the inverse is the negation, in the same commodity and with
the same number of decimals, and the two add up to zero.  Missing: negative amounts, for which the claim is false
(`C03_inverse_violated`). -/
theorem C03_inverse_partial (a : Amount) (hv : a.qty.Valid) (h : 0 ≤ a.qty.val) :
    a.inverse.qty.val = -a.qty.val ∧ a.inverse.comm = a.comm ∧ a.inverse.qty.scale = a.qty.scale ∧
      ∃ r, a.add a.inverse = .ok r ∧ r.qty.val = 0 := by
  have hval : a.inverse.qty.val = -a.qty.val := by
    unfold Amount.inverse Dec.isSignPositive Dec.setSignNegative
    cases hn : a.qty.neg with
    | false =>
      simp only [Bool.not_false, if_true]
      rw [Dec.val_mk, Dec.val_eq, hn]
      simp [Dec.sgn]; ring
    | true =>
      simp only [Bool.not_true, Bool.false_eq_true, if_false]
      have hz : a.qty.val = 0 := by
        have : a.qty.val ≤ 0 := by
          rw [Dec.val_eq, hn]
          have : (0 : ℚ) ≤ a.qty.mant / 10 ^ a.qty.scale := by positivity
          simp only [Dec.sgn, if_true, neg_mul, one_mul, neg_div]
          linarith
        linarith
      rw [hz]; simp
  have hsc : a.inverse.qty.scale = a.qty.scale ∧ a.inverse.qty.mant = a.qty.mant := by
    unfold Amount.inverse Dec.setSignNegative; simp only; split <;> exact ⟨rfl, rfl⟩
  refine ⟨hval, rfl, hsc.1, ?_⟩
  unfold Amount.add
  have hc : a.comm = a.inverse.comm := rfl
  rw [if_neg (by simpa using hc)]
  split
  · rename_i hz
    have := Dec.zero_val _ hz
    rw [hval] at this
    exact ⟨a, rfl, by linarith⟩
  · have hr : Representable (a.qty.val + a.inverse.qty.val) := by
      rw [hval, add_neg_cancel]; exact Dec.representable_zero
    obtain ⟨r, h1, h2, _⟩ := Dec.add_exact a.qty a.inverse.qty hv ⟨by rw [hsc.2]; exact hv.1, by rw [hsc.1]; exact hv.2⟩ hr
    rw [h1]
    exact ⟨{ a with qty := r }, rfl, by rw [h2, hval, add_neg_cancel]⟩

example : (Amount.mk ⟨false, 2050, 2⟩ (some (str "EUR"))).inverse = ⟨⟨true, 2050, 2⟩, some (str "EUR")⟩ ∧
    (Dec.mk false 2050 2).Valid := by decide

/-- **C04** `invert` negates the quantity; twice is the identity; commodity and number of decimals stay. -/
theorem C04_invert (a : Amount) :
    a.invert.qty.val = -a.qty.val ∧ a.invert.comm = a.comm ∧ a.invert.qty.scale = a.qty.scale ∧
      a.invert.invert = a := by
  obtain ⟨⟨n, m, s⟩, c⟩ := a
  cases n
  · refine ⟨?_, rfl, rfl, rfl⟩
    show (Dec.mk true m s).val = - (Dec.mk false m s).val
    rw [Dec.val_mk, Dec.val_mk]; simp [Dec.sgn]; ring
  · refine ⟨?_, rfl, rfl, rfl⟩
    show (Dec.mk false m s).val = - (Dec.mk true m s).val
    rw [Dec.val_mk, Dec.val_mk]; simp [Dec.sgn]; ring

/-- **C04** `abs` is the absolute value; commodity and number of decimals stay. -/
theorem C04_abs (a : Amount) :
    a.abs.qty.val = |a.qty.val| ∧ a.abs.comm = a.comm ∧ a.abs.qty.scale = a.qty.scale := by
  refine ⟨?_, rfl, rfl⟩
  rw [Dec.abs_val]
  show (Dec.mk false a.qty.mant a.qty.scale).val = _
  rw [Dec.val_mk]; simp [Dec.sgn]

example : (Amount.mk ⟨true, 2050, 2⟩ (some (str "EUR"))).invert = ⟨⟨false, 2050, 2⟩, some (str "EUR")⟩ ∧
    (Amount.mk ⟨true, 2050, 2⟩ none).abs = ⟨⟨false, 2050, 2⟩, none⟩ := by decide

/-- The three ways of adding amounts (`+`, `+=`, `Amount::add`). -/
inductive AddKind where
  | plus
  | assign
  | method

/-- The addition called. -/
def AddKind.run : AddKind → Amount → Amount → Res Amount
  | .plus => Amount.addOp
  | .assign => Amount.addAssign
  | .method => Amount.add

theorem addKind_eq (k : AddKind) (a b : Amount) (hc : a.comm = b.comm) :
    (k.run a b = do let q ← a.qty.add b.qty; .ok ⟨q, a.comm⟩) ∨ (k.run a b = .ok a ∧ b.qty.isZero = true) := by
  have hn : ¬ (a.comm ≠ b.comm) := by simpa using hc
  cases k with
  | plus => left; show Amount.addOp a b = _; unfold Amount.addOp; rw [if_neg hn]
  | assign => left; show Amount.addAssign a b = _; unfold Amount.addAssign; rw [if_neg hn]
  | method =>
    show Amount.add a b = _ ∨ (Amount.add a b = _ ∧ _)
    unfold Amount.add; rw [if_neg hn]
    split
    · rename_i h; exact Or.inr ⟨rfl, h⟩
    · exact Or.inl rfl

/-- **C05** Same commodity: the exact sum in that commodity whenever it is representable. -/
theorem C05_add_exact (k : AddKind) (a b : Amount) (hc : a.comm = b.comm) (ha : a.qty.Valid) (hb : b.qty.Valid)
    (h : Representable (a.qty.val + b.qty.val)) :
    ∃ r, k.run a b = .ok r ∧ r.qty.val = a.qty.val + b.qty.val ∧ r.comm = a.comm ∧ r.qty.Valid := by
  rcases addKind_eq k a b hc with e | ⟨e, hz⟩
  · obtain ⟨r, h1, h2, h3, _⟩ := Dec.add_exact a.qty b.qty ha hb h
    rw [e, h1]
    exact ⟨_, rfl, h2, rfl, h3⟩
  · exact ⟨a, e, by rw [Dec.zero_val _ hz, add_zero], rfl, ha⟩

/-- **C05** Different commodities panic. -/
theorem C05_add_different (k : AddKind) (a b : Amount) (hc : a.comm ≠ b.comm) :
    k.run a b = .error .differentCommodities := by
  cases k
  · show Amount.addOp a b = _; unfold Amount.addOp; rw [if_pos hc]
  · show Amount.addAssign a b = _; unfold Amount.addAssign; rw [if_pos hc]
  · show Amount.add a b = _; unfold Amount.add; rw [if_pos hc]

/-- **C05** A sum is returned exactly if the commodities are the same and the integer nearest to it has at most 96 bits. -/
theorem C05_accepted (k : AddKind) (a b : Amount) (ha : a.qty.Valid) (hb : b.qty.Valid) :
    (∃ r, k.run a b = .ok r) ↔ a.comm = b.comm ∧ Moderate (a.qty.val + b.qty.val) := by
  by_cases hc : a.comm = b.comm
  · simp only [hc, true_and]
    rcases addKind_eq k a b hc with e | ⟨e, hz⟩
    · rw [← Dec.add_ok_iff _ _ ha hb, e]
      cases a.qty.add b.qty with
      | error x => simp [bind, Except.bind]
      | ok q => simp [bind, Except.bind]
    · rw [Dec.zero_val _ hz, add_zero]
      exact ⟨fun _ => Dec.moderate_val _ ha, fun _ => ⟨a, e⟩⟩
  · simp [hc, C05_add_different k a b hc]

/-- **C05** Any other sum of amounts in the same commodity panics with an overflow. -/
theorem C05_add_overflow (k : AddKind) (a b : Amount) (hc : a.comm = b.comm) (ha : a.qty.Valid) (hb : b.qty.Valid)
    (h : ¬ Moderate (a.qty.val + b.qty.val)) : k.run a b = .error .decimalOverflow := by
  rcases addKind_eq k a b hc with e | ⟨e, hz⟩
  · cases hq : a.qty.add b.qty with
    | error x => rw [e, hq, Dec.add_error _ _ _ hq]; rfl
    | ok q => exact absurd ((Dec.add_ok_iff _ _ ha hb).mp ⟨q, hq⟩) h
  · rw [Dec.zero_val _ hz, add_zero] at h
    exact absurd (Dec.moderate_val _ ha) h

/-- **C05** No wrapping and no mixing: whatever is returned is in the common commodity and is the exact sum, or that
rounded to as many decimals as fit. -/
theorem C05_add_sound (k : AddKind) (a b r : Amount) (ha : a.qty.Valid) (hb : b.qty.Valid) (h : k.run a b = .ok r) :
    a.comm = b.comm ∧ r.comm = a.comm ∧ PreciseTo r.qty (a.qty.val + b.qty.val) ∧ r.qty.Valid := by
  have hc : a.comm = b.comm := by
    by_contra hc
    rw [C05_add_different k a b hc] at h; cases h
  refine ⟨hc, ?_⟩
  rcases addKind_eq k a b hc with e | ⟨e, hz⟩
  · rw [e] at h
    cases hq : a.qty.add b.qty with
    | error x => rw [hq] at h; simp [bind, Except.bind] at h
    | ok q =>
      rw [hq] at h
      simp only [bind, Except.bind, Except.ok.injEq] at h
      subst h
      exact ⟨rfl, Dec.add_precise _ _ _ ha hb hq, (Dec.add_rounded _ _ _ ha hb hq).2⟩
  · rw [e] at h; injection h with h; subst h
    rw [Dec.zero_val _ hz, add_zero]
    exact ⟨rfl, Dec.precise_self _ ha, ha⟩

/-- **C05** Subtraction (`-=`): the exact difference whenever it is representable, otherwise rounded to as many decimals as
fit; refused exactly if the commodities differ or the integer nearest to the difference needs more than 96 bits. -/
theorem C05_sub (a b : Amount) (ha : a.qty.Valid) (hb : b.qty.Valid) :
    ((∃ r, a.subAssign b = .ok r) ↔ a.comm = b.comm ∧ Moderate (a.qty.val - b.qty.val)) ∧
    (a.comm ≠ b.comm → a.subAssign b = .error .differentCommodities) ∧
    (∀ r, a.subAssign b = .ok r → r.comm = a.comm ∧ PreciseTo r.qty (a.qty.val - b.qty.val) ∧ r.qty.Valid ∧
      (Representable (a.qty.val - b.qty.val) → r.qty.val = a.qty.val - b.qty.val)) := by
  unfold Amount.subAssign
  by_cases hc : a.comm = b.comm
  · simp only [hc, ne_eq, not_true_eq_false, if_false, true_and, false_implies]
    cases hq : a.qty.sub b.qty with
    | error x =>
      have : ¬ Moderate (a.qty.val - b.qty.val) := by
        rw [← Dec.sub_ok_iff _ _ ha hb, hq]; simp
      simp [bind, Except.bind, this]
    | ok q =>
      have : Moderate (a.qty.val - b.qty.val) := (Dec.sub_ok_iff _ _ ha hb).mp ⟨q, hq⟩
      simp only [bind, Except.bind, Except.ok.injEq, exists_eq', this, true_and]
      rintro r rfl
      refine ⟨rfl, Dec.sub_precise _ _ _ ha hb hq, (Dec.sub_rounded _ _ _ ha hb hq).2, fun h => ?_⟩
      obtain ⟨r, h1, h2, _⟩ := Dec.sub_exact _ _ ha hb h
      rw [hq] at h1; injection h1 with h1; rw [h1]; exact h2
  · simp [hc]

example : Amount.add ⟨⟨false, 1050, 2⟩, some (str "EUR")⟩ ⟨⟨true, 5, 1⟩, some (str "EUR")⟩
      = .ok ⟨⟨false, 1000, 2⟩, some (str "EUR")⟩ ∧
    Amount.add ⟨⟨false, 2 ^ 96 - 1, 0⟩, none⟩ ⟨⟨false, 1, 0⟩, none⟩ = .error .decimalOverflow ∧
    Amount.add ⟨⟨false, 2 ^ 96 - 1, 0⟩, none⟩ ⟨⟨false, 4, 1⟩, none⟩ = .ok ⟨⟨false, 2 ^ 96 - 1, 0⟩, none⟩ ∧
    Amount.add ⟨⟨false, 2 ^ 96 - 1, 0⟩, none⟩ ⟨⟨false, 5, 1⟩, none⟩ = .error .decimalOverflow := by decide +kernel

/-- The commodity of a product or quotient: the left one, or the right one if the left has none. -/
def resultComm (a b : Amount) : Option Str := match a.comm with | some c => some c | none => b.comm

theorem ite_comm (a b : Amount) : (if a.comm = none then b.comm else a.comm) = resultComm a b := by
  unfold resultComm; cases a.comm <;> simp

/-- **C06** Products: exact when representable, commodity as stated, for `*` and `*=`. -/
theorem C06_mul (a b : Amount) (h : Representable (a.qty.val * b.qty.val)) :
    ∃ r, a.mul b = .ok r ∧ a.mulAssign b = .ok r ∧ r.qty.val = a.qty.val * b.qty.val ∧ r.comm = resultComm a b := by
  obtain ⟨q, h1, h2, _⟩ := Dec.mul_exact a.qty b.qty h
  refine ⟨⟨q, resultComm a b⟩, ?_, ?_, h2, rfl⟩
  · unfold Amount.mul; rw [h1, ← ite_comm]; rfl
  · unfold Amount.mulAssign
    rw [h1]
    show Except.ok _ = Except.ok _
    congr 2
    unfold resultComm
    cases ha : a.comm <;> cases hb : b.comm <;> simp

/-- **C06** Quotients: exact when representable; commodity as stated. -/
theorem C06_div (a b : Amount) (hb : b.qty.val ≠ 0) (h : Representable (a.qty.val / b.qty.val)) :
    ∃ r, a.div b = .ok r ∧ r.qty.val = a.qty.val / b.qty.val ∧ r.comm = resultComm a b := by
  have hz : b.qty.isZero = false := by
    cases hz : b.qty.isZero
    · rfl
    · exact absurd (Dec.zero_val _ hz) hb
  obtain ⟨q, h1, h2, _⟩ := Dec.div_exact a.qty b.qty hz h
  refine ⟨⟨q, resultComm a b⟩, ?_, h2, rfl⟩
  unfold Amount.div; rw [h1, ← ite_comm]; rfl

/-- **C06** Division by zero panics. -/
theorem C06_div_zero (a b : Amount) (hb : b.qty.val = 0) : a.div b = .error .divByZero := by
  have hz := (Dec.isZero_iff b.qty).mpr hb
  unfold Amount.div Dec.div
  rw [hz]; rfl

/-- **C06** A product is returned exactly if the integer nearest to it has at most 96 bits, a quotient exactly if moreover
the divisor is not zero. -/
theorem C06_accepted (a b : Amount) :
    ((∃ r, a.mul b = .ok r) ↔ Moderate (a.qty.val * b.qty.val)) ∧
    ((∃ r, a.mulAssign b = .ok r) ↔ Moderate (a.qty.val * b.qty.val)) ∧
    ((∃ r, a.div b = .ok r) ↔ b.qty.val ≠ 0 ∧ Moderate (a.qty.val / b.qty.val)) := by
  refine ⟨?_, ?_, ?_⟩
  · rw [← Dec.mul_ok_iff]; unfold Amount.mul
    cases a.qty.mul b.qty <;> simp [bind, Except.bind]
  · rw [← Dec.mul_ok_iff]; unfold Amount.mulAssign
    cases a.qty.mul b.qty <;> simp [bind, Except.bind]
  · by_cases hb : b.qty.val = 0
    · simp [hb, C06_div_zero a b hb]
    · simp only [hb, ne_eq, not_false_eq_true, true_and]
      rw [← Dec.div_ok_iff _ _ hb]; unfold Amount.div
      cases a.qty.div b.qty <;> simp [bind, Except.bind]

/-- **C06** Not wrapped: any product or quotient returned is the exact one or that rounded to as many decimals as fit, in the commodity
stated. -/
theorem C06_sound (a b r : Amount) :
    (a.mul b = .ok r → PreciseTo r.qty (a.qty.val * b.qty.val) ∧ r.comm = resultComm a b) ∧
    (a.div b = .ok r → PreciseTo r.qty (a.qty.val / b.qty.val) ∧ r.comm = resultComm a b) := by
  constructor
  · intro h
    unfold Amount.mul at h
    cases hq : a.qty.mul b.qty with
    | error x => rw [hq] at h; simp [bind, Except.bind] at h
    | ok q =>
      rw [hq] at h
      simp only [bind, Except.bind, Except.ok.injEq] at h
      subst h
      exact ⟨Dec.mul_precise _ _ _ hq, ite_comm a b⟩
  · intro h
    unfold Amount.div at h
    cases hq : a.qty.div b.qty with
    | error x => rw [hq] at h; simp [bind, Except.bind] at h
    | ok q =>
      rw [hq] at h
      simp only [bind, Except.bind, Except.ok.injEq] at h
      subst h
      exact ⟨Dec.div_precise _ _ _ hq, ite_comm a b⟩

/-- **C06** `*=` is `*`; a product or quotient that is refused for its size panics with an overflow, and one that is
returned is representable. -/
theorem C06_refused (a b : Amount) : a.mulAssign b = a.mul b ∧
    (¬ Moderate (a.qty.val * b.qty.val) → a.mul b = .error .decimalOverflow) ∧
    (b.qty.val ≠ 0 → ¬ Moderate (a.qty.val / b.qty.val) → a.div b = .error .decimalOverflow) ∧
    ∀ r, a.mul b = .ok r ∨ a.div b = .ok r → r.qty.Valid := by
  refine ⟨?_, fun h => ?_, fun hb h => ?_, ?_⟩
  · unfold Amount.mulAssign Amount.mul
    cases a.comm <;> cases b.comm <;> simp
  · cases hm : a.mul b with
    | ok r => exact absurd ((C06_accepted a b).1.mp ⟨r, hm⟩) h
    | error e =>
      unfold Amount.mul at hm
      cases hq : a.qty.mul b.qty with
      | error x => rw [hq] at hm; simp only [bind, Except.bind, Except.error.injEq] at hm; rw [← hm, Dec.mul_error _ _ _ hq]
      | ok q => rw [hq] at hm; simp [bind, Except.bind] at hm
  · cases hm : a.div b with
    | ok r => exact absurd ((C06_accepted a b).2.2.mp ⟨r, hm⟩).2 h
    | error e =>
      unfold Amount.div at hm
      cases hq : a.qty.div b.qty with
      | error x => rw [hq] at hm; simp only [bind, Except.bind, Except.error.injEq] at hm; rw [← hm, Dec.div_error _ _ _ hb hq]
      | ok q => rw [hq] at hm; simp [bind, Except.bind] at hm
  · rintro r (h | h)
    · unfold Amount.mul at h
      cases hq : a.qty.mul b.qty with
      | error x => rw [hq] at h; simp [bind, Except.bind] at h
      | ok q =>
        rw [hq] at h
        simp only [bind, Except.bind, Except.ok.injEq] at h
        subst h
        exact (Dec.mul_rounded _ _ _ hq).2
    · unfold Amount.div at h
      cases hq : a.qty.div b.qty with
      | error x => rw [hq] at h; simp [bind, Except.bind] at h
      | ok q =>
        rw [hq] at h
        simp only [bind, Except.bind, Except.ok.injEq] at h
        subst h
        exact Dec.div_valid _ _ _ hq

/-- **C06** How far a returned product or quotient is from the exact one: half a unit of the 28th decimal, or less than one
part in `10^28` of it. -/
theorem C06_error (a b r : Amount) :
    (a.mul b = .ok r → |r.qty.val - a.qty.val * b.qty.val| ≤ 1 / 2 / 10 ^ 28 ∨
      |r.qty.val - a.qty.val * b.qty.val| ≤ |a.qty.val * b.qty.val| / 10 ^ 28) ∧
    (a.div b = .ok r → |r.qty.val - a.qty.val / b.qty.val| ≤ 1 / 2 / 10 ^ 28 ∨
      |r.qty.val - a.qty.val / b.qty.val| ≤ |a.qty.val / b.qty.val| / 10 ^ 28) := by
  have key : ∀ {d : Dec} {x : ℚ}, PreciseTo d x → |d.val - x| ≤ 1 / 2 / 10 ^ 28 ∨ |d.val - x| ≤ |x| / 10 ^ 28 := by
    intro d x h
    rcases Dec.precise_error h with h | h
    · exact Or.inl h
    · right
      refine le_trans h ?_
      have hn : (10 : ℚ) / (2 ^ 97 - 1) ≤ 1 / 10 ^ 28 := by norm_num
      have := mul_le_mul_of_nonneg_left hn (abs_nonneg x)
      rwa [mul_one_div] at this
  exact ⟨fun h => key ((C06_sound a b r).1 h).1, fun h => key ((C06_sound a b r).2 h).1⟩

/-- **C06** Multiplying an exact quotient back gives the dividend. -/
theorem C06_div_mul (a b : Amount) (ha : a.qty.Valid) (hb : b.qty.val ≠ 0)
    (h : Representable (a.qty.val / b.qty.val)) :
    ∃ q r, a.div b = .ok q ∧ q.mul b = .ok r ∧ r.qty.val = a.qty.val := by
  obtain ⟨q, h1, h2, _⟩ := C06_div a b hb h
  have e : q.qty.val * b.qty.val = a.qty.val := by rw [h2, div_mul_cancel₀ _ hb]
  obtain ⟨r, h3, _, h4, _⟩ := C06_mul q b (by rw [e]; exact Dec.representable_val _ ha)
  exact ⟨q, r, h1, h3, by rw [h4, e]⟩

example : Amount.div ⟨⟨false, 250, 0⟩, some (str "EUR")⟩ ⟨⟨true, 8, 0⟩, some (str "VEUR")⟩
      = .ok ⟨⟨true, 3125, 2⟩, some (str "EUR")⟩ ∧
    Amount.mul ⟨⟨false, 25, 0⟩, none⟩ ⟨⟨true, 10, 0⟩, some (str "VEUR")⟩ = .ok ⟨⟨true, 250, 0⟩, some (str "VEUR")⟩ := by
  decide +kernel

/-- **C67** An i32 survives the conversion to a quantity and back, and the quantity's value is that integer. -/
theorem C67_i32_round_trip (v : Int) (h1 : -2147483648 ≤ v) (h2 : v ≤ 2147483647) :
    (Dec.ofI32 v).toI32 = .ok v ∧ (Dec.ofI32 v).val = v ∧ (Dec.ofI32 v).Valid ∧
      (Amount.ofI32 v).qty.val = v ∧ (Amount.ofI32 v).comm = none := by
  have hval : (Dec.ofI32 v).val = v := by
    unfold Dec.ofI32 Dec.val Dec.signed
    simp only [decide_eq_true_eq, pow_zero, div_one]
    split
    · have : -(v.natAbs : Int) = v := by omega
      rw [this]
    · have : (v.natAbs : Int) = v := by omega
      rw [this]
  refine ⟨?_, hval, ⟨?_, by simp [Dec.ofI32]⟩, hval, rfl⟩
  · unfold Dec.ofI32 Dec.toI32
    simp only [pow_zero, Nat.div_one, decide_eq_true_eq]
    have e : (if v < 0 then -(v.natAbs : Int) else (v.natAbs : Int)) = v := by split <;> omega
    simp only [e]
    rw [if_pos ⟨h1, h2⟩]
  · show v.natAbs < 2 ^ 96
    omega

/-- **C67** Quantities beyond the i32 range are refused, not wrapped. -/
theorem C67_out_of_range (d : Dec) (h : 2147483648 ≤ d.val) : d.toI32 = .error .notAnI32 := by
  have hp := Dec.pow10_pos d.scale
  have hn : d.neg = false := by
    cases hn : d.neg with
    | false => rfl
    | true =>
      exfalso
      rw [Dec.val_eq, hn] at h
      have : (0 : ℚ) ≤ d.mant / 10 ^ d.scale := by positivity
      simp only [Dec.sgn, if_true, neg_mul, one_mul, neg_div] at h
      linarith
  have hm : 2147483648 * 10 ^ d.scale ≤ d.mant := by
    rw [Dec.val_eq, hn] at h
    simp only [Dec.sgn, Bool.false_eq_true, if_false, one_mul] at h
    rw [le_div_iff₀ hp] at h
    exact_mod_cast h
  have hq : 2147483648 ≤ d.mant / 10 ^ d.scale := (Nat.le_div_iff_mul_le (Dec.npow10_pos _)).mpr hm
  unfold Dec.toI32
  simp only [hn, Bool.false_eq_true, if_false]
  rw [if_neg]
  omega

/-- The integer nearest to a number on the side of zero. -/
def TruncatedTo (x : ℚ) (v : Int) : Prop := (0 ≤ x → (v : ℚ) ≤ x ∧ x < v + 1) ∧ (x ≤ 0 → x ≤ v ∧ (v : ℚ) - 1 < x)

/-- **C67** The conversion to an i32 drops the decimals: it gives the integer towards zero, exactly if that is in the
range of i32; nothing else comes out. -/
theorem C67_truncates (d : Dec) (v : Int) :
    d.toI32 = .ok v ↔ TruncatedTo d.val v ∧ -2147483648 ≤ v ∧ v ≤ 2147483647 := by
  have hp := Dec.pow10_pos d.scale
  obtain ⟨q, hq⟩ : ∃ q, q = d.mant / 10 ^ d.scale := ⟨_, rfl⟩
  have h1 : ((q : Nat) : ℚ) ≤ d.mant / 10 ^ d.scale := by
    rw [le_div_iff₀ hp, hq]
    exact_mod_cast Nat.div_mul_le_self d.mant (10 ^ d.scale)
  have h2 : (d.mant : ℚ) / 10 ^ d.scale < q + 1 := by
    rw [div_lt_iff₀ hp, hq]
    have := Nat.lt_div_mul_add (a := d.mant) (Dec.npow10_pos d.scale)
    have e : d.mant < (d.mant / 10 ^ d.scale + 1) * 10 ^ d.scale := by rw [Nat.add_mul]; omega
    exact_mod_cast e
  have h0 : (0 : ℚ) ≤ d.mant / 10 ^ d.scale := by positivity
  have hval : d.val = if d.neg then -((d.mant : ℚ) / 10 ^ d.scale) else (d.mant : ℚ) / 10 ^ d.scale := by
    rw [Dec.val_eq]; unfold Dec.sgn; split <;> ring
  have huniq : TruncatedTo d.val v ↔ v = if d.neg then -(q : Int) else q := by
    rw [hval]
    generalize (d.mant : ℚ) / 10 ^ d.scale = x at h0 h1 h2
    cases d.neg with
    | false =>
      simp only [Bool.false_eq_true, if_false]
      constructor
      · rintro ⟨ha, _⟩
        obtain ⟨ha, hb⟩ := ha h0
        have e1 : (v : ℚ) < ((q : Int) : ℚ) + 1 := by push_cast; linarith
        have e2 : ((q : Int) : ℚ) < (v : ℚ) + 1 := by push_cast; linarith
        have e1' : v < (q : Int) + 1 := by exact_mod_cast e1
        have e2' : (q : Int) < v + 1 := by exact_mod_cast e2
        omega
      · rintro rfl
        refine ⟨fun _ => ⟨by push_cast; exact h1, by push_cast; exact h2⟩, fun hx => ?_⟩
        have hx0 : x = 0 := le_antisymm hx h0
        subst hx0
        have hq0 : (q : ℚ) = 0 := le_antisymm h1 (Nat.cast_nonneg q)
        constructor <;> push_cast <;> rw [hq0] <;> norm_num
    | true =>
      simp only [if_true]
      constructor
      · rintro ⟨_, ha⟩
        obtain ⟨ha, hb⟩ := ha (by linarith)
        have e1 : (v : ℚ) < -((q : Int) : ℚ) + 1 := by push_cast; linarith
        have e2 : -((q : Int) : ℚ) < (v : ℚ) + 1 := by push_cast; linarith
        have e1' : v < -(q : Int) + 1 := by exact_mod_cast e1
        have e2' : -(q : Int) < v + 1 := by exact_mod_cast e2
        omega
      · rintro rfl
        refine ⟨fun hx => ?_, fun _ => ⟨by push_cast; linarith, by push_cast; linarith⟩⟩
        have hx0 : x = 0 := le_antisymm (by linarith) h0
        subst hx0
        have hq0 : (q : ℚ) = 0 := le_antisymm h1 (Nat.cast_nonneg q)
        constructor <;> push_cast <;> rw [hq0] <;> norm_num
  rw [huniq]
  unfold Dec.toI32
  rw [← hq]
  simp only
  generalize (if d.neg then -(q : Int) else (q : Int)) = w
  by_cases hr : -2147483648 ≤ w ∧ w ≤ 2147483647
  · rw [if_pos hr]
    constructor
    · intro h; injection h with h; subst h; exact ⟨rfl, hr⟩
    · rintro ⟨rfl, _⟩; rfl
  · rw [if_neg hr]
    constructor
    · intro h; cases h
    · rintro ⟨rfl, h⟩; exact absurd h hr

/-- **C67** Quantities whose integer part is beyond the range of i32, on either side, are refused. -/
theorem C67_both_sides (d : Dec) (h : 2147483648 ≤ d.val ∨ d.val ≤ -2147483649) : d.toI32 = .error .notAnI32 := by
  cases hr : d.toI32 with
  | error e =>
    unfold Dec.toI32 at hr
    simp only at hr
    generalize (if d.neg then -((d.mant / 10 ^ d.scale : Nat) : Int) else ((d.mant / 10 ^ d.scale : Nat) : Int)) = w at hr
    split at hr
    · cases hr
    · exact hr.symm
  | ok v =>
    exfalso
    obtain ⟨⟨h1, h2⟩, h3, h4⟩ := (C67_truncates d v).mp hr
    have h3' : (-2147483648 : ℚ) ≤ v := by exact_mod_cast h3
    have h4' : (v : ℚ) ≤ 2147483647 := by exact_mod_cast h4
    rcases h with h | h
    · have := (h1 (by linarith)).2; linarith
    · have := (h2 (by linarith)).2; linarith

example : (Dec.ofI32 (-20)).toI32 = .ok (-20) ∧ (Dec.mk false 2147483648 0).toI32 = .error .notAnI32 := by decide

example : (Dec.mk true 257 1).toI32 = .ok (-25) ∧ (Dec.mk true 21474836489 1).toI32 = .ok (-2147483648) ∧
    (Dec.mk true 2147483649 0).toI32 = .error .notAnI32 := by decide

end Ledger
