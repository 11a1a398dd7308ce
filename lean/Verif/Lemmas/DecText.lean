import Verif.Lemmas.Dec
import Verif.Spec.NumberText
/-
Lemmas about reading and printing quantities.
-/
namespace Ledger
namespace Dec

/-- Horner value of the digits of a text, starting from `m`. -/
def horner (m : Nat) (s : Str) : Nat := s.foldl (fun n c => if isDig c then n * 10 + digitVal c else n) m

theorem horner_cons (m : Nat) (c : Char) (s : Str) :
    horner m (c :: s) = horner (if isDig c then m * 10 + digitVal c else m) s := rfl

theorem horner_nil (m : Nat) : horner m [] = m := rfl

theorem horner_append (m : Nat) (s t : Str) : horner m (s ++ t) = horner (horner m s) t := by
  unfold horner; rw [List.foldl_append]

theorem le_horner (m : Nat) (s : Str) : m ≤ horner m s := by
  induction s generalizing m with
  | nil => exact Nat.le_refl _
  | cons c s ih =>
    rw [horner_cons]
    refine le_trans ?_ (ih _)
    split <;> omega

theorem digitCount_nil : digitCount [] = 0 := rfl

theorem digitCount_cons (c : Char) (s : Str) :
    digitCount (c :: s) = digitCount s + (if isDig c then 1 else 0) := by
  unfold digitCount; rw [List.filter_cons]; split <;> simp

theorem digitCount_append (s t : Str) : digitCount (s ++ t) = digitCount s + digitCount t := by
  unfold digitCount; simp

theorem isDig_us : isDig '_' = false := by decide
theorem isDig_dot : isDig '.' = false := by decide
theorem isDig_plus : isDig '+' = false := by decide
theorem isDig_minus : isDig '-' = false := by decide

/-- Reading after the decimal point. -/
theorem parseGo_frac (neg : Bool) (cs : Str) (has : Bool) (m s : Nat) (d : Dec)
    (hm : m < 2 ^ 96) (hs : s ≤ 28) :
    parseGo neg cs true has m s = some d ↔
      (∀ c ∈ cs, isDig c = true ∨ c = '_') ∧ (has = true ∨ cs.head? ≠ some '_') ∧
      (has = true ∨ digitCount cs ≠ 0) ∧ horner m cs < 2 ^ 96 ∧ s + digitCount cs ≤ 28 ∧
      d = ⟨neg && horner m cs != 0, horner m cs, s + digitCount cs⟩ := by
  induction cs generalizing has m s with
  | nil =>
    unfold parseGo
    simp only [horner_nil, digitCount_nil, Nat.add_zero]
    have hm' : (m < 2 ^ 96) = True := eq_true hm
    cases has
    · simp
    · simp only [if_true, List.not_mem_nil, false_implies, implies_true, true_or, true_and, hm', hs,
        Option.some.injEq]
      exact eq_comm
  | cons c cs ih =>
    unfold parseGo
    rw [horner_cons, digitCount_cons]
    by_cases hc : isDig c = true
    · simp only [hc, if_true]
      have hne : c ≠ '_' := by intro e; rw [e, isDig_us] at hc; cases hc
      by_cases hb : m * 10 + digitVal c < 2 ^ 96 ∧ s + 1 ≤ 28
      · rw [if_pos hb, ih true _ _ hb.1 hb.2]
        simp only [List.mem_cons, forall_eq_or_imp, hc, true_or, true_and, List.head?_cons,
          Option.some.injEq, hne, ne_eq, not_false_eq_true, or_true]
        have e : s + 1 + digitCount cs = s + (digitCount cs + 1) := by omega
        rw [e]
        constructor
        · rintro ⟨h1, h2⟩; exact ⟨h1, by omega, h2⟩
        · rintro ⟨h1, _, h2⟩; exact ⟨h1, h2⟩
      · rw [if_neg hb]
        constructor
        · intro h; cases h
        · rintro ⟨_, _, _, h4, h5, _⟩
          exfalso; apply hb
          have := le_horner (m * 10 + digitVal c) cs
          exact ⟨by omega, by omega⟩
    · have hc' : isDig c = false := by simpa using hc
      simp only [hc', Bool.false_eq_true, if_false]
      have : ¬ (c = '.' ∧ true = false) := by simp
      rw [if_neg this]
      by_cases hu : c = '_' ∧ has = true
      · rw [if_pos hu, ih has m s hm hs]
        obtain ⟨rfl, rfl⟩ := hu
        simp [isDig_us]
      · rw [if_neg hu]
        constructor
        · intro h; cases h
        · rintro ⟨h1, h2, _⟩
          exfalso
          have := h1 c (by simp)
          rw [hc'] at this
          have hcu : c = '_' := by simpa using this
          apply hu
          refine ⟨hcu, ?_⟩
          rcases h2 with h2 | h2
          · exact h2
          · simp [hcu] at h2

/-- Reading before the decimal point. -/
theorem parseGo_int (neg : Bool) (cs : Str) (has : Bool) (m s : Nat) (d : Dec)
    (hm : m < 2 ^ 96) (hs : s ≤ 28) :
    parseGo neg cs false has m s = some d ↔
      ∃ I F, ((F = [] ∧ cs = I) ∨ cs = I ++ '.' :: F) ∧
      (∀ c ∈ I ++ F, isDig c = true ∨ c = '_') ∧ (has = true ∨ (I ++ F).head? ≠ some '_') ∧
      (has = true ∨ digitCount (I ++ F) ≠ 0) ∧ horner m (I ++ F) < 2 ^ 96 ∧ s + digitCount F ≤ 28 ∧
      d = ⟨neg && horner m (I ++ F) != 0, horner m (I ++ F), s + digitCount F⟩ := by
  induction cs generalizing has m with
  | nil =>
    unfold parseGo
    constructor
    · intro h
      split at h
      · rename_i hh
        refine ⟨[], [], Or.inl ⟨rfl, rfl⟩, by simp, Or.inl hh, Or.inl hh, ?_, ?_, ?_⟩
        · simpa [horner_nil] using hm
        · simpa [digitCount_nil] using hs
        · simp [horner_nil, digitCount_nil]; simp at h; exact h.symm
      · cases h
    · rintro ⟨I, F, h1, _, _, h4, _, _, h7⟩
      rcases h1 with ⟨rfl, rfl⟩ | h1
      · have : has = true := by simpa [digitCount_nil] using h4
        rw [if_pos this, h7]; simp [horner_nil, digitCount_nil]
      · simp at h1
  | cons c cs ih =>
    unfold parseGo
    by_cases hc : isDig c = true
    · have hne : c ≠ '_' := by intro e; rw [e, isDig_us] at hc; cases hc
      have hnd : c ≠ '.' := by intro e; rw [e, isDig_dot] at hc; cases hc
      simp only [hc, if_true, Bool.false_eq_true, if_false]
      by_cases hb : m * 10 + digitVal c < 2 ^ 96 ∧ s ≤ 28
      · rw [if_pos hb, ih true _ hb.1]
        constructor
        · rintro ⟨I, F, h1, h2, _, _, h5, h6, h7⟩
          refine ⟨c :: I, F, ?_, ?_, ?_, ?_, ?_, h6, ?_⟩
          · rcases h1 with ⟨h, rfl⟩ | rfl
            · exact Or.inl ⟨h, rfl⟩
            · exact Or.inr rfl
          · intro x hx
            rw [List.cons_append] at hx
            rcases List.mem_cons.mp hx with rfl | hx
            · exact Or.inl hc
            · exact h2 x hx
          · right; simp [hne]
          · right; rw [List.cons_append, digitCount_cons, hc]; simp
          · rw [List.cons_append, horner_cons, hc]; exact h5
          · rw [List.cons_append, horner_cons, hc]; exact h7
        · rintro ⟨I, F, h1, h2, _, _, h5, h6, h7⟩
          cases I with
          | nil =>
            rcases h1 with ⟨_, h⟩ | h
            · cases h
            · rw [List.nil_append, List.cons.injEq] at h; exact absurd h.1 hnd
          | cons i I =>
            have hi : i = c ∧ ((F = [] ∧ cs = I) ∨ cs = I ++ '.' :: F) := by
              rcases h1 with ⟨hF, h⟩ | h
              · rw [List.cons.injEq] at h; exact ⟨h.1.symm, Or.inl ⟨hF, h.2⟩⟩
              · rw [List.cons_append, List.cons.injEq] at h; exact ⟨h.1.symm, Or.inr h.2⟩
            obtain ⟨rfl, hi⟩ := hi
            rw [List.cons_append, horner_cons, hc] at h5 h7
            exact ⟨I, F, hi, fun x hx => h2 x (by rw [List.cons_append]; exact List.mem_cons_of_mem _ hx),
              Or.inl rfl, Or.inl rfl, h5, h6, h7⟩
      · rw [if_neg hb]
        constructor
        · intro h; cases h
        · rintro ⟨I, F, h1, h2, _, _, h5, h6, h7⟩
          exfalso; apply hb
          refine ⟨?_, hs⟩
          cases I with
          | nil =>
            rcases h1 with ⟨_, h⟩ | h
            · cases h
            · rw [List.nil_append, List.cons.injEq] at h; exact absurd h.1 hnd
          | cons i I =>
            have hi : i = c := by
              rcases h1 with ⟨hF, h⟩ | h
              · rw [List.cons.injEq] at h; exact h.1.symm
              · rw [List.cons_append, List.cons.injEq] at h; exact h.1.symm
            subst hi
            rw [List.cons_append, horner_cons, hc, if_pos rfl] at h5
            exact lt_of_le_of_lt (le_horner _ _) h5
    · have hc' : isDig c = false := by simpa using hc
      simp only [hc', Bool.false_eq_true, if_false]
      by_cases hdot : c = '.'
      · subst hdot
        rw [if_pos ⟨rfl, trivial⟩, parseGo_frac neg cs has m s d hm hs]
        constructor
        · rintro ⟨h1, h2, h3, h4, h5, h6⟩
          exact ⟨[], cs, Or.inr rfl, by simpa using h1, by simpa using h2, by simpa using h3, by simpa using h4,
            h5, by simpa using h6⟩
        · rintro ⟨I, F, h1, h2, h3, h4, h5, h6, h7⟩
          cases I with
          | nil =>
            rcases h1 with ⟨_, h⟩ | h
            · cases h
            · rw [List.nil_append, List.cons.injEq] at h
              obtain ⟨_, rfl⟩ := h
              exact ⟨by simpa using h2, by simpa using h3, by simpa using h4, by simpa using h5, h6, by simpa using h7⟩
          | cons i I =>
            exfalso
            have hi : i = '.' := by
              rcases h1 with ⟨hF, h⟩ | h
              · rw [List.cons.injEq] at h; exact h.1.symm
              · rw [List.cons_append, List.cons.injEq] at h; exact h.1.symm
            have := h2 i (by simp)
            rw [hi] at this
            revert this; decide
      · have : ¬ (c = '.' ∧ True) := by simp [hdot]
        rw [if_neg this]
        by_cases hu : c = '_' ∧ has = true
        · rw [if_pos hu, ih has m hm]
          obtain ⟨rfl, rfl⟩ := hu
          constructor
          · rintro ⟨I, F, h1, h2, _, _, h5, h6, h7⟩
            refine ⟨'_' :: I, F, ?_, ?_, Or.inl rfl, Or.inl rfl, ?_, h6, ?_⟩
            · rcases h1 with ⟨h, rfl⟩ | rfl
              · exact Or.inl ⟨h, rfl⟩
              · exact Or.inr rfl
            · intro x hx
              rw [List.cons_append] at hx
              rcases List.mem_cons.mp hx with rfl | hx
              · exact Or.inr rfl
              · exact h2 x hx
            · rw [List.cons_append, horner_cons, isDig_us]; exact h5
            · rw [List.cons_append, horner_cons, isDig_us]; exact h7
          · rintro ⟨I, F, h1, h2, _, _, h5, h6, h7⟩
            cases I with
            | nil =>
              rcases h1 with ⟨_, h⟩ | h
              · cases h
              · rw [List.nil_append, List.cons.injEq] at h; exact absurd h.1 hdot
            | cons i I =>
              have hi : i = '_' ∧ ((F = [] ∧ cs = I) ∨ cs = I ++ '.' :: F) := by
                rcases h1 with ⟨hF, h⟩ | h
                · rw [List.cons.injEq] at h; exact ⟨h.1.symm, Or.inl ⟨hF, h.2⟩⟩
                · rw [List.cons_append, List.cons.injEq] at h; exact ⟨h.1.symm, Or.inr h.2⟩
              obtain ⟨rfl, hi⟩ := hi
              rw [List.cons_append, horner_cons, isDig_us] at h5 h7
              exact ⟨I, F, hi, fun x hx => h2 x (by rw [List.cons_append]; exact List.mem_cons_of_mem _ hx),
                Or.inl rfl, Or.inl rfl, h5, h6, h7⟩
        · rw [if_neg hu]
          constructor
          · intro h; cases h
          · rintro ⟨I, F, h1, h2, h3, _⟩
            exfalso
            cases I with
            | nil =>
              rcases h1 with ⟨_, h⟩ | h
              · cases h
              · rw [List.nil_append, List.cons.injEq] at h; exact hdot h.1
            | cons i I =>
              have hi : i = c := by
                rcases h1 with ⟨hF, h⟩ | h
                · rw [List.cons.injEq] at h; exact h.1.symm
                · rw [List.cons_append, List.cons.injEq] at h; exact h.1.symm
              subst hi
              have hcu : i = '_' := by
                have := h2 i (by simp)
                rw [hc'] at this; simpa using this
              apply hu
              refine ⟨hcu, ?_⟩
              rcases h3 with h3 | h3
              · exact h3
              · simp [hcu] at h3

/-- Exactly which texts are read, and as what. -/
theorem fromStr_iff (s : Str) (d : Dec) :
    fromStr s = some d ↔
      ∃ neg I F, NumberText s neg I F ∧ horner 0 (I ++ F) < 2 ^ 96 ∧ digitCount F ≤ 28 ∧
        d = ⟨neg && horner 0 (I ++ F) != 0, horner 0 (I ++ F), digitCount F⟩ := by
  have base : ∀ (neg : Bool) (cs : Str), parseGo neg cs false false 0 0 = some d ↔ _ :=
    fun neg cs => parseGo_int neg cs false 0 0 d (by norm_num) (by omega)
  have hstart : ∀ (c : Char) (cs I F : Str), ((F = [] ∧ c :: cs = I) ∨ c :: cs = I ++ '.' :: F) →
      (∀ x ∈ I ++ F, isDig x = true ∨ x = '_') → isDig c = true ∨ c = '_' ∨ c = '.' := by
    intro c cs I F h h2
    cases I with
    | nil =>
      rcases h with ⟨_, h⟩ | h
      · cases h
      · rw [List.nil_append, List.cons.injEq] at h; exact Or.inr (Or.inr h.1)
    | cons i I =>
      have hi : i = c := by
        rcases h with ⟨hF, h⟩ | h
        · rw [List.cons.injEq] at h; exact h.1.symm
        · rw [List.cons_append, List.cons.injEq] at h; exact h.1.symm
      subst hi
      rcases h2 i (by simp) with h | h
      · exact Or.inl h
      · exact Or.inr (Or.inl h)
  constructor
  · intro h
    unfold fromStr at h
    split at h
    · rename_i cs
      obtain ⟨I, F, h1, h2, h3, h4, h5, h6, h7⟩ := (base _ _).mp h
      refine ⟨true, I, F, ⟨⟨['-'], by simp, by simp, ?_⟩, h2, by simpa using h4, by simpa using h3⟩, h5, by omega, by simpa using h7⟩
      rcases h1 with ⟨hF, rfl⟩ | rfl
      · exact Or.inl ⟨hF, rfl⟩
      · exact Or.inr rfl
    · rename_i cs
      obtain ⟨I, F, h1, h2, h3, h4, h5, h6, h7⟩ := (base _ _).mp h
      refine ⟨false, I, F, ⟨⟨['+'], by simp, by simp, ?_⟩, h2, by simpa using h4, by simpa using h3⟩, h5, by omega, by simpa using h7⟩
      rcases h1 with ⟨hF, rfl⟩ | rfl
      · exact Or.inl ⟨hF, rfl⟩
      · exact Or.inr rfl
    · obtain ⟨I, F, h1, h2, h3, h4, h5, h6, h7⟩ := (base _ _).mp h
      refine ⟨false, I, F, ⟨⟨[], by simp, by simp, ?_⟩, h2, by simpa using h4, by simpa using h3⟩, h5, by omega, by simpa using h7⟩
      rcases h1 with ⟨hF, rfl⟩ | rfl
      · exact Or.inl ⟨hF, rfl⟩
      · exact Or.inr rfl
  · rintro ⟨neg, I, F, ⟨⟨sign, hs1, hs2, hs3⟩, h2, h3, h4⟩, h5, h6, h7⟩
    have core : ∀ cs, ((F = [] ∧ cs = I) ∨ cs = I ++ '.' :: F) → parseGo neg cs false false 0 0 = some d := by
      intro cs hcs
      rw [base]
      exact ⟨I, F, hcs, h2, Or.inr h4, Or.inr h3, h5, by omega, by simpa using h7⟩
    have hrest : ∃ cs, ((F = [] ∧ cs = I) ∨ cs = I ++ '.' :: F) ∧ s = sign ++ cs := by
      rcases hs3 with ⟨hF, h⟩ | h
      · exact ⟨I, Or.inl ⟨hF, rfl⟩, h⟩
      · exact ⟨I ++ '.' :: F, Or.inr rfl, by rw [h, List.append_assoc]⟩
    obtain ⟨cs, hcs, rfl⟩ := hrest
    have hp := core cs hcs
    rcases hs1 with rfl | rfl | rfl
    · have hneg : neg = false := by cases neg; rfl; simp at hs2
      subst hneg
      unfold fromStr
      rw [List.nil_append]
      cases cs with
      | nil => exact hp
      | cons c cs' =>
        have hc := hstart c cs' I F hcs h2
        split
        · rename_i e
          rw [List.cons.injEq] at e
          rw [e.1] at hc; exact absurd hc (by decide)
        · rename_i e
          rw [List.cons.injEq] at e
          rw [e.1] at hc; exact absurd hc (by decide)
        · exact hp
    · have hneg : neg = false := by cases neg; rfl; simp at hs2
      subst hneg
      exact hp
    · have hneg : neg = true := by simpa using hs2
      subst hneg
      exact hp

theorem intVal_eq (s : Str) : intVal s = (horner 0 s : Nat) := by
  have : ∀ m : Nat, s.foldl (fun n c => if isDig c then n * 10 + ((c.toNat - 48 : Nat) : ℚ) else n) (m : ℚ)
      = (horner m s : Nat) := by
    induction s with
    | nil => intro m; simp [horner_nil]
    | cons c s ih =>
      intro m
      rw [List.foldl_cons, horner_cons]
      split
      · rw [← ih]; congr 1; unfold digitVal; push_cast; ring
      · exact ih m
  have h := this 0
  rw [Nat.cast_zero] at h
  exact h

theorem fracVal_eq (s : Str) (m : Nat) :
    (m : ℚ) + fracVal s = (horner m s : Nat) / 10 ^ digitCount s := by
  induction s generalizing m with
  | nil => simp [fracVal, horner_nil, digitCount_nil]
  | cons c s ih =>
    rw [horner_cons, digitCount_cons]
    unfold fracVal
    split
    · rename_i h
      rw [pow_add, pow_one]
      have := ih (m * 10 + digitVal c)
      push_cast at this
      have e : (m : ℚ) + ((c.toNat - 48 : Nat) + fracVal s) / 10
          = ((m : ℚ) * 10 + digitVal c + fracVal s) / 10 := by unfold digitVal; field_simp; ring
      rw [e, this, div_div]
    · simpa using ih m

/-- The value read is the value denoted. -/
theorem fromStr_val (neg : Bool) (I F : Str) :
    (Dec.mk (neg && horner 0 (I ++ F) != 0) (horner 0 (I ++ F)) (digitCount F)).val = numberVal neg I F := by
  rw [val_mk]
  unfold numberVal
  rw [intVal_eq, fracVal_eq, ← horner_append]
  cases neg
  · simp [sgn]
  · by_cases h : horner 0 (I ++ F) = 0
    · rw [h]; simp [sgn]
    · have : (horner 0 (I ++ F) != 0) = true := by simpa using h
      rw [this]
      simp [sgn]; ring

/-! ### Printing -/

theorem digitChar_spec : ∀ k < 10, digitVal (digitChar k) = k ∧ isDig (digitChar k) = true := by decide

theorem digitsAux_spec (f n : Nat) (acc : Str) (hf : n < f) :
    ∃ ds, digitsAux f n acc = ds ++ acc ∧ ds ≠ [] ∧ (∀ c ∈ ds, isDig c = true) ∧ horner 0 ds = n := by
  induction f generalizing n acc with
  | zero => omega
  | succ f ih =>
    have hk : n % 10 < 10 := Nat.mod_lt _ (by omega)
    obtain ⟨hv, hd⟩ := digitChar_spec _ hk
    unfold digitsAux
    split
    · rename_i h0
      refine ⟨[digitChar (n % 10)], rfl, by simp, by simpa using hd, ?_⟩
      rw [horner_cons, hd, if_pos rfl, horner_nil, hv]; omega
    · rename_i h0
      obtain ⟨ds, h1, h2, h3, h4⟩ := ih (n / 10) (digitChar (n % 10) :: acc) (by omega)
      refine ⟨ds ++ [digitChar (n % 10)], by rw [h1]; simp, by simp, ?_, ?_⟩
      · intro c hc
        rcases List.mem_append.mp hc with hc | hc
        · exact h3 c hc
        · simp at hc; rw [hc]; exact hd
      · rw [horner_append, h4, horner_cons, hd, if_pos rfl, horner_nil, hv]; omega

theorem natDigits_spec (n : Nat) :
    natDigits n ≠ [] ∧ (∀ c ∈ natDigits n, isDig c = true) ∧ horner 0 (natDigits n) = n := by
  obtain ⟨ds, h1, h2, h3, h4⟩ := digitsAux_spec (n + 1) n [] (by omega)
  rw [List.append_nil] at h1
  unfold natDigits
  rw [h1]; exact ⟨h2, h3, h4⟩

theorem horner_zeros (k : Nat) (s : Str) : horner 0 (List.replicate k '0' ++ s) = horner 0 s := by
  induction k with
  | zero => simp
  | succ k ih =>
    rw [List.replicate_succ, List.cons_append, horner_cons]
    have : isDig '0' = true := by decide
    rw [this, if_pos rfl]
    have : digitVal '0' = 0 := by decide
    rw [this]; simpa using ih

theorem digitCount_all (s : Str) (h : ∀ c ∈ s, isDig c = true) : digitCount s = s.length := by
  unfold digitCount
  rw [List.filter_eq_self.mpr h]

/-- The text of a quantity: sign, integer digits, decimals. -/
theorem display_form (d : Dec) :
    ∃ I F, (∀ c ∈ I, isDig c = true) ∧ (∀ c ∈ F, isDig c = true) ∧ I ≠ [] ∧ F.length = d.scale ∧
      horner 0 (I ++ F) = d.mant ∧
      d.display = (if d.neg then ['-'] else []) ++ (if d.scale = 0 then I else I ++ '.' :: F) := by
  obtain ⟨h1, h2, h3⟩ := natDigits_spec d.mant
  by_cases hs : d.scale = 0
  · refine ⟨natDigits d.mant, [], h2, by simp, h1, by simp [hs], by simpa using h3, ?_⟩
    unfold display
    simp only [hs, if_true]
    cases d.neg <;> simp
  · let padded := List.replicate (d.scale + 1 - (natDigits d.mant).length) '0' ++ natDigits d.mant
    have hpd : padded = List.replicate (d.scale + 1 - (natDigits d.mant).length) '0' ++ natDigits d.mant := rfl
    have hlen : d.scale + 1 ≤ padded.length := by
      rw [hpd, List.length_append, List.length_replicate]; omega
    have hall : ∀ c ∈ padded, isDig c = true := by
      intro c hc
      rw [hpd] at hc
      rcases List.mem_append.mp hc with hc | hc
      · rw [List.mem_replicate] at hc; rw [hc.2]; decide
      · exact h2 c hc
    refine ⟨padded.take (padded.length - d.scale), padded.drop (padded.length - d.scale), ?_, ?_, ?_, ?_, ?_, ?_⟩
    · exact fun c hc => hall c (List.mem_of_mem_take hc)
    · exact fun c hc => hall c (List.mem_of_mem_drop hc)
    · intro h
      have := congrArg List.length h
      simp at this; omega
    · simp; omega
    · rw [List.take_append_drop, hpd, horner_zeros, h3]
    · unfold display
      simp only [hs, if_false]
      rw [← hpd]
      cases d.neg <;> simp

theorem fromStr_display (d : Dec) (hv : d.Valid) :
    fromStr d.display = some ⟨d.neg && d.mant != 0, d.mant, d.scale⟩ := by
  obtain ⟨I, F, hI, hF, hne, hlen, hval, hdisp⟩ := display_form d
  have hI0 : digitCount I = I.length := digitCount_all I hI
  have hF0 : digitCount F = F.length := digitCount_all F hF
  rw [fromStr_iff]
  refine ⟨d.neg, I, F, ⟨⟨if d.neg then ['-'] else [], ?_, ?_, ?_⟩, ?_, ?_, ?_⟩, ?_, ?_, ?_⟩
  · cases d.neg <;> simp
  · cases d.neg <;> simp
  · rw [hdisp]
    by_cases hs : d.scale = 0
    · left; rw [if_pos hs]
      exact ⟨List.eq_nil_of_length_eq_zero (by omega), rfl⟩
    · right; rw [if_neg hs]; simp
  · intro c hc
    rcases List.mem_append.mp hc with hc | hc
    · exact Or.inl (hI c hc)
    · exact Or.inl (hF c hc)
  · rw [digitCount_append, hI0]
    have : I.length ≠ 0 := fun h => hne (List.eq_nil_of_length_eq_zero h)
    omega
  · cases I with
    | nil => exact absurd rfl hne
    | cons i I =>
      simp only [List.cons_append, List.head?_cons, ne_eq, Option.some.injEq]
      intro e
      have := hI i (by simp)
      rw [e, isDig_us] at this; cases this
  · rw [hval]; exact hv.1
  · rw [hF0, hlen]; exact hv.2
  · rw [hval, hF0, hlen]

/-- What `fromStr` produces is valid and is never a negative zero. -/
theorem fromStr_valid (s : Str) (d : Dec) (h : fromStr s = some d) :
    d.Valid ∧ (d.neg = true → d.mant ≠ 0) := by
  obtain ⟨neg, I, F, _, h1, h2, rfl⟩ := (fromStr_iff s d).mp h
  refine ⟨⟨h1, h2⟩, ?_⟩
  simp

end Dec
end Ledger

namespace Ledger
namespace Dec

theorem display_chars (d : Dec) : ∀ c ∈ d.display, isDig c = true ∨ c = '-' ∨ c = '.' := by
  obtain ⟨I, F, hI, hF, _, _, _, hd⟩ := display_form d
  rw [hd]
  intro c hc
  rcases List.mem_append.mp hc with h | h
  · cases hn : d.neg <;> rw [hn] at h <;> simp at h
    exact Or.inr (Or.inl h)
  · split at h
    · exact Or.inl (hI c h)
    · rcases List.mem_append.mp h with h | h
      · exact Or.inl (hI c h)
      · rcases List.mem_cons.mp h with h | h
        · exact Or.inr (Or.inr h)
        · exact Or.inl (hF c h)

theorem display_head (d : Dec) : ∃ c s, d.display = c :: s ∧ (isDig c = true ∨ c = '-') ∧ (c = '-' ↔ d.neg = true) := by
  obtain ⟨I, F, hI, hF, hne, _, _, hd⟩ := display_form d
  cases hn : d.neg with
  | true =>
    rw [hn] at hd
    exact ⟨'-', _, hd, Or.inr rfl, by simp⟩
  | false =>
    rw [hn] at hd
    cases I with
    | nil => exact absurd rfl hne
    | cons i I =>
      have hi := hI i (by simp)
      refine ⟨i, if d.scale = 0 then I else I ++ '.' :: F, ?_, Or.inl hi, ?_⟩
      · rw [hd]; by_cases hs : d.scale = 0 <;> simp [hs]
      · constructor
        · intro e; rw [e, isDig_minus] at hi; cases hi
        · intro e; cases e

/-- Different quantities have different texts. -/
theorem display_inj (a b : Dec) (ha : a.Valid) (hb : b.Valid) (h : a.display = b.display) : a = b := by
  have h1 := fromStr_display a ha
  rw [h, fromStr_display b hb] at h1
  simp only [Option.some.injEq, Dec.mk.injEq] at h1
  obtain ⟨c1, s1, e1, _, n1⟩ := display_head a
  obtain ⟨c2, s2, e2, _, n2⟩ := display_head b
  rw [e1, e2] at h
  injection h with hc _
  subst hc
  obtain ⟨an, am, as⟩ := a
  obtain ⟨bn, bm, bs⟩ := b
  simp only [Dec.mk.injEq] at *
  refine ⟨?_, h1.2.1.symm, h1.2.2.symm⟩
  cases an <;> cases bn <;> simp_all

end Dec
end Ledger
