import Verif.Lemmas.Reading
import Verif.Lemmas.DateText
/-
Lemmas about trailing blanks (C51) and notes (C52).
-/
namespace Ledger
open Ledger.Scanner

theorem addBlanks_ne {r : Str} (h : r ≠ []) (tr : Str) : addBlanks r tr = r ++ tr := if_neg h

theorem skip_blanks {text rest tr : Str} (ht : Blank tr) (h : Skip text rest) : Skip (text ++ tr) (addBlanks rest tr) := by
  rw [skip_iff] at h ⊢
  rw [trimStart_blanks text ht, h]

theorem amountPart_blanks {text q s rest tr : Str} (ht : Blank tr) (h : AmountPart text q s rest) :
    AmountPart (text ++ tr) q s (addBlanks rest tr) := by
  rw [amountPart_iff] at h ⊢
  rw [scanAmount_blanks text ht, h]; rfl

theorem accountPart_blanks {text acct rest tr : Str} (ht : Blank tr) (h : AccountPart text acct rest) :
    AccountPart (text ++ tr) acct (rest ++ tr) := by
  obtain ⟨h1, h2, h3⟩ := h
  refine ⟨?_, h2, h3⟩
  have := skip_blanks ht h1
  rwa [addBlanks_ne (by simp), List.append_assoc] at this

theorem blank_not {tr : Str} (ht : Blank tr) {c : Char} (hc : isWs c = false) : c ∉ tr := by
  intro h
  rw [ht c h] at hc; cases hc

/-- A lot that is refused is refused also with blanks after it. -/
theorem lotPart_blanks_error {q s d text tr : Str} {o : Res (Str × Str × Str × Str)} (ht : Blank tr) (h : LotPart q s d text o) {k : Panic}
    (ho : o = .error k) : LotPart q s d (text ++ tr) (.error k) := by
  induction h with
  | done h => cases ho
  | @price s d inner after rest q' s' r o hin ha hs h ih =>
    have := ih ho
    subst ho
    have hne : rest ≠ [] := by rintro rfl; cases h
    have hs' := skip_blanks ht hs
    rw [addBlanks_ne hne] at hs'
    have e : '{' :: (inner ++ '}' :: after) ++ tr = '{' :: (inner ++ '}' :: (after ++ tr)) := by simp
    rw [e]
    exact .price hin ha hs' this
  | @date q s inner after rest d' r o hin hd hs h ih =>
    have := ih ho
    subst ho
    have hne : rest ≠ [] := by rintro rfl; cases h
    have hs' := skip_blanks ht hs
    rw [addBlanks_ne hne] at hs'
    have e : '[' :: (inner ++ ']' :: after) ++ tr = '[' :: (inner ++ ']' :: (after ++ tr)) := by simp
    rw [e]
    exact .date hin hd hs' this
  | secondPrice h => cases ho; exact .secondPrice h
  | secondDate h => cases ho; exact .secondDate h
  | openBrace h => cases ho; exact .openBrace (by simp [h, blank_not ht (c := '}') (by decide)])
  | openBracket h => cases ho; exact .openBracket (by simp [h, blank_not ht (c := ']') (by decide)])
  | @emptyBraces s d inner after hin hb =>
    cases ho
    have e : '{' :: (inner ++ '}' :: after) ++ tr = '{' :: (inner ++ '}' :: (after ++ tr)) := by simp
    rw [e]
    exact .emptyBraces hin hb
  | expression => cases ho; exact .expression

theorem lotPart_blanks_ok {q s d text tr pq ps pd r : Str} (ht : Blank tr) {o : Res (Str × Str × Str × Str)}
    (h : LotPart q s d text o) (ho : o = .ok (pq, ps, pd, r)) : LotPart q s d (addBlanks text tr) (.ok (pq, ps, pd, addBlanks r tr)) := by
  induction h with
  | done h =>
    cases ho
    refine .done ?_
    cases r with
    | nil => exact h
    | cons c cs => exact fun x hx => h x (by simpa [addBlanks] using hx)
  | @price s d inner after rest q' s' r o hin ha hs h ih =>
    have := ih ho
    rw [addBlanks_ne (by simp)]
    have e : '{' :: (inner ++ '}' :: after) ++ tr = '{' :: (inner ++ '}' :: (after ++ tr)) := by simp
    rw [e]
    exact .price hin ha (skip_blanks ht hs) this
  | @date q s inner after rest d' r o hin hd hs h ih =>
    have := ih ho
    rw [addBlanks_ne (by simp)]
    have e : '[' :: (inner ++ ']' :: after) ++ tr = '[' :: (inner ++ ']' :: (after ++ tr)) := by simp
    rw [e]
    exact .date hin hd (skip_blanks ht hs) this
  | secondPrice h => cases ho
  | secondDate h => cases ho
  | openBrace h => cases ho
  | openBracket h => cases ho
  | emptyBraces hin hb => cases ho
  | expression => cases ho

theorem costSign_blanks {text rest tr : Str} {u : Bool} (ht : Blank tr) (h : CostSign text rest u) : CostSign (text ++ tr) (rest ++ tr) u := by
  rcases h with ⟨rfl, h, rfl⟩ | ⟨rfl, rfl⟩
  · refine .inl ⟨rfl, ?_, rfl⟩
    cases rest with
    | nil =>
      intro e
      exact blank_not ht (c := '@') (by decide) (head_mem e)
    | cons c cs => exact h
  · exact .inr ⟨rfl, rfl⟩

/-- A cost that is refused is refused also with blanks after it. -/
theorem costPart_blanks_error {text tr : Str} {k : Panic} (ht : Blank tr) (h : CostPart text (.error k)) :
    ∃ k', CostPart (text ++ tr) (.error k') := by
  cases h with
  | @nothing t c u hs hc hb =>
    refine ⟨_, .nothing (costSign_blanks ht hs) hc ?_⟩
    intro x hx
    rcases List.mem_append.mp hx with hx | hx
    · exact hb x hx
    · exact ht x hx
  | wide hs hc => exact ⟨_, .wide (costSign_blanks ht hs) hc⟩
  | ends hs =>
    have h1 := costSign_blanks ht hs
    rw [List.nil_append] at h1
    cases tr with
    | nil => exact ⟨_, .ends h1⟩
    | cons c cs =>
      by_cases hc : c.toNat < 128
      · exact ⟨_, .nothing h1 hc (fun x hx => ht x (List.mem_cons_of_mem _ hx))⟩
      · exact ⟨_, .wide h1 (by omega)⟩

theorem costPart_blanks_ok {text tr cq cs : Str} {u : Bool} (ht : Blank tr) (h : CostPart text (.ok (cq, cs, u))) :
    CostPart (addBlanks text tr) (.ok (cq, cs, u)) := by
  cases h with
  | none h =>
    refine .none ?_
    cases text with
    | nil => exact h
    | cons c cs => exact h
  | amount hs hc ha =>
    have hne : text ≠ [] := by rcases hs with ⟨rfl, _⟩ | ⟨rfl, _⟩ <;> simp
    rw [addBlanks_ne hne]
    exact .amount (costSign_blanks ht hs) hc (amountPart_blanks ht ha)

theorem blank_append {a b : Str} (ha : Blank a) (hb : Blank b) : Blank (a ++ b) := by
  intro x hx
  rcases List.mem_append.mp hx with hx | hx
  · exact ha x hx
  · exact hb x hx

/-- A posting line that is refused is refused also with blanks after it. -/
theorem postPart_blanks_error {text tr : Str} {k : Panic} (ht : Blank tr) (h : PostPart text (.error k)) :
    ∃ k', PostPart (text ++ tr) (.error k') := by
  cases h with
  | @missing rest h hr =>
    refine ⟨_, .missing (skip_blanks ht h) ?_⟩
    rcases hr with rfl | hr
    · exact .inl rfl
    · right
      cases rest with
      | nil => cases hr
      | cons c cs => simpa [addBlanks] using hr
  | noAmount h hb => exact ⟨_, .noAmount (accountPart_blanks ht h) (blank_append hb ht)⟩
  | @badLot acct rest q s r k h ha hl =>
    have hne : r ≠ [] := by rintro rfl; cases hl
    have ha' := amountPart_blanks ht ha
    rw [addBlanks_ne hne] at ha'
    exact ⟨_, .badLot (accountPart_blanks ht h) ha' (lotPart_blanks_error ht hl rfl)⟩
  | @badCost acct rest q s r pq ps pd r' k h ha hl hc =>
    obtain ⟨k', hc'⟩ := costPart_blanks_error ht hc
    have hne : r' ≠ [] := by
      rintro rfl
      have hh : ∀ {t u}, ¬ CostSign [] t u := by
        rintro t u (⟨e, _⟩ | ⟨e, _⟩) <;> cases e
      cases hc with
      | nothing hs => exact hh hs
      | wide hs => exact hh hs
      | ends hs => exact hh hs
    have hl' := lotPart_blanks_ok ht hl rfl
    rw [addBlanks_ne hne] at hl'
    exact ⟨_, .badCost (accountPart_blanks ht h) (amountPart_blanks ht ha) hl' hc'⟩

/-- Blanks after a posting line with two spaces in a row before them change nothing; after an account alone they make the
line refused if there are two spaces in a row then. -/
theorem postPart_blanks_ok {text tr rest : Str} {t : PostTokens} (ht : Blank tr) (hs : Skip text rest) (h : PostPart text (.ok t)) :
    (TwoSpaces rest ∨ ¬ TwoSpaces (rest ++ tr) → PostPart (text ++ tr) (.ok t)) ∧
    (¬ TwoSpaces rest → TwoSpaces (rest ++ tr) → PostPart (text ++ tr) (.error .noAmountChar)) := by
  have uniq : ∀ {r}, Skip text r → r = rest := fun h => by rw [skip_iff] at h hs; rw [h, hs]
  cases h with
  | @alone acct tail h hc ha hl hb h2 =>
    obtain rfl := uniq h
    have hne : acct ++ tail ≠ [] := by simp [ha]
    have hsk := skip_blanks ht h
    rw [addBlanks_ne hne] at hsk
    constructor
    · intro h3
      have h3 := h3.resolve_left h2
      rw [List.append_assoc] at hsk h3
      exact .alone hsk hc ha hl (blank_append hb ht) h3
    · intro _ h3
      obtain ⟨a, b, e, hn⟩ := twoSpaces_split h3
      rw [e] at hsk
      have key : acct <+: a := by
        rcases List.append_eq_append_iff.mp (show acct ++ (tail ++ tr) = a ++ (' ' :: ' ' :: b) by rw [← List.append_assoc, e]) with
          ⟨x, rfl, _⟩ | ⟨x, rfl, hx⟩
        · exact ⟨x, rfl⟩
        · cases x with
          | nil => simp
          | cons c cs =>
            exfalso
            simp only [List.cons_append, List.cons.injEq] at hx
            obtain ⟨rfl, hx⟩ := hx
            cases cs with
            | nil => exact absurd (hl ' ' (by simp)) (by decide)
            | cons c' cs =>
              simp only [List.cons_append, List.cons.injEq] at hx
              obtain ⟨rfl, hx⟩ := hx
              exact h2 ⟨a, cs ++ tail, by simp⟩
      obtain ⟨x, rfl⟩ := key
      have hb' : Blank b := by
        rw [List.append_assoc, List.append_assoc] at e
        have e := List.append_cancel_left e
        intro c hc
        exact blank_append hb ht c (by rw [e]; simp [hc])
      refine .noAmount ⟨hsk, ?_, hn⟩ hb'
      intro c hc'
      exact hc c (by rw [← hc']; exact (head_append ha).symm)
  | @full acct rest' q s r pq ps pd r' cq cs u h ha hl hc =>
    obtain rfl := uniq h.1
    have h2 : TwoSpaces (acct ++ ' ' :: ' ' :: rest') := ⟨acct, rest', rfl⟩
    exact ⟨fun _ => .full (accountPart_blanks ht h) (amountPart_blanks ht ha) (lotPart_blanks_ok ht hl rfl)
      (costPart_blanks_ok ht hc), fun h => absurd h2 h⟩

theorem longest_exists (p : Char → Bool) {P : Char → Prop} (hp : ∀ c, P c ↔ p c = true) (text : Str) : ∃ s rest, Longest P text s rest :=
  ⟨_, _, (longest_iff hp text _ _).mpr ⟨rfl, rfl⟩⟩

theorem skip_exists (text : Str) : ∃ rest, Skip text rest := ⟨_, (skip_iff _ _).mpr rfl⟩

theorem longest_first {P : Char → Prop} {c : Char} {text s rest : Str} (hc : P c) (h : Longest P (c :: text) s rest) :
    ∃ s', s = c :: s' ∧ Longest P text s' rest := by
  obtain ⟨h1, h2, h3⟩ := h
  cases s with
  | nil => exact absurd hc (h3 c (by rw [List.nil_append] at h1; rw [← h1]; rfl))
  | cons x s' =>
    rw [List.cons_append, List.cons.injEq] at h1
    obtain ⟨rfl, h1⟩ := h1
    exact ⟨s', rfl, h1, fun y hy => h2 y (List.mem_cons_of_mem _ hy), h3⟩

theorem longest_suffix {P : Char → Prop} {text s rest : Str} (h : Longest P text s rest) : rest <:+ text := ⟨s, h.1.symm⟩

theorem skip_suffix {text rest : Str} (h : Skip text rest) : rest <:+ text := by
  obtain ⟨sp, h⟩ := h
  exact longest_suffix h

theorem longest_append {P : Char → Prop} {q rest : Str} (hq : ∀ c ∈ q, P c) (hr : ∀ c, rest.head? = some c → ¬ P c) :
    Longest P (q ++ rest) q rest := ⟨rfl, hq, hr⟩

theorem skip_gap {gap text : Str} (hg : Blank gap) {c : Char} (hc : text.head? = some c) (hw : isWs c = false) :
    Skip (gap ++ text) text :=
  ⟨gap, rfl, hg, fun x hx => by rw [hc] at hx; cases hx; simp [hw]⟩

theorem numberChar_ws {c : Char} (h : NumberChar c) : isWs c = false := by
  rcases h with h | h
  · exact isDig_ws h
  · simp only [List.mem_cons, List.not_mem_nil, or_false] at h
    rcases h with rfl | rfl | rfl <;> decide

/-- An amount without a symbol before a semicolon has the semicolon for its symbol. -/
theorem amountPart_semicolon {gap q sp note : Str} (hg : Blank gap) (hq : ∀ c ∈ q, NumberChar c) (hsp : Blank sp) :
    ∃ q' s' r, AmountPart (gap ++ (q ++ (sp ++ ';' :: note))) q' (';' :: s') r ∧ (q ≠ [] → q' = q) ∧ r <:+ note := by
  have hsym : SymbolChar ';' := by unfold SymbolChar; decide
  have hnum : ¬ NumberChar ';' := by unfold NumberChar; decide
  have hsep : ∀ c, (sp ++ ';' :: note).head? = some c → ¬ NumberChar c := by
    intro c hc hn
    cases sp with
    | nil => cases hc; exact hnum hn
    | cons x sp =>
      cases hc
      have := hsp c List.mem_cons_self
      rw [numberChar_ws hn] at this; cases this
  obtain ⟨s, t4, hs⟩ := longest_exists (P := SymbolChar) (fun c => !isSymEnd c) (fun c => by rw [symbolChar_iff]; simp) (';' :: note)
  obtain ⟨s', rfl, hs'⟩ := longest_first hsym hs
  obtain ⟨r, hr⟩ := skip_exists t4
  by_cases hne : q = []
  · subst hne
    have h1 : Skip (gap ++ ([] ++ (sp ++ ';' :: note))) (';' :: note) := by
      rw [List.nil_append, ← List.append_assoc]
      exact skip_gap (blank_append hg hsp) rfl (by decide)
    obtain ⟨q', t5, hq'⟩ := longest_exists isQtyChar numberChar_iff r
    obtain ⟨r', hr'⟩ := skip_exists t5
    refine ⟨q', s', r', .symbol h1 (by simp) (fun c hc => by cases hc; exact hnum) hs hr hq' hr', fun h => absurd rfl h, ?_⟩
    exact (skip_suffix hr').trans ((longest_suffix hq').trans ((skip_suffix hr).trans (longest_suffix hs')))
  · obtain ⟨x, xs, rfl⟩ : ∃ x xs, q = x :: xs := by cases q; exact absurd rfl hne; exact ⟨_, _, rfl⟩
    refine ⟨x :: xs, s', r, .number (skip_gap hg rfl (numberChar_ws (hq x List.mem_cons_self))) (longest_append hq hsep) hne
      (skip_gap hsp rfl (by decide)) hs hr, fun _ => rfl, (skip_suffix hr).trans (longest_suffix hs')⟩

end Ledger
