import Verif.Model.Public
import Verif.Props.Scanner
import Verif.Props.Reading
import Verif.Lemmas.ParseAmount
import Verif.Props.Characters
/-
C116: `parse_amount`, the public function that reads a single amount into a journal, and what other public functions
make of a single text (C02, C53).
-/
namespace Ledger
open Ledger.Parser Ledger.Scanner

/-- C116: how `scan_amount` takes a text apart. -/
theorem C116_parts (text q s rest : Str) : scanAmount text = .ok (⟨q, s⟩, rest) ↔ AmountPart text q s rest :=
  (amountPart_iff text q s rest).symm

/-- C116: which texts make `parse_amount` panic, whatever the journal. -/
theorem C116_panics (text : Str) (p : Pool) (k : Panic) :
    parseAmount text p = .error k ↔ OnlySpace text ∧ k = .noAmountChar := by
  have hb : OnlySpace text ↔ Blank text := by
    unfold OnlySpace Blank
    exact forall₂_congr fun c _ => (C114_white_space c).symm
  rw [hb]
  constructor
  · intro h
    rcases scanAmount_cases text with hc | ⟨q, s, rest, hc⟩
    · refine ⟨hc, ?_⟩
      unfold parseAmount at h
      rw [(amount_blank_iff text).mp hc] at h
      cases h; rfl
    · rw [parseAmount_ok hc] at h; cases h
  · rintro ⟨h, rfl⟩
    unfold parseAmount
    rw [(amount_blank_iff text).mp h]; rfl

/-- C116: what `parse_amount` returns and what it leaves in the journal, for every text that does not make it panic.
What follows the amount is ignored, and the commodity is registered even if there is no amount. -/
theorem C116_reads (text : Str) (p p' : Pool) (r : Option Amount) (h : parseAmount text p = .ok (p', r)) :
    ∃ q s rest, AmountPart text q s rest ∧ Registers p s p' ∧
      ∀ a, r = some a ↔ Numeral q a.qty ∧ a.comm = symbolOf s := by
  rcases scanAmount_cases text with hc | ⟨q, s, rest, hc⟩
  · rw [(C116_panics text p .noAmountChar).mpr ⟨fun c hm => (C114_white_space c).mp (hc c hm), rfl⟩] at h
    cases h
  · refine ⟨q, s, rest, hc, ?_⟩
    rw [parseAmount_ok hc] at h
    injection h with h
    unfold parseAmountParts at h
    simp only [Prod.mk.injEq, findOrCreate_pointer] at h
    obtain ⟨rfl, rfl⟩ := h
    refine ⟨registers p s, fun a => ?_⟩
    rw [← C02_parse_exact, Option.map_eq_some_iff]
    constructor
    · rintro ⟨d, hd, rfl⟩; exact ⟨hd, rfl⟩
    · rintro ⟨hd, hs⟩
      exact ⟨a.qty, hd, by cases a; simp only at hs; rw [hs]; rfl⟩

/-- C116: a written amount is read as what it says, among any blanks. -/
theorem C116_written (text : Str) (a : Amount) (h : WrittenAmount text a) (sp sp' : Str) (hs : OnlySpace sp)
    (hs' : OnlySpace sp') (p : Pool) : ∃ p', parseAmount (sp ++ text ++ sp') p = .ok (p', some a) := by
  obtain ⟨q, s, ht, hn, hc⟩ := h
  have hb : Blank sp := fun c hm => (C114_white_space c).mpr (hs c hm)
  have hb' : Blank sp' := fun c hm => (C114_white_space c).mpr (hs' c hm)
  have e := scanAmount_blanks (sp ++ text) hb'
  have e' := scanAmount_text (rest := []) ht hb (by simp [Stops]) (by simp [trimStart])
  rw [List.append_nil] at e'
  rw [e'] at e
  unfold parseAmount
  rw [e]
  refine ⟨(parseAmountParts q s p).1, ?_⟩
  have hd := (C02_parse_exact q a.qty).mpr hn
  show Except.ok (parseAmountParts q s p) = _
  unfold parseAmountParts
  simp only [findOrCreate_pointer, hd, Option.map_some]
  obtain ⟨d, c⟩ := a
  simp only at hc
  rw [hc]; rfl

/-- What follows the amount is ignored, the number may come second, and the symbol stays even without a number. -/
example :
    parseAmount (str " 25.50 EUR, or so") Pool.empty =
        .ok ((Pool.empty.findOrCreate (str "EUR,") none).1, some ⟨⟨false, 2550, 2⟩, some (str "EUR,")⟩) ∧
      parseAmount (str "EUR -25") Pool.empty =
        .ok ((Pool.empty.findOrCreate (str "EUR") none).1, some ⟨⟨true, 25, 0⟩, some (str "EUR")⟩) ∧
      parseAmount (str "25") Pool.empty = .ok (Pool.empty, some ⟨⟨false, 25, 0⟩, none⟩) ∧
      parseAmount (str "1,000 EUR") Pool.empty = .ok ((Pool.empty.findOrCreate (str "EUR") none).1, none) ∧
      parseAmount (str "@ 5") Pool.empty = .ok (Pool.empty, none) ∧
      parseAmount (str "  ") Pool.empty = .error .noAmountChar := by decide +kernel

/-- The written amount of `C116_written`. -/
example : WrittenAmount (str "25.50 EUR") ⟨⟨false, 2550, 2⟩, some (str "EUR")⟩ ∧ OnlySpace (str " \t") := by
  refine ⟨⟨str "25.50", str "EUR", ?_, (C02_parse_exact _ _).mp (by decide +kernel), rfl⟩, by unfold OnlySpace; decide +kernel⟩
  exact AmountText.after (q := str "25.50") (sp := [' ']) (s := str "EUR") (quantityText_of (by decide +kernel)) (by intro c hc; simp at hc; subst hc; decide)
    (symbolText_of (by decide +kernel)) (.inl (by simp))

/-- C53: `parse_datetime` reads the text of a day as midnight of that day and refuses every other text. -/
theorem C53_datetime (s : Str) (t : DateTime) : parseDatetime s = some t ↔ DayText s t.date ∧ t.time = ⟨0, 0, 0⟩ := by
  unfold parseDatetime
  rw [Option.map_eq_some_iff]
  constructor
  · rintro ⟨d, h, rfl⟩; exact ⟨(C53_date_text s d).mp h, rfl⟩
  · rintro ⟨h, ht⟩
    exact ⟨t.date, (C53_date_text s t.date).mpr h, by cases t; simp only at ht; rw [ht]; rfl⟩

example : parseDatetime (str "2023-05-01") = some ⟨⟨2023, 5, 1⟩, ⟨0, 0, 0⟩⟩ ∧ parseDatetime (str "2023-02-29") = none ∧
    parseDatetime (str "2023-05-01 10:00:00") = none := by decide +kernel

/-- C02: converting a text to a quantity panics exactly if the text is not a numeral that fits. -/
theorem C02_convert (s : Str) :
    (∀ d, Dec.ofText s = .ok d ↔ Numeral s d) ∧ ∀ k, Dec.ofText s = .error k ↔ k = .quantityParse ∧ ∀ d, ¬ Numeral s d := by
  simp only [← C02_parse_exact]
  unfold Dec.ofText
  cases Dec.fromStr s with
  | none => simp [eq_comm]
  | some d => simp

example : Dec.ofText (str "0.050") = .ok ⟨false, 50, 3⟩ ∧ Dec.ofText (str "5 EUR") = .error .quantityParse := by decide +kernel

end Ledger
