import Verif.Lemmas.Bytes
import Verif.Props.Parser
import Verif.Model.Trace
import Verif.Model.Machine
/-
C106: files as bytes.  C107: what a damaged line does to the rest of the file.
-/
namespace Ledger
open Ledger.Parser Ledger.Cli Ledger.Bytes

/-! ### C106 -/

/-- C106: what is read of a file, byte by byte. -/
theorem C106_source (bs : List UInt8) (src : Source) : byteSource bs = src ↔ BytesRead bs src := (bytesRead_iff bs src).symm

/-- C106: on files that are encoded texts the program does what it does on the texts. -/
theorem C106_texts (d : Disk) (texts : Str → Option Str) (h : ∀ f, d f = (texts f).map utf8) (depth : Nat) (args : List Str) :
    run d.files depth args = run (fun f => (texts f).map textSource) depth args ∧
    (Trace.run d.files depth args).events = (Trace.run (fun f => (texts f).map textSource) depth args).events ∧
    ∀ stays, Machine.run stays d.files depth args = Machine.run stays (fun f => (texts f).map textSource) depth args := by
  have e : d.files = fun f => (texts f).map textSource := by
    funext f
    rw [Disk.files, h f, Option.map_map]
    cases texts f with
    | none => rfl
    | some t => exact congrArg some (byteSource_utf8 t)
  rw [e]
  exact ⟨rfl, rfl, fun _ => rfl⟩

/-- C106: every line of a file can be read exactly if the file is an encoded text, which is then unique. -/
theorem C106_readable (bs : List UInt8) :
    ((∀ l ∈ byteSource bs, l ≠ none) ↔ ∃ text, utf8 text = bs) ∧
    ∀ s t : Str, utf8 s = bs → utf8 t = bs → s = t := by
  refine ⟨⟨byteSource_all, ?_⟩, fun s t hs ht => ?_⟩
  · rintro ⟨text, rfl⟩ l hl
    rw [byteSource_utf8, textSource, List.mem_map] at hl
    obtain ⟨x, _, rfl⟩ := hl
    simp
  · have := (decode_iff bs s).mpr hs
    rw [(decode_iff bs t).mpr ht] at this
    exact (Option.some.inj this).symm

/-- C106: a damaged line outside a transaction ends reading: the file is read as if it ended before the line. -/
theorem C106_outside (d : Disk) (depth : Nat) {f a : Str} {w rest : List UInt8} (ha : LineTerminated a) (ht : AtTop (textSource a))
    (h10 : 10 ∉ w) (hf : (d f = some (utf8 a ++ (w ++ 10 :: rest)) ∧ Damaged (w ++ [10])) ∨ (d f = some (utf8 a ++ w) ∧ Damaged w))
    (j : Journal) : parseFile d.files depth f j = parseText d.files depth a j := by
  have key : ∀ t, parse d.files depth (textSource a ++ none :: t) j = parse d.files depth (textSource a) j := by
    intro t
    have stop : ∀ j, parse d.files depth (none :: t) j = .ok j := by
      intro j; cases depth <;> rfl
    rw [parse_append d.files depth _ _ j (text_textSource a) ht]
    simp only [stop]
    cases parse d.files depth (textSource a) j <;> rfl
  rw [parseText]
  rcases hf with ⟨hf, hd⟩ | ⟨hf, hd⟩
  · simp only [parseFile, Disk.files, hf, Option.map_some, byteSource_damaged ha h10 hd]
    exact key _
  · simp only [parseFile, Disk.files, hf, Option.map_some, byteSource_damaged_end ha h10 hd]
    exact key _

/-- C106: a damaged line inside a transaction ends the transaction: the file is read as if the line were empty. -/
theorem C106_inside (files : Files) (depth : Nat) {a b line : Str} {w rest : List UInt8} (ha : LineTerminated a) (ht : AtTop (textSource a))
    (hl : HeaderLine line) (hl' : FullLine line) (hb : LineTerminated b) (he : ∀ l ∈ readLines b, ¬ EndLine l)
    (h10 : 10 ∉ w) (hd : Damaged (w ++ [10])) (j : Journal) :
    parse files depth (byteSource (utf8 (a ++ line ++ b) ++ (w ++ 10 :: rest))) j =
      parse files depth (byteSource (utf8 (a ++ line ++ b) ++ 10 :: rest)) j := by
  obtain ⟨x, e, hx⟩ := hl'
  have ht1 : LineTerminated line := Or.inr ⟨x, e⟩
  have e1 : textSource line = [some line] := by
    have := (readLines_fullLines [line] (fun l h => by rw [List.mem_singleton] at h; rw [h]; exact ⟨x, e, hx⟩)).1
    rw [List.flatten_singleton] at this
    rw [textSource, this]; rfl
  have e2 : textSource (a ++ line ++ b) = textSource a ++ some line :: textSource b := by
    rw [textSource_append (lineTerminated_append ha ht1), textSource_append ha, e1, List.append_assoc]; rfl
  have hab := lineTerminated_append (lineTerminated_append ha ht1) hb
  have e3 : byteSource (utf8 (a ++ line ++ b) ++ 10 :: rest) = textSource (a ++ line ++ b) ++ some ['\n'] :: byteSource rest := by
    have := byteSource_line hab (t := []) (by simp) rest
    simpa [utf8] using this
  rw [byteSource_damaged hab h10 hd, e3, e2, List.append_assoc, List.append_assoc, List.cons_append, List.cons_append]
  exact parse_damaged files depth (text_textSource a) ht hl (text_textSource b)
    (fun l hl => he l (by rw [textSource, List.mem_map] at hl; obtain ⟨y, hy, e⟩ := hl; exact (Option.some.inj e) ▸ hy)) j

/-- C106: a text after a byte order mark is refused. -/
theorem C106_byte_order_mark (files : Files) (depth : Nat) (text : Str) (j : Journal) :
    parse files depth (byteSource ([0xEF, 0xBB, 0xBF] ++ utf8 text)) j = .error .unsupportedDirective := by
  have e : [0xEF, 0xBB, 0xBF] ++ utf8 text = utf8 ('\uFEFF' :: text) := by
    rw [utf8, utf8, List.flatMap_cons]; rfl
  rw [e, byteSource_utf8, textSource]
  have h : ∃ l ls, readLines ('\uFEFF' :: text) = ('\uFEFF' :: l) :: ls := by
    rw [readLines, if_neg (by decide)]
    cases readLines text with
    | nil => exact ⟨[], [], rfl⟩
    | cons l ls => exact ⟨l, ls, rfl⟩
  obtain ⟨l, ls, h⟩ := h
  rw [h, List.map_cons]
  have ht : topLine ('\uFEFF' :: l) = .fails .unsupportedDirective := by
    rw [topLine, if_neg (by simp), if_neg (by decide), if_neg (by decide), if_neg (by decide), if_neg (by decide), generalDirective]
    have hw : ∃ u, (nextWord ('\uFEFF' :: l)).1 = '\uFEFF' :: u := by
      refine ⟨l.takeWhile (fun c => !isWs c), ?_⟩
      rw [nextWord, trimStart, List.dropWhile_cons_of_neg (by decide), splitAtFirst, List.takeWhile_cons_of_pos (by decide)]
    obtain ⟨u, hu⟩ := hw
    simp only [hu]
    rw [if_neg (by decide)]
  cases depth with
  | zero => rw [parse, parseWith_cons, ht]
  | succ n => rw [parse, parseWith_cons, ht]

/-- C106: of a file that begins with a byte that begins no character (such as FF or FE, the byte order marks of UTF-16)
nothing is read; the only sign of it is one error printed. -/
theorem C106_wide_text (files : Files) (depth : Nat) {b : UInt8} (hb : 0xF5 ≤ b) (rest : List UInt8) (j : Journal) :
    parse files depth (byteSource (b :: rest)) j = .ok j ∧
    (Trace.parse files depth (byteSource (b :: rest)) j).events = [.readError] := by
  have h : ∃ l ls, byteLines (b :: rest) = (b :: l) :: ls := by
    rw [byteLines]
    split
    · rename_i e; exact ⟨[], byteLines rest, by rw [e]⟩
    · cases byteLines rest with
      | nil => exact ⟨[], [], rfl⟩
      | cons l ls => exact ⟨l, ls, rfl⟩
  obtain ⟨l, ls, h⟩ := h
  rw [byteSource, h, List.map_cons, decode_high hb]
  cases depth <;> exact ⟨rfl, rfl⟩

/-! ### C107 -/

namespace BytesExample

/-- A transaction and an empty line. -/
def before : Str := str "2024-01-05 Bread\n  Food  20 EUR\n  Cash\n\n"

/-- Another transaction. -/
def after : Str := str "2024-01-06 Café\n  Food  5 EUR\n  Cash\n"

/-- `; Café` in Latin-1. -/
def latin : List UInt8 := utf8 (str "; Caf") ++ [0xE9]

theorem latin_damaged : Damaged (latin ++ [10]) := (decode_none _).mp (by decide +kernel)

theorem before_top : AtTop (textSource before) := by
  have e : textSource before = [some (str "2024-01-05 Bread\n"), some (str "  Food  20 EUR\n"), some (str "  Cash\n")] ++ [some (str "\n")] := by
    decide
  rw [e]
  exact .fin _ endLine_nl

/-- The file with the comment in Latin-1. -/
def stained : Disk := fun f => if f = str "a" then some (utf8 before ++ (latin ++ 10 :: utf8 after)) else none

/-- The same file with the comment in UTF-8. -/
def clean : Disk := fun f => if f = str "a" then some (utf8 (before ++ str "; Café\n" ++ after)) else none

/-- The comment hides the transaction after it. -/
example (j : Journal) : parseFile stained.files 0 (str "a") j = parseText stained.files 0 before j :=
  C106_outside stained 0 (w := latin) (rest := utf8 after) (Or.inr ⟨str "2024-01-05 Bread\n  Food  20 EUR\n  Cash\n", by decide⟩) before_top
    (by decide) (Or.inl ⟨rfl, latin_damaged⟩) j

/-- Characters of two, three and four bytes, and back. -/
example : utf8 (str "é€𝄞\n") = [0xC3, 0xA9, 0xE2, 0x82, 0xAC, 0xF0, 0x9D, 0x84, 0x9E, 10] ∧
    byteSource [0xC3, 0xA9, 0xE2, 0x82, 0xAC, 0xF0, 0x9D, 0x84, 0x9E, 10] = [some (str "é€𝄞\n")] := by decide +kernel

/-- Not UTF-8: a continuation byte alone, a character cut short, an overlong slash, half a surrogate pair, a character beyond the
last plane. -/
example : byteSource [0xA9, 10, 0xC3, 10, 0xC0, 0xAF, 10, 0xED, 0xA0, 0x80, 10, 0xF4, 0x90, 0x80, 0x80, 10, 0x41, 10] =
    [none, none, none, none, none, some (str "A\n")] := by decide +kernel

/-- A damaged comment inside a transaction ends it; the posting after it is refused. -/
example : run (Disk.files (fun _ => some (utf8 (str "2024-01-05 Bread\n  Food  20 EUR\n  Cash\n  ") ++ (latin ++ 10 :: utf8 (str "  Food  0 EUR\n")))))
    0 [str "bal", str "-f", str "a"] = .error .indentedTopLevel := by decide +kernel

end BytesExample

open BytesExample in
/-- C107 does not hold: a byte of a comment that is not UTF-8 hides the transactions after it from the report. -/
theorem C107_comment_violated :
    ∃ d d' : Disk, (∃ (a b : Str) (w : List UInt8) (c : Str), AtTop (textSource a) ∧ LineTerminated a ∧ 10 ∉ w ∧
        Damaged (w ++ [10]) ∧ IgnoredLine c ∧ FullLine c ∧ w.head? = some 59 ∧
        d (str "a") = some (utf8 a ++ (w ++ 10 :: utf8 b)) ∧ d' (str "a") = some (utf8 (a ++ c ++ b))) ∧
      ∃ out out', run d.files 0 [str "bal", str "-f", str "a"] = .ok out ∧ run d'.files 0 [str "bal", str "-f", str "a"] = .ok out' ∧
        str "Account Food has balance 20 EUR" ∈ out ∧ str "Account Food has balance 25 EUR" ∈ out' := by
  refine ⟨stained, clean, ⟨before, after, latin, str "; Café\n", before_top,
    Or.inr ⟨str "2024-01-05 Bread\n  Food  20 EUR\n  Cash\n", by decide⟩, by decide, latin_damaged, ?_, ⟨str "; Café", by decide, by decide⟩, by decide, rfl, rfl⟩,
    [str "Account  has balance 0 EUR", str "Account Cash has balance -20 EUR", str "Account Food has balance 20 EUR"],
    [str "Account  has balance 0 EUR", str "Account Cash has balance -25 EUR", str "Account Food has balance 25 EUR"],
    by decide +kernel, by decide +kernel, by decide, by decide⟩
  exact Or.inr (Or.inr ⟨';', str " Café\n", by decide, by decide⟩)

/-- C107, for the last line: outside a transaction, a damaged line at the end of a file changes nothing.  Missing: a damaged line
with something after it, which is then not read (`C107_comment_violated`, `C106_outside`). -/
theorem C107_last_partial (files : Files) (depth : Nat) {a : Str} {w : List UInt8} (ha : LineTerminated a) (ht : AtTop (textSource a))
    (h10 : 10 ∉ w) (j : Journal) :
    (Damaged w → parse files depth (byteSource (utf8 a ++ w)) j = parse files depth (byteSource (utf8 a)) j) ∧
    (Damaged (w ++ [10]) → parse files depth (byteSource (utf8 a ++ (w ++ [10]))) j = parse files depth (byteSource (utf8 a)) j) := by
  have key : parse files depth (textSource a ++ [none]) j = parse files depth (textSource a) j := by
    have stop : ∀ j, parse files depth [none] j = .ok j := by
      intro j; cases depth <;> rfl
    rw [parse_append files depth _ _ j (text_textSource a) ht]
    simp only [stop]
    cases parse files depth (textSource a) j <;> rfl
  rw [byteSource_utf8]
  refine ⟨fun hd => ?_, fun hd => ?_⟩
  · rw [byteSource_damaged_end ha h10 hd]; exact key
  · rw [byteSource_damaged ha h10 hd []]; exact key

example : Damaged BytesExample.latin := (decode_none _).mp (by decide +kernel)

end Ledger
