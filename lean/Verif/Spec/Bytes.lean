import Verif.Model.Basic
import Mathlib.Data.List.Forall2
/-
Texts and files as bytes.
-/
namespace Ledger

/-- The UTF-8 encoding of a text, character by character (the encoding of a character is that of Lean's core library). -/
def utf8 (text : Str) : List UInt8 := text.flatMap String.utf8EncodeChar

/-- The lines of a file: each ends with its only byte 10, except perhaps the last. -/
inductive FileLines : List UInt8 → List (List UInt8) → Prop
  | empty : FileLines [] []
  | last {w : List UInt8} (hw : w ≠ []) (h : 10 ∉ w) : FileLines w [w]
  | line {w rest : List UInt8} {ls : List (List UInt8)} (h : 10 ∉ w) (hr : FileLines rest ls) :
      FileLines (w ++ 10 :: rest) ((w ++ [10]) :: ls)

/-- Bytes that are the encoding of no text. -/
def Damaged (l : List UInt8) : Prop := ∀ text, utf8 text ≠ l

/-- A line is read as the text that it encodes, and not read if there is none. -/
def LineReads (l : List UInt8) (o : Option Str) : Prop := (∃ text, utf8 text = l ∧ o = some text) ∨ (Damaged l ∧ o = none)

/-- What is read of a file, line by line. -/
def BytesRead (bs : List UInt8) (src : List (Option Str)) : Prop := ∃ ls, FileLines bs ls ∧ List.Forall₂ LineReads ls src

end Ledger
