import Verif.Spec.Found
import Verif.Spec.Arguments
/-
Command lines that are refused, and how many unreadable lines are met before reading ends.
-/
namespace Ledger
open Ledger.Parser

/-- How many lines that cannot be read are met up to the first faulty transaction. -/
inductive GapsMet : List Item → Nat → Prop
  | nil : GapsMet [] 0
  | gap {is : List Item} {n : Nat} (h : GapsMet is n) : GapsMet (.gap :: is) (n + 1)
  | price {r : Recording} {is : List Item} {n : Nat} (h : GapsMet is n) : GapsMet (.price r :: is) n
  | fine {w : Writing} {is : List Item} {n : Nat} (hw : ¬ Faulty w) (h : GapsMet is n) : GapsMet (.xact w :: is) n
  | faulty {w : Writing} {is : List Item} (hw : Faulty w) : GapsMet (.xact w :: is) 0

/-- A word of a command line, or a group of option letters with one value for each letter. -/
inductive ArgGroup where
  | word (w : Str)
  | options (letters : List Char) (values : List Str)

/-- A word does not begin with a hyphen, nor do the letters of a group. -/
def ArgGroup.Proper : ArgGroup → Prop
  | .word w => w.head? ≠ some '-'
  | .options letters values => letters.head? ≠ some '-' ∧ letters.length = values.length

/-- The arguments of a group. -/
def ArgGroup.args : ArgGroup → List Str
  | .word w => [w]
  | .options letters values => ('-' :: letters) :: values

/-- Why a command line is refused: after words and groups there is an option with two hyphens, or a group with too few
values; or there are only words and groups, but a letter other than f. -/
inductive ArgsRefused : List Str → Panic → Prop
  | long {gs : List ArgGroup} (hp : ∀ g ∈ gs, g.Proper) {name : Str} {rest : List Str} :
      ArgsRefused (gs.flatMap ArgGroup.args ++ ('-' :: '-' :: name) :: rest) .longOption
  | short {gs : List ArgGroup} (hp : ∀ g ∈ gs, g.Proper) {letters : List Char} {rest : List Str}
      (hl : letters.head? ≠ some '-') (hr : rest.length < letters.length) :
      ArgsRefused (gs.flatMap ArgGroup.args ++ ('-' :: letters) :: rest) .missingOptionArgument
  | letter {gs : List ArgGroup} (hp : ∀ g ∈ gs, g.Proper) {letters : List Char} {values : List Str} {c : Char}
      (hg : .options letters values ∈ gs) (hc : c ∈ letters) (hf : c ≠ 'f') :
      ArgsRefused (gs.flatMap ArgGroup.args) .unrecognizedArgument

end Ledger
