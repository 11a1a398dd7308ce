import Verif.Model.Basic
/-
Command lines as sequences of words and option groups.
-/
namespace Ledger

/-- An item of a command line. -/
inductive ArgItem where
  /-- a command or one of its arguments -/
  | word (w : Str)
  /-- `-f FILE`, or `-ff FILE FILE` and so on, one letter for each value -/
  | files (vs : List Str)

/-- A word does not look like an option. -/
def ArgItem.Proper : ArgItem → Prop
  | .word w => w.head? ≠ some '-'
  | .files _ => True

/-- The arguments of an item. -/
def ArgItem.args : ArgItem → List Str
  | .word w => [w]
  | .files vs => ('-' :: List.replicate vs.length 'f') :: vs

/-- The arguments of a command line. -/
def argsOf (items : List ArgItem) : List Str := items.flatMap ArgItem.args

/-- The words of a command line, in order. -/
def wordsOf (items : List ArgItem) : List Str := items.flatMap (fun | .word w => [w] | .files _ => [])

/-- The values of `-f` of a command line, in order. -/
def filesOf (items : List ArgItem) : List Str := items.flatMap (fun | .word _ => [] | .files vs => vs)

end Ledger
