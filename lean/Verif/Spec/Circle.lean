import Verif.Spec.Found
import Mathlib.Logic.Relation
/-
Files that include each other.
-/
namespace Ledger
open Ledger.Parser

/-- Reading the lines comes to an include line for this file.  `inc` is what included files say. -/
inductive ComesTo (inc : Str → List Item → Ending → Prop) : Source → Str → Prop
  | here {line f : Str} {rest : Source} (h : TopPart line (.includeFile f)) : ComesTo inc (some line :: rest) f
  | ignored {line f : Str} {rest : Source} (h : TopPart line .ignored) (hr : ComesTo inc rest f) : ComesTo inc (some line :: rest) f
  | skipped {line f : Str} {rest : Source} (h : TopPart line .skipped) (hr : ComesTo inc rest f) : ComesTo inc (some line :: rest) f
  | price {line f : Str} {rest : Source} {r : Recording} (h : TopPart line .price) (hp : PriceSays line r)
      (hr : ComesTo inc rest f) : ComesTo inc (some line :: rest) f
  | xact {line f : Str} {body tail rest : Source} {w : Writing} (hh : HeaderSays line w)
      (hb : BodyReads body w.comments w.entries tail) (ht : AfterXact tail rest) (hr : ComesTo inc rest f) :
      ComesTo inc (some line :: body) f
  | included {line g f : Str} {rest : Source} {is : List Item} (h : TopPart line (.includeFile g)) (hi : inc g is .done)
      (hr : ComesTo inc rest f) : ComesTo inc (some line :: rest) f

/-- What a file says, however deep its includes are nested; a file that does not exist counts as empty. -/
def Said (files : Files) (f : Str) (is : List Item) (e : Ending) : Prop :=
  (files f = none ∧ is = [] ∧ e = .done) ∨ ∃ src d, files f = some src ∧ SaysUpTo files d src is e

/-- Reading the one file comes to an include of the other, which exists. -/
def Leads (files : Files) (f g : Str) : Prop := files g ≠ none ∧ ∃ src, files f = some src ∧ ComesTo (Said files) src g

/-- The one file has an include line for the other, which exists. -/
def Cites (files : Files) (f g : Str) : Prop :=
  files g ≠ none ∧ ∃ src line, files f = some src ∧ some line ∈ src ∧ TopPart line (.includeFile g)

/-- There are no other files. -/
def Only (files : Files) (L : List Str) : Prop := ∀ f, files f ≠ none → f ∈ L

/-- Reading the files one after another comes to a file that leads, directly or through others, back to itself. -/
def RunsInCircles (files : Files) (fs : List Str) : Prop :=
  ∃ a f b g, fs = a ++ f :: b ∧ (∃ d is, FilesSay files d a is .done) ∧
    Relation.ReflTransGen (Leads files) f g ∧ Relation.TransGen (Leads files) g g

end Ledger
