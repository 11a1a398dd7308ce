import Verif.Spec.Found
/-
The files that reading can come to.
-/
namespace Ledger
open Ledger.Parser

/-- The files that are named, those that these have include lines for, and so on; whether they exist or not. -/
inductive Sought (files : Files) (fs : List Str) : Str → Prop
  | given {f : Str} (h : f ∈ fs) : Sought files fs f
  | included {f g line : Str} {src : Source} (h : Sought files fs f) (hf : files f = some src) (hl : some line ∈ src)
      (hi : TopPart line (.includeFile g)) : Sought files fs g

end Ledger
