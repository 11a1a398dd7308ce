import Verif.Model.Parser
/-
Public functions that nothing else in the crate calls.
-/
namespace Ledger

/-- parser.rs:56-61 `parse_datetime`; the error that is returned is chrono's. -/
def Parser.parseDatetime (s : Str) : Option DateTime := (Chrono.parseDate s).map (fun d => ⟨d, .midnight⟩)

/-- amount.rs:248-253 `From<&str> for Quantity`: `unwrap` of the result. -/
def Dec.ofText (s : Str) : Res Dec :=
  match Dec.fromStr s with
  | some d => .ok d
  | none => .error .quantityParse

end Ledger
