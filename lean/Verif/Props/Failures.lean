import Verif.Lemmas.Failures
/-
C87: the ways in which reading and reporting can fail, exactly.
-/
namespace Ledger
open Ledger.Parser

/-! ### witnesses -/

namespace FailureExample

/-- A directory with one file `f`. -/
def one (text : Str) : Files := fun f => if f = str "f" then some (textSource text) else none

/-- Command lines that fail, with the failure. -/
def lines : List (Panic × List Str) :=
  [(.longOption, [str "--file", str "f", str "b"]),
   (.missingOptionArgument, [str "b", str "-f"]),
   (.unrecognizedArgument, [str "b", str "-x", str "f"]),
   (.noVerb, [str "-f", str "f"]),
   (.unsupportedVerb, [str "register", str "-f", str "f"]),
   (.fileOpen, [str "b", str "-f", str "g"])]

/-- Texts that cannot be read, with the failure. -/
def texts : List (Panic × Str) :=
  [(.sliceBoundary, str "2024-01-01 X\n A  1 EUR @"),
   (.noAmountChar, str "2024-01-01 X\n A  \n"),
   (.secondLotPrice, str "2024-01-01 X\n A  1 EUR {1 USD} {2 USD}\n"),
   (.secondLotDate, str "2024-01-01 X\n A  1 EUR [2024-01-01] [2024-01-01]\n"),
   (.valuationExpr, str "2024-01-01 X\n A  1 EUR (x)\n"),
   (.separatorMissing, str "2024-01-01 X\n A  1 EUR {1 USD\n"),
   (.dateParse, str "2024-02-30 X\n"),
   (.decimalOverflow, str ("2024-01-01 X\n A  79228162514264337593543950335 EUR\n" ++
     " B  79228162514264337593543950335 EUR\n")),
   (.secondNullPost, str "2024-01-01 X\n A\n B\n"),
   (.singlePosting, str "2024-01-01 X\n A  1 EUR\n"),
   (.costSameCommodity, str "2024-01-01 X\n A  1 EUR @ 2 EUR\n B\n"),
   (.nullPostCommodities, str "2024-01-01 X\n A  1 EUR\n B  1 USD\n C\n"),
   (.amountWithoutCommodity, str "2024-01-01 X\n A  1 @@ 2 EUR\n B\n"),
   (.priceWithoutCommodity, str "2024-01-01 X\n A  1 EUR @@ 2\n B\n"),
   (.priceLineTooShort, str "i\n"),
   (.timeParse, str "i 2024-01-01 25:00:00 EUR 1 USD"),
   (.quantityParse, str "i 2024-01-01 EUR one USD"),
   (.priceOfItself, str "i 2024-01-01 EUR 1 EUR"),
   (.indentedTopLevel, str " A  1 EUR\n"),
   (.badXactLine, str "2024-01-01 X\nA  1 EUR\n"),
   (.noDirective, str "\x0b\n"),
   (.unsupportedDirective, str "account A\n"),
   (.includeWithoutArgument, str "include\n"),
   (.includeRoot, str "include /\n"),
   (.stackOverflow, str "include f\n")]

theorem lines_fail : ∀ x ∈ lines, Cli.run (one []) 5 x.2 = .error x.1 := by decide +kernel

theorem texts_fail : ∀ x ∈ texts, parseText (one x.2) 5 x.2 Journal.new = .error x.1 ∧
    Cli.run (one x.2) 5 [str "b", str "-f", str "f"] = .error x.1 := by decide +kernel

/-- Two transactions that can be read and whose report gets too large. -/
def large : Str := str ("2024-01-01 X\n A  79228162514264337593543950335 EUR\n B\n\n" ++
  "2024-01-02 Y\n A  79228162514264337593543950335 EUR\n B\n")

example : (Cli.run (one large) 5 [str "accounts", str "-f", str "f"]).isOk = true ∧
    Cli.run (one large) 5 [str "b", str "-f", str "f"] = .error .decimalOverflow := by decide +kernel

theorem texts_all : ∀ e ∈ readFaults, ∃ x ∈ texts, x.1 = e := by decide

theorem lines_all : ∀ e ∈ argFaults ++ [.fileOpen], ∃ x ∈ lines, x.1 = e := by decide

end FailureExample

/-! ### C87 -/

/-- Whatever is read into a journal, the failures are those listed, and each of them occurs. -/
theorem C87_reading : (∀ (files : Files) (depth : Nat) (src : Source) (j : Journal) (e : Panic), j.Reachable →
      parse files depth src j = .error e → e ∈ readFaults) ∧
    ∀ e ∈ readFaults, ∃ files depth text, parseText files depth text Journal.new = .error e := by
  refine ⟨fun files depth src j e hj h => fails_parse files depth src j hj.inOrder e h, fun e he => ?_⟩
  obtain ⟨x, hx, rfl⟩ := FailureExample.texts_all e he
  exact ⟨_, _, _, (FailureExample.texts_fail x hx).1⟩

/-- The failures of the program are those listed, no more and no fewer. -/
theorem C87_run (e : Panic) : e ∈ runFaults ↔ ∃ files depth args, Cli.run files depth args = .error e := by
  constructor
  · intro he
    unfold runFaults at he
    rcases List.mem_append.mp he with he | he
    · obtain ⟨x, hx, rfl⟩ := FailureExample.lines_all e he
      exact ⟨_, _, _, FailureExample.lines_fail x hx⟩
    · obtain ⟨x, hx, rfl⟩ := FailureExample.texts_all e he
      exact ⟨_, _, _, (FailureExample.texts_fail x hx).2⟩
  · rintro ⟨files, depth, args, h⟩
    exact fails_run files depth args e h

/-- No run finds its own state out of order: no pointer to a commodity or transaction that is not there, no node of the
price graph without commodity, no account that was just made and is gone, no reference to a posting that is not there,
no posting without amount in a report, no transaction without date, no file option without name; and no run divides by
zero, adds amounts in different commodities or comes to a posting or header without text. -/
theorem C87_state_in_order (files : Files) (depth : Nat) (args : List Str) :
    ∀ e ∈ [Panic.badPointer, .badNodeIndex, .accountUnwrapNone, .badPostRef, .postWithoutAmount, .xactWithoutDate,
      .missingFilename, .divByZero, .differentCommodities, .notAnI32, .noAccount, .invalidAccountName, .emptyXactHeader,
      .sameSourceTarget, .pathWithoutPrice, .outOfFuel], Cli.run files depth args ≠ .error e := by
  intro e he h
  have hm := fails_run files depth args e h
  have : ∀ e ∈ [Panic.badPointer, .badNodeIndex, .accountUnwrapNone, .badPostRef, .postWithoutAmount, .xactWithoutDate,
      .missingFilename, .divByZero, .differentCommodities, .notAnI32, .noAccount, .invalidAccountName, .emptyXactHeader,
      .sameSourceTarget, .pathWithoutPrice, .outOfFuel], e ∉ runFaults := by decide
  exact this e he hm

/-- The reports on a journal fail only when a number gets too large, and an account can be registered in it exactly if it
has a name. -/
theorem C87_reports (j : Journal) (hj : j.Reachable) :
    (∀ e, Report.balanceReport j = .error e → e = .decimalOverflow) ∧
    (∀ e, Report.accountBalances j = .error e → e = .decimalOverflow) ∧
    (∀ n, n ≠ [] → ∃ j' path, j.registerAccount n = .ok (j', some path)) ∧ j.registerAccount [] = .error .invalidAccountName := by
  refine ⟨fun e h => by simpa using fails_balanceReport hj e h, fun e h => by simpa using fails_accountBalances hj e h, ?_, rfl⟩
  intro n hn
  obtain ⟨m, path, h⟩ := fails_registerAccount hj.inOrder hn
  exact ⟨_, path, h⟩

end Ledger
