import Verif.Model.Report
/-
The ways in which an operation can fail.
-/
namespace Ledger

/-- Whatever failure there is, it is one of those listed. -/
def FailsOnly {α : Type} (S : List Panic) (r : Res α) : Prop := ∀ e, r = .error e → e ∈ S

/-- What can be wrong with the text of a posting: a character cut in the middle or missing where one is needed, a
second lot price or lot date, a valuation in parentheses, an unclosed lot. -/
def scanFaults : List Panic :=
  [.sliceBoundary, .noAmountChar, .secondLotPrice, .secondLotDate, .valuationExpr, .separatorMissing]

/-- What can be wrong with a posting: its text, the date of its lot, a cost too large. -/
def postFaults : List Panic := scanFaults ++ [.dateParse, .decimalOverflow]

/-- What can be wrong with a transaction as a whole. -/
def xactFaults : List Panic :=
  [.secondNullPost, .singlePosting, .costSameCommodity, .nullPostCommodities, .amountWithoutCommodity,
   .priceWithoutCommodity, .decimalOverflow]

/-- What can be wrong with a price line. -/
def priceFaults : List Panic :=
  [.sliceBoundary, .priceLineTooShort, .dateParse, .timeParse, .quantityParse, .priceOfItself, .priceWithoutCommodity]

/-- Lines that stand where they must not or that the program does not know. -/
def lineFaults : List Panic :=
  [.indentedTopLevel, .badXactLine, .noDirective, .unsupportedDirective, .includeWithoutArgument, .includeRoot]

/-- What can go wrong while a text is read; includes may be nested too deeply. -/
def readFaults : List Panic := postFaults ++ xactFaults ++ priceFaults ++ lineFaults ++ [.stackOverflow]

/-- What can be wrong with the command line. -/
def argFaults : List Panic := [.longOption, .missingOptionArgument, .unrecognizedArgument, .noVerb, .unsupportedVerb]

/-- What can go wrong in a run of the program. -/
def runFaults : List Panic := argFaults ++ [.fileOpen] ++ readFaults

end Ledger
