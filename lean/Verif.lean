import Verif.Model.Report
import Verif.Lemmas.Dec
import Verif.Lemmas.DecArith
import Verif.Lemmas.DecText
import Verif.Lemmas.Balance
import Verif.Props.Quantity
import Verif.Props.Balance
import Verif.Props.Pool
import Verif.Props.Accounts
import Verif.Props.Totals
import Verif.Props.Finalize
import Verif.Props.Journal
import Verif.Props.Parser
import Verif.Props.Scanner
import Verif.Props.Dates
import Verif.Props.Cli
import Verif.Props.Memory
import Verif.Props.Lines
import Verif.Props.Shell
import Verif.Props.Conformance
import Verif.Props.Balances
import Verif.Props.Amounts
import Verif.Props.Heap
import Verif.Props.Accept
import Verif.Props.Faults
import Verif.Props.LineOrder
import Verif.Lemmas.LastLine
import Verif.Props.LastLine
import Verif.Props.MinusZero
import Verif.Props.Order
import Verif.Props.Output
import Verif.Props.NullRef
import Verif.Lemmas.Booked
import Verif.Props.Same
import Verif.Props.Failures
import Verif.Spec.Causes
import Verif.Lemmas.Causes
import Verif.Props.Causes
import Verif.Spec.Figures
import Verif.Lemmas.Figures
import Verif.Props.Figures
import Verif.Spec.Reading
import Verif.Lemmas.Reading
import Verif.Props.Reading
import Verif.Spec.Found
import Verif.Lemmas.Found
import Verif.Lemmas.Ending
import Verif.Props.Found
import Verif.Spec.Whole
import Verif.Lemmas.Told
import Verif.Props.Whole
import Verif.Spec.Books
import Verif.Props.Books
import Verif.Spec.Harm
import Verif.Lemmas.Harm
import Verif.Props.Harm
import Verif.Spec.Stale
import Verif.Lemmas.Stale
import Verif.Props.Stale
import Verif.Model.Machine
import Verif.Lemmas.Machine
import Verif.Lemmas.MachineRead
import Verif.Lemmas.MachineReport
import Verif.Spec.Machine
import Verif.Spec.Follows
import Verif.Props.Machine
import Verif.Lemmas.MachineStale
import Verif.Lemmas.HeapGrow
import Verif.Lemmas.HeapParents
import Verif.Lemmas.HeapNames
import Verif.Lemmas.MachineThru
import Verif.Lemmas.MachineRight
import Verif.Props.Follows
import Verif.Props.Displaced
import Verif.Props.Exactly
import Verif.Props.Costs
import Verif.Spec.Fresh
import Verif.Lemmas.MachineTime
import Verif.Lemmas.MachineFresh
import Verif.Lemmas.MachineWalk
import Verif.Lemmas.MachineExact
import Verif.Lemmas.MachineTrips
import Verif.Lemmas.MachineFault
import Verif.Props.Fresh
import Verif.Props.SafeReport
import Verif.Props.Stopped
import Verif.Model.Bytes
import Verif.Spec.Bytes
import Verif.Lemmas.Bytes
import Verif.Props.Bytes
import Verif.Spec.Circle
import Verif.Lemmas.Circle
import Verif.Props.Circle
import Verif.Spec.Frame
import Verif.Lemmas.Frame
import Verif.Props.Frame
import Verif.Model.Account
import Verif.Model.Amount
import Verif.Model.Basic
import Verif.Model.Date
import Verif.Model.Finalize
import Verif.Model.Heap
import Verif.Model.Journal
import Verif.Model.Memory
import Verif.Model.Output
import Verif.Model.Parser
import Verif.Model.Pool
import Verif.Model.Quantity
import Verif.Model.Scanner
import Verif.Model.Shell
import Verif.Model.Trace
import Verif.Spec.Accept
import Verif.Spec.Accounts
import Verif.Spec.Arguments
import Verif.Spec.Balanced
import Verif.Spec.Calendar
import Verif.Spec.Failures
import Verif.Spec.Faults
import Verif.Spec.Heap
import Verif.Spec.Journal
import Verif.Spec.LineOrder
import Verif.Spec.NumberText
import Verif.Spec.Output
import Verif.Spec.Posting
import Verif.Spec.Prices
import Verif.Spec.Rate
import Verif.Spec.Search
import Verif.Spec.Shell
import Verif.Spec.Text
import Verif.Spec.Totals
import Verif.Spec.Trips
import Verif.Spec.Value
import Verif.Spec.Written
import Verif.Spec.Xact
import Verif.Lemmas.Accept
import Verif.Lemmas.Account
import Verif.Lemmas.Annot
import Verif.Lemmas.Assoc
import Verif.Lemmas.Booking
import Verif.Lemmas.Classify
import Verif.Lemmas.Classify2
import Verif.Lemmas.Compose
import Verif.Lemmas.DateText
import Verif.Lemmas.DecRange
import Verif.Lemmas.Events
import Verif.Lemmas.Exactly
import Verif.Lemmas.Failures
import Verif.Lemmas.Faults
import Verif.Lemmas.Finalize
import Verif.Lemmas.Fine
import Verif.Lemmas.Heap
import Verif.Lemmas.HeapState
import Verif.Lemmas.LineOrder
import Verif.Lemmas.Memory
import Verif.Lemmas.Notes
import Verif.Lemmas.Order
import Verif.Lemmas.Outcome
import Verif.Lemmas.Output
import Verif.Lemmas.Parse
import Verif.Lemmas.Pool
import Verif.Lemmas.Price
import Verif.Lemmas.Ready
import Verif.Lemmas.Scan
import Verif.Lemmas.Search
import Verif.Lemmas.Shell
import Verif.Lemmas.Totals
import Verif.Lemmas.Trace
import Verif.Lemmas.Written
import Verif.Props.Balanced
import Verif.Spec.Moments
import Verif.Spec.Rounding
import Verif.Lemmas.Recorded
import Verif.Lemmas.Rounding
import Verif.Props.Moments
import Verif.Props.Rounding
import Verif.Spec.Characters
import Verif.Spec.Derived
import Verif.Props.Characters
import Verif.Model.Compare
import Verif.Model.Public
import Verif.Spec.BestFit
import Verif.Lemmas.BestFit
import Verif.Props.Compare
import Verif.Props.Derived
import Verif.Props.AnyFiles
import Verif.Props.RoundedReport
import Verif.Props.HeapReport
import Verif.Spec.ParseAmount
import Verif.Lemmas.ParseAmount
import Verif.Props.ParseAmount
import Verif.Spec.Rename
import Verif.Lemmas.Rename
import Verif.Props.Rename
import Verif.Spec.Money
import Verif.Lemmas.Money
import Verif.Props.Money
import Verif.Spec.Opposite
import Verif.Lemmas.Opposite
import Verif.Lemmas.Turned
import Verif.Props.Opposite
import Verif.Props.AddUp
import Verif.Props.Cancel
import Verif.Props.Refund
import Verif.Props.Plain
import Verif.Props.Regroup
import Verif.Props.Scaled
import Verif.Props.Parts
import Verif.Props.Refile
import Verif.Props.Chart
