import Verif.Model.Parser
/-
Reports (src/report.rs), command line (src/option.rs, src/lib.rs:67-141, src/main.rs) and the two iterators
(src/reader.rs, src/iterator.rs).
-/
namespace Ledger

namespace Report

/-- report.rs:12-18 `report_accounts` -/
def reportAccounts (j : Journal) : List Str := j.master.flatten.map (·.2)

/-- report.rs:49-56: one amount of a balance line: the quantity and, after a space, the symbol. -/
def showAmount (a : Amount) : Str :=
  a.qty.display ++ (match a.comm with | some s => ' ' :: s | none => [])

/-- report.rs:47-56: the amounts of a balance, one after the other. -/
def showBalance (b : Balance) : Str := b.amounts.flatMap showAmount

/-- report.rs:58 -/
def balanceLine (fullname : Str) (b : Balance) : Str :=
  str "Account " ++ fullname ++ str " has balance " ++ showBalance b

/-- report.rs:64-67: concatenation of the children's lines. -/
def concatLines : List (Res (List Str)) → Res (List Str)
  | [] => .ok []
  | r :: rs => do let x ← r; let xs ← concatLines rs; .ok (x ++ xs)

/-- The total of an account together with its report lines, as functions of the account's path.  One recursion
gives both; the total is `Journal.accountTotal` (`linesFold_total`). -/
def linesFold (j : Journal) (a : Account) : Res Balance × (Path → Res (List Str)) :=
  Account.fold (fun _ ps rs =>
    let total : Res Balance := do
      let b ← Journal.totalGo (sortByKey (rs.map (fun r => (r.1, r.2.1)))) Balance.empty
      let own ← Journal.amountGo j ps Balance.empty
      b.addBalance own
    (total, fun path => do
      let b ← total
      let rest ← concatLines ((sortByKey rs).map (fun r => r.2.2 (path ++ [r.1])))
      .ok (balanceLine (Account.fullname path) b :: rest))) a

/-- report.rs:43-70 `get_children_lines` for the account at `path`. -/
def childrenLines (j : Journal) (path : Path) (a : Account) : Res (List Str) := (linesFold j a).2 path

/-- report.rs:31-40 `balance_report` -/
def balanceReport (j : Journal) : Res (List Str) := childrenLines j [] j.master

/-- report.rs:88-91: adding the amounts of postings, which must have one. -/
def addPosts : List Post → Balance → Res Balance
  | [], b => .ok b
  | p :: ps, b => match p.amount with
    | none => .error .postWithoutAmount
    | some a => do let b' ← b.add a; addPosts ps b'

/-- report.rs:80-94: the loop over the accounts; each with the postings that point to it. -/
def balancesGo (j : Journal) : List Path → Res (List (Str × Balance))
  | [] => .ok []
  | p :: ps => do
    let b ← addPosts (j.allPosts.filter (fun q => q.account = p)) Balance.empty
    let rest ← balancesGo j ps
    .ok ((Account.fullname p, b) :: rest)

/-- report.rs:76-96 `get_account_balances` (not called by the program) -/
def accountBalances (j : Journal) : Res (List (Str × Balance)) := balancesGo j (j.master.flatten.map (·.1))

/-- report.rs:105-123: the amounts of a balance, separated by commas; an empty symbol is not shown. -/
def showEntries : Str → List Amount → Str
  | text, [] => text
  | text, a :: as =>
    let text := if text = [] then text else text ++ str ", "
    let text := text ++ a.qty.display
    let text := match a.comm with
      | some (c :: cs) => text ++ ' ' :: c :: cs
      | _ => text
    showEntries text as

/-- report.rs:99-128 `format_balance_report` (not called by the program) -/
def formatBalanceReport (balances : List (Str × Balance)) : List Str :=
  (sortByKey balances).map (fun x => str "Account " ++ x.1 ++ str " has balance " ++ showEntries [] x.2.amounts)

end Report

namespace Options

/-- option.rs:90-107: each option letter takes the next argument as its value. -/
def takeValues : List Char → List Str → Res (List Str × List Str)
  | [], args => .ok ([], args)
  | _ :: _, [] => .error .missingOptionArgument
  | c :: cs, v :: args => do
    let (opts, rest) ← takeValues cs args
    .ok (['-', c] :: v :: opts, rest)

/-- option.rs:32-109: the loop over the arguments.  Result: commands and options. -/
def splitGo : Nat → List Str → Res (List Str × List Str)
  | 0, _ => .error .outOfFuel
  | _ + 1, [] => .ok ([], [])
  | fuel + 1, arg :: args =>
    match arg with
    | '-' :: '-' :: _ => .error .longOption
    | '-' :: letters => do
      let (opts, rest) ← takeValues letters args
      let (cs, os) ← splitGo fuel rest
      .ok (cs, opts ++ os)
    | _ => do
      let (cs, os) ← splitGo fuel args
      .ok (arg :: cs, os)

/-- option.rs:310-329 `get_input_options`: the file names. -/
def inputOptions : List Str → Res (List Str)
  | [] => .ok []
  | [o] => if o = str "-f" then .error .missingFilename else .error .unrecognizedArgument
  | o :: v :: rest =>
    if o = str "-f" then do let fs ← inputOptions rest; .ok (v :: fs)
    else .error .unrecognizedArgument

/-- option.rs:26-115 `process_arguments`: commands and file names. -/
def processArguments (args : List Str) : Res (List Str × List Str) := do
  let (commands, options) ← splitGo (args.length + 1) args
  let files ← inputOptions options
  .ok (commands, files)

end Options

namespace Cli
open Parser

/-- lib.rs:135-138: reading the files one after the other into one journal. -/
def readFiles (files : Files) (depth : Nat) : List Str → Journal → Res Journal
  | [], j => .ok j
  | f :: fs, j => do let j' ← parseFile files depth f j; readFiles files depth fs j'

/-- lib.rs:83-123 `execute_command` -/
def executeCommand (files : Files) (depth : Nat) (commands : List Str) (filenames : List Str) :
    Res (List Str) :=
  match commands with
  | [] => .error .noVerb
  | verb :: _ => do
    let j ← readFiles files depth filenames Journal.new
    match verb with
    | [] => .error .noVerb
    | c :: _ =>
      if c = 'a' then .ok ((sortByKey ((Report.reportAccounts j).map (fun s => (s, ())))).map (·.1))
      else if c = 'b' then
        if verb = str "b" ∨ verb = str "bal" ∨ verb = str "balance" then Report.balanceReport j
        else .error .unsupportedVerb
      else .error .unsupportedVerb

/-- lib.rs:67-72 `run` -/
def run (files : Files) (depth : Nat) (args : List Str) : Res (List Str) := do
  let (commands, filenames) ← Options.processArguments args
  executeCommand files depth commands filenames

/-- main.rs:6-20,29-31: the program passes its whole argument vector, the program name included. -/
def main (files : Files) (depth : Nat) (argv : List Str) : Res (List Str) := run files depth argv

end Cli

namespace Iterators

/-- directives.rs `DirectiveType`: only the two variants that are produced. -/
inductive Directive where
  | comment
  | xact
deriving DecidableEq, Repr

/-- reader.rs:22-26: the lines not read yet and the buffer. -/
structure DirectiveIter where
  lines : Parser.Source
  buffer : Str
deriving DecidableEq, Repr

/-- reader.rs:42-61 `DirectiveIter::next`.  The buffer is never cleared (`read_line` appends). -/
def DirectiveIter.next (it : DirectiveIter) : Res (Option Directive × DirectiveIter) :=
  match it.lines with
  | [] => .ok (none, it)
  | none :: _ => .error .readError
  | some l :: rest => .ok (some .comment, ⟨rest, it.buffer ++ l⟩)

/-- iterator.rs:26-36 `SimpleParserIter::next`; `checked` tells whether overflow checks are on (debug build). -/
def simpleNext (checked : Bool) (counter : Nat) : Res (Option Directive × Nat) :=
  if counter + 1 ≥ 256 ∧ checked then .error .counterOverflow
  else
    let c := (counter + 1) % 256
    .ok (if c > 100 then none else some .xact, c)

end Iterators
end Ledger
