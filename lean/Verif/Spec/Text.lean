import Verif.Model.Parser
/-
Journal texts as sequences of lines, independent of the parser's control flow.
-/
namespace Ledger
open Ledger.Parser

/-- A line the parser ignores outside transactions: empty, comment (`; # * |`) or option (`-`). -/
def IgnoredLine (line : Str) : Prop :=
  line = ['\n'] ∨ line = ['\r', '\n'] ∨ ∃ c rest, line = c :: rest ∧ c ∈ [';', '#', '*', '|', '-']

/-- A line that ends a transaction: it is empty or consists of blanks. -/
def EndLine (line : Str) : Prop :=
  (∃ c rest, line = c :: rest ∧ (c = '\n' ∨ c = '\r')) ∨ (∃ rest, line = ' ' :: rest ∧ ∀ c ∈ line, isWs c = true)

/-- A line that starts a transaction. -/
def HeaderLine (line : Str) : Prop := ∃ c rest, line = c :: rest ∧ isDig c = true

/-- The end of these lines is not inside a transaction: either there is nothing before, or the last line ended a
transaction, or we were outside a transaction and the last line did not start one. -/
inductive AtTop : Source → Prop
  | nil : AtTop []
  | fin (s : Source) {line : Str} (h : EndLine line) : AtTop (s ++ [some line])
  | line {s : Source} {line : Str} (hs : AtTop s) (h : ¬ HeaderLine line) : AtTop (s ++ [some line])

/-- A file without unreadable lines. -/
def Text (s : Source) : Prop := none ∉ s

/-- A text line: it ends with its only line feed. -/
def FullLine (l : Str) : Prop := ∃ x, l = x ++ ['\n'] ∧ '\n' ∉ x

/-- A file name that `include` looks up: not one that starts with a tilde or backslash and has no slash, and not made of
dots and slashes alone. -/
def IncludeName (f : Str) : Prop :=
  (f.head? = some '~' ∨ f.head? = some '\\' → '/' ∈ f) ∧ ∃ c ∈ f, c ≠ '/' ∧ c ≠ '.'

/-- An include line: blanks after the word and nothing but what follows a blank after the name. -/
def IncludeWord (line f : Str) : Prop :=
  ∃ sp rest, line = str "include" ++ sp ++ f ++ rest ∧ sp ≠ [] ∧ (∀ c ∈ sp, isWs c = true) ∧ f ≠ [] ∧
    (∀ c ∈ f, isWs c = false) ∧ ∀ c, rest.head? = some c → isWs c = true

/-- An include line for a file. -/
def IncludeLine (line f : Str) : Prop := IncludeWord line f ∧ IncludeName f

/-- A comment line of a transaction: blanks, a semicolon and the text. -/
def CommentLine (line text : Str) : Prop :=
  ∃ sp rest, line = ' ' :: sp ++ ';' :: rest ∧ (∀ c ∈ sp, isWs c = true) ∧ text = trim rest

/-- A posting line of a transaction: blanks and something that is not a comment. -/
def PostingLine (line : Str) : Prop :=
  ∃ sp c rest, line = ' ' :: sp ++ c :: rest ∧ (∀ c ∈ sp, isWs c = true) ∧ isWs c = false ∧ c ≠ ';'

/-- The last text that is not empty. -/
def lastText (ts : List Str) : Option Str := (ts.filter (fun t => t ≠ [])).getLast?

/-- The header lines that come with a line: the line itself if it starts with a digit; for an include line those of
the included file. -/
def headersOf (inc : Str → List Str) : Option Str → List Str
  | none => []
  | some line =>
    if (line.head?.map isDig).getD false then [line]
    else match topLine line with
      | .includeFile f => inc f
      | _ => []

/-- The header lines of a source, in order, those of included files at the place of the include line. -/
def headerLines (files : Files) : Nat → Source → List Str
  | 0, s => s.flatMap (headersOf (fun _ => []))
  | d + 1, s => s.flatMap (headersOf (fun f => match files f with
    | some u => headerLines files d u
    | none => []))

/-- A file of which every line that starts with a line feed or carriage return is an empty line. -/
def PlainReturns (s : Source) : Prop :=
  ∀ c rest, some (c :: rest) ∈ s → c = '\n' ∨ c = '\r' → c :: rest = ['\n'] ∨ c :: rest = ['\r', '\n']

/-- A date of a header, possibly empty. -/
def HeaderDate (s : Str) (d : Option Date) : Prop := if s = [] then d = none else ∃ x, Chrono.parseDate s = some x ∧ d = some x

/-- The transaction has the date, auxiliary date and payee of the header line. -/
def HeaderOf (line : Str) (x : Xact) : Prop :=
  ∃ d a p n, Scanner.tokenizeXactHeader line = .ok (d, a, p, n) ∧ HeaderDate d x.date ∧ HeaderDate a x.auxDate ∧
    x.payee = (if p = [] then str "Unknown Payee" else p)

end Ledger
