import Verif.Model.Trace
/-
What the program writes to standard output (src/main.rs).
-/
namespace Ledger.Output
open Ledger

/-- A hexadecimal digit. -/
def hexChar (n : Nat) : Char := if n < 10 then Char.ofNat (48 + n) else Char.ofNat (87 + n)

/-- Hexadecimal digits of a number, most significant first, with fuel. -/
def hexGo : Nat → Nat → Str → Str
  | 0, _, acc => acc
  | f + 1, n, acc => if n / 16 = 0 then hexChar (n % 16) :: acc else hexGo f (n / 16) (hexChar (n % 16) :: acc)

/-- One character in the `Debug` text of a string (std, `char::escape_debug_ext`).  `plain` is the table of the characters
that are shown as they are (printable and not an extending mark), a parameter. -/
def debugChar (plain : Char → Bool) (c : Char) : Str :=
  if c = '\x00' then ['\\', '0']
  else if c = '\t' then ['\\', 't']
  else if c = '\r' then ['\\', 'r']
  else if c = '\n' then ['\\', 'n']
  else if c = '\\' then ['\\', '\\']
  else if c = '"' then ['\\', '"']
  else if plain c then [c]
  else ['\\', 'u', '{'] ++ hexGo 8 c.toNat [] ++ ['}']

/-- `Debug` of a string (std). -/
def debugStr (plain : Char → Bool) (s : Str) : Str := '"' :: s.flatMap (debugChar plain) ++ ['"']

/-- The elements of a vector with commas in between (std, `DebugList`). -/
def debugItems (plain : Char → Bool) : List Str → Str
  | [] => []
  | [s] => debugStr plain s
  | s :: ss => debugStr plain s ++ str ", " ++ debugItems plain ss

/-- `{:?}` of a `Vec<String>` (std). -/
def debugList (plain : Char → Bool) (xs : List Str) : Str := '[' :: debugItems plain xs ++ [']']

/-- What a run of the program has written, and the panic that ended it if there was one. -/
structure Ran where
  stdout : Str
  panic : Option Panic
deriving DecidableEq, Repr

/-- parser.rs:112,277: a line of output for each line that could not be read.  `errs` are the `Debug` texts of the errors,
a parameter. -/
def errorLines (errs : Nat → Str) (n : Nat) : Str :=
  (List.range n).flatMap (fun k => str "Error: " ++ errs k ++ ['\n'])

/-- main.rs:6-20,26-30: greeting, arguments, the errors met in reading, and the lines of the report in one line. -/
def program (plain : Char → Bool) (errs : Nat → Str) (files : Parser.Files) (depth : Nat) (argv : List Str) : Ran :=
  let head := str "Hello, Ledger-rs!\nYou requested " ++ debugList plain argv ++ ['\n']
  if argv = [] then ⟨head, some .noArguments⟩
  else
    let t := Trace.run files depth argv
    let head := head ++ errorLines errs (t.events.count .readError)
    match t.res with
    | .ok out => ⟨head ++ debugList plain out ++ ['\n'], none⟩
    | .error e => ⟨head, some e⟩

end Ledger.Output
