import Verif.Model.Report
/-
Command lines (src/lib.rs:74-81).  The splitting into words is done by the crate shell-words 1.1 (`split`), which is
modelled here as the automaton it is documented to be: the rules of the POSIX shell without expansions.
-/
namespace Ledger.Shell
open Ledger

/-- Where the automaton is in a command line. -/
inductive State where
  | delimiter
  | backslash
  | unquoted
  | unquotedBackslash
  | singleQuoted
  | doubleQuoted
  | doubleQuotedBackslash
  | comment
deriving DecidableEq, Repr

/-- A blank between words. -/
def isBlank (c : Char) : Bool := c = ' ' || c = '\t' || c = '\n'

/-- The loop of `shell_words::split`: the state, the word that is being read, the words before it, the rest of the line.
A quotation that is not closed is an error. -/
def splitGo : State → Str → List Str → Str → Res (List Str)
  | .delimiter, _, ws, [] => .ok ws
  | .delimiter, w, ws, c :: cs =>
    if c = '\'' then splitGo .singleQuoted w ws cs
    else if c = '"' then splitGo .doubleQuoted w ws cs
    else if c = '\\' then splitGo .backslash w ws cs
    else if isBlank c then splitGo .delimiter w ws cs
    else if c = '#' then splitGo .comment w ws cs
    else splitGo .unquoted (w ++ [c]) ws cs
  | .backslash, w, ws, [] => .ok (ws ++ [w ++ ['\\']])
  | .backslash, w, ws, c :: cs =>
    if c = '\n' then splitGo .delimiter w ws cs else splitGo .unquoted (w ++ [c]) ws cs
  | .unquoted, w, ws, [] => .ok (ws ++ [w])
  | .unquoted, w, ws, c :: cs =>
    if c = '\'' then splitGo .singleQuoted w ws cs
    else if c = '"' then splitGo .doubleQuoted w ws cs
    else if c = '\\' then splitGo .unquotedBackslash w ws cs
    else if isBlank c then splitGo .delimiter [] (ws ++ [w]) cs
    else splitGo .unquoted (w ++ [c]) ws cs
  | .unquotedBackslash, w, ws, [] => .ok (ws ++ [w ++ ['\\']])
  | .unquotedBackslash, w, ws, c :: cs =>
    if c = '\n' then splitGo .unquoted w ws cs else splitGo .unquoted (w ++ [c]) ws cs
  | .singleQuoted, _, _, [] => .error .commandLine
  | .singleQuoted, w, ws, c :: cs =>
    if c = '\'' then splitGo .unquoted w ws cs else splitGo .singleQuoted (w ++ [c]) ws cs
  | .doubleQuoted, _, _, [] => .error .commandLine
  | .doubleQuoted, w, ws, c :: cs =>
    if c = '"' then splitGo .unquoted w ws cs
    else if c = '\\' then splitGo .doubleQuotedBackslash w ws cs
    else splitGo .doubleQuoted (w ++ [c]) ws cs
  | .doubleQuotedBackslash, _, _, [] => .error .commandLine
  | .doubleQuotedBackslash, w, ws, c :: cs =>
    if c = '\n' then splitGo .doubleQuoted w ws cs
    else if c = '$' ∨ c = '`' ∨ c = '"' ∨ c = '\\' then splitGo .doubleQuoted (w ++ [c]) ws cs
    else splitGo .doubleQuoted (w ++ ['\\', c]) ws cs
  | .comment, _, ws, [] => .ok ws
  | .comment, w, ws, c :: cs => if c = '\n' then splitGo .delimiter w ws cs else splitGo .comment w ws cs
termination_by structural _ _ _ cs => cs

/-- `shell_words::split` -/
def split (command : Str) : Res (List Str) := splitGo .delimiter [] [] command

end Ledger.Shell

namespace Ledger.Cli
open Ledger.Parser

/-- lib.rs:77-80 `run_command`; the `unwrap` of the words is a panic. -/
def runCommand (files : Files) (depth : Nat) (command : Str) : Res (List Str) := do
  let args ← Shell.split command
  run files depth args

end Ledger.Cli
