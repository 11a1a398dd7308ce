import Verif.Model.Basic
/-
Command lines and their words, as in a shell: blanks separate words, quotations and backslashes protect characters.
-/
namespace Ledger

/-- A blank of a command line. -/
def ShellBlank (c : Char) : Prop := c = ' ' ∨ c = '\t' ∨ c = '\n'

/-- The text between double quotes and what it stands for: a backslash protects `$`, a backquote, a double quote and a
backslash, disappears with a line feed, and is kept before anything else. -/
inductive DoubleBody : Str → Str → Prop
  | nil : DoubleBody [] []
  | plain {c : Char} {t s : Str} (h1 : c ≠ '"') (h2 : c ≠ '\\') (h : DoubleBody t s) : DoubleBody (c :: t) (c :: s)
  | special {c : Char} {t s : Str} (hc : c ∈ ['$', '`', '"', '\\']) (h : DoubleBody t s) : DoubleBody ('\\' :: c :: t) (c :: s)
  | joined {t s : Str} (h : DoubleBody t s) : DoubleBody ('\\' :: '\n' :: t) s
  | kept {c : Char} {t s : Str} (hc : c ∉ ['$', '`', '"', '\\', '\n']) (h : DoubleBody t s) :
      DoubleBody ('\\' :: c :: t) ('\\' :: c :: s)

/-- A piece of a word and what it stands for. -/
inductive Pieces : Str → Str → Prop
  | nil : Pieces [] []
  | plain {c : Char} {t s : Str} (hb : ¬ ShellBlank c) (hc : c ∉ ['\'', '"', '\\']) (h : Pieces t s) :
      Pieces (c :: t) (c :: s)
  | escaped {c : Char} {t s : Str} (hc : c ≠ '\n') (h : Pieces t s) : Pieces ('\\' :: c :: t) (c :: s)
  | joined {t s : Str} (h : Pieces t s) : Pieces ('\\' :: '\n' :: t) s
  | single {b t s : Str} (hb : '\'' ∉ b) (h : Pieces t s) : Pieces ('\'' :: (b ++ '\'' :: t)) (b ++ s)
  | double {b u t s : Str} (hb : DoubleBody b u) (h : Pieces t s) : Pieces ('"' :: (b ++ '"' :: t)) (u ++ s)

/-- A word does not start as a comment or with a joined line. -/
def WordStart (t : Str) : Prop := ∃ c r, t = c :: r ∧ c ≠ '#' ∧ ¬ (c = '\\' ∧ r.head? = some '\n')

/-- The command line has these words.  A `#` where a word could start begins a comment up to the end of the line; a
backslash at the very end stands for itself. -/
inductive CommandText : Str → List Str → Prop
  | nil : CommandText [] []
  | blank {c : Char} {t : Str} {ws : List Str} (hc : ShellBlank c) (h : CommandText t ws) : CommandText (c :: t) ws
  | joined {t : Str} {ws : List Str} (h : CommandText t ws) : CommandText ('\\' :: '\n' :: t) ws
  | comment {b t : Str} {ws : List Str} (hb : '\n' ∉ b) (h : CommandText t ws) : CommandText ('#' :: (b ++ '\n' :: t)) ws
  | lastComment {b : Str} (hb : '\n' ∉ b) : CommandText ('#' :: b) []
  | word {t s rest : Str} {ws : List Str} (hw : WordStart t) (hp : Pieces t s)
      (hr : rest = [] ∨ ∃ c r, rest = c :: r ∧ ShellBlank c) (h : CommandText rest ws) : CommandText (t ++ rest) (s :: ws)
  | backslash {t s : Str} (hw : t = [] ∨ WordStart t) (hp : Pieces t s) : CommandText (t ++ ['\\']) [s ++ ['\\']]

/-- A word between single quotes; a single quote is written as `'\\''`. -/
def shellQuote (w : Str) : Str := '\'' :: (w.flatMap (fun c => if c = '\'' then ['\'', '\\', '\'', '\''] else [c]) ++ ['\''])

/-- Quoted words with a space after each. -/
def shellJoin (ws : List Str) : Str := ws.flatMap (fun w => shellQuote w ++ [' '])

end Ledger
