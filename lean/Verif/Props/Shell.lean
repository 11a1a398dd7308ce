import Verif.Lemmas.Shell
import Verif.Props.Lines
/-
C79: command lines.
-/
namespace Ledger
open Ledger.Parser Cli

/-- C79: the words of a command line are those a shell reads in it, and a line in which a shell reads no words (a quotation
is not closed) is refused. -/
theorem C79_words (text : Str) :
    (∀ ws, Shell.split text = .ok ws ↔ CommandText text ws) ∧
    (Shell.split text = .error .commandLine ↔ ∀ ws, ¬ CommandText text ws) := by
  refine ⟨Shell.split_iff text, fun h ws hw => ?_, fun h => ?_⟩
  · rw [(Shell.split_iff text ws).2 hw] at h; cases h
  · cases hs : Shell.split text with
    | ok ws => exact absurd ((Shell.split_iff text ws).1 hs) (h ws)
    | error e => rw [Shell.splitGo_error _ _ _ _ _ hs]

/-- C79: a shell reads at most one list of words in a line. -/
theorem C79_words_unique {text : Str} {ws vs : List Str} (h : CommandText text ws) (h' : CommandText text vs) : ws = vs := by
  have := (Shell.split_iff text ws).2 h
  rw [(Shell.split_iff text vs).2 h'] at this
  cases this
  rfl

/-- C79: `run_command` does with a line what `run` does with its words. -/
theorem C79_run_command (files : Files) (depth : Nat) (text : Str) :
    (∀ ws, CommandText text ws → runCommand files depth text = run files depth ws) ∧
    ((∀ ws, ¬ CommandText text ws) → runCommand files depth text = .error .commandLine) := by
  refine ⟨fun ws h => ?_, fun h => ?_⟩
  · simp only [runCommand, (Shell.split_iff text ws).2 h, bind, Except.bind]
  · simp only [runCommand, (C79_words text).2.2 h, bind, Except.bind]

theorem quoted_pieces (w : Str) : ∀ b : Str, '\'' ∉ b →
    Pieces ('\'' :: (b ++ (w.flatMap (fun c => if c = '\'' then ['\'', '\\', '\'', '\''] else [c]) ++ ['\'']))) (b ++ w) := by
  induction w with
  | nil => intro b hb; simpa using Pieces.single hb .nil
  | cons c w ih =>
    intro b hb
    by_cases hc : c = '\''
    · subst hc
      have := Pieces.single hb (Pieces.escaped (c := '\'') (by decide) (ih [] (by simp)))
      simpa using this
    · have := ih (b ++ [c]) (by simp [hb, Ne.symm hc])
      simpa [hc] using this

/-- C79: every list of arguments can be given to `run_command`: between single quotes nothing is changed. -/
theorem C79_quoted (files : Files) (depth : Nat) (args : List Str) :
    Shell.split (shellJoin args) = .ok args ∧ runCommand files depth (shellJoin args) = run files depth args := by
  have h : CommandText (shellJoin args) args := by
    induction args with
    | nil => exact .nil
    | cons w ws ih =>
      have h1 := quoted_pieces w [] (by simp)
      have := CommandText.word (t := shellQuote w) (rest := ' ' :: shellJoin ws) ⟨'\'', _, rfl, by decide, by simp⟩
        (by simpa [shellQuote] using h1) (Or.inr ⟨_, _, rfl, Or.inl rfl⟩) (.blank (Or.inl rfl) ih)
      simpa [shellJoin] using this
  exact ⟨(Shell.split_iff _ _).2 h, (C79_run_command files depth _).1 _ h⟩

/-- C72: the command line `bal -f FILE` prints the report of what is written in the file.  Missing: as in
`C72_report_as_written_partial`. -/
theorem C72_command_line_partial (files : Files) (depth : Nat) {fs : List Str} {wss : List (List Writing)}
    (hf : List.Forall₂ (FileSays files depth) fs wss)
    (hc : ∀ w ∈ wss.flatten, ∃ w', Completed (LotsOf Journal.new.pool wss.flatten) w w')
    {text : Str} {items : List ArgItem} {verb : Str} {rest : List Str} (ht : CommandText text (argsOf items))
    (hp : ∀ i ∈ items, i.Proper) (hw : wordsOf items = verb :: rest) (hi : filesOf items = fs) (hv : BalanceVerb verb) :
    ∃ ws', List.Forall₂ (Completed (LotsOf Journal.new.pool wss.flatten)) wss.flatten ws' ∧
      (InRange (writtenBelow ws' []) → ∃ out, runCommand files depth text = .ok out ∧ ReportOf wss.flatten ws' out) := by
  rw [(C79_run_command files depth text).1 _ ht]
  exact C72_report_as_written_partial files depth hf hc (by rw [C58_split items hp, hw, hi]) hv

/-- A command line with quotations, a comment and a joined line. -/
example : Shell.split (str "b  -f 'my file'\"$x\\\"\"\\ y \\\n a#b # last") =
    .ok [str "b", str "-f", str "my file$x\" y", str "a#b"] := by decide +kernel

/-- Lines that are refused, and one that is not. -/
example : Shell.split (str "b 'x") = .error .commandLine ∧ Shell.split (str "b \"x\\\"") = .error .commandLine ∧
    Shell.split (str "b x\\") = .ok [str "b", str "x\\"] := by decide +kernel

example : CommandText (str "bal -f x") (argsOf [.word (str "bal"), .files [str "x"]]) :=
  (Shell.split_iff _ _).1 (by decide +kernel)

/-- The example of C72 as a command line. -/
example : ∃ ws', List.Forall₂ (Completed (LotsOf Journal.new.pool [LinesExample.shop, LinesExample.broker]))
        [LinesExample.shop, LinesExample.broker] ws' ∧
      (InRange (writtenBelow ws' []) → ∃ out, runCommand LinesExample.files 1 (str "bal -f x # report") = .ok out ∧
          ReportOf [LinesExample.shop, LinesExample.broker] ws' out) :=
  C72_command_line_partial LinesExample.files 1 (fs := [str "x"]) (wss := [[LinesExample.shop, LinesExample.broker]])
    (.cons ⟨_, _, rfl, LinesExample.textLines, LinesExample.lines⟩ .nil) LinesExample.completed
    (items := [.word (str "bal"), .files [str "x"]]) ((Shell.split_iff _ _).1 (by decide +kernel))
    (by intro i hi; simp only [List.mem_cons, List.not_mem_nil, or_false] at hi; rcases hi with rfl | rfl <;> simp [ArgItem.Proper, str]) rfl rfl (by unfold BalanceVerb; decide)

/-- The tests of the crate on `run_command`-style lines. -/
example : ∃ out, runCommand LinesExample.files 1 (str "accounts -f 'x'") = .ok out ∧ out.length = 6 :=
  ok_and (by decide +kernel)

end Ledger
