import Verif.Lemmas.Booked
import Verif.Props.Lines
import Verif.Props.Output
/-
C86: only what is written matters, not how it is written.
-/
namespace Ledger
open Ledger.Parser Ledger.Cli

/-- C86: two texts that say the same transactions do the same to every journal: the same journal or the same panic,
however the lines are spaced, with whatever ignored lines in between, and in whatever included files the transactions
stand. -/
theorem C86_text {files files' : Files} {depth depth' : Nat} {text text' : Str} {lines lines' : List Str}
    {ws : List Writing} (ht : LinesOf text lines) (hs : Says files depth lines ws)
    (ht' : LinesOf text' lines') (hs' : Says files' depth' lines' ws) (j : Journal) :
    parseText files depth text j = parseText files' depth' text' j := by
  rw [parseText_book files depth ht hs, parseText_book files' depth' ht' hs']

/-- The same with the events. -/
theorem run_same {files files' : Files} {depth depth' : Nat} {fs fs' : List Str} {wss wss' : List (List Writing)}
    (hf : List.Forall₂ (FileSays files depth) fs wss) (hf' : List.Forall₂ (FileSays files' depth') fs' wss')
    (hw : wss.flatten = wss'.flatten) {args args' commands : List Str}
    (ha : Options.processArguments args = .ok (commands, fs))
    (ha' : Options.processArguments args' = .ok (commands, fs')) :
    Trace.run files depth args = Trace.run files' depth' args' := by
  have e : ∀ (files : Files) (depth : Nat) (args fs : List Str), Options.processArguments args = .ok (commands, fs) →
      Trace.run files depth args = Trace.executeCommand files depth commands fs := by
    intro files depth args fs h
    rw [Trace.run, h]
    rfl
  rw [e _ _ _ _ ha, e _ _ _ _ ha']
  unfold Trace.executeCommand
  rw [readFiles_book files depth hf, readFiles_book files' depth' hf', hw]

/-- C86: two commands on files that together say the same transactions give the same report or the same panic,
however the transactions are divided among the files. -/
theorem C86_run {files files' : Files} {depth depth' : Nat} {fs fs' : List Str} {wss wss' : List (List Writing)}
    (hf : List.Forall₂ (FileSays files depth) fs wss) (hf' : List.Forall₂ (FileSays files' depth') fs' wss')
    (hw : wss.flatten = wss'.flatten) {args args' commands : List Str}
    (ha : Options.processArguments args = .ok (commands, fs))
    (ha' : Options.processArguments args' = .ok (commands, fs')) :
    run files depth args = run files' depth' args' := by
  rw [← Trace.run_res, ← Trace.run_res, run_same hf hf' hw ha ha']

/-- C86: the program prints the same for them after the line with its arguments, and ends in the same way. -/
theorem C86_output (plain : Char → Bool) (errs : Nat → Str) {files files' : Files} {depth depth' : Nat} {fs fs' : List Str}
    {wss wss' : List (List Writing)} (hf : List.Forall₂ (FileSays files depth) fs wss)
    (hf' : List.Forall₂ (FileSays files' depth') fs' wss') (hw : wss.flatten = wss'.flatten) {argv argv' commands : List Str}
    (ha : Options.processArguments argv = .ok (commands, fs)) (hn : argv ≠ [])
    (ha' : Options.processArguments argv' = .ok (commands, fs')) (hn' : argv' ≠ []) :
    ∃ tail panic,
      Output.program plain errs files depth argv =
        ⟨str "Hello, Ledger-rs!\nYou requested " ++ Output.debugList plain argv ++ '\n' :: tail, panic⟩ ∧
      Output.program plain errs files' depth' argv' =
        ⟨str "Hello, Ledger-rs!\nYou requested " ++ Output.debugList plain argv' ++ '\n' :: tail, panic⟩ := by
  have h := run_same hf hf' hw ha ha'
  unfold Output.program
  simp only [if_neg hn, if_neg hn', h]
  cases (Trace.run files' depth' argv').res with
  | error e =>
    refine ⟨Output.errorLines errs ((Trace.run files' depth' argv').events.count .readError), some e, ?_, ?_⟩ <;> simp
  | ok out =>
    refine ⟨Output.errorLines errs ((Trace.run files' depth' argv').events.count .readError) ++
      Output.debugList plain out ++ ['\n'], none, ?_, ?_⟩ <;> simp

/-! ### example -/

namespace SameExample
open LinesExample

/-- The purchase of the example for C72 once more: other blanks, a zero more, the commodity in front, a note that is not
kept, and other ignored lines. -/
def text3 : List Str :=
  [str "\n", str "* Groceries\n", str "2023-05-01   Shop   ;food \n", str "  Expenses:Food     EUR020.50   ; milk\n",
   str "        ;bread\r\n", str " Assets:Cash \n", str "    \n", str "# end"]

def files' : Files := fun f =>
  if f = str "a" then some (textSource text3.flatten) else if f = str "b" then some (textSource text2.flatten) else none

theorem foodLine' : EntryLine (str "  Expenses:Food     EUR020.50   ; milk\n") { food with comments := [] } := by
  refine ⟨str " Expenses:Food     EUR020.50   ; milk\n", rfl, ?_⟩
  have e : str " Expenses:Food     EUR020.50   ; milk\n" =
      str " " ++ str "Expenses:Food" ++ ' ' :: ' ' :: str "   " ++ (str "EUR" ++ [] ++ str "020.50") ++ [] ++ [] ++
        (str "   " ++ ';' :: str " milk\n") := by
    decide
  rw [e]
  exact EntryText.full b1 (accountText_of ⟨⟨'E', by decide, by decide, by decide⟩, by decide, by decide⟩) b3
    ⟨str "020.50", str "EUR", .before (quantityText_of (by decide)) b0 (symbolText_of (by decide))
      (by intro c hc; rw [numberChar_iff]; revert c; decide) (Or.inr (by intro c hc; rw [symbolChar_iff]; revert c; decide)),
      (C02_parse_exact _ _).mp (by decide), by decide⟩
    noLot noCost (.note b3 (by decide)) (by intro h; cases h)
    (by intro _; exact ⟨by decide, by intro u k h; cases h⟩)

theorem cashLine' : EntryLine (str " Assets:Cash \n") cash := by
  refine ⟨str "Assets:Cash \n", rfl, ?_⟩
  have e : str "Assets:Cash \n" = [] ++ str "Assets:Cash" ++ str " \n" := by decide
  rw [e]
  exact EntryText.blank b0 (accountText_of ⟨⟨'A', by decide, by decide, by decide⟩, by decide, by decide⟩)
    (by unfold Blank; decide) (not_twoSpaces (by decide))

theorem shopHeader' : HeaderSays (str "2023-05-01   Shop   ;food \n") shop := by
  have h := @HeaderText.mk (str "2023-05-01") [] [] (str "   ") (str "Shop") (str "food") (str "   ;food") (str " \n")
    (by unfold DateText; decide) (Or.inl ⟨rfl, rfl⟩) b3 (by constructor <;> decide) (not_noteMark (by decide))
    (by constructor <;> decide) (Or.inr ⟨[' '], [], b1, b0, by decide⟩) (by unfold Blank; decide) (by decide)
  exact .of_text h ⟨2023, 5, 1, by decide, by decide, by decide, rfl⟩ (Or.inl ⟨rfl, rfl⟩)

theorem text3Lines : LinesOf text3.flatten text3 := linesOf_of (by decide)

theorem lines3 : Says files' 0 text3 [shop] := by
  have hshop : XactLines [str "2023-05-01   Shop   ;food \n", str "  Expenses:Food     EUR020.50   ; milk\n",
      str "        ;bread\r\n", str " Assets:Cash \n"] shop :=
    ⟨_, [], [[str "  Expenses:Food     EUR020.50   ; milk\n", str "        ;bread\r\n"], [str " Assets:Cash \n"]], rfl,
      shopHeader', .nil,
      .cons ⟨_, _, rfl, foodLine', .cons ⟨str "       ", str "bread\r\n", by decide, by decide, by decide⟩ .nil⟩
        (.cons ⟨_, [], rfl, cashLine', .nil⟩ .nil)⟩
  exact .ignored (Or.inl rfl) (.ignored (Or.inr (Or.inr ⟨'*', _, rfl, by decide⟩))
    (.xact hshop (line := str "    \n") (Or.inr ⟨_, rfl, by decide⟩)
      (.ignored (Or.inr (Or.inr ⟨'#', _, rfl, by decide⟩)) .nil)))

theorem lines2 : Says files' 0 text2 [broker] :=
  .last ⟨_, [], [[_], [_]], rfl, brokerHeader, .nil, .cons ⟨_, [], rfl, stocksLine, .nil⟩ (.cons ⟨_, [], rfl, paidLine, .nil⟩ .nil)⟩

/-- One file that includes another, and two files written otherwise, give the same report. -/
example : run files 1 [str "bal", str "-f", str "x"] = run files' 0 [str "bal", str "-f", str "a", str "-f", str "b"] :=
  C86_run (fs := [str "x"]) (fs' := [str "a", str "b"]) (wss := [[shop, broker]]) (wss' := [[shop], [broker]])
    (.cons ⟨_, _, rfl, textLines, lines⟩ .nil)
    (.cons ⟨_, _, rfl, text3Lines, lines3⟩ (.cons ⟨_, _, rfl, text2Lines, lines2⟩ .nil)) rfl
    (commands := [str "bal"]) (by decide) (by decide)

/-- The program, too, prints the same for them after its arguments. -/
example (plain : Char → Bool) (errs : Nat → Str) : ∃ tail panic,
    Output.program plain errs files 1 [str "bal", str "-f", str "x"] =
      ⟨str "Hello, Ledger-rs!\nYou requested " ++ Output.debugList plain [str "bal", str "-f", str "x"] ++ '\n' :: tail, panic⟩ ∧
    Output.program plain errs files' 0 [str "bal", str "-f", str "a", str "-f", str "b"] =
      ⟨str "Hello, Ledger-rs!\nYou requested " ++
        Output.debugList plain [str "bal", str "-f", str "a", str "-f", str "b"] ++ '\n' :: tail, panic⟩ :=
  C86_output plain errs (fs := [str "x"]) (fs' := [str "a", str "b"]) (wss := [[shop, broker]]) (wss' := [[shop], [broker]])
    (.cons ⟨_, _, rfl, textLines, lines⟩ .nil)
    (.cons ⟨_, _, rfl, text3Lines, lines3⟩ (.cons ⟨_, _, rfl, text2Lines, lines2⟩ .nil)) rfl
    (commands := [str "bal"]) (by decide) (by decide) (by decide) (by decide)

/-- What is written matters: with another number of decimals the report is another. -/
example : parsed "2023-05-01 x\n A  1 EUR\n B\n" ≠ parsed "2023-05-01 x\n A  1.0 EUR\n B\n" := by decide +kernel

end SameExample
end Ledger
