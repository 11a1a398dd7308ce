import Verif.Lemmas.Rename
import Verif.Props.Same
import Verif.Props.Rounding
import Verif.Props.HeapReport
/-
C118: the names of the commodities do not matter.
-/
namespace Ledger
open Ledger.Parser Ledger.Cli

/-- C118: a text that says the same transactions with other names for the commodities gives the same journal with these
names, prices and lots included, or fails with the same panic. -/
theorem C118_text {f : Str → Str} (hr : Renaming f) {files files' : Files} {depth depth' : Nat} {text text' : Str}
    {lines lines' : List Str} {ws : List Writing} (ht : LinesOf text lines) (hs : Says files depth lines ws)
    (ht' : LinesOf text' lines') (hs' : Says files' depth' lines' (ws.map (Writing.renamed f))) (j : Journal) :
    parseText files' depth' text' (j.renamed f) = (parseText files depth text j).map (Journal.renamed f) := by
  rw [parseText_book files depth ht hs, parseText_book files' depth' ht' hs']
  exact bookWritings_renamed hr ws j

theorem readFiles_renamed {f : Str → Str} (hr : Renaming f) {files files' : Files} {depth depth' : Nat} {fs fs' : List Str}
    {wss wss' : List (List Writing)} (hf : List.Forall₂ (FileSays files depth) fs wss)
    (hf' : List.Forall₂ (FileSays files' depth') fs' wss') (hw : wss'.flatten = wss.flatten.map (Writing.renamed f)) :
    readFiles files' depth' fs' Journal.new = (readFiles files depth fs Journal.new).map (Journal.renamed f) := by
  rw [← Trace.readFiles_res, ← Trace.readFiles_res, readFiles_book files depth hf, readFiles_book files' depth' hf', hw]
  exact bookWritings_renamed hr _ Journal.new

/-- The report of a journal is its totals, and there is none exactly if there is no total of the master account. -/
theorem report_cases {j : Journal} (hw : j.master.WF) : (∃ k, j.accountTotal j.master = .error k ∧ Report.balanceReport j = .error k) ∨
    ∃ t : Path → Balance, (∀ p a, j.master.at? p = some a → j.accountTotal a = .ok (t p)) ∧
      Report.balanceReport j = .ok (j.master.flatten.map (fun x => lineText (Account.fullname x.1) (t x.1))) := by
  cases hb : j.accountTotal j.master with
  | error k => exact .inl ⟨k, rfl, report_error hb⟩
  | ok b =>
    right
    have hex : ∀ p, ∃ b, ∀ a, j.master.at? p = some a → j.accountTotal a = .ok b := by
      intro p
      cases hp : j.master.at? p with
      | none => exact ⟨Balance.empty, by intro a ha; cases ha⟩
      | some a =>
        obtain ⟨s, hs⟩ := Machine.total_below p hb hp
        exact ⟨s, by intro a' ha'; injection ha' with ha'; rw [← ha']; exact hs⟩
    choose t ht using hex
    exact ⟨t, ht, C26_balance_report_sound j hw t ht⟩

/-- C118: the balance report is the same with the other names in place of the old ones: the same lines in the same order, each with
the same figures in the same order.  If there is none, both commands end with the same panic.  This holds for sums of any size. -/
theorem C118_report {f : Str → Str} (hr : Renaming f) {files files' : Files} {depth depth' : Nat} {fs fs' : List Str}
    {wss wss' : List (List Writing)} (hf : List.Forall₂ (FileSays files depth) fs wss)
    (hf' : List.Forall₂ (FileSays files' depth') fs' wss') (hw : wss'.flatten = wss.flatten.map (Writing.renamed f))
    {args args' rest rest' : List Str} {verb verb' : Str}
    (ha : Options.processArguments args = .ok (verb :: rest, fs)) (hv : BalanceVerb verb)
    (ha' : Options.processArguments args' = .ok (verb' :: rest', fs')) (hv' : BalanceVerb verb') :
    (∃ k, run files depth args = .error k ∧ run files' depth' args' = .error k) ∨
    ∃ lines : List (Str × List Amount), run files depth args = .ok (lines.map (fun l => lineText l.1 ⟨l.2⟩)) ∧
      run files' depth' args' = .ok (lines.map (fun l => lineText l.1 ⟨l.2.map (Amount.renamed f)⟩)) := by
  rw [C60_balance files depth args rest fs verb ha hv, C60_balance files' depth' args' rest' fs' verb' ha' hv',
    readFiles_renamed hr hf hf' hw]
  cases hj : readFiles files depth fs Journal.new with
  | error k => exact .inl ⟨k, rfl, rfl⟩
  | ok j =>
    have hwf : j.master.WF := (readFiles_reachable files depth .new hj).booked.wf
    have em : (j.renamed f).master = j.master := rfl
    simp only [Except.map, Except.bind]
    rcases report_cases hwf with ⟨k, h1, h2⟩ | ⟨t, h1, h2⟩
    · have h3 : (j.renamed f).accountTotal (j.renamed f).master = .error k := by
        rw [em, accountTotal_renamed hr, h1]; rfl
      exact .inl ⟨k, h2, report_error h3⟩
    · right
      refine ⟨j.master.flatten.map (fun x => (Account.fullname x.1, (t x.1).amounts)), ?_, ?_⟩
      · rw [h2, List.map_map]; rfl
      · rw [C26_balance_report_sound (j.renamed f) hwf (fun p => (t p).renamed f) (by
          intro p a hp
          rw [accountTotal_renamed hr, h1 p a hp]; rfl), List.map_map]
        rfl

/-- C118: the accounts are listed alike. -/
theorem C118_accounts {f : Str → Str} (hr : Renaming f) {files files' : Files} {depth depth' : Nat} {fs fs' : List Str}
    {wss wss' : List (List Writing)} (hf : List.Forall₂ (FileSays files depth) fs wss)
    (hf' : List.Forall₂ (FileSays files' depth') fs' wss') (hw : wss'.flatten = wss.flatten.map (Writing.renamed f))
    {args args' rest rest' : List Str} {verb verb' : Str}
    (ha : Options.processArguments args = .ok (verb :: rest, fs)) (hv : AccountsVerb verb)
    (ha' : Options.processArguments args' = .ok (verb' :: rest', fs')) (hv' : AccountsVerb verb') :
    run files' depth' args' = run files depth args := by
  have key : ∀ (files : Files) (depth : Nat) (args rest fs : List Str) (verb : Str),
      Options.processArguments args = .ok (verb :: rest, fs) → AccountsVerb verb →
      run files depth args = (readFiles files depth fs Journal.new).bind
        (fun j => .ok ((sortByKey ((Report.reportAccounts j).map (fun s => (s, ())))).map (·.1))) := by
    intro files depth args rest fs verb ha hv
    obtain ⟨c, cs, rfl⟩ : ∃ c cs, verb = c :: cs := by
      cases verb with
      | nil => simp [AccountsVerb] at hv
      | cons c cs => exact ⟨c, cs, rfl⟩
    have hc : c = 'a' := by simpa [AccountsVerb] using hv
    simp only [run, ha, bind, Except.bind, executeCommand]
    cases readFiles files depth fs Journal.new with
    | error e => rfl
    | ok j => simp only [hc, if_true]
  rw [key _ _ _ _ _ _ ha hv, key _ _ _ _ _ _ ha' hv', readFiles_renamed hr hf hf' hw]
  cases readFiles files depth fs Journal.new with
  | error _ => rfl
  | ok j => rfl

/-! ### examples -/

namespace RenameExample
open LinesExample

/-- Euros and dollars the other way round. -/
def swap (s : Str) : Str := if s = str "EUR" then str "USD" else if s = str "USD" then str "EUR" else s

theorem swapped : Renaming swap := by
  have h : ∀ a, swap (swap a) = a := by
    intro a
    unfold swap
    by_cases h1 : a = str "EUR"
    · rw [h1]; decide
    · by_cases h2 : a = str "USD"
      · rw [h2]; decide
      · rw [if_neg h1, if_neg h2, if_neg h1, if_neg h2]
  exact ⟨Function.Involutive.injective h, by decide⟩

/-- The purchase of the example for C72 in dollars. -/
def text4 : List Str :=
  [str "2023-05-01   Shop   ;food \n", str "    Expenses:Food  20.50 USD\n", str "    ; bread\n", str "    Assets:Cash\n"]

def files'' : Files := fun f => if f = str "d" then some (textSource text4.flatten) else SameExample.files' f

theorem dollarLine : EntryLine (str "    Expenses:Food  20.50 USD\n") { food.renamed swap with comments := [] } := by
  refine ⟨str "   Expenses:Food  20.50 USD\n", rfl, ?_⟩
  have e : str "   Expenses:Food  20.50 USD\n" =
      str "   " ++ str "Expenses:Food" ++ ' ' :: ' ' :: [] ++ (str "20.50" ++ [' '] ++ str "USD") ++ [] ++ [] ++ str "\n" := by
    decide
  rw [e]
  exact EntryText.full b3 (accountText_of ⟨⟨'E', by decide, by decide, by decide⟩, by decide, by decide⟩) b0
    (amount _ _ _ (by decide) (by decide) (by decide)) noLot noCost (.blank nl) (by intro h; cases h) (by intro h; cases h)

theorem lines4 : Says files'' 0 text4 [shop.renamed swap] :=
  .last ⟨_, [], [[str "    Expenses:Food  20.50 USD\n", str "    ; bread\n"], [str "    Assets:Cash\n"]], rfl,
    SameExample.shopHeader', .nil,
    .cons ⟨_, _, rfl, dollarLine, .cons ⟨str "   ", str " bread\n", by decide, by decide, by decide⟩ .nil⟩
      (.cons ⟨_, [], rfl, cashLine, .nil⟩ .nil)⟩

theorem text4Lines : LinesOf text4.flatten text4 := linesOf_of (by decide)

/-- The purchase in euros and the one in dollars. -/
example : (∃ k, run SameExample.files' 0 [str "bal", str "-f", str "a"] = .error k ∧
      run files'' 0 [str "b", str "-f", str "d"] = .error k) ∨
    ∃ lines : List (Str × List Amount),
      run SameExample.files' 0 [str "bal", str "-f", str "a"] = .ok (lines.map (fun l => lineText l.1 ⟨l.2⟩)) ∧
      run files'' 0 [str "b", str "-f", str "d"] = .ok (lines.map (fun l => lineText l.1 ⟨l.2.map (Amount.renamed swap)⟩)) :=
  C118_report swapped (fs := [str "a"]) (fs' := [str "d"]) (wss := [[shop]]) (wss' := [[shop.renamed swap]])
    (.cons ⟨_, _, rfl, SameExample.text3Lines, SameExample.lines3⟩ .nil) (.cons ⟨_, _, rfl, text4Lines, lines4⟩ .nil) rfl
    (verb := str "bal") (verb' := str "b") (rest := []) (rest' := []) (by decide) (by unfold BalanceVerb; decide) (by decide)
    (by unfold BalanceVerb; decide)

example : run SameExample.files' 0 [str "bal", str "-f", str "a"] = .ok [str "Account  has balance 0.00 EUR",
      str "Account Assets has balance -20.50 EUR", str "Account Assets:Cash has balance -20.50 EUR",
      str "Account Expenses has balance 20.50 EUR", str "Account Expenses:Food has balance 20.50 EUR"] ∧
    run files'' 0 [str "b", str "-f", str "d"] = .ok [str "Account  has balance 0.00 USD",
      str "Account Assets has balance -20.50 USD", str "Account Assets:Cash has balance -20.50 USD",
      str "Account Expenses has balance 20.50 USD", str "Account Expenses:Food has balance 20.50 USD"] :=
  ⟨by decide +kernel, by decide +kernel⟩

/-- Different commodities must keep different names: with one name for both, another transaction is accepted. -/
example : (parsed "2023-05-01 x\n A  1 EUR\n A  1 USD\n B\n").isOk = false ∧
    (parsed "2023-05-01 x\n A  1 EUR\n A  1 EUR\n B\n").isOk = true := ⟨by decide +kernel, by decide +kernel⟩

end RenameExample
end Ledger
