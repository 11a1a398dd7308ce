import Verif.Lemmas.Money
import Verif.Props.Rename
/-
C119: dates, payees, notes and comments do not matter for what is booked.
-/
namespace Ledger
open Ledger.Parser Ledger.Cli

theorem SameBooks.refl (j : Journal) : SameBooks j j :=
  ⟨rfl, rfl, fun _ x x' h h' => by rw [h] at h'; injection h' with h'; subst h'; exact ⟨rfl, rfl⟩, rfl⟩

theorem SameBooks.posts {j j' : Journal} (h : SameBooks j j') :
    j.xacts.map (fun x => x.posts.map (fun p => (p.account, p.amount, p.cost))) =
      j'.xacts.map (fun x => x.posts.map (fun p => (p.account, p.amount, p.cost))) := by
  refine List.ext_getElem? fun n => ?_
  rw [List.getElem?_map, List.getElem?_map]
  rcases h.get n with ⟨g1, g2⟩ | ⟨y, y', g1, g2, g3⟩
  · rw [g1, g2]
  · rw [g1, g2, Option.map_some, Option.map_some]
    have := congrArg (List.map (fun p : Post => (p.account, p.amount, p.cost))) g3.1
    rw [List.map_map, List.map_map] at this
    exact congrArg some this

/-- C119: texts that say the same postings, whatever the dates, payees, notes and comments of their transactions, fail with the same
panic or give journals with the same accounts, the same postings, the same commodities and the same lots. -/
theorem C119_text {files files' : Files} {depth depth' : Nat} {text text' : Str} {lines lines' : List Str} {ws ws' : List Writing}
    (ht : LinesOf text lines) (hs : Says files depth lines ws) (ht' : LinesOf text' lines') (hs' : Says files' depth' lines' ws')
    (hw : ws.map Writing.money = ws'.map Writing.money) (j : Journal) :
    (∃ k, parseText files depth text j = .error k ∧ parseText files' depth' text' j = .error k) ∨
    ∃ j1 j2, parseText files depth text j = .ok j1 ∧ parseText files' depth' text' j = .ok j2 ∧ j1.master = j2.master ∧
      j1.xacts.map (fun x => x.posts.map (fun p => (p.account, p.amount, p.cost))) =
        j2.xacts.map (fun x => x.posts.map (fun p => (p.account, p.amount, p.cost))) ∧
      j1.pool.commodities = j2.pool.commodities ∧ j1.pool.annotated = j2.pool.annotated := by
  rw [parseText_book files depth ht hs, parseText_book files' depth' ht' hs']
  have h := bookWritings_same ws ws' hw (SameBooks.refl j)
  generalize (bookWritings ws j).res = r at h ⊢
  generalize (bookWritings ws' j).res = r' at h ⊢
  cases h with
  | error k => exact .inl ⟨k, rfl, rfl⟩
  | ok h =>
    have hp := h.pool
    simp only [Pool.core, Prod.mk.injEq] at hp
    exact .inr ⟨_, _, rfl, rfl, h.master, h.posts, hp.1, hp.2.1⟩

/-- C119: the program says the same on files with the same postings. -/
theorem C119_run {files files' : Files} {depth depth' : Nat} {fs fs' : List Str}
    {wss wss' : List (List Writing)} (hf : List.Forall₂ (FileSays files depth) fs wss)
    (hf' : List.Forall₂ (FileSays files' depth') fs' wss')
    (hw : wss.flatten.map Writing.money = wss'.flatten.map Writing.money)
    {args args' words : List Str} (ha : Options.processArguments args = .ok (words, fs))
    (ha' : Options.processArguments args' = .ok (words, fs')) : run files depth args = run files' depth' args' := by
  have h := bookWritings_same _ _ hw (SameBooks.refl Journal.new)
  rw [← readFiles_book files depth hf, ← readFiles_book files' depth' hf', Trace.readFiles_res, Trace.readFiles_res] at h
  simp only [run, ha, ha', bind, Except.bind, executeCommand]
  cases words with
  | nil => rfl
  | cons verb rest =>
    simp only
    cases hj : readFiles files depth fs Journal.new with
    | error k =>
      rw [hj] at h
      cases hj' : readFiles files' depth' fs' Journal.new with
      | error k' => rw [hj'] at h; cases h; rfl
      | ok _ => rw [hj'] at h; cases h
    | ok j =>
      rw [hj] at h
      cases hj' : readFiles files' depth' fs' Journal.new with
      | error k' => rw [hj'] at h; cases h
      | ok j' =>
        rw [hj'] at h
        cases h with
        | ok h =>
          have hwf : j.master.WF := (readFiles_reachable files depth .new hj).booked.wf
          have hwf' : j'.master.WF := h.master ▸ hwf
          have h1 : Report.reportAccounts j = Report.reportAccounts j' := by
            unfold Report.reportAccounts; rw [h.master]
          have h2 : Report.balanceReport j = Report.balanceReport j' := by
            rcases report_cases hwf with ⟨k, g1, g2⟩ | ⟨t, g1, g2⟩
            · rw [g2]
              rw [accountTotal_same h, h.master] at g1
              exact (report_error g1).symm
            · rw [g2, C26_balance_report_sound j' hwf' t (by
                intro p a hp
                rw [← accountTotal_same h]
                exact g1 p a (h.master ▸ hp)), h.master]
          simp only [h1, h2]

/-! ### examples -/

namespace MoneyExample
open LinesExample

/-- The purchase of the example for C72 on another day, at another shop and without notes. -/
def market : Writing := ⟨⟨2021, 12, 24⟩, none, str "Market", [], [], [{ food with comments := [] }, cash]⟩

def text5 : List Str := [str "2021-12-24 Market\n", str "    Expenses:Food  20.50 EUR\n", str "    Assets:Cash\n"]

def files5 : Files := fun f => if f = str "m" then some (textSource text5.flatten) else none

theorem marketHeader : HeaderSays (str "2021-12-24 Market\n") market := by
  have h := @HeaderText.mk (str "2021-12-24") [] [] (str " ") (str "Market") [] [] (str "\n")
    (by unfold DateText; decide) (Or.inl ⟨rfl, rfl⟩) b1 (by constructor <;> decide) (not_noteMark (by decide))
    (by constructor <;> decide) (Or.inl ⟨rfl, rfl⟩) (by unfold Blank; decide) (by decide)
  exact .of_text h ⟨2021, 12, 24, by decide, by decide, by decide, rfl⟩ (Or.inl ⟨rfl, rfl⟩)

theorem lines5 : Says files5 0 text5 [market] :=
  .last ⟨_, [], [[_], [_]], rfl, marketHeader, .nil, .cons ⟨_, [], rfl, foodLine, .nil⟩ (.cons ⟨_, [], rfl, cashLine, .nil⟩ .nil)⟩

theorem text5Lines : LinesOf text5.flatten text5 := linesOf_of (by decide)

example : run SameExample.files' 0 [str "bal", str "-f", str "a"] = run files5 0 [str "bal", str "-f", str "m"] :=
  C119_run (fs := [str "a"]) (fs' := [str "m"]) (wss := [[shop]]) (wss' := [[market]])
    (.cons ⟨_, _, rfl, SameExample.text3Lines, SameExample.lines3⟩ .nil) (.cons ⟨_, _, rfl, text5Lines, lines5⟩ .nil) (by decide)
    (words := [str "bal"]) (by decide) (by decide)

example : run files5 0 [str "bal", str "-f", str "m"] = .ok [str "Account  has balance 0.00 EUR",
      str "Account Assets has balance -20.50 EUR", str "Account Assets:Cash has balance -20.50 EUR",
      str "Account Expenses has balance 20.50 EUR", str "Account Expenses:Food has balance 20.50 EUR"] := by decide +kernel

/-- The dates do matter for the prices that are recorded. -/
example : (parsed "2023-05-01 x\n A  10 VEUR @ 25 EUR\n B\n").map (fun j => j.pool.history.edges.length) = .ok 1 ∧
    (parsed "2023-05-01 x\n A  10 VEUR @ 25 EUR\n B\n").map (·.pool) ≠
      (parsed "2023-05-02 x\n A  10 VEUR @ 25 EUR\n B\n").map (·.pool) := ⟨by decide +kernel, by decide +kernel⟩

end MoneyExample
end Ledger
