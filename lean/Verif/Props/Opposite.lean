import Verif.Lemmas.Opposite
import Verif.Lemmas.Turned
import Verif.Props.Money
/-
C120: with all signs turned around, all figures are turned around.
-/
namespace Ledger
open Ledger.Parser Ledger.Cli

theorem OppositeBooks.new : OppositeBooks Journal.new Journal.new := ⟨rfl, .nil, rfl⟩

/-- C120, for transactions without a blank posting: with all signs turned around, reading fails with the same panic, or gives the same
accounts, commodities, prices and lots, and postings with the opposite amounts and costs.  Missing: blank postings, for which it is
false (`C120_text_violated`). -/
theorem C120_text_partial {files files' : Files} {depth depth' : Nat} {text text' : Str} {lines lines' : List Str}
    {ws : List Writing} (ht : LinesOf text lines) (hs : Says files depth lines ws) (ht' : LinesOf text' lines')
    (hs' : Says files' depth' lines' (ws.map Writing.turned)) (hw : ∀ w ∈ ws, w.Full) {j j' : Journal}
    (hj : OppositeBooks j j') :
    (∃ k, parseText files depth text j = .error k ∧ parseText files' depth' text' j' = .error k) ∨
    ∃ j1 j2, parseText files depth text j = .ok j1 ∧ parseText files' depth' text' j' = .ok j2 ∧ OppositeBooks j1 j2 := by
  rw [parseText_book files depth ht hs, parseText_book files' depth' ht' hs']
  have h := bookWritings_opposite ws hw hj
  generalize (bookWritings ws j).res = r at h ⊢
  generalize (bookWritings (ws.map Writing.turned) j').res = r' at h ⊢
  cases h with
  | error k => exact .inl ⟨k, rfl, rfl⟩
  | ok h => exact .inr ⟨_, _, rfl, rfl, h⟩

/-- C120, for transactions without a blank posting: the balance report has the same lines with the opposite figures, with the same
decimals and in the same order; if there is none, both commands end with the same panic. -/
theorem C120_report_partial {files files' : Files} {depth depth' : Nat} {fs fs' : List Str}
    {wss wss' : List (List Writing)} (hf : List.Forall₂ (FileSays files depth) fs wss)
    (hf' : List.Forall₂ (FileSays files' depth') fs' wss') (ht : wss'.flatten = wss.flatten.map Writing.turned)
    (hw : ∀ w ∈ wss.flatten, w.Full) {args args' rest rest' : List Str} {verb verb' : Str}
    (ha : Options.processArguments args = .ok (verb :: rest, fs)) (hv : BalanceVerb verb)
    (ha' : Options.processArguments args' = .ok (verb' :: rest', fs')) (hv' : BalanceVerb verb') :
    (∃ k, run files depth args = .error k ∧ run files' depth' args' = .error k) ∨
    ∃ lines lines' : List (Str × List Amount), run files depth args = .ok (lines.map (fun l => lineText l.1 ⟨l.2⟩)) ∧
      run files' depth' args' = .ok (lines'.map (fun l => lineText l.1 ⟨l.2⟩)) ∧
      List.Forall₂ (fun l l' => l'.1 = l.1 ∧ List.Forall₂ Amount.Opposite l.2 l'.2) lines lines' := by
  rw [C60_balance files depth args rest fs verb ha hv, C60_balance files' depth' args' rest' fs' verb' ha' hv']
  have h := bookWritings_opposite _ hw OppositeBooks.new
  rw [← ht, ← readFiles_book files depth hf, ← readFiles_book files' depth' hf', Trace.readFiles_res, Trace.readFiles_res] at h
  cases hj : readFiles files depth fs Journal.new with
  | error k =>
    rw [hj] at h
    cases hj' : readFiles files' depth' fs' Journal.new with
    | error k' => rw [hj'] at h; cases h; exact .inl ⟨k, rfl, rfl⟩
    | ok _ => rw [hj'] at h; cases h
  | ok j =>
    rw [hj] at h
    cases hj' : readFiles files' depth' fs' Journal.new with
    | error k' => rw [hj'] at h; cases h
    | ok j' =>
      rw [hj'] at h
      cases h with
      | ok h =>
        have hwf : j.master.WF := (readFiles_reachable files depth .new hj).booked.wf
        have hwf' : j'.master.WF := h.master ▸ hwf
        simp only [Except.bind]
        rcases report_cases hwf with ⟨k, g1, g2⟩ | ⟨t, g1, g2⟩
        · have h1 := accountTotal_opposite h j.master
          rw [g1] at h1
          cases g3 : j'.accountTotal j.master with
          | error k' =>
            rw [g3] at h1; cases h1
            exact .inl ⟨k, g2, report_error (by rw [h.master]; exact g3)⟩
          | ok _ => rw [g3] at h1; cases h1
        · right
          have hex : ∀ p, ∃ b, ∀ a, j.master.at? p = some a → j'.accountTotal a = .ok b ∧ (t p).Opposite b := by
            intro p
            cases hp : j.master.at? p with
            | none => exact ⟨Balance.empty, by intro a ha; cases ha⟩
            | some a =>
              have h1 := accountTotal_opposite h a
              rw [g1 p a hp] at h1
              cases g3 : j'.accountTotal a with
              | error k' => rw [g3] at h1; cases h1
              | ok b =>
                rw [g3] at h1
                cases h1 with
                | ok h1 => exact ⟨b, by intro a' ha'; injection ha' with ha'; subst ha'; exact ⟨g3, h1⟩⟩
          choose t' ht' using hex
          refine ⟨j.master.flatten.map (fun x => (Account.fullname x.1, (t x.1).amounts)),
            j.master.flatten.map (fun x => (Account.fullname x.1, (t' x.1).amounts)), ?_, ?_, ?_⟩
          · rw [g2, List.map_map]; rfl
          · rw [C26_balance_report_sound j' hwf' t' (by
              intro p a hp
              exact (ht' p a (h.master ▸ hp)).1), h.master, List.map_map]
            rfl
          · rw [List.forall₂_map_left_iff, List.forall₂_map_right_iff, List.forall₂_same]
            intro x hx
            refine ⟨rfl, ?_⟩
            obtain ⟨a, ha⟩ : ∃ a, j.master.at? x.1 = some a := by
              obtain ⟨a, ha, _⟩ := (Account.mem_flatten hwf x.1 x.2).mp hx
              exact ⟨a, ha⟩
            exact (ht' x.1 a ha).2

/-- C120: what happens to all files with all signs turned around.  Reading fails with the same panic, or gives the same accounts,
commodities, prices and lots; the postings with a written amount have the opposite amounts and costs, and each blank posting has the
same amount in both, which is not above zero.  So the books are opposite exactly if every blank posting comes to zero. -/
theorem C120_exactly {files files' : Files} {depth depth' : Nat} {text text' : Str} {lines lines' : List Str}
    {ws : List Writing} (ht : LinesOf text lines) (hs : Says files depth lines ws) (ht' : LinesOf text' lines')
    (hs' : Says files' depth' lines' (ws.map Writing.turned)) {blanks : List (List Bool)} {j j' : Journal}
    (hj : TurnedBooks blanks j j') :
    (∃ k, parseText files depth text j = .error k ∧ parseText files' depth' text' j' = .error k) ∨
    ∃ j1 j2, parseText files depth text j = .ok j1 ∧ parseText files' depth' text' j' = .ok j2 ∧
      TurnedBooks (blanks ++ ws.map Writing.blanks) j1 j2 ∧
      (OppositeBooks j1 j2 ↔ ∀ (i n : Nat) (fl : List Bool) (p : Post) (a : Amount),
        (blanks ++ ws.map Writing.blanks)[i]? = some fl → fl[n]? = some true →
        j1.postAt (i, n) = some p → p.amount = some a → a.isZero = true) := by
  rw [parseText_book files depth ht hs, parseText_book files' depth' ht' hs']
  have h := bookWritings_turned ws hj
  generalize (bookWritings ws j).res = r at h ⊢
  generalize (bookWritings (ws.map Writing.turned) j').res = r' at h ⊢
  cases h with
  | error k => exact .inl ⟨k, rfl, rfl⟩
  | ok h => exact .inr ⟨_, _, rfl, rfl, h, turned_opposite_iff h⟩

/-! ### examples -/

namespace OppositeExample
open LinesExample

theorem soldLine : EntryLine (str "    Assets:Stocks  -10 VEUR {20 EUR} [2023-04-01] @ 25 EUR\n") stocks.turned := by
  refine ⟨str "   Assets:Stocks  -10 VEUR {20 EUR} [2023-04-01] @ 25 EUR\n", rfl, ?_⟩
  have e : str "   Assets:Stocks  -10 VEUR {20 EUR} [2023-04-01] @ 25 EUR\n" =
      str "   " ++ str "Assets:Stocks" ++ ' ' :: ' ' :: [] ++ (str "-10" ++ [' '] ++ str "VEUR") ++
      ([' '] ++ ('{' :: [] ++ (str "20" ++ [' '] ++ str "EUR") ++ [] ++ ['}']) ++ [' '] ++ ('[' :: str "2023-04-01" ++ [']'])) ++
      ([' '] ++ '@' :: ' ' :: [] ++ (str "25" ++ [' '] ++ str "EUR")) ++ str "\n" := by
    decide
  rw [e]
  refine EntryText.full b3 (accountText_of ⟨⟨'A', by decide, by decide, by decide⟩, by decide, by decide⟩) b0
    (amount _ _ _ (by decide) (by decide) (by decide)) ?_ ?_ (.blank nl) (by intro h; cases h) (by intro h; cases h)
  · exact ⟨str "20", str "EUR", str "2023-04-01", LotText.priceDate b1 (by simp)
      (LotPrice.mk b0 (amountExample _ _ (quantityText_of (by decide)) (symbolText_of (by decide))) b0 (by decide))
      b1 (LotDate.mk (by decide) (by decide)),
      Or.inr ⟨_, rfl, (C02_parse_exact _ _).mp (by decide), by decide⟩,
      Or.inr ⟨_, rfl, 2023, 4, 1, by decide, by decide, by decide, rfl⟩⟩
  · exact ⟨str "25", str "EUR", true,
      CostText.unit b1 b0 (amountExample _ _ (quantityText_of (by decide)) (symbolText_of (by decide))),
      Or.inr ⟨_, rfl, (C02_parse_exact _ _).mp (by decide), by decide⟩⟩

theorem gotLine : EntryLine (str "    Assets:Cash  250 EUR") paid.turned := by
  refine ⟨str "   Assets:Cash  250 EUR", rfl, ?_⟩
  have e : str "   Assets:Cash  250 EUR" =
      str "   " ++ str "Assets:Cash" ++ ' ' :: ' ' :: [] ++ (str "250" ++ [' '] ++ str "EUR") ++ [] ++ [] ++ [] := by
    decide
  rw [e]
  exact EntryText.full b3 (accountText_of ⟨⟨'A', by decide, by decide, by decide⟩, by decide, by decide⟩) b0
    (amount _ _ _ (by decide) (by decide) (by decide)) noLot noCost (.blank b0) (by intro h; cases h) (by intro h; cases h)

theorem refundLine : EntryLine (str "    Expenses:Food  -20.50 EUR\n") { food.turned with comments := [] } := by
  refine ⟨str "   Expenses:Food  -20.50 EUR\n", rfl, ?_⟩
  have e : str "   Expenses:Food  -20.50 EUR\n" =
      str "   " ++ str "Expenses:Food" ++ ' ' :: ' ' :: [] ++ (str "-20.50" ++ [' '] ++ str "EUR") ++ [] ++ [] ++ str "\n" := by
    decide
  rw [e]
  exact EntryText.full b3 (accountText_of ⟨⟨'E', by decide, by decide, by decide⟩, by decide, by decide⟩) b0
    (amount _ _ _ (by decide) (by decide) (by decide)) noLot noCost (.blank nl) (by intro h; cases h) (by intro h; cases h)

/-- The purchase of shares of the example for C72 turned into a sale. -/
def sale : List Str := [str "2023-05-02=2023-05-03 Broker\n", str "    Assets:Stocks  -10 VEUR {20 EUR} [2023-04-01] @ 25 EUR\n",
  str "    Assets:Cash  250 EUR"]

/-- The purchase without its notes, turned into a refund. -/
def refund : List Str := [str "2021-12-24 Market\n", str "    Expenses:Food  -20.50 EUR\n", str "    Assets:Cash\n"]

def files6 : Files := fun f => if f = str "s" then some (textSource sale.flatten) else
  if f = str "r" then some (textSource refund.flatten) else SameExample.files' f

theorem saleLines : Says files6 0 sale [broker.turned] :=
  .last ⟨_, [], [[_], [_]], rfl, ⟨brokerHeader.1, brokerHeader.2⟩, .nil, .cons ⟨_, [], rfl, soldLine, .nil⟩ (.cons ⟨_, [], rfl, gotLine, .nil⟩ .nil)⟩

theorem refundLines : Says files6 0 refund [MoneyExample.market.turned] :=
  .last ⟨_, [], [[_], [_]], rfl, MoneyExample.marketHeader, .nil, .cons ⟨_, [], rfl, refundLine, .nil⟩
    (.cons ⟨_, [], rfl, cashLine, .nil⟩ .nil)⟩

theorem saleText : LinesOf sale.flatten sale := linesOf_of (by decide)
theorem refundText : LinesOf refund.flatten refund := linesOf_of (by decide)

/-- A purchase of shares and a sale. -/
example : (∃ k, run SameExample.files' 0 [str "bal", str "-f", str "b"] = .error k ∧
      run files6 0 [str "bal", str "-f", str "s"] = .error k) ∨
    ∃ lines lines' : List (Str × List Amount),
      run SameExample.files' 0 [str "bal", str "-f", str "b"] = .ok (lines.map (fun l => lineText l.1 ⟨l.2⟩)) ∧
      run files6 0 [str "bal", str "-f", str "s"] = .ok (lines'.map (fun l => lineText l.1 ⟨l.2⟩)) ∧
      List.Forall₂ (fun l l' => l'.1 = l.1 ∧ List.Forall₂ Amount.Opposite l.2 l'.2) lines lines' :=
  C120_report_partial (fs := [str "b"]) (fs' := [str "s"]) (wss := [[broker]]) (wss' := [[broker.turned]])
    (.cons ⟨_, _, rfl, text2Lines, SameExample.lines2⟩ .nil) (.cons ⟨_, _, rfl, saleText, saleLines⟩ .nil) rfl
    (by intro w hw; simp at hw; subst hw; unfold Writing.Full; decide) (verb := str "bal") (verb' := str "bal") (rest := [])
    (rest' := []) (by decide) (by unfold BalanceVerb; decide) (by decide) (by unfold BalanceVerb; decide)

example : run SameExample.files' 0 [str "bal", str "-f", str "b"] = .ok [str "Account  has balance -250 EUR10 VEUR",
      str "Account Assets has balance -250 EUR10 VEUR", str "Account Assets:Cash has balance -250 EUR",
      str "Account Assets:Stocks has balance 10 VEUR"] ∧
    run files6 0 [str "bal", str "-f", str "s"] = .ok [str "Account  has balance 250 EUR-10 VEUR",
      str "Account Assets has balance 250 EUR-10 VEUR", str "Account Assets:Cash has balance 250 EUR",
      str "Account Assets:Stocks has balance -10 VEUR"] := ⟨by decide +kernel, by decide +kernel⟩

/-- The purchase with a blank posting and its refund. -/
example : (∃ k, parseText MoneyExample.files5 0 MoneyExample.text5.flatten Journal.new = .error k ∧
      parseText files6 0 refund.flatten Journal.new = .error k) ∨
    ∃ j1 j2, parseText MoneyExample.files5 0 MoneyExample.text5.flatten Journal.new = .ok j1 ∧
      parseText files6 0 refund.flatten Journal.new = .ok j2 ∧ TurnedBooks [[false, true]] j1 j2 ∧
      (OppositeBooks j1 j2 ↔ ∀ (i n : Nat) (fl : List Bool) (p : Post) (a : Amount),
        [[false, true]][i]? = some fl → fl[n]? = some true →
        j1.postAt (i, n) = some p → p.amount = some a → a.isZero = true) :=
  C120_exactly (blanks := []) (ws := [MoneyExample.market]) MoneyExample.text5Lines MoneyExample.lines5 refundText refundLines
    ⟨rfl, .nil, rfl⟩

end OppositeExample

open OppositeExample in
/-- C120 is false for blank postings: a purchase of 20.50 EUR and its refund of -20.50 EUR both take 20.50 EUR from the blank
account. -/
theorem C120_text_violated : ∃ (files files' : Files) (text text' : Str) (lines lines' : List Str) (ws : List Writing) (j1 j2 : Journal),
    LinesOf text lines ∧ Says files 0 lines ws ∧ LinesOf text' lines' ∧ Says files' 0 lines' (ws.map Writing.turned) ∧
    parseText files 0 text Journal.new = .ok j1 ∧ parseText files' 0 text' Journal.new = .ok j2 ∧
    (∃ p p' a, j1.postAt (0, 1) = some p ∧ j2.postAt (0, 1) = some p' ∧ p.amount = some a ∧ p'.amount = some a ∧ a.isZero = false) ∧
    ¬ OppositeBooks j1 j2 := by
  have g1 : (parseText MoneyExample.files5 0 MoneyExample.text5.flatten Journal.new).map (fun j => (j.postAt (0, 1)).map (·.amount)) =
      .ok (some (some ⟨⟨true, 2050, 2⟩, some (str "EUR")⟩)) := by decide +kernel
  have g2 : (parseText files6 0 refund.flatten Journal.new).map (fun j => (j.postAt (0, 1)).map (·.amount)) =
      .ok (some (some ⟨⟨true, 2050, 2⟩, some (str "EUR")⟩)) := by decide +kernel
  cases h1 : parseText MoneyExample.files5 0 MoneyExample.text5.flatten Journal.new with
  | error _ => rw [h1] at g1; cases g1
  | ok j1 =>
    cases h2 : parseText files6 0 refund.flatten Journal.new with
    | error _ => rw [h2] at g2; cases g2
    | ok j2 =>
      rw [h1] at g1
      rw [h2] at g2
      simp only [Except.map, Except.ok.injEq] at g1 g2
      obtain ⟨p, hp, ha⟩ := Option.map_eq_some_iff.mp g1
      obtain ⟨p', hp', ha'⟩ := Option.map_eq_some_iff.mp g2
      refine ⟨_, _, _, _, _, _, [MoneyExample.market], j1, j2, MoneyExample.text5Lines, MoneyExample.lines5, refundText, refundLines,
        h1, h2, ⟨p, p', _, hp, hp', ha, ha', by decide⟩, ?_⟩
      intro h
      rcases postAt_opposite h (0, 1) with ⟨q1, _⟩ | ⟨q, q', q1, q2, q3⟩
      · rw [hp] at q1; cases q1
      · rw [hp] at q1
        rw [hp'] at q2
        injection q1 with q1
        injection q2 with q2
        subst q1; subst q2
        obtain ⟨a, a', e1, e2, e3⟩ := q3.amount
        rw [ha] at e1
        rw [ha'] at e2
        injection e1 with e1
        injection e2 with e2
        subst e1; subst e2
        rcases e3.1.2.2 with e | e
        · cases e
        · cases e

end Ledger
