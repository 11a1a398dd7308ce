import Verif.Props.Parts
import Verif.Props.Chart
/-
C128: filing a posting under another account changes only the lines above the one and the other.
-/
namespace Ledger
open Ledger.Parser Ledger.Finalize Ledger.Cli Ledger.Output

/-- The same amount and cost, whatever the account. -/
def Entry.Refiled (e e' : Entry) : Prop := e'.amount = e.amount ∧ e'.cost = e.cost

/-- The same amounts and costs, posting by posting, whatever the accounts. -/
def Writing.Refiled (w w' : Writing) : Prop := List.Forall₂ Entry.Refiled w.entries w'.entries

/-- Each posting is within this account in the one exactly if it is in the other. -/
def Writing.KeptAt (p : Path) (w w' : Writing) : Prop :=
  List.Forall₂ (fun e e' : Entry => p <+: pathOf e'.account ↔ p <+: pathOf e.account) w.entries w'.entries

theorem Entry.Refiled.worth {e e' : Entry} (h : e.Refiled e') : e'.worth = e.worth ∧ e'.worthIn = e.worthIn := by
  unfold Entry.worth Entry.worthIn
  rw [h.1, h.2]
  exact ⟨rfl, rfl⟩

theorem refiled_sum {es es' : List Entry} (h : List.Forall₂ Entry.Refiled es es') (c : Option Str) :
    entriesSum es' c = entriesSum es c := by
  induction h with
  | nil => rfl
  | cons h _ ih => rw [entriesSum_cons, entriesSum_cons, ih, h.worth.1, h.worth.2]

theorem refiled_faulty {w w' : Writing} (h : w.Refiled w') : Faulty w' ↔ Faulty w := by
  rw [← faulty_moved (fun _ => []) (w := w), ← faulty_moved (fun _ => []) (w := w')]
  refine faulty_times one_ne_zero ?_
  unfold Writing.Times
  unfold Writing.Refiled at h
  show List.Forall₂ _ (w.entries.map _) (w'.entries.map _)
  refine List.forall₂_map_left_iff.mpr (List.forall₂_map_right_iff.mpr (h.imp fun e e' h => ⟨rfl, ?_, ?_⟩))
  · show (e.amount = none ∧ e'.amount = none) ∨ _
    rw [h.1]
    cases ha : e.amount with
    | none => exact .inl ⟨rfl, rfl⟩
    | some a => exact .inr ⟨a, a, ha, h.1.trans ha, rfl, (one_mul _).symm⟩
  · show (e.cost = none ∧ e'.cost = none) ∨ _
    rw [h.2]
    cases hc : e.cost with
    | none => exact .inl ⟨rfl, rfl⟩
    | some k =>
      obtain ⟨u, k⟩ := k
      exact .inr ⟨u, k, k, hc, h.2.trans hc, rfl, by cases u <;> simp⟩

theorem refiled_written {w w' : Writing} (h : w.Refiled w') {p : Path} (hp : w.KeptAt p w') (c : Option Str) :
    w'.written p c = w.written p c := by
  unfold Writing.written
  unfold Writing.Refiled at h
  unfold Writing.KeptAt at hp
  generalize w.entries = es at h hp
  generalize w'.entries = es' at h hp
  induction h with
  | nil => rfl
  | cons h _ ih =>
    cases hp with
    | cons g hp => simp only [List.map_cons, List.sum_cons, ih hp, h.1, g]

theorem refiled_lost {w w' : Writing} (h : w.Refiled w') {p : Path} (hp : w.KeptAt p w') (c : Option Str) :
    w'.lost p c = w.lost p c := by
  unfold Writing.lost
  rw [refiled_sum h c]
  generalize |entriesSum w.entries c| = V
  unfold Writing.Refiled at h
  unfold Writing.KeptAt at hp
  generalize w.entries = es at h hp
  generalize w'.entries = es' at h hp
  induction h with
  | nil => rfl
  | cons h _ ih =>
    cases hp with
    | cons g hp => simp only [List.map_cons, List.sum_cons, ih hp, h.1, g]

theorem forall2_both {α β : Type} {R S : α → β → Prop} {l : List α} {l' : List β} (h : List.Forall₂ R l l') (g : List.Forall₂ S l l') :
    List.Forall₂ (fun a b => R a b ∧ S a b) l l' := by
  induction h with
  | nil => exact .nil
  | cons h _ ih =>
    cases g with
    | cons g gs => exact .cons ⟨h, g⟩ (ih gs)

theorem refiled_brings {w w' : Writing} (h : w.Refiled w') {p : Path} (hp : w.KeptAt p w') (c : Option Str) :
    w'.Brings p c ↔ w.Brings p c := by
  have hb := forall2_both h hp
  constructor
  · rintro ⟨e', he', g, hc⟩
    obtain ⟨e, he, h1, h2⟩ := forall2_mem_left hb.flip he'
    refine ⟨e, he, h2.mp g, ?_⟩
    rcases hc with ⟨a, ha, hc⟩ | ⟨hn, q', hq', hqa, hc⟩
    · exact .inl ⟨a, h1.1 ▸ ha, hc⟩
    · obtain ⟨q, hq, g1, _⟩ := forall2_mem_left hb.flip hq'
      exact .inr ⟨h1.1 ▸ hn, q, hq, g1.1 ▸ hqa, g1.worth.2 ▸ hc⟩
  · rintro ⟨e, he, g, hc⟩
    obtain ⟨e', he', h1, h2⟩ := forall2_mem_left hb he
    refine ⟨e', he', h2.mpr g, ?_⟩
    rcases hc with ⟨a, ha, hc⟩ | ⟨hn, q, hq, hqa, hc⟩
    · exact .inl ⟨a, h1.1.trans ha, hc⟩
    · obtain ⟨q', hq', g1, _⟩ := forall2_mem_left hb hq
      exact .inr ⟨h1.1.trans hn, q', hq', by rw [g1.1]; exact hqa, g1.worth.2.trans hc⟩

/-- C128: files with the same amounts and costs, filed under other accounts, are refused exactly if the files are. -/
theorem C128_refused {files files' : Files} {depth depth' : Nat} {fs fs' : List Str} {is is' : List Item}
    (hf : FilesSay files depth fs is .done) (hf' : FilesSay files' depth' fs' is' .done)
    (hw : List.Forall₂ Writing.Refiled (writings is) (writings is'))
    (hd : ∀ w ∈ writings is, Everyday w) (ht : Roomy (allEntries (writings is)))
    (hd' : ∀ w ∈ writings is', Everyday w) (ht' : Roomy (allEntries (writings is')))
    {args args' rest rest' : List Str} {verb verb' : Str}
    (ha : Options.processArguments args = .ok (verb :: rest, fs)) (hv : BalanceVerb verb)
    (ha' : Options.processArguments args' = .ok (verb' :: rest', fs')) (hv' : BalanceVerb verb') :
    (∃ out', run files' depth' args' = .ok out') ↔ ∃ out, run files depth args = .ok out := by
  constructor
  · rintro ⟨out', ho'⟩
    have hn' := sound_of_ok hf' hd' ht' ha' hv' ho'
    exact ⟨_, C92_report files depth hf hd ht ha hv fun w h1 h2 => by
      obtain ⟨w', h4, h5⟩ := forall2_mem_left hw h1
      exact hn' w' h4 ((refiled_faulty h5).mpr h2)⟩
  · rintro ⟨out, ho⟩
    have hn := sound_of_ok hf hd ht ha hv ho
    exact ⟨_, C92_report files' depth' hf' hd' ht' ha' hv' fun w' h1 h2 => by
      obtain ⟨w, h4, h5⟩ := forall2_mem_left hw.flip h1
      exact hn w h4 ((refiled_faulty h5).mp h2)⟩

/-- C128: if postings are filed under other accounts, an account that has the same postings within it as before is listed as before,
with the same commodities and sums.  The root always has, so the first line shows the same sums. -/
theorem C128_lines {files files' : Files} {depth depth' : Nat} {fs fs' : List Str} {is is' : List Item}
    (hf : FilesSay files depth fs is .done) (hf' : FilesSay files' depth' fs' is' .done)
    (hw : List.Forall₂ Writing.Refiled (writings is) (writings is'))
    (hd : ∀ w ∈ writings is, Everyday w) (ht : Roomy (allEntries (writings is)))
    (hd' : ∀ w ∈ writings is', Everyday w) (ht' : Roomy (allEntries (writings is')))
    {args args' rest rest' : List Str} {verb verb' : Str}
    (ha : Options.processArguments args = .ok (verb :: rest, fs)) (hv : BalanceVerb verb)
    (ha' : Options.processArguments args' = .ok (verb' :: rest', fs')) (hv' : BalanceVerb verb')
    {out : List Str} (ho : run files depth args = .ok out) :
    ∃ (accounts accounts' : List Path) (total total' : Path → List Amount),
      out = accounts.map (fun p => lineText (colons p) ⟨total p⟩) ∧
      run files' depth' args' = .ok (accounts'.map (fun p => lineText (colons p) ⟨total' p⟩)) ∧
      accounts.Pairwise PathBefore ∧ accounts'.Pairwise PathBefore ∧ [] ∈ accounts ∧
      List.Forall₂ (Writing.KeptAt []) (writings is) (writings is') ∧
      ∀ p, List.Forall₂ (Writing.KeptAt p) (writings is) (writings is') → (p ∈ accounts' ↔ p ∈ accounts) ∧
        (p ∈ accounts → ((total p).map (·.comm)).Nodup ∧ ((total' p).map (·.comm)).Nodup ∧
          ∀ c, (c ∈ (total' p).map (·.comm) ↔ c ∈ (total p).map (·.comm)) ∧ sumIn c (total' p) = sumIn c (total p)) := by
  obtain ⟨out', ho'⟩ := (C128_refused hf hf' hw hd ht hd' ht' ha hv ha' hv').mpr ⟨out, ho⟩
  obtain ⟨as, t, a1, a2, a3, a4⟩ := C124_sums hf hd ht ha hv (sound_of_ok hf hd ht ha hv ho)
  obtain ⟨as', t', b1, b2, b3, b4⟩ := C124_sums hf' hd' ht' ha' hv' (sound_of_ok hf' hd' ht' ha' hv' ho')
  rw [ho] at a1
  injection a1 with a1
  refine ⟨as, as', t, t', a1, b1, a2, b2, (a3 []).mpr (.inl rfl), hw.imp fun w w' h => h.imp fun e e' _ => by simp, fun p hp => ?_⟩
  have hb := forall2_both hw hp
  have hl : p ∈ as' ↔ p ∈ as := by
    rw [a3, b3]
    refine or_congr Iff.rfl ⟨?_, ?_⟩
    · rintro ⟨w', h1, e', h2, h3⟩
      obtain ⟨w, h4, _, h5⟩ := forall2_mem_left hb.flip h1
      obtain ⟨e, h6, h7⟩ := forall2_mem_left (List.Forall₂.flip h5) h2
      exact ⟨w, h4, e, h6, h7.mp h3⟩
    · rintro ⟨w, h1, e, h2, h3⟩
      obtain ⟨w', h4, _, h5⟩ := forall2_mem_left hb h1
      obtain ⟨e', h6, h7⟩ := forall2_mem_left h5 h2
      exact ⟨w', h4, e', h6, h7.mpr h3⟩
  refine ⟨hl, fun hm => ⟨(a4 p hm).1, (b4 p (hl.mpr hm)).1, fun c => ⟨?_, ?_⟩⟩⟩
  · rw [((a4 p hm).2 c).1, ((b4 p (hl.mpr hm)).2 c).1]
    constructor
    · rintro ⟨w', h1, h2⟩
      obtain ⟨w, h4, h5, h6⟩ := forall2_mem_left hb.flip h1
      exact ⟨w, h4, (refiled_brings h5 h6 c).mp h2⟩
    · rintro ⟨w, h1, h2⟩
      obtain ⟨w', h4, h5, h6⟩ := forall2_mem_left hb h1
      exact ⟨w', h4, (refiled_brings h5 h6 c).mpr h2⟩
  · rw [((a4 p hm).2 c).2, ((b4 p (hl.mpr hm)).2 c).2]
    clear * - hb
    generalize writings is = ws at hb
    generalize writings is' = ws' at hb
    induction hb with
    | nil => rfl
    | cons h _ ih =>
      simp only [List.map_cons, List.sum_cons, refiled_written h.1 h.2, refiled_lost h.1 h.2]
      linarith

/-! ### examples -/

namespace RefileExample
open BooksExample LinesExample FaultsExample CausesExample FoundExample CancelExample RefundExample RegroupExample ScaledExample

def lamp : Entry := ⟨str "Expenses:Home", some (eur false 2050 2), ⟨none, none⟩, none, [], {}⟩
def home : Writing := { shop with entries := [lamp, cash] }

def homeText : Source :=
  [some (str "2023-05-01 Shop  ; food\n"), some (str "    Expenses:Home  20.50 EUR\n"), some (str "    Assets:Cash\n")]

def drawers : Files := fun f => if f = str "b" then some bought else if f = str "h" then some homeText else none

theorem lampLine : EntryLine (str "    Expenses:Home  20.50 EUR\n") lamp := by
  refine ⟨str "   Expenses:Home  20.50 EUR\n", rfl, ?_⟩
  have e : str "   Expenses:Home  20.50 EUR\n" =
      str "   " ++ str "Expenses:Home" ++ ' ' :: ' ' :: [] ++ (str "20.50" ++ [' '] ++ str "EUR") ++ [] ++ [] ++ str "\n" := by
    decide
  rw [e]
  exact EntryText.full b3 (accountText_of ⟨⟨'E', by decide, by decide, by decide⟩, by decide, by decide⟩) b0
    (amount _ _ _ (by decide) (by decide) (by decide)) noLot noCost (.blank nl) (by intro h; cases h) (by intro h; cases h)

theorem boughtSays : SaysUpTo drawers 0 bought [.xact first] .done :=
  .xact (w := first) (tail := []) shopHeader
    (.posting (e := bread) foodLine (.posting cashLine (.stop (Or.inl ⟨_, Or.inl ⟨rfl, rfl⟩⟩)))) (Or.inl ⟨rfl, rfl⟩) .nil

theorem homeHeader : HeaderSays (str "2023-05-01 Shop  ; food\n") home := by
  obtain ⟨h, d, a, h1, h2, h3⟩ := shopHeader
  exact ⟨h, d, a, h1, h2, h3⟩

theorem homeSays : SaysUpTo drawers 0 homeText [.xact home] .done :=
  .xact (w := home) (tail := []) homeHeader
    (.posting (e := lamp) lampLine (.posting cashLine (.stop (Or.inl ⟨_, Or.inl ⟨rfl, rfl⟩⟩)))) (Or.inl ⟨rfl, rfl⟩) .nil

theorem boughtFile : FilesSay drawers 0 [str "b"] [.xact first] .done := .read (is' := []) (by decide) boughtSays .nil

theorem homeFile : FilesSay drawers 0 [str "h"] [.xact home] .done := .read (is' := []) (by decide) homeSays .nil

theorem size_lamp : lamp.size = 41 / 2 := by
  show |Dec.val ⟨false, 2050, 2⟩| = 41 / 2
  simp only [Dec.val_mk, Dec.sgn]
  norm_num

theorem homeEveryday : Everyday home ∧ Roomy home.entries := by
  have h9 : ∀ e ∈ [lamp, cash], (∀ a ∈ e.amount, a.qty.scale ≤ 9) ∧ e.worthDecimals ≤ 9 := by decide
  have hs : (home.entries.map (·.size)).sum ≤ 41 := by
    show (List.map (·.size) [lamp, cash]).sum ≤ _
    simp only [List.map_cons, List.map_nil, List.sum_cons, List.sum_nil, size_lamp, size_cash]
    norm_num
  refine ⟨.of_billion h9 (hs.trans (by norm_num)) (by decide) ?_, roomy_of h9 (hs.trans (by norm_num))⟩
  intro e he pr hp
  have : ∀ e ∈ [lamp, cash], e.lot.price = none := by decide
  rw [this e he] at hp; cases hp

theorem homeRefiled : List.Forall₂ Writing.Refiled (writings [.xact first]) (writings [.xact home]) :=
  .cons (.cons ⟨rfl, rfl⟩ (.cons ⟨rfl, rfl⟩ .nil)) .nil

theorem boughtReport : run drawers 0 [str "bal", str "-f", str "b"] =
    .ok [str "Account  has balance 0.00 EUR", str "Account Assets has balance -20.50 EUR",
      str "Account Assets:Cash has balance -20.50 EUR", str "Account Expenses has balance 20.50 EUR",
      str "Account Expenses:Food has balance 20.50 EUR"] := by decide +kernel

/-- The line for `Expenses` has the same postings within it. -/
theorem expensesKept : List.Forall₂ (Writing.KeptAt [str "Expenses"]) (writings [.xact first]) (writings [.xact home]) := by
  refine .cons (.cons ?_ (.cons Iff.rfl .nil)) .nil
  exact ⟨fun _ => by decide +kernel, fun _ => by decide +kernel⟩

/-- The line for `Expenses:Food` has not. -/
example : ¬ List.Forall₂ (Writing.KeptAt [str "Expenses", str "Food"]) (writings [.xact first]) (writings [.xact home]) := by
  intro h
  cases h with
  | cons h _ =>
    cases h with
    | cons h _ => exact absurd (h.mpr (by decide +kernel)) (by decide +kernel)

/-- A purchase filed under `Expenses:Food` and under `Expenses:Home`. -/
example : ∃ (accounts accounts' : List Path) (total total' : Path → List Amount),
      [str "Account  has balance 0.00 EUR", str "Account Assets has balance -20.50 EUR",
        str "Account Assets:Cash has balance -20.50 EUR", str "Account Expenses has balance 20.50 EUR",
        str "Account Expenses:Food has balance 20.50 EUR"] = accounts.map (fun p => lineText (colons p) ⟨total p⟩) ∧
      run drawers 0 [str "bal", str "-f", str "h"] = .ok (accounts'.map (fun p => lineText (colons p) ⟨total' p⟩)) ∧
      accounts.Pairwise PathBefore ∧ accounts'.Pairwise PathBefore ∧ [] ∈ accounts ∧
      List.Forall₂ (Writing.KeptAt []) (writings [.xact first]) (writings [.xact home]) ∧
      ∀ p, List.Forall₂ (Writing.KeptAt p) (writings [.xact first]) (writings [.xact home]) → (p ∈ accounts' ↔ p ∈ accounts) ∧
        (p ∈ accounts → ((total p).map (·.comm)).Nodup ∧ ((total' p).map (·.comm)).Nodup ∧
          ∀ c, (c ∈ (total' p).map (·.comm) ↔ c ∈ (total p).map (·.comm)) ∧ sumIn c (total' p) = sumIn c (total p)) :=
  C128_lines boughtFile homeFile homeRefiled (onlyOne (CausesExample.everyday _ (by simp))) firstRoomy
    (onlyOne homeEveryday.1) homeEveryday.2
    (args := [str "bal", str "-f", str "b"]) (verb := str "bal") (rest := []) (by decide) (by unfold BalanceVerb; decide)
    (args' := [str "bal", str "-f", str "h"]) (verb' := str "bal") (rest' := []) (by decide) (by unfold BalanceVerb; decide)
    boughtReport

example : (∃ out', run drawers 0 [str "bal", str "-f", str "h"] = .ok out') ↔ ∃ out, run drawers 0 [str "bal", str "-f", str "b"] = .ok out :=
  C128_refused boughtFile homeFile homeRefiled (onlyOne (CausesExample.everyday _ (by simp))) firstRoomy
    (onlyOne homeEveryday.1) homeEveryday.2
    (args := [str "bal", str "-f", str "b"]) (verb := str "bal") (rest := []) (by decide) (by unfold BalanceVerb; decide)
    (args' := [str "bal", str "-f", str "h"]) (verb' := str "bal") (rest' := []) (by decide) (by unfold BalanceVerb; decide)

end RefileExample

end Ledger
