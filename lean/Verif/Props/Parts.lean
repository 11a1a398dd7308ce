import Verif.Props.Scaled
/-
C127: splitting a posting in two does not change the figures.
-/
namespace Ledger
open Ledger.Parser Ledger.Finalize Ledger.Cli Ledger.Output

/-- Two postings to the same account that together have the amount and the cost of one. -/
structure Entry.Parts (e x y : Entry) : Prop where
  account : pathOf x.account = pathOf e.account ∧ pathOf y.account = pathOf e.account
  amount : ∃ a b c, e.amount = some a ∧ x.amount = some b ∧ y.amount = some c ∧ b.comm = a.comm ∧ c.comm = a.comm ∧
    b.qty.val + c.qty.val = a.qty.val
  cost : (e.cost = none ∧ x.cost = none ∧ y.cost = none) ∨
    ∃ unit a b c, e.cost = some (unit, a) ∧ x.cost = some (unit, b) ∧ y.cost = some (unit, c) ∧ b.comm = a.comm ∧ c.comm = a.comm ∧
      if unit then b.qty.val = a.qty.val ∧ c.qty.val = a.qty.val else b.qty.val + c.qty.val = a.qty.val

/-- Some of the postings are split in two, the others are as they were. -/
inductive SplitUp : List Entry → List Entry → Prop
  | nil : SplitUp [] []
  | keep (e : Entry) {es es' : List Entry} : SplitUp es es' → SplitUp (e :: es) (e :: es')
  | split {e x y : Entry} {es es' : List Entry} : e.Parts x y → SplitUp es es' → SplitUp (e :: es) (x :: y :: es')

theorem Entry.Parts.worth {e x y : Entry} (h : e.Parts x y) :
    x.worth + y.worth = e.worth ∧ x.worthIn = e.worthIn ∧ y.worthIn = e.worthIn := by
  obtain ⟨n1, a, n2, c, n3, n4⟩ := e
  obtain ⟨n1', a', n2', c', n3', n4'⟩ := x
  obtain ⟨n1'', a'', n2'', c'', n3'', n4''⟩ := y
  obtain ⟨_, ha, hc⟩ := h
  simp only at ha hc
  obtain ⟨a, b, d, rfl, rfl, rfl, h1, h2, h3⟩ := ha
  rcases hc with ⟨rfl, rfl, rfl⟩ | ⟨u, k, l, m, rfl, rfl, rfl, h4, h5, h6⟩
  · simp [Entry.worth, Entry.worthIn, h1, h2, h3]
  · cases u
    · simp at h6
      simp [Entry.worth, Entry.worthIn, h4, h5, h6]
    · simp at h6
      simp [Entry.worth, Entry.worthIn, h1, h2, h4, h5, h6, ← h3]
      ring

theorem split_sum {es es' : List Entry} (h : SplitUp es es') (c : Option Str) : entriesSum es' c = entriesSum es c := by
  induction h with
  | nil => rfl
  | keep e _ ih => rw [entriesSum_cons, entriesSum_cons, ih]
  | split h _ ih =>
    rw [entriesSum_cons, entriesSum_cons, entriesSum_cons, ih, h.worth.2.1, h.worth.2.2, ← h.worth.1]
    split <;> ring

theorem split_written {w w' : Writing} (h : SplitUp w.entries w'.entries) (p : Path) (c : Option Str) :
    w'.written p c = w.written p c := by
  unfold Writing.written
  generalize w.entries = es at h
  generalize w'.entries = es' at h
  induction h with
  | nil => rfl
  | keep e _ ih => rw [List.map_cons, List.map_cons, List.sum_cons, List.sum_cons, ih]
  | split h _ ih =>
    rw [List.map_cons, List.map_cons, List.map_cons, List.sum_cons, List.sum_cons, List.sum_cons, ih, ← add_assoc]
    congr 1
    obtain ⟨a, b, d, h1, h2, h3, h4, h5, h6⟩ := h.amount
    rw [h1, h2, h3]
    simp only [h.account.1, h.account.2, h4, h5, ← h6]
    split <;> simp

theorem split_lost {w w' : Writing} (h : SplitUp w.entries w'.entries) (p : Path) (c : Option Str) : w'.lost p c = w.lost p c := by
  unfold Writing.lost
  rw [split_sum h c]
  generalize |entriesSum w.entries c| = V
  generalize w.entries = es at h
  generalize w'.entries = es' at h
  induction h with
  | nil => rfl
  | keep e _ ih => rw [List.map_cons, List.map_cons, List.sum_cons, List.sum_cons, ih]
  | split h _ ih =>
    obtain ⟨a, b, d, h1, h2, h3, _⟩ := h.amount
    rw [List.map_cons, List.map_cons, List.map_cons, List.sum_cons, List.sum_cons, List.sum_cons, ih, h1, h2, h3]
    simp

/-- Postings with the same account and commodities, both blank or both not. -/
def KindOf (e e' : Entry) : Prop :=
  pathOf e'.account = pathOf e.account ∧ (e'.amount = none ↔ e.amount = none) ∧ e'.amount.map (·.comm) = e.amount.map (·.comm) ∧
    e'.worthIn = e.worthIn

theorem Entry.Parts.alike {e x y : Entry} (h : e.Parts x y) : KindOf e x ∧ KindOf e y := by
  obtain ⟨a, b, d, h1, h2, h3, h4, h5, _⟩ := h.amount
  exact ⟨⟨h.account.1, by simp [h1, h2], by simp [h1, h2, h4], h.worth.2.1⟩,
    ⟨h.account.2, by simp [h1, h3], by simp [h1, h3, h5], h.worth.2.2⟩⟩

theorem alike_symm {e e' : Entry} (h : KindOf e e') : KindOf e' e := ⟨h.1.symm, h.2.1.symm, h.2.2.1.symm, h.2.2.2.symm⟩

theorem split_left {es es' : List Entry} (h : SplitUp es es') {e : Entry} (he : e ∈ es) : ∃ e' ∈ es', KindOf e e' := by
  induction h with
  | nil => cases he
  | keep x _ ih =>
    rcases List.mem_cons.mp he with rfl | he
    · exact ⟨e, List.mem_cons_self, rfl, Iff.rfl, rfl, rfl⟩
    · obtain ⟨e', h1, h2⟩ := ih he
      exact ⟨e', List.mem_cons_of_mem _ h1, h2⟩
  | split h _ ih =>
    rcases List.mem_cons.mp he with rfl | he
    · exact ⟨_, List.mem_cons_self, h.alike.1⟩
    · obtain ⟨e', h1, h2⟩ := ih he
      exact ⟨e', List.mem_cons_of_mem _ (List.mem_cons_of_mem _ h1), h2⟩

theorem split_right {es es' : List Entry} (h : SplitUp es es') {e' : Entry} (he : e' ∈ es') : ∃ e ∈ es, KindOf e' e := by
  induction h with
  | nil => cases he
  | keep x _ ih =>
    rcases List.mem_cons.mp he with rfl | he
    · exact ⟨e', List.mem_cons_self, rfl, Iff.rfl, rfl, rfl⟩
    · obtain ⟨e, h1, h2⟩ := ih he
      exact ⟨e, List.mem_cons_of_mem _ h1, h2⟩
  | split h _ ih =>
    rcases List.mem_cons.mp he with rfl | he
    · exact ⟨_, List.mem_cons_self, alike_symm h.alike.1⟩
    rcases List.mem_cons.mp he with rfl | he
    · exact ⟨_, List.mem_cons_self, alike_symm h.alike.2⟩
    · obtain ⟨e, h1, h2⟩ := ih he
      exact ⟨e, List.mem_cons_of_mem _ h1, h2⟩

theorem brings_alike {w w' : Writing} (h : ∀ e ∈ w.entries, ∃ e' ∈ w'.entries, KindOf e e') {p : Path} {c : Option Str}
    (hb : w.Brings p c) : w'.Brings p c := by
  obtain ⟨e, he, hp, hc⟩ := hb
  obtain ⟨e', he', h1, h2, h3, h4⟩ := h e he
  refine ⟨e', he', h1.symm ▸ hp, ?_⟩
  rcases hc with ⟨a, ha, hc⟩ | ⟨hb, q, hq, hqa, hc⟩
  · rw [ha] at h3
    obtain ⟨a', ha', h5⟩ := Option.map_eq_some_iff.mp h3
    exact .inl ⟨a', ha', h5.trans hc⟩
  · obtain ⟨q', hq', _, g2, _, g4⟩ := h q hq
    exact .inr ⟨h2.mpr hb, q', hq', fun g => hqa (g2.mp g), g4.trans hc⟩

theorem split_brings {w w' : Writing} (h : SplitUp w.entries w'.entries) (p : Path) (c : Option Str) :
    w'.Brings p c ↔ w.Brings p c :=
  ⟨brings_alike fun _ he => split_right h he, brings_alike fun _ he => split_left h he⟩

/-- C127: if postings are split in two, each part at the same price or with its part of the cost, and both lots of files are
accepted, the reports list the same accounts in the same order with the same commodities and the same sums. -/
theorem C127_split {files files' : Files} {depth depth' : Nat} {fs fs' : List Str} {is is' : List Item}
    (hf : FilesSay files depth fs is .done) (hf' : FilesSay files' depth' fs' is' .done)
    (hw : List.Forall₂ (fun w w' => SplitUp w.entries w'.entries) (writings is) (writings is'))
    (hd : ∀ w ∈ writings is, Everyday w) (ht : Roomy (allEntries (writings is)))
    (hd' : ∀ w ∈ writings is', Everyday w) (ht' : Roomy (allEntries (writings is')))
    {args args' rest rest' : List Str} {verb verb' : Str}
    (ha : Options.processArguments args = .ok (verb :: rest, fs)) (hv : BalanceVerb verb)
    (ha' : Options.processArguments args' = .ok (verb' :: rest', fs')) (hv' : BalanceVerb verb')
    {out out' : List Str} (ho : run files depth args = .ok out) (ho' : run files' depth' args' = .ok out') :
    ∃ (accounts : List Path) (total total' : Path → List Amount),
      out = accounts.map (fun p => lineText (colons p) ⟨total p⟩) ∧
      out' = accounts.map (fun p => lineText (colons p) ⟨total' p⟩) ∧ accounts.Pairwise PathBefore ∧
      ∀ p ∈ accounts, ((total p).map (·.comm)).Nodup ∧ ((total' p).map (·.comm)).Nodup ∧
        ∀ c, (c ∈ (total' p).map (·.comm) ↔ c ∈ (total p).map (·.comm)) ∧ sumIn c (total' p) = sumIn c (total p) := by
  obtain ⟨as, t, a1, a2, a3, a4⟩ := C124_sums hf hd ht ha hv (sound_of_ok hf hd ht ha hv ho)
  obtain ⟨as', t', b1, b2, b3, b4⟩ := C124_sums hf' hd' ht' ha' hv' (sound_of_ok hf' hd' ht' ha' hv' ho')
  rw [ho] at a1
  rw [ho'] at b1
  injection a1 with a1
  injection b1 with b1
  have hl : ∀ p, p ∈ as' ↔ p ∈ as := by
    intro p
    rw [a3, b3]
    refine or_congr Iff.rfl ⟨?_, ?_⟩
    · rintro ⟨w', h1, e', h2, h3⟩
      obtain ⟨w, h4, h5⟩ := forall2_mem_left hw.flip h1
      obtain ⟨e, h6, h7⟩ := split_right h5 h2
      exact ⟨w, h4, e, h6, h7.1.symm ▸ h3⟩
    · rintro ⟨w, h1, e, h2, h3⟩
      obtain ⟨w', h4, h5⟩ := forall2_mem_left hw h1
      obtain ⟨e', h6, h7⟩ := split_left h5 h2
      exact ⟨w', h4, e', h6, h7.1.symm ▸ h3⟩
  have hs : as' = as := sorted_unique pathBefore_irrefl (fun _ _ _ => pathBefore_trans) _ _ b2 a2 hl
  refine ⟨as, t, t', a1, hs ▸ b1, a2, fun p hp => ⟨(a4 p hp).1, (b4 p ((hl p).mpr hp)).1, fun c => ⟨?_, ?_⟩⟩⟩
  · rw [((a4 p hp).2 c).1, ((b4 p ((hl p).mpr hp)).2 c).1]
    constructor
    · rintro ⟨w', h1, h2⟩
      obtain ⟨w, h4, h5⟩ := forall2_mem_left hw.flip h1
      exact ⟨w, h4, (split_brings h5 p c).mp h2⟩
    · rintro ⟨w, h1, h2⟩
      obtain ⟨w', h4, h5⟩ := forall2_mem_left hw h1
      exact ⟨w', h4, (split_brings h5 p c).mpr h2⟩
  · rw [((a4 p hp).2 c).2, ((b4 p ((hl p).mpr hp)).2 c).2]
    clear * - hw
    generalize writings is = ws at hw
    generalize writings is' = ws' at hw
    induction hw with
    | nil => rfl
    | cons h _ ih =>
      simp only [List.map_cons, List.sum_cons, split_written h, split_lost h]
      linarith

/-! ### examples -/

namespace PartsExample
open BooksExample LinesExample FaultsExample CausesExample FoundExample CancelExample RefundExample RegroupExample ScaledExample

def halves : Writing := { shop with entries := [bread, bread, cash] }

def halvesText : Source :=
  [some (str "2023-05-01 Shop  ; food\n"), some (str "    Expenses:Food  20.50 EUR\n"), some (str "    Expenses:Food  20.50 EUR\n"),
    some (str "    Assets:Cash\n")]

def kiosk : Files := fun f => if f = str "t" then some twiceText else if f = str "h" then some halvesText else none

theorem twiceKiosk : SaysUpTo kiosk 0 twiceText [.xact twice] .done :=
  .xact (w := twice) (tail := []) shopHeader
    (.posting (e := loaves) loavesLine (.posting cashLine (.stop (Or.inl ⟨_, Or.inl ⟨rfl, rfl⟩⟩)))) (Or.inl ⟨rfl, rfl⟩) .nil

theorem wholeFile : FilesSay kiosk 0 [str "t"] [.xact twice] .done := .read (is' := []) (by decide) twiceKiosk .nil

theorem halvesKiosk : SaysUpTo kiosk 0 halvesText [.xact halves] .done :=
  .xact (w := halves) (tail := []) shopHeader
    (.posting (e := bread) foodLine (.posting (e := bread) foodLine (.posting cashLine (.stop (Or.inl ⟨_, Or.inl ⟨rfl, rfl⟩⟩)))))
    (Or.inl ⟨rfl, rfl⟩) .nil

theorem halvesFile : FilesSay kiosk 0 [str "h"] [.xact halves] .done := .read (is' := []) (by decide) halvesKiosk .nil

theorem halvesEveryday : Everyday halves ∧ Roomy halves.entries := by
  have h9 : ∀ e ∈ [bread, bread, cash], (∀ a ∈ e.amount, a.qty.scale ≤ 9) ∧ e.worthDecimals ≤ 9 := by decide
  have hs : (halves.entries.map (·.size)).sum = 41 := by
    show (List.map (·.size) [bread, bread, cash]).sum = _
    simp only [List.map_cons, List.map_nil, List.sum_cons, List.sum_nil, size_bread, size_cash]
    norm_num
  refine ⟨.of_billion h9 (by rw [hs]; norm_num) (by decide) ?_, roomy_of h9 (by rw [hs]; norm_num)⟩
  intro e he pr hp
  have : ∀ e ∈ [bread, bread, cash], e.lot.price = none := by decide
  rw [this e he] at hp; cases hp

theorem halvesSplit : SplitUp twice.entries halves.entries := by
  refine .split ⟨⟨rfl, rfl⟩, ⟨_, _, _, rfl, rfl, rfl, rfl, rfl, ?_⟩, .inl ⟨rfl, rfl, rfl⟩⟩ (.keep cash .nil)
  show Dec.val ⟨false, 2050, 2⟩ + Dec.val ⟨false, 2050, 2⟩ = Dec.val ⟨false, 41, 0⟩
  simp only [Dec.val_mk, Dec.sgn]
  norm_num

theorem wholeReport : run kiosk 0 [str "bal", str "-f", str "t"] =
    .ok [str "Account  has balance 0 EUR", str "Account Assets has balance -41 EUR",
      str "Account Assets:Cash has balance -41 EUR", str "Account Expenses has balance 41 EUR",
      str "Account Expenses:Food has balance 41 EUR"] := by decide +kernel

theorem halvesReport : run kiosk 0 [str "bal", str "-f", str "h"] =
    .ok [str "Account  has balance 0.00 EUR", str "Account Assets has balance -41.00 EUR",
      str "Account Assets:Cash has balance -41.00 EUR", str "Account Expenses has balance 41.00 EUR",
      str "Account Expenses:Food has balance 41.00 EUR"] := by decide +kernel

/-- A purchase for 41 EUR, and the same in two postings of 20.50 EUR. -/
example : ∃ (accounts : List Path) (total total' : Path → List Amount),
      [str "Account  has balance 0 EUR", str "Account Assets has balance -41 EUR",
        str "Account Assets:Cash has balance -41 EUR", str "Account Expenses has balance 41 EUR",
        str "Account Expenses:Food has balance 41 EUR"] = accounts.map (fun p => lineText (colons p) ⟨total p⟩) ∧
      [str "Account  has balance 0.00 EUR", str "Account Assets has balance -41.00 EUR",
        str "Account Assets:Cash has balance -41.00 EUR", str "Account Expenses has balance 41.00 EUR",
        str "Account Expenses:Food has balance 41.00 EUR"] = accounts.map (fun p => lineText (colons p) ⟨total' p⟩) ∧
      accounts.Pairwise PathBefore ∧
      ∀ p ∈ accounts, ((total p).map (·.comm)).Nodup ∧ ((total' p).map (·.comm)).Nodup ∧
        ∀ c, (c ∈ (total' p).map (·.comm) ↔ c ∈ (total p).map (·.comm)) ∧ sumIn c (total' p) = sumIn c (total p) :=
  C127_split wholeFile halvesFile (.cons halvesSplit .nil) (onlyOne twiceEveryday.1) twiceEveryday.2
    (onlyOne halvesEveryday.1) halvesEveryday.2
    (args := [str "bal", str "-f", str "t"]) (verb := str "bal") (rest := []) (by decide) (by unfold BalanceVerb; decide)
    (args' := [str "bal", str "-f", str "h"]) (verb' := str "bal") (rest' := []) (by decide) (by unfold BalanceVerb; decide)
    wholeReport halvesReport

end PartsExample

end Ledger
