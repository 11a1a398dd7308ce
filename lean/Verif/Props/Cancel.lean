import Verif.Props.AddUp
import Verif.Spec.Opposite
/-
C122: a transaction and its reversal cancel.
-/
namespace Ledger
open Ledger.Parser Ledger.Finalize Ledger.Cli Ledger.Output

theorem turned_turned (a : Amount) : a.turned.turned = a := by
  obtain ⟨⟨n, m, s⟩, c⟩ := a
  simp [Amount.turned]

theorem turned_val (a : Amount) : a.turned.qty.val = - a.qty.val := by
  obtain ⟨⟨n, m, s⟩, c⟩ := a
  cases n <;> simp [Amount.turned, Dec.val_mk, Dec.sgn, neg_div]

theorem turned_entry_entry (e : Entry) : e.turned.turned = e := by
  obtain ⟨n1, a, n2, c, n3, n4⟩ := e
  rcases a with _ | a <;> rcases c with _ | ⟨_ | _, k⟩ <;> simp [Entry.turned, turned_turned]

theorem turned_writing_writing (w : Writing) : w.turned.turned = w := by
  have : ∀ es : List Entry, (es.map Entry.turned).map Entry.turned = es := by
    intro es
    rw [List.map_map]
    exact (List.map_congr_left fun e _ => turned_entry_entry e).trans (List.map_id _)
  simp only [Writing.turned, this]

theorem turned_none {e : Entry} : e.turned.amount = none ↔ e.amount = none := by
  simp [Entry.turned]

theorem turned_worth (e : Entry) : e.turned.worth = - e.worth ∧ e.turned.worthIn = e.worthIn ∧
    e.turned.worthDecimals = e.worthDecimals ∧ e.turned.commodity = e.commodity ∧ e.turned.size = e.size := by
  obtain ⟨n1, a, n2, c, n3, n4⟩ := e
  rcases a with _ | a <;> rcases c with _ | ⟨_ | _, k⟩ <;>
    simp [Entry.turned, Entry.worth, Entry.worthIn, Entry.worthDecimals, Entry.commodity, Entry.size, turned_val] <;>
    try simp [Amount.turned]

theorem turned_sum (es : List Entry) (c : Option Str) : entriesSum (es.map Entry.turned) c = - entriesSum es c := by
  unfold entriesSum
  induction es with
  | nil => simp
  | cons e es ih =>
    simp only [List.map_cons, List.sum_cons] at ih ⊢
    rw [ih, (turned_worth e).1, (turned_worth e).2.1]
    split <;> ring

theorem ImpliedBy.turned {w : Writing} {A B : Option Str} (h : ImpliedBy w A B) : ImpliedBy w.turned A B := by
  obtain ⟨h1, h2, h3, h4, h5, e, h6, h7⟩ := h
  refine ⟨?_, h2, ?_, ?_, ?_, e.turned, ?_, ?_⟩
  · intro x hx
    obtain ⟨y, hy, rfl⟩ := List.mem_map.mp hx
    exact fun h => h1 y hy (turned_none.mp h)
  · intro x hx
    obtain ⟨y, hy, rfl⟩ := List.mem_map.mp hx
    rw [(turned_worth y).2.1]
    exact h3 y hy
  · show entriesSum (w.entries.map Entry.turned) A ≠ 0
    rw [turned_sum]
    exact neg_ne_zero.mpr h4
  · show entriesSum (w.entries.map Entry.turned) B ≠ 0
    rw [turned_sum]
    exact neg_ne_zero.mpr h5
  · show (w.entries.map Entry.turned).head? = _
    rw [List.head?_map, h6]
    rfl
  · rw [(turned_worth e).2.1, (turned_worth e).2.2.2.1]
    exact h7

theorem implied_turned {w : Writing} {A B : Option Str} : ImpliedBy w.turned A B ↔ ImpliedBy w A B :=
  ⟨fun h => by simpa only [turned_writing_writing] using h.turned, ImpliedBy.turned⟩

theorem Faulty.turned {w : Writing} (h : Faulty w) : Faulty w.turned := by
  cases h with
  | single h => exact .single (by simp [Writing.turned, h])
  | blanks l m r e f h he hf =>
    refine .blanks (l.map Entry.turned) (m.map Entry.turned) (r.map Entry.turned) e.turned f.turned ?_ (turned_none.mpr he)
      (turned_none.mpr hf)
    simp [Writing.turned, h]
  | mixed e p q he hp hq hb hpa hqa hne =>
    exact .mixed e.turned p.turned q.turned (List.mem_map_of_mem he) (List.mem_map_of_mem hp) (List.mem_map_of_mem hq)
      (turned_none.mpr hb) (fun h => hpa (turned_none.mp h)) (fun h => hqa (turned_none.mp h))
      (by rw [(turned_worth p).2.1, (turned_worth q).2.1]; exact hne)
  | cost e a he ha hc hbad hkeep =>
    refine .cost e.turned a.turned (List.mem_map_of_mem he) (by simp [Entry.turned, ha]) (by simpa [Entry.turned] using hc) ?_ ?_
    · unfold Entry.Priceless at hbad ⊢
      rw [(turned_worth e).1, (turned_worth e).2.1, turned_val, neg_div_neg_eq, neg_eq_zero, neg_eq_zero, neg_ne_zero]
      exact hbad
    · intro B h
      exact hkeep B (implied_turned.mp h)
  | rate A B h e a he ha hac hbad =>
    exact .rate A B h.turned e.turned a.turned (List.mem_map_of_mem he) (by simp [Entry.turned, ha]) hac hbad

theorem faulty_turned {w : Writing} : Faulty w.turned ↔ Faulty w :=
  ⟨fun h => by simpa only [turned_writing_writing] using h.turned, Faulty.turned⟩

theorem Everyday.turned {w : Writing} (h : Everyday w) : Everyday w.turned := by
  obtain ⟨⟨D, T, h1, h2, h3⟩, h4, h5⟩ := h
  refine ⟨⟨D, T, ?_, ?_, ?_⟩, ?_, ?_⟩
  · refine h1.imp id fun ⟨g1, g2, g3⟩ => ⟨g1, ?_, fun A B h => g3 A B (implied_turned.mp h)⟩
    intro e he
    obtain ⟨x, hx, rfl⟩ := List.mem_map.mp he
    simp [Entry.turned, g2 x hx]
  · intro e he
    obtain ⟨x, hx, rfl⟩ := List.mem_map.mp he
    refine ⟨fun a ha => ?_, by rw [(turned_worth x).2.2.1]; exact (h2 x hx).2⟩
    cases hxa : x.amount with
    | none => rw [turned_none.mpr hxa] at ha; cases ha
    | some b =>
      simp only [Entry.turned, hxa, Option.map_some, Option.some.injEq] at ha
      rw [← ha]
      exact (h2 x hx).1 b hxa
  · show ((w.entries.map Entry.turned).map (·.size)).sum ≤ _
    have : ((·.size) ∘ Entry.turned : Entry → ℚ) = (·.size) := funext fun e => (turned_worth e).2.2.2.2
    rw [List.map_map, this]
    exact h3
  · simpa [Writing.turned] using h4
  · intro e he
    obtain ⟨x, hx, rfl⟩ := List.mem_map.mp he
    exact h5 x hx

theorem full_bookings {w : Writing} (h : w.Full) :
    w.bookings = w.entries.filterMap (fun e => e.amount.map (fun a => (pathOf e.account, a))) := by
  unfold Writing.bookings
  refine List.filterMap_congr fun e he => ?_
  cases ha : e.amount with
  | none => exact absurd ha (h e he)
  | some a => rfl

theorem Writing.Full.turned {w : Writing} (h : w.Full) : w.turned.Full := by
  intro e he
  obtain ⟨x, hx, rfl⟩ := List.mem_map.mp he
  exact fun hn => h x hx (turned_none.mp hn)

theorem turned_bookings {w : Writing} (h : w.Full) : w.turned.bookings = w.bookings.map (fun x => (x.1, x.2.turned)) := by
  rw [full_bookings h, full_bookings h.turned]
  show (w.entries.map Entry.turned).filterMap _ = _
  rw [List.filterMap_map, List.map_filterMap]
  refine List.filterMap_congr fun e _ => ?_
  cases ha : e.amount with
  | none => simp [Entry.turned, ha]
  | some a => simp [Entry.turned, ha]

theorem turned_below (b : Bookings) (p : Path) (c : Option Str) :
    sumIn c (Bookings.below (b.map (fun x => (x.1, x.2.turned))) p) = - sumIn c (b.below p) := by
  unfold Bookings.below
  induction b with
  | nil => simp [sumIn]
  | cons x b ih =>
    rw [List.map_cons, List.filter_cons, List.filter_cons]
    split
    · simp only [List.map_cons, sumIn]
      have : x.2.turned.valIn c = - x.2.valIn c := by
        simp only [Amount.valIn, turned_val]
        have : x.2.turned.comm = x.2.comm := rfl
        rw [this]
        split <;> simp
      rw [ih, this]
      ring
    · exact ih

theorem written_turned {us : List Writing} (h : ∀ u ∈ us, u.Full) :
    writtenBookings (us.map Writing.turned) = (writtenBookings us).map (fun x => (x.1, x.2.turned)) := by
  unfold writtenBookings
  rw [List.flatMap_map, List.map_flatMap]
  exact List.flatMap_congr fun u hu => turned_bookings (h u hu)

/-- Full statement: written transactions and, anywhere in the files, the same with all signs turned around cancel: they add nothing
to any sum in the balance report, and only the accounts they name to its lines.  The code gives a blank posting a negative amount on
both sides (`C122_cancel_violated`).

Proved: so it is for transactions without a blank posting; the other transactions may have one. -/
theorem C122_cancel_partial {files files' : Files} {depth depth' : Nat} {fs fs' : List Str} {is is' : List Item}
    (hf : FilesSay files depth fs is .done) (hf' : FilesSay files' depth' fs' is' .done) {us : List Writing}
    (hw : (writings is).Perm (writings is' ++ (us ++ us.map Writing.turned))) (hu : ∀ u ∈ us, u.Full)
    (hd : ∀ w ∈ writings is' ++ us, Everyday w) (ht : Roomy (allEntries (writings is)))
    {args args' rest rest' : List Str} {verb verb' : Str}
    (ha : Options.processArguments args = .ok (verb :: rest, fs)) (hv : BalanceVerb verb)
    (ha' : Options.processArguments args' = .ok (verb' :: rest', fs')) (hv' : BalanceVerb verb') :
    ((∃ k, run files depth args = .error k) ∧ ((∃ k, run files' depth' args' = .error k) ∨ ∃ u ∈ us, Faulty u)) ∨
    ∃ (accounts accounts' : List Path) (total total' : Path → List Amount),
      run files depth args = .ok (accounts.map (fun p => lineText (colons p) ⟨total p⟩)) ∧
      run files' depth' args' = .ok (accounts'.map (fun p => lineText (colons p) ⟨total' p⟩)) ∧
      accounts.Nodup ∧ (∀ p, p ∈ accounts ↔ p ∈ accounts' ∨ ∃ u ∈ us, ∃ e ∈ u.entries, p <+: pathOf e.account) ∧
      (∀ p, p ∉ accounts' → total' p = []) ∧
      ∀ p ∈ accounts, ((total p).map (·.comm)).Nodup ∧ ((total' p).map (·.comm)).Nodup ∧
        ∀ c, sumIn c (total p) = sumIn c (total' p) := by
  have hm : ∀ w, w ∈ writings is ↔ w ∈ writings is' ∨ w ∈ us ∨ ∃ u ∈ us, u.turned = w := fun w => by
    rw [hw.mem_iff, List.mem_append, List.mem_append, List.mem_map]
  have hd0 : ∀ w ∈ writings is, Everyday w := by
    intro w h
    rcases (hm w).mp h with h | h | ⟨u, g, rfl⟩
    · exact hd w (List.mem_append_left _ h)
    · exact hd w (List.mem_append_right _ h)
    · exact (hd u (List.mem_append_right _ g)).turned
  have hd' : ∀ w ∈ writings is', Everyday w := fun w h => hd w (List.mem_append_left _ h)
  have hp : (allEntries (writings is)).Perm (allEntries (writings is') ++ allEntries (us ++ us.map Writing.turned)) := by
    have := hw.flatMap_right (·.entries)
    rwa [List.flatMap_append] at this
  have ht' : Roomy (allEntries (writings is')) := by
    refine ht.mono (fun e he => hp.mem_iff.mpr (List.mem_append_left _ he)) ?_
    rw [(hp.map _).sum_eq, List.map_append, List.sum_append]
    have := List.sum_nonneg (M := ℚ) (l := (allEntries (us ++ us.map Writing.turned)).map (·.size)) (by
      intro x hx
      obtain ⟨e, _, rfl⟩ := List.mem_map.mp hx
      exact size_nonneg e)
    linarith
  by_cases hn : ∃ w ∈ writings is, Faulty w
  · left
    obtain ⟨k, hk⟩ := firstCause_of_faulty hn
    refine ⟨⟨k, (C92_run_panic files depth hf hd0 ht ha (Or.inl hv) k).mpr (Or.inl hk)⟩, ?_⟩
    obtain ⟨w, h1, h2⟩ := hn
    rcases (hm w).mp h1 with h1 | h1 | ⟨u, g, rfl⟩
    · obtain ⟨k, hk⟩ := firstCause_of_faulty ⟨w, h1, h2⟩
      exact .inl ⟨k, (C92_run_panic files' depth' hf' hd' ht' ha' (Or.inl hv') k).mpr (Or.inl hk)⟩
    · exact .inr ⟨w, h1, h2⟩
    · exact .inr ⟨u, g, faulty_turned.mp h2⟩
  · right
    have hn0 : ∀ w ∈ writings is, ¬ Faulty w := fun w h1 h2 => hn ⟨w, h1, h2⟩
    have hn' : ∀ w ∈ writings is', ¬ Faulty w := fun w h1 => hn0 w ((hm w).mpr (.inl h1))
    have hb : (writtenBookings (writings is)).Perm (writtenBookings (writings is') ++
        (writtenBookings us ++ (writtenBookings us).map (fun x => (x.1, x.2.turned)))) := by
      have := hw.flatMap_right (·.bookings)
      rw [List.flatMap_append, List.flatMap_append] at this
      rw [← written_turned hu]
      exact this
    have hus : ∀ p, (∃ x ∈ writtenBookings us, p <+: x.1) ↔ ∃ u ∈ us, ∃ e ∈ u.entries, p <+: pathOf e.account := by
      intro p
      constructor
      · rintro ⟨x, hx, hpx⟩
        obtain ⟨u, h1, h2⟩ := List.mem_flatMap.mp hx
        rw [full_bookings (hu u h1)] at h2
        obtain ⟨e, h3, h4⟩ := List.mem_filterMap.mp h2
        obtain ⟨a, _, rfl⟩ := Option.map_eq_some_iff.mp h4
        exact ⟨u, h1, e, h3, hpx⟩
      · rintro ⟨u, h1, e, h3, hpx⟩
        obtain ⟨a, h4⟩ := Option.ne_none_iff_exists'.mp (hu u h1 e h3)
        refine ⟨(pathOf e.account, a), List.mem_flatMap.mpr ⟨u, h1, ?_⟩, hpx⟩
        rw [full_bookings (hu u h1)]
        exact List.mem_filterMap.mpr ⟨e, h3, by rw [h4]; rfl⟩
    refine ⟨(writtenBookings (writings is)).listed, (writtenBookings (writings is')).listed,
      (writtenBookings (writings is)).figure, (writtenBookings (writings is')).figure,
      by rw [C92_report files depth hf hd0 ht ha hv hn0, report_listed],
      by rw [C92_report files' depth' hf' hd' ht' ha' hv' hn', report_listed], listedFrom_nodup _ _ _, fun p => ?_,
      fun p => figure_unlisted, fun p hp => ⟨figure_nodup _ p hp, ?_, fun c => ?_⟩⟩
    · rw [mem_listed, mem_listed, ← hus]
      constructor
      · rintro (h | ⟨x, hx, hpx⟩)
        · exact .inl (.inl h)
        · rcases List.mem_append.mp (hb.mem_iff.mp hx) with hx | hx
          · exact .inl (.inr ⟨x, hx, hpx⟩)
          · rcases List.mem_append.mp hx with hx | hx
            · exact .inr ⟨x, hx, hpx⟩
            · obtain ⟨y, hy, rfl⟩ := List.mem_map.mp hx
              exact .inr ⟨y, hy, hpx⟩
      · rintro ((h | ⟨x, hx, hpx⟩) | ⟨x, hx, hpx⟩)
        · exact .inl h
        · exact .inr ⟨x, hb.mem_iff.mpr (List.mem_append_left _ hx), hpx⟩
        · exact .inr ⟨x, hb.mem_iff.mpr (List.mem_append_right _ (List.mem_append_left _ hx)), hpx⟩
    · by_cases hl : p ∈ (writtenBookings (writings is')).listed
      · exact figure_nodup _ p hl
      · rw [figure_unlisted hl]
        exact List.nodup_nil
    · obtain ⟨_, _, h3⟩ := figure_add hb hp
      have := (figure_sums_any (writtenBookings us ++ (writtenBookings us).map (fun x => (x.1, x.2.turned))) c p).1
      have hz : sumIn c (Bookings.below (writtenBookings us ++ (writtenBookings us).map (fun x => (x.1, x.2.turned))) p) = 0 := by
        unfold Bookings.below
        rw [List.filter_append, List.map_append, sumIn_append]
        have := turned_below (writtenBookings us) p c
        unfold Bookings.below at this
        rw [this]
        ring
      rw [h3, this, hz, add_zero]

/-- C122 is false for blank postings: after a purchase and its refund the cash account shows twice the price. -/
theorem C122_cancel_violated :
    run (fun f => if f = str "x" then some (textSource (str "2023-05-01 Buy\n  Food  20 EUR\n  Cash\n\n" ++
        str "2023-05-02 Back\n  Food  -20 EUR\n  Cash\n")) else none) 0
      [str "bal", str "-f", str "x"] =
    .ok [str "Account  has balance -40 EUR", str "Account Cash has balance -40 EUR",
      str "Account Food has balance 0 EUR"] := by decide +kernel

/-! ### examples -/

namespace CancelExample
open BooksExample LinesExample FaultsExample CausesExample FoundExample

def payback : Source :=
  [some (str "2023-05-01 Shop  ; food\n"), some (str "    Assets:Bank  -100 EUR\n"), some (str "    Income  100 EUR\n")]

def bureau : Files := fun f => if f = str "c" then some payday else if f = str "d" then some payback else none

theorem bankBack : EntryLine (str "    Assets:Bank  -100 EUR\n") bank.turned := by
  refine ⟨str "   Assets:Bank  -100 EUR\n", rfl, ?_⟩
  have e : str "   Assets:Bank  -100 EUR\n" =
      str "   " ++ str "Assets:Bank" ++ ' ' :: ' ' :: [] ++ (str "-100" ++ [' '] ++ str "EUR") ++ [] ++ [] ++ str "\n" := by
    decide
  rw [e]
  exact EntryText.full b3 (accountText_of ⟨⟨'A', by decide, by decide, by decide⟩, by decide, by decide⟩) b0
    (amount _ _ _ (by decide) (by decide) (by decide)) noLot noCost (.blank nl) (by intro h; cases h) (by intro h; cases h)

theorem wageBack : EntryLine (str "    Income  100 EUR\n") wage.turned := by
  refine ⟨str "   Income  100 EUR\n", rfl, ?_⟩
  have e : str "   Income  100 EUR\n" =
      str "   " ++ str "Income" ++ ' ' :: ' ' :: [] ++ (str "100" ++ [' '] ++ str "EUR") ++ [] ++ [] ++ str "\n" := by
    decide
  rw [e]
  exact EntryText.full b3 (accountText_of ⟨⟨'I', by decide, by decide, by decide⟩, by decide, by decide⟩) b0
    (amount _ _ _ (by decide) (by decide) (by decide)) noLot noCost (.blank nl) (by intro h; cases h) (by intro h; cases h)

theorem forth : SaysUpTo bureau 0 payday [.xact pay] .done :=
  .xact (w := pay) (tail := []) shopHeader
    (.posting (e := bank) bankLine (.posting wageLine (.stop (Or.inl ⟨_, Or.inl ⟨rfl, rfl⟩⟩)))) (Or.inl ⟨rfl, rfl⟩) .nil

theorem back : SaysUpTo bureau 0 payback [.xact pay.turned] .done :=
  .xact (w := pay.turned) (tail := []) shopHeader
    (.posting (e := bank.turned) bankBack (.posting wageBack (.stop (Or.inl ⟨_, Or.inl ⟨rfl, rfl⟩⟩)))) (Or.inl ⟨rfl, rfl⟩) .nil

theorem once : FilesSay bureau 0 [str "c"] [.xact pay] .done := .read (is' := []) (by decide) forth .nil

theorem twiceAndBack : FilesSay bureau 0 [str "c", str "c", str "d"] [.xact pay, .xact pay, .xact pay.turned] .done :=
  filesSay_append once (filesSay_append once (.read (f := str "d") (is' := []) (by decide) back .nil))

theorem backRoomy : Roomy (allEntries [pay, pay, pay.turned]) := by
  refine roomy_of (show ∀ e ∈ [bank, wage, bank, wage, bank.turned, wage.turned],
    (∀ a ∈ e.amount, a.qty.scale ≤ 9) ∧ e.worthDecimals ≤ 9 by decide) ?_
  change (List.map (·.size) [bank, wage, bank, wage, bank.turned, wage.turned]).sum ≤ _
  simp only [List.map_cons, List.map_nil, List.sum_cons, List.sum_nil, (turned_worth _).2.2.2.2, size_bank, size_wage]
  norm_num

/-- A salary paid twice, one of them taken back, beside the salary paid once. -/
example : ((∃ k, run bureau 0 [str "bal", str "-f", str "c", str "-f", str "c", str "-f", str "d"] = .error k) ∧
      ((∃ k, run bureau 0 [str "bal", str "-f", str "c"] = .error k) ∨ ∃ u ∈ [pay], Faulty u)) ∨
    ∃ (accounts accounts' : List Path) (total total' : Path → List Amount),
      run bureau 0 [str "bal", str "-f", str "c", str "-f", str "c", str "-f", str "d"] =
        .ok (accounts.map (fun p => lineText (colons p) ⟨total p⟩)) ∧
      run bureau 0 [str "bal", str "-f", str "c"] = .ok (accounts'.map (fun p => lineText (colons p) ⟨total' p⟩)) ∧
      accounts.Nodup ∧ (∀ p, p ∈ accounts ↔ p ∈ accounts' ∨ ∃ u ∈ [pay], ∃ e ∈ u.entries, p <+: pathOf e.account) ∧
      (∀ p, p ∉ accounts' → total' p = []) ∧
      ∀ p ∈ accounts, ((total p).map (·.comm)).Nodup ∧ ((total' p).map (·.comm)).Nodup ∧
        ∀ c, sumIn c (total p) = sumIn c (total' p) :=
  C122_cancel_partial twiceAndBack once (us := [pay]) (List.Perm.refl _)
    (fun u hu => by
      simp only [List.mem_singleton] at hu
      subst hu
      have : ∀ e ∈ [bank, wage], e.amount ≠ none := by decide
      exact this)
    (fun w hw => by
      have : w ∈ [pay, pay] := hw
      simp only [List.mem_cons, List.not_mem_nil, or_false, or_self] at this
      subst this
      exact payEveryday)
    backRoomy (verb := str "bal") (rest := []) (by decide) (by unfold BalanceVerb; decide)
    (verb' := str "bal") (rest' := []) (by decide) (by unfold BalanceVerb; decide)

example : run bureau 0 [str "bal", str "-f", str "c", str "-f", str "c", str "-f", str "d"] =
      .ok [str "Account  has balance 0 EUR", str "Account Assets has balance 100 EUR",
        str "Account Assets:Bank has balance 100 EUR", str "Account Income has balance -100 EUR"] ∧
    run bureau 0 [str "bal", str "-f", str "c"] =
      .ok [str "Account  has balance 0 EUR", str "Account Assets has balance 100 EUR",
        str "Account Assets:Bank has balance 100 EUR", str "Account Income has balance -100 EUR"] := by decide +kernel

end CancelExample

end Ledger
