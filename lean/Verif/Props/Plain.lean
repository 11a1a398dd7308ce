import Verif.Props.Refund
/-
C124: the figures of a report in plain arithmetic.
-/
namespace Ledger
open Ledger.Parser Ledger.Finalize Ledger.Cli Ledger.Output

/-- The sum of the amounts in a commodity that are written for an account and those below it. -/
def Writing.written (w : Writing) (p : Path) (c : Option Str) : ℚ :=
  (w.entries.map (fun e => match e.amount with
    | some a => if p <+: pathOf e.account ∧ a.comm = c then a.qty.val else 0
    | none => 0)).sum

/-- The commodities that a transaction brings to an account: those of the amounts that are written for it or below it, and for a
blank posting there the one of the other postings. -/
def Writing.Brings (w : Writing) (p : Path) (c : Option Str) : Prop :=
  ∃ e ∈ w.entries, p <+: pathOf e.account ∧ ((∃ a, e.amount = some a ∧ a.comm = c) ∨
    (e.amount = none ∧ ∃ q ∈ w.entries, q.amount ≠ none ∧ q.worthIn = c))

theorem entries_plain (es : List Entry) (F : Option Amount) (c : Option Str) (p : Path) (V : ℚ)
    (h : (∃ e ∈ es, e.amount = none) → ∃ a, F = some a ∧ a.valIn c = - V) :
    sumIn c (Bookings.below (es.filterMap (fun e => (e.amount.or F).map (fun a => (pathOf e.account, a)))) p) =
    (es.map (fun e => match e.amount with
      | some a => if p <+: pathOf e.account ∧ a.comm = c then a.qty.val else 0
      | none => 0)).sum - (es.map (fun e => if e.amount = none ∧ p <+: pathOf e.account then V else 0)).sum := by
  induction es with
  | nil => simp [Bookings.below, sumIn]
  | cons e es ih =>
    have ih := ih fun ⟨x, hx, hxa⟩ => h ⟨x, List.mem_cons_of_mem _ hx, hxa⟩
    rw [List.map_cons, List.map_cons, List.sum_cons, List.sum_cons, List.filterMap_cons]
    cases ha : e.amount with
    | none =>
      obtain ⟨a, rfl, h1⟩ := h ⟨e, List.mem_cons_self, ha⟩
      simp only [Option.none_or, Option.map_some, below_cons, h1, true_and]
      rw [ih]
      split <;> ring
    | some a =>
      simp only [Option.some_or, Option.map_some, below_cons, reduceCtorEq, false_and, if_false, Amount.valIn]
      rw [ih]
      by_cases h1 : p <+: pathOf e.account <;> by_cases h2 : a.comm = c <;> simp [h1, h2] <;> ring

theorem bookings_plain {w : Writing} (hw : ¬ Faulty w) (p : Path) (c : Option Str) :
    sumIn c (w.bookings.below p) = w.written p c - w.lost p c := by
  unfold Writing.bookings Writing.written Writing.lost
  refine entries_plain _ _ c p _ ?_
  rintro ⟨e, he, hb⟩
  obtain ⟨a, h1, h2, _⟩ := blank_share hw he hb
  exact ⟨a, h1, h2 c⟩

theorem writings_plain {ws : List Writing} (hw : ∀ w ∈ ws, ¬ Faulty w) (p : Path) (c : Option Str) :
    sumIn c (Bookings.below (writtenBookings ws) p) =
      (ws.map (fun w => w.written p c)).sum - (ws.map (fun w => w.lost p c)).sum := by
  unfold writtenBookings
  induction ws with
  | nil => simp [Bookings.below, sumIn]
  | cons w ws ih =>
    rw [List.flatMap_cons, below_append, bookings_plain (hw w List.mem_cons_self), ih fun v hv => hw v (List.mem_cons_of_mem _ hv),
      List.map_cons, List.sum_cons, List.map_cons, List.sum_cons]
    ring

theorem brings {ws : List Writing} (hw : ∀ w ∈ ws, ¬ Faulty w) (p : Path) (c : Option Str) :
    c ∈ (Bookings.below (writtenBookings ws) p).map (·.comm) ↔ ∃ w ∈ ws, w.Brings p c := by
  unfold Bookings.below writtenBookings
  rw [List.map_map, List.mem_map]
  constructor
  · rintro ⟨x, hx, rfl⟩
    obtain ⟨hx, hp⟩ := List.mem_filter.mp hx
    obtain ⟨w, h1, h2⟩ := List.mem_flatMap.mp hx
    obtain ⟨e, he, h3⟩ := List.mem_filterMap.mp h2
    obtain ⟨a, h4, rfl⟩ := Option.map_eq_some_iff.mp h3
    refine ⟨w, h1, e, he, List.isPrefixOf_iff_prefix.mp hp, ?_⟩
    cases hb : e.amount with
    | some b =>
      rw [hb] at h4
      injection h4 with h4
      exact .inl ⟨b, rfl, by rw [h4]; rfl⟩
    | none =>
      obtain ⟨a', h5, _, q, h6, h7, h8⟩ := blank_share (hw w h1) he hb
      rw [hb, h5] at h4
      injection h4 with h4
      exact .inr ⟨rfl, q, h6, h7, by rw [h8, h4]; rfl⟩
  · rintro ⟨w, h1, e, he, hp, ⟨a, ha, hc⟩ | ⟨hb, q, hq, hqa, hc⟩⟩
    · exact ⟨(pathOf e.account, a), List.mem_filter.mpr ⟨List.mem_flatMap.mpr ⟨w, h1, List.mem_filterMap.mpr
        ⟨e, he, by rw [ha]; rfl⟩⟩, List.isPrefixOf_iff_prefix.mpr hp⟩, hc⟩
    · obtain ⟨a, h5, _, q', h6, h7, h8⟩ := blank_share (hw w h1) he hb
      refine ⟨(pathOf e.account, a), List.mem_filter.mpr ⟨List.mem_flatMap.mpr ⟨w, h1, List.mem_filterMap.mpr
        ⟨e, he, by rw [hb, h5]; rfl⟩⟩, List.isPrefixOf_iff_prefix.mpr hp⟩, ?_⟩
      show a.comm = c
      rw [← h8, ← hc]
      by_contra hne
      exact hw w h1 (.mixed e q' q he h6 hq hb h7 hqa hne)

theorem before_below (p : Path) (n : Str) (t : Path) : PathBefore p (p ++ n :: t) := by
  induction p with
  | nil => exact .nil
  | cons m p ih => exact .cons ih

theorem before_beside (p : Path) {m n : Str} (h : StrBefore m n) (s t : Path) : PathBefore (p ++ m :: s) (p ++ n :: t) := by
  induction p with
  | nil => exact .rel h
  | cons x p ih => exact .cons ih

theorem listedFrom_order (b : Bookings) (d : Nat) (p : Path) : (b.listedFrom d p).Pairwise PathBefore := by
  induction d generalizing p with
  | zero => exact .nil
  | succ d ih =>
    rw [Bookings.listedFrom]
    refine List.pairwise_cons.mpr ⟨fun q hq => ?_, List.pairwise_flatMap.mpr ⟨fun n _ => ih _, ?_⟩⟩
    · obtain ⟨n, _, hq⟩ := List.mem_flatMap.mp hq
      obtain ⟨⟨t, rfl⟩, _⟩ := listedFrom_prefix b d _ q hq
      rw [List.append_assoc]
      exact before_below p n t
    · have h : (b.names p).Pairwise StrBefore := foldr_sortIn_sorted _
      refine h.imp fun {m n} hmn x hx y hy => ?_
      obtain ⟨⟨s, rfl⟩, _⟩ := listedFrom_prefix b d _ x hx
      obtain ⟨⟨t, rfl⟩, _⟩ := listedFrom_prefix b d _ y hy
      rw [List.append_assoc, List.append_assoc]
      exact before_beside p hmn s t

/-- C124: the figures of the balance report in plain arithmetic.  The report has one line for the root and for each account that is
named and those above it, in order name by name with each account before those below it.  In each commodity the sum for an account is what is written for it and below it, less the absolute sum of
the other postings for each blank posting there; and it shows exactly the commodities that are brought there. -/
theorem C124_sums {files : Files} {depth : Nat} {fs : List Str} {is : List Item} (hf : FilesSay files depth fs is .done)
    (hd : ∀ w ∈ writings is, Everyday w) (ht : Roomy (allEntries (writings is)))
    {args rest : List Str} {verb : Str} (ha : Options.processArguments args = .ok (verb :: rest, fs)) (hv : BalanceVerb verb)
    (hn : ∀ w ∈ writings is, ¬ Faulty w) :
    ∃ (accounts : List Path) (total : Path → List Amount),
      run files depth args = .ok (accounts.map (fun p => lineText (colons p) ⟨total p⟩)) ∧
      accounts.Pairwise PathBefore ∧ (∀ p, p ∈ accounts ↔ p = [] ∨ ∃ w ∈ writings is, ∃ e ∈ w.entries, p <+: pathOf e.account) ∧
      ∀ p ∈ accounts, ((total p).map (·.comm)).Nodup ∧
        ∀ c, (c ∈ (total p).map (·.comm) ↔ ∃ w ∈ writings is, w.Brings p c) ∧
          sumIn c (total p) = ((writings is).map (fun w => w.written p c)).sum - ((writings is).map (fun w => w.lost p c)).sum := by
  refine ⟨(writtenBookings (writings is)).listed, (writtenBookings (writings is)).figure,
    by rw [C92_report files depth hf hd ht ha hv hn, report_listed], listedFrom_order _ _ _, fun p => ?_,
    fun p hp => ⟨figure_nodup _ p hp, fun c => ⟨?_, ?_⟩⟩⟩
  · rw [mem_listed]
    refine or_congr Iff.rfl ⟨?_, ?_⟩
    · rintro ⟨x, hx, hpx⟩
      obtain ⟨v, h1, h2⟩ := List.mem_flatMap.mp hx
      exact ⟨v, h1, (bookings_named (hn v h1) p).mp ⟨x, h2, hpx⟩⟩
    · rintro ⟨v, h1, h2⟩
      obtain ⟨x, h3, h4⟩ := (bookings_named (hn v h1) p).mpr h2
      exact ⟨x, List.mem_flatMap.mpr ⟨v, h1, h3⟩, h4⟩
  · rw [(figure_sums_any _ c p).2, brings hn]
  · rw [(figure_sums_any _ c p).1, writings_plain hn]

/-- C124: so the first line of the report, the total of everything, shows only zeros exactly if in each commodity everything that is
written comes to as much as the blank postings take away. -/
theorem C124_zero {files : Files} {depth : Nat} {fs : List Str} {is : List Item} (hf : FilesSay files depth fs is .done)
    (hd : ∀ w ∈ writings is, Everyday w) (ht : Roomy (allEntries (writings is)))
    {args rest : List Str} {verb : Str} (ha : Options.processArguments args = .ok (verb :: rest, fs)) (hv : BalanceVerb verb)
    (hn : ∀ w ∈ writings is, ¬ Faulty w) :
    ∃ total lines, run files depth args = .ok (lineText [] ⟨total⟩ :: lines) ∧
      ((∀ a ∈ total, a.qty.val = 0) ↔
        ∀ c, ((writings is).map (fun w => w.written [] c)).sum = ((writings is).map (fun w => w.lost [] c)).sum) := by
  obtain ⟨t, ls, h1, h2⟩ := C96_exactly files depth hf hd ht ha hv hn
  refine ⟨t, ls, h1, h2.trans (forall_congr' fun c => ?_)⟩
  have : ((writings is).map (fun w => sumIn c (w.bookings.map (·.2)))).sum =
      ((writings is).map (fun w => w.written [] c)).sum - ((writings is).map (fun w => w.lost [] c)).sum := by
    rw [← writings_plain hn]
    unfold writtenBookings
    generalize writings is = ws
    induction ws with
    | nil => rfl
    | cons w ws ih =>
      rw [List.flatMap_cons, below_append, ← ih, List.map_cons, List.sum_cons]
      congr 1
      unfold Bookings.below
      simp
  rw [this, sub_eq_zero]

/-! ### examples -/

namespace PlainExample
open BooksExample LinesExample FaultsExample CausesExample FoundExample CancelExample RefundExample

theorem allSound : ∀ w ∈ writings [.xact pay, .xact first, .xact first.turned], ¬ Faulty w := by
  intro w hw h
  obtain ⟨k, hk⟩ := firstCause_of_faulty ⟨w, hw, h⟩
  have := (C92_run_panic counter 0 allSays (fun w hw => by
    have h : w ∈ [pay, first, first.turned] := hw
    simp only [List.mem_cons, List.not_mem_nil, or_false] at h
    rcases h with rfl | rfl | rfl
    · exact payEveryday
    · exact CausesExample.everyday _ (by simp)
    · exact (CausesExample.everyday _ (by simp)).turned) allRoomy
    (args := [str "bal", str "-f", str "c", str "-f", str "b", str "-f", str "r"]) (verb := str "bal") (rest := []) (by decide)
    (Or.inl (by unfold BalanceVerb; decide)) k).mpr (Or.inl hk)
  rw [allReport] at this
  cases this

theorem allEveryday : ∀ w ∈ writings [.xact pay, .xact first, .xact first.turned], Everyday w := by
  intro w hw
  have h : w ∈ [pay, first, first.turned] := hw
  simp only [List.mem_cons, List.not_mem_nil, or_false] at h
  rcases h with rfl | rfl | rfl
  · exact payEveryday
  · exact CausesExample.everyday _ (by simp)
  · exact (CausesExample.everyday _ (by simp)).turned

/-- A salary, a purchase and its refund; the report is shown beside C122. -/
example : ∃ (accounts : List Path) (total : Path → List Amount),
      run counter 0 [str "bal", str "-f", str "c", str "-f", str "b", str "-f", str "r"] =
        .ok (accounts.map (fun p => lineText (colons p) ⟨total p⟩)) ∧
      accounts.Pairwise PathBefore ∧ (∀ p, p ∈ accounts ↔ p = [] ∨ ∃ w ∈ writings [.xact pay, .xact first, .xact first.turned],
        ∃ e ∈ w.entries, p <+: pathOf e.account) ∧
      ∀ p ∈ accounts, ((total p).map (·.comm)).Nodup ∧
        ∀ c, (c ∈ (total p).map (·.comm) ↔ ∃ w ∈ writings [.xact pay, .xact first, .xact first.turned], w.Brings p c) ∧
          sumIn c (total p) = ((writings [.xact pay, .xact first, .xact first.turned]).map (fun w => w.written p c)).sum -
            ((writings [.xact pay, .xact first, .xact first.turned]).map (fun w => w.lost p c)).sum :=
  C124_sums allSays allEveryday allRoomy (args := [str "bal", str "-f", str "c", str "-f", str "b", str "-f", str "r"])
    (verb := str "bal") (rest := []) (by decide) (by unfold BalanceVerb; decide) allSound

example : ∃ total lines, run counter 0 [str "bal", str "-f", str "c", str "-f", str "b", str "-f", str "r"] =
      .ok (lineText [] ⟨total⟩ :: lines) ∧
    ((∀ a ∈ total, a.qty.val = 0) ↔
      ∀ c, ((writings [.xact pay, .xact first, .xact first.turned]).map (fun w => w.written [] c)).sum =
        ((writings [.xact pay, .xact first, .xact first.turned]).map (fun w => w.lost [] c)).sum) :=
  C124_zero allSays allEveryday allRoomy (args := [str "bal", str "-f", str "c", str "-f", str "b", str "-f", str "r"])
    (verb := str "bal") (rest := []) (by decide) (by unfold BalanceVerb; decide) allSound

end PlainExample

end Ledger
