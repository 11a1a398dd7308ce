import Verif.Props.Fresh
/-
C105: what the program with its pointers prints, in terms of the text.
-/
namespace Ledger
open Ledger.Parser Ledger.Cli

/-- A report follows no stale pointer: reading does not, the amounts of the postings are still what their pointers point to at the end, and neither
the postings nor the accounts have been moved. -/
def SafeReport (stays : Nat → Bool) (is : List Item) : Prop :=
  FreshReading is ∧ FreshReport is ∧ (∀ w ∈ writings is, Remains stays w.entries.length) ∧
    ¬ Displaced ((allEntries (writings is)).map (fun e => pathOf e.account))

/-- C105: `bal` on any files without faults prints the report of what they say exactly if it is safe. -/
theorem C105_report (stays : Nat → Bool) (files : Files) (depth : Nat) {fs : List Str} {is : List Item}
    (hf : FilesSay files depth fs is .done) (hd : ∀ w ∈ writings is, Everyday w)
    (ht : Roomy (allEntries (writings is)))
    {args rest : List Str} {verb : Str} (ha : Options.processArguments args = .ok (verb :: rest, fs))
    (hv : BalanceVerb verb) (hn : ∀ w ∈ writings is, ¬ Faulty w) :
    (Machine.run stays files depth args = .ok (writtenBookings (writings is)).report ↔ SafeReport stays is) ∧
    (Machine.run stays files depth args = .error .danglingPointer ↔ ¬ SafeReport stays is) := by
  have hr := C92_report files depth hf hd ht ha hv hn
  obtain ⟨h1, h2⟩ := C104_balance stays ha hv hf hd hr
  refine ⟨⟨fun h => ?_, h1⟩, ⟨fun h hs => ?_, h2⟩⟩
  · by_contra hs
    rw [h2 hs] at h
    cases h
  · rw [h1 hs] at h
    cases h

/-- C105: `accounts` on any files without faults prints the last part of each account name exactly if reading follows no
stale pointer. -/
theorem C105_accounts (stays : Nat → Bool) (files : Files) (depth : Nat) {fs : List Str} {is : List Item}
    (hf : FilesSay files depth fs is .done) (hd : ∀ w ∈ writings is, Everyday w)
    {args rest : List Str} {verb : Str} (ha : Options.processArguments args = .ok (verb :: rest, fs))
    (hv : AccountsVerb verb) (hn : ∀ w ∈ writings is, ¬ Faulty w) :
    (FreshReading is → ∃ out, Machine.run stays files depth args = .ok out ∧
      out.Pairwise (fun a b => StrBefore a b ∨ a = b) ∧
      ∃ paths : List Path, paths.Nodup ∧
        (∀ p, p ∈ paths ↔ p = [] ∨ ∃ e ∈ allEntries (writings is), p <+: pathOf e.account) ∧
        out.Perm (paths.map lastPart)) ∧
    (¬ FreshReading is → Machine.run stays files depth args = .error .danglingPointer) := by
  obtain ⟨out, hr, h1, h2⟩ := C92_accounts files depth hf hd ha hv hn
  obtain ⟨cs, rfl⟩ : ∃ cs, verb = 'a' :: cs := by
    cases verb with
    | nil => cases hv
    | cons c cs => injection hv with hv; exact ⟨cs, by rw [hv]⟩
  obtain ⟨h3, h4⟩ := C104_accounts stays ha hf hd hr
  exact ⟨fun hs => ⟨out, h3 hs, h1, h2⟩, h4⟩

/-- C105: if a transaction is faulty or a line is refused or a file is missing, the program ends with the panic of the first
fault or follows a stale pointer before; it prints no report. -/
theorem C105_panic (stays : Nat → Bool) (files : Files) (depth : Nat) {fs : List Str} {is : List Item} {e : Ending}
    (hf : FilesSay files depth fs is e) (hd : ∀ w ∈ touched is e, Everyday w)
    {args rest : List Str} {verb : Str}
    (ha : Options.processArguments args = .ok (verb :: rest, fs)) (hv : BalanceVerb verb ∨ AccountsVerb verb) {k : Panic}
    (hk : FirstCause (writings is) k ∨ ((∀ w ∈ writings is, ¬ Faulty w) ∧ e.panic = some k)) :
    Machine.run stays files depth args = .error k ∨ Machine.run stays files depth args = .error .danglingPointer := by
  rw [← run_reading_error files depth ha hv ((decidesItems_error (readFiles_items files depth hf hd) readable_new k).mpr hk)]
  exact C101_until stays files depth args

namespace SafeExample
open FoundExample FreshExample LinesExample FaultsExample CausesExample FollowsExample

/-- The report of the file with four commodities, whatever the allocator does. -/
example (stays : Nat → Bool) : Machine.run stays wide 0 [str "bal", str "-f", str "a"] =
    .ok [str "Account  has balance 0.00 EUR", str "Account Assets has balance -20.50 EUR",
      str "Account Assets:Cash has balance -20.50 EUR", str "Account Expenses has balance 20.50 EUR",
      str "Account Expenses:Food has balance 20.50 EUR"] := by
  have hs : Roomy (allEntries [first]) := by
    refine roomy_of (show ∀ e ∈ [bread, cash], (∀ a ∈ e.amount, a.qty.scale ≤ 9) ∧ e.worthDecimals ≤ 9 by decide) ?_
    change (List.map (·.size) [bread, cash]).sum ≤ _
    simp only [List.map_cons, List.map_nil, List.sum_cons, List.sum_nil, size_bread, size_cash]
    norm_num
  have h := (C105_report stays wide 0 wideSays wide_everyday hs (args := [str "bal", str "-f", str "a"]) (verb := str "bal")
    (rest := []) (by decide) (by unfold BalanceVerb; decide) (fun w hw => by rw [wide_first w hw]; exact firstSound)).1.mpr
    ⟨wide_fresh, wide_report, wide_remains stays, wide_still⟩
  rw [h]
  decide +kernel

theorem diary_sound : ∀ w ∈ writings [.xact first, .price gold, .xact broker], ¬ Faulty w := by
  obtain ⟨j, h, _⟩ : ∃ j, readFiles diary 0 [str "a"] Journal.new = .ok j ∧ True := ok_and (by decide +kernel)
  exact (decidesItems_ok (readFiles_items diary 0 diarySays diary_everyday) readable_new h).2.1

/-- And of the diary there is no report, but a list of accounts. -/
example (stays : Nat → Bool) : ∃ out, Machine.run stays diary 0 [str "accounts", str "-f", str "a"] = .ok out ∧
    out.Pairwise (fun a b => StrBefore a b ∨ a = b) := by
  obtain ⟨out, h1, h2, _⟩ := (C105_accounts stays diary 0 diarySays diary_everyday (args := [str "accounts", str "-f", str "a"])
    (verb := str "accounts") (rest := []) (by decide) rfl diary_sound).1 diary_fresh
  exact ⟨out, h1, h2⟩

/-- A line that is refused in the second file: the panic of the line, as the first file makes no pointer stale. -/
example (stays : Nat → Bool) : Machine.run stays shelf 0 [str "bal", str "-f", str "a", str "-f", str "b"] = .error .badXactLine := by
  have h1 : Options.processArguments [str "bal", str "-f", str "a", str "-f", str "b"] = .ok ([str "bal"], [str "a", str "b"]) := by
    decide +kernel
  have h2 : (Machine.readFiles shelf 0 [str "a", str "b"] Machine.Jrn.new).failure = some .badXactLine := by decide +kernel
  simp only [Machine.run, h1, bind, Except.bind, Machine.executeCommand]
  generalize Machine.readFiles shelf 0 [str "a", str "b"] Machine.Jrn.new = z at h2 ⊢
  cases z with
  | ok J => cases h2
  | error e => injection h2 with h2; rw [h2]

end SafeExample
end Ledger
