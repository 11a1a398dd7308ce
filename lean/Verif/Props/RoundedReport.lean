import Verif.Props.Rounding
import Verif.Props.Causes
import Verif.Props.Failures
/-
C112 and C88: the balance report of written transactions when sums are rounded or too large.
-/
namespace Ledger
open Ledger.Parser Ledger.Scanner Ledger.Cli Ledger.Finalize

/-- The report of a journal that was read from a text with these transactions, like `ReportOf`, but with sums that are right up
to one rounding for each amount and two for each line. -/
def RoundedReportOf (ws ws' : List Writing) (out : List Str) : Prop :=
  ∃ (paths : List Path) (total : Path → Balance), paths.Pairwise PathBefore ∧
    (∀ p, p ∈ paths ↔ p = [] ∨ ∃ e ∈ allEntries ws, p <+: pathOf e.account) ∧
    (∀ p ∈ paths, (total p).Approximates ((writtenBelow ws' p).length + 2 * paths.length) (writtenBelow ws' p) ∧ (total p).OneEach ∧
      ∀ c, c ∈ (total p).amounts.map (·.comm) ↔ c ∈ (writtenBelow ws' p).map (·.comm)) ∧
    out = paths.map (fun p => lineText (Account.fullname p) (total p))

theorem flatten_below {m a : Account} (hw : m.WF) (ha : a.WF) {p : Path} (h : m.at? p = some a) :
    a.flatten.length ≤ m.flatten.length := by
  have hm := C24_flatten_each_once hw
  have hb := C24_flatten_each_once ha
  have hn : ((a.flatten.map (·.1)).map (p ++ ·)).Nodup := hb.2.map (fun x y h => List.append_cancel_left h)
  have hs : (a.flatten.map (·.1)).map (p ++ ·) ⊆ m.flatten.map (·.1) := by
    intro q hq
    obtain ⟨r, hr, rfl⟩ := List.mem_map.mp hq
    obtain ⟨⟨r', n⟩, hr', rfl⟩ := List.mem_map.mp hr
    obtain ⟨b, k1, k2⟩ := (hb.1 r' n).mp hr'
    exact List.mem_map.mpr ⟨(p ++ r', n), (hm.1 _ _).mpr ⟨b, by rw [Account.at?_append, h]; exact k1, k2⟩, rfl⟩
  have := (List.Nodup.subperm hn hs).length_le
  simpa using this

theorem report_rounded {j : Journal} (hj : j.Reachable) {ws ws' : List Writing} (hx : List.Forall₂ XactOf ws' j.xacts)
    (hh : ∀ q, j.master.Has q ↔ q = [] ∨ ∃ e ∈ allEntries ws, q <+: pathOf e.account) {out : List Str}
    (ho : Report.balanceReport j = .ok out) : RoundedReportOf ws ws' out := by
  have hb : ∀ p, amountsBelow j p = writtenBelow ws' p := fun p => xactsOf_amounts hx p
  obtain ⟨t, h1, h2⟩ := C112_report hj ho
  have hm := C24_flatten_each_once hj.booked.wf
  have hmem : ∀ p, p ∈ j.master.flatten.map (·.1) ↔ j.master.Has p := by
    intro p
    rw [List.mem_map]
    constructor
    · rintro ⟨⟨q, n⟩, h, rfl⟩
      obtain ⟨b, h, _⟩ := (hm.1 q n).mp h
      exact Option.isSome_iff_exists.mpr ⟨b, h⟩
    · intro h
      obtain ⟨b, h⟩ := Option.isSome_iff_exists.mp h
      exact ⟨(p, b.name), (hm.1 p b.name).mpr ⟨b, h, rfl⟩, rfl⟩
  refine ⟨j.master.flatten.map (·.1), t, ?_, ?_, ?_, ?_⟩
  · rw [List.pairwise_map]
    exact (C24_flatten_sorted hj.booked.wf).1
  · intro p; rw [hmem, hh]
  · intro p hp
    obtain ⟨a, ha⟩ := Option.isSome_iff_exists.mp ((hmem p).mp hp)
    obtain ⟨h3, h4, h5⟩ := h2 p a ha
    rw [hb] at h3 h5
    refine ⟨fun c => (h3 c).trans (mul_le_mul_of_nonneg_right (slack_mono ?_) (sizeIn_nonneg c _)), h4, h5⟩
    have := flatten_below hj.booked.wf (Account.at?_wf hj.booked.wf ha) ha
    rw [List.length_map]; omega
  · rw [h1, List.map_map]; rfl

/-- C112: what `bal` prints for files of everyday transactions, whatever the amounts: an error exactly if one of the transactions is
faulty or a sum is too large; otherwise the report of what is written, each figure right up to rounding.  It is printed if all
amounts together are not more than 6·10^28 in each commodity. -/
theorem C112_command (files : Files) (depth : Nat) {fs : List Str} {wss : List (List Writing)}
    (hf : List.Forall₂ (FileSays files depth) fs wss) (hd : ∀ w ∈ wss.flatten, Everyday w) {args rest : List Str} {verb : Str}
    (ha : Options.processArguments args = .ok (verb :: rest, fs)) (hv : BalanceVerb verb) :
    ((∃ w ∈ wss.flatten, Faulty w) → ∃ e, run files depth args = .error e) ∧
    ((∀ w ∈ wss.flatten, ¬ Faulty w) → ∃ ws', List.Forall₂ Settles wss.flatten ws' ∧
      (∀ out, run files depth args = .ok out → RoundedReportOf wss.flatten ws' out) ∧
      ((∀ c, sizeIn c (writtenBelow ws' []) ≤ 6 * 10 ^ 28) →
        (∀ paths : List Path, paths.Nodup → (∀ p ∈ paths, p = [] ∨ ∃ e ∈ allEntries wss.flatten, p <+: pathOf e.account) →
          (writtenBelow ws' []).length + 2 * paths.length ≤ 10 ^ 27) →
        ∃ out, run files depth args = .ok out)) := by
  rw [C60_balance files depth args rest fs verb ha hv]
  rcases readFiles_decides files depth hf hd Journal.new ⟨Journal.Reachable.new.booked.wf, Journal.Reachable.new.pools,
      by intro s ann pr h; cases h⟩ with ⟨j', ws', rs, h1, h2, _, h4⟩ | ⟨e, he, hw⟩
  · refine ⟨fun ⟨w, hw, h⟩ => absurd h (h4 w hw), fun _ => ?_⟩
    obtain ⟨new, n1, n2⟩ := h2.xacts
    have hx : List.Forall₂ XactOf ws' j'.xacts := by rw [n1]; exact n2
    have hj := readFiles_reachable files depth .new h1
    have hh : ∀ q, j'.master.Has q ↔ q = [] ∨ ∃ e ∈ allEntries wss.flatten, q <+: pathOf e.account :=
      fun q => by rw [h2.accounts, has_new]
    rw [h1]
    refine ⟨ws', h2.settled, fun out ho => report_rounded hj hx hh ho, fun hs hn => ?_⟩
    have hall : allAmounts j' = writtenBelow ws' [] := by rw [← amountsBelow_root]; exact xactsOf_amounts hx []
    have hm := C24_flatten_each_once hj.booked.wf
    refine C112_report_succeeds hj ?_ (by rw [hall]; exact hs)
    rw [hall]
    have := hn (j'.master.flatten.map (·.1)) hm.2 (by
      intro p hp
      obtain ⟨⟨q, n⟩, hq, rfl⟩ := List.mem_map.mp hp
      obtain ⟨b, k, _⟩ := (hm.1 q n).mp hq
      exact (hh q).mp (Option.isSome_iff_exists.mpr ⟨b, k⟩))
    rwa [List.length_map] at this
  · refine ⟨fun _ => ⟨e, by rw [he]; rfl⟩, fun h => ?_⟩
    obtain ⟨w, hw, hf⟩ := hw.faulty
    exact absurd hf (h w hw)

/-- C88: how `bal` can end for files of everyday transactions, without any bound on their sums: with the panic of the first faulty
transaction if there is one, and otherwise only with the overflow of a sum. -/
theorem C88_run_any_sums (files : Files) (depth : Nat) {fs : List Str} {wss : List (List Writing)}
    (hf : List.Forall₂ (FileSays files depth) fs wss) (hd : ∀ w ∈ wss.flatten, Everyday w) {args rest : List Str} {verb : Str}
    (ha : Options.processArguments args = .ok (verb :: rest, fs)) (hv : BalanceVerb verb) (k : Panic) :
    (FirstCause wss.flatten k → run files depth args = .error k) ∧
    (run files depth args = .error k →
      FirstCause wss.flatten k ∨ (k = .decimalOverflow ∧ (∀ w ∈ wss.flatten, ¬ Faulty w))) := by
  have hread := decides_cause (readFiles_decides files depth hf hd) readable_new
  rw [C60_balance files depth args rest fs verb ha hv]
  refine ⟨fun h => by rw [(hread k).mpr h]; rfl, fun h => ?_⟩
  cases hj : readFiles files depth fs Journal.new with
  | error e =>
    rw [hj] at h
    injection h with h
    subst h
    exact Or.inl ((hread e).mp hj)
  | ok j =>
    rw [hj] at h
    refine Or.inr ⟨(C87_reports j (readFiles_reachable files depth .new hj)).1 k h, fun w hw hfl => ?_⟩
    obtain ⟨l, w, r, e, h2, h3⟩ := first_exists ⟨w, hw, hfl⟩
    obtain ⟨k', h4⟩ := h3.cause
    have := (hread k').mpr ⟨l, w, r, e, h2, h4⟩
    rw [hj] at this; cases this

namespace RoundedReportExample
open LinesExample FaultsExample

/-- The example for C81 meets the hypotheses. -/
example : ∃ ws', List.Forall₂ Settles [shop, broker] ws' ∧
    ∀ out, run files 1 [str "bal", str "-f", str "x"] = .ok out → RoundedReportOf [shop, broker] ws' out := by
  obtain ⟨ws', h1, h2, _⟩ := (C112_command files 1 (fs := [str "x"]) (wss := [[shop, broker]])
    (.cons ⟨_, _, rfl, textLines, lines⟩ .nil) everyday (args := [str "bal", str "-f", str "x"])
    (verb := str "bal") (rest := []) (by decide) (by unfold BalanceVerb; decide)).2 notFaulty
  exact ⟨ws', h1, h2⟩

/-- Two transactions with small and large amounts. -/
def bigAndSmall : Files := fun f => if f = str "x" then some (textSource (str
  "2023-05-01 x\n A  0.0000000000000000000000000003 EUR\n B\n\n2023-05-02 y\n A  20000000000000000000000000000 EUR\n B\n")) else none

/-- Here the sums are rounded: the small amount is lost. -/
example : ∃ out, run bigAndSmall 1 [str "bal", str "-f", str "x"] = .ok out ∧
      out = [str "Account  has balance 0 EUR", str "Account A has balance 20000000000000000000000000000 EUR",
        str "Account B has balance -20000000000000000000000000000 EUR"] :=
  ok_and (by decide +kernel)

/-- And here a sum is too large, although no transaction is faulty. -/
example : run (fun f => if f = str "x" then some (textSource (str
    "2023-05-01 x\n A  50000000000000000000000000000 EUR\n B\n\n2023-05-02 y\n A  50000000000000000000000000000 EUR\n B\n")) else none)
    1 [str "bal", str "-f", str "x"] = .error .decimalOverflow := by decide +kernel

end RoundedReportExample

end Ledger
