import Verif.Props.RoundedReport
import Verif.Props.Stopped
import Verif.Props.SafeReport
/-
C92 and C105: the balance report of any files, when sums are rounded or too large.
-/
namespace Ledger
open Ledger.Parser Ledger.Scanner Ledger.Cli Ledger.Finalize

/-- C92: how `bal` on any files can end, without any bound on the sums: with the panic of the first faulty transaction or refused
line if there is one, and otherwise only with the overflow of a sum. -/
theorem C92_run_any_sums (files : Files) (depth : Nat) {fs : List Str} {is : List Item} {e : Ending}
    (hf : FilesSay files depth fs is e) (hd : ∀ w ∈ touched is e, Everyday w) {args rest : List Str} {verb : Str}
    (ha : Options.processArguments args = .ok (verb :: rest, fs)) (hv : BalanceVerb verb) (k : Panic) :
    (FirstCause (writings is) k ∨ ((∀ w ∈ writings is, ¬ Faulty w) ∧ e.panic = some k) → run files depth args = .error k) ∧
    (run files depth args = .error k → FirstCause (writings is) k ∨ ((∀ w ∈ writings is, ¬ Faulty w) ∧ e.panic = some k) ∨
      (k = .decimalOverflow ∧ (∀ w ∈ writings is, ¬ Faulty w) ∧ e = .done)) := by
  have hread := decidesItems_error (readFiles_items files depth hf hd) readable_new
  refine ⟨fun h => run_reading_error files depth ha (Or.inl hv) ((hread k).mpr h), fun h => ?_⟩
  rw [C60_balance files depth args rest fs verb ha hv] at h
  rcases readFiles_items files depth hf hd Journal.new readable_new with ⟨j', ws', rs, he, h1, h2, _, h4⟩ | ⟨k', h1, _⟩
  · rw [h1] at h
    exact Or.inr (Or.inr ⟨(C87_reports j' (readFiles_reachable files depth .new h1)).1 k h, h4, he⟩)
  · rw [h1] at h
    injection h with h
    subst h
    exact ((hread k').mp h1).imp id Or.inl

/-- C92: what `bal` on any files prints, if it ends without a panic: the report of what their transactions book, each figure right
up to rounding.  It is printed if no transaction is faulty, no line is refused, and all amounts together are not more than
6·10^28 in each commodity. -/
theorem C92_report_any_sums (files : Files) (depth : Nat) {fs : List Str} {is : List Item} {e : Ending}
    (hf : FilesSay files depth fs is e) (hd : ∀ w ∈ touched is e, Everyday w) {args rest : List Str} {verb : Str}
    (ha : Options.processArguments args = .ok (verb :: rest, fs)) (hv : BalanceVerb verb) :
    (∀ out, run files depth args = .ok out → e = .done ∧ (∀ w ∈ writings is, ¬ Faulty w) ∧
      ∃ ws', List.Forall₂ Settles (writings is) ws' ∧ RoundedReportOf (writings is) ws' out) ∧
    (e = .done → (∀ w ∈ writings is, ¬ Faulty w) → ∃ ws', List.Forall₂ Settles (writings is) ws' ∧
      ((∀ c, sizeIn c (writtenBelow ws' []) ≤ 6 * 10 ^ 28) →
        (∀ paths : List Path, paths.Nodup → (∀ p ∈ paths, p = [] ∨ ∃ e ∈ allEntries (writings is), p <+: pathOf e.account) →
          (writtenBelow ws' []).length + 2 * paths.length ≤ 10 ^ 27) →
        ∃ out, run files depth args = .ok out ∧ RoundedReportOf (writings is) ws' out)) := by
  rw [C60_balance files depth args rest fs verb ha hv]
  rcases readFiles_items files depth hf hd Journal.new readable_new with ⟨j', ws', rs, he, h1, h2, _, h4⟩ | ⟨k', h1, hw⟩
  · obtain ⟨new, n1, n2⟩ := h2.xacts
    have hx : List.Forall₂ XactOf ws' j'.xacts := by rw [n1]; exact n2
    have hj := readFiles_reachable files depth .new h1
    have hh : ∀ q, j'.master.Has q ↔ q = [] ∨ ∃ e ∈ allEntries (writings is), q <+: pathOf e.account :=
      fun q => by rw [h2.accounts, has_new]
    rw [h1]
    refine ⟨fun out ho => ⟨he, h4, ws', h2.settled, report_rounded hj hx hh ho⟩, fun _ _ => ⟨ws', h2.settled, fun hs hn => ?_⟩⟩
    have hall : allAmounts j' = writtenBelow ws' [] := by rw [← amountsBelow_root]; exact xactsOf_amounts hx []
    have hm := C24_flatten_each_once hj.booked.wf
    obtain ⟨out, ho⟩ := C112_report_succeeds hj (by
      rw [hall]
      have := hn (j'.master.flatten.map (·.1)) hm.2 (by
        intro p hp
        obtain ⟨⟨q, n⟩, hq, rfl⟩ := List.mem_map.mp hp
        obtain ⟨b, k, _⟩ := (hm.1 q n).mp hq
        exact (hh q).mp (Option.isSome_iff_exists.mpr ⟨b, k⟩))
      rwa [List.length_map] at this) (by rw [hall]; exact hs)
    exact ⟨out, ho, report_rounded hj hx hh ho⟩
  · rw [h1]
    refine ⟨fun out h => (by cases h), fun h hn => ?_⟩
    exfalso
    subst h
    rcases hw with hw | ⟨_, hw⟩
    · obtain ⟨w, hw, hf⟩ := hw.faulty
      exact hn w hw hf
    · cases hw

/-- C105: with its pointers, and without any bound on the sums, `bal` on files without faults prints its report exactly if it is safe
and no sum is too large; if it prints none it follows a stale pointer, or a sum is too large, and the former if only it is unsafe. -/
theorem C105_any_sums (stays : Nat → Bool) (files : Files) (depth : Nat) {fs : List Str} {is : List Item}
    (hf : FilesSay files depth fs is .done) (hd : ∀ w ∈ writings is, Everyday w)
    {args rest : List Str} {verb : Str} (ha : Options.processArguments args = .ok (verb :: rest, fs))
    (hv : BalanceVerb verb) (hn : ∀ w ∈ writings is, ¬ Faulty w) :
    (∃ ws' out, List.Forall₂ Settles (writings is) ws' ∧ RoundedReportOf (writings is) ws' out ∧
        run files depth args = .ok out ∧ (Machine.run stays files depth args = .ok out ↔ SafeReport stays is) ∧
        (Machine.run stays files depth args = .error .danglingPointer ↔ ¬ SafeReport stays is)) ∨
    (run files depth args = .error .decimalOverflow ∧ (Machine.run stays files depth args = .error .decimalOverflow ∨
        Machine.run stays files depth args = .error .danglingPointer)) := by
  cases hr : run files depth args with
  | ok out =>
    obtain ⟨_, _, ws', h3, h4⟩ := (C92_report_any_sums files depth hf hd ha hv).1 out hr
    obtain ⟨h1, h2⟩ := C104_balance stays ha hv hf hd hr
    refine Or.inl ⟨ws', out, h3, h4, rfl, ⟨fun h => ?_, h1⟩, ⟨fun h hs => ?_, h2⟩⟩
    · by_contra hs
      rw [h2 hs] at h
      cases h
    · rw [h1 hs] at h
      cases h
  | error k =>
    right
    rcases (C92_run_any_sums files depth hf hd ha hv k).2 hr with h | ⟨_, h⟩ | ⟨rfl, _⟩
    · obtain ⟨w, hw, hf⟩ := h.faulty
      exact absurd hf (hn w hw)
    · cases h
    · rw [← hr]
      exact ⟨rfl, C101_until stays files depth args⟩

namespace FoundExample
open FaultsExample LinesExample CausesExample

/-- The file with a price and a transaction, without any hypothesis about its sums. -/
example : ∃ ws' out, List.Forall₂ Settles [first] ws' ∧ run shelf 0 [str "bal", str "-f", str "a"] = .ok out ∧
    RoundedReportOf [first] ws' out := by
  obtain ⟨out, ho⟩ : ∃ out, run shelf 0 [str "bal", str "-f", str "a"] = .ok out := by
    have h : (run shelf 0 [str "bal", str "-f", str "a"]).isOk = true := by decide +kernel
    cases e : run shelf 0 [str "bal", str "-f", str "a"] with
    | ok out => exact ⟨out, rfl⟩
    | error k => rw [e] at h; cases h
  obtain ⟨_, _, ws', h1, h2⟩ := (C92_report_any_sums shelf 0 shelfSays (by
    intro w hw
    exact CausesExample.everyday w (by simp [touched, writings] at hw; simp [hw])) (args := [str "bal", str "-f", str "a"])
    (verb := str "bal") (rest := []) (by decide) (by unfold BalanceVerb; decide)).1 out ho
  exact ⟨ws', out, h1, ho, h2⟩

/-- Of the two files the second is refused, and this decides whatever the sums. -/
example : run shelf 0 [str "bal", str "-f", str "a", str "-f", str "b"] = .error .badXactLine := by
  refine (C92_run_any_sums shelf 0 (fs := [str "a", str "b"]) (e := .inside third .badXactLine)
    (is := [.price price, .xact first]) (.read (is' := []) (by decide) fileSays (.stop (src := broken) (by decide) otherSays (by decide)))
    ?_ (args := [str "bal", str "-f", str "a", str "-f", str "b"])
    (verb := str "bal") (rest := []) (by decide) (by unfold BalanceVerb; decide) _).1
    (Or.inr ⟨by intro w hw; simp [writings] at hw; rw [hw]; exact firstSound, rfl⟩)
  intro w hw
  exact CausesExample.everyday w (by simp [touched, writings] at hw; rcases hw with rfl | rfl <;> simp)

end FoundExample

end Ledger
