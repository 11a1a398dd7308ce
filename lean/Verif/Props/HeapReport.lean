import Verif.Props.Rounding
import Verif.Props.Heap
/-
C78: the report made from the accounts in memory is the report of the model.
-/
namespace Ledger
open Ledger.Heap

theorem report_totals {j : Journal} (h : j.Reachable) {b : Balance} (hb : j.accountTotal j.master = .ok b) :
    ∃ t : Path → Balance, (∀ p a, j.master.at? p = some a → j.accountTotal a = .ok (t p)) ∧
      Report.balanceReport j = .ok (j.master.flatten.map (fun x => lineText (Account.fullname x.1) (t x.1))) := by
  have hex : ∀ p, ∃ b, ∀ a, j.master.at? p = some a → j.accountTotal a = .ok b := by
    intro p
    cases hp : j.master.at? p with
    | none => exact ⟨Balance.empty, by intro a ha; cases ha⟩
    | some a =>
      obtain ⟨s, hs⟩ := Machine.total_below p hb hp
      exact ⟨s, by intro a' ha'; injection ha' with ha'; rw [← ha']; exact hs⟩
  choose t ht using hex
  exact ⟨t, ht, C26_balance_report_sound j h.booked.wf t ht⟩

theorem report_error {j : Journal} {e : Panic} (h : j.accountTotal j.master = .error e) : Report.balanceReport j = .error e := by
  rw [← linesFold_total] at h
  unfold Report.balanceReport Report.childrenLines
  generalize j.master = m at h ⊢
  obtain ⟨n, ps, cs⟩ := m
  rw [linesFold_mk] at h ⊢
  simp only at h ⊢
  rw [h]
  rfl

/-- C78 for all amounts, also where sums are rounded or too large: the report made from the accounts in memory is that of the
model, or ends with the same panic, or with a read of freed memory; the latter does not happen if no account with grandchildren
has more than three children.  Missing: larger tables, for which the claim is false. -/
theorem C78_same_report_partial {j : Journal} (hj : j.Reachable) {s : State} (h : Reach s) (he : s.master.erase = j.master) :
    (∀ e, Report.balanceReport j = .error e → Heap.balanceReport j s = .error e) ∧
    ∀ out, Report.balanceReport j = .ok out →
      (Narrow j.master → ∃ s', Heap.balanceReport j s = .ok (s', out)) ∧
      ((∃ s', Heap.balanceReport j s = .ok (s', out)) ∨ Heap.balanceReport j s = .error .danglingPointer) := by
  cases hb : j.accountTotal j.master with
  | error e' =>
    have hre := report_error hb
    rw [hre]
    refine ⟨?_, fun out ho => by cases ho⟩
    intro e h1
    injection h1 with h1
    subst h1
    have hf : ∃ n r, s.master.erase.flatten = ([], n) :: r := by
      generalize s.master.erase = m
      obtain ⟨n, ps, cs⟩ := m
      exact ⟨_, _, Account.flatten_mk _ _ _⟩
    obtain ⟨n, r, hf⟩ := hf
    unfold Heap.balanceReport
    rw [hf, List.map_cons, reportGo, Node.at?_nil]
    simp only [he, hb]
    rfl
  | ok b =>
    obtain ⟨t, ht, hr⟩ := report_totals hj hb
    rw [hr]
    refine ⟨fun e h => (by cases h), ?_⟩
    intro out ho
    injection ho with ho
    subst ho
    have hw := hj.booked.wf
    have hps : ∀ p ∈ s.master.erase.flatten.map (·.1), j.master.Has p := by
      intro p hp
      obtain ⟨⟨q, x⟩, hq, rfl⟩ := List.mem_map.mp hp
      rw [he] at hq
      obtain ⟨b, hb, _⟩ := (Account.mem_flatten hw q x).mp hq
      show (j.master.at? q).isSome
      rw [hb]; rfl
    have hg := reportGo_spec ht (s.master.erase.flatten.map (·.1)) hps h.inv he
    rw [List.map_map] at hg
    refine ⟨?_, ?_⟩
    · intro hn
      obtain ⟨s', g⟩ := hg.2 (fun p hp => narrow_small (by rw [he]; exact hn) p (by
        have := hps p hp
        rw [← he] at this
        unfold Account.Has at this
        rw [Node.at?_erase] at this
        simpa using this))
      exact ⟨s', by unfold Heap.balanceReport; rw [g, he]; rfl⟩
    · rcases hg.1 with ⟨s', g, _⟩ | g
      · exact Or.inl ⟨s', by unfold Heap.balanceReport; rw [g, he]; rfl⟩
      · exact Or.inr g

/-- A journal whose sums are too large, and its accounts in memory (for a journal with a report see `narrowText`). -/
example : ∃ j, parsed "2023-05-01 x\n A:B  50000000000000000000000000000 EUR\n C\n\n2023-05-02 y\n A:B  50000000000000000000000000000 EUR\n C\n" = .ok j ∧
    ∃ s, bookAll State.new [(str "A:B", (0, 0)), (str "C", (0, 1)), (str "A:B", (1, 0)), (str "C", (1, 1))] = .ok s ∧
      s.master.erase = j.master ∧ Heap.balanceReport j s = .error .decimalOverflow := by
  have h : ∃ j, parsed "2023-05-01 x\n A:B  50000000000000000000000000000 EUR\n C\n\n2023-05-02 y\n A:B  50000000000000000000000000000 EUR\n C\n" = .ok j ∧
      (match bookAll State.new [(str "A:B", (0, 0)), (str "C", (0, 1)), (str "A:B", (1, 0)), (str "C", (1, 1))] with
        | .ok s => decide (s.master.erase = j.master) | .error _ => false) = true ∧ Report.balanceReport j = .error .decimalOverflow :=
    ok_and (by decide +kernel)
  obtain ⟨j, hj, h1, h2⟩ := h
  refine ⟨j, hj, ?_⟩
  split at h1
  · rename_i s hs
    have he : s.master.erase = j.master := of_decide_eq_true h1
    exact ⟨s, hs, he, (C78_same_report_partial (.parse (fun _ => none) 0 _ .new hj) (bookAll_reach .refl _ hs) he).1 _ h2⟩
  · cases h1

end Ledger
