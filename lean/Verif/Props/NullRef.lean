import Verif.Lemmas.Events
import Verif.Props.Finalize
/-
C85: null pointers turned into references.
-/
namespace Ledger
open Ledger.Parser

/-- C85 is violated: a plain transaction without commodities makes a reference from a null pointer, when the blank
posting is filled in. -/
theorem C85_null_violated :
    ∃ j, (Trace.parse (fun _ => none) 0 (textSource (str "2023-01-01 x\n A  1\n B\n")) Journal.new).res = .ok j ∧
      .nullReference ∈ (Trace.parse (fun _ => none) 0 (textSource (str "2023-01-01 x\n A  1\n B\n")) Journal.new).events := by
  have h : ((Trace.parse (fun _ => none) 0 (textSource (str "2023-01-01 x\n A  1\n B\n")) Journal.new).res.toOption.isSome &&
    (Trace.parse (fun _ => none) 0 (textSource (str "2023-01-01 x\n A  1\n B\n")) Journal.new).events.contains
      .nullReference) = true := by decide +kernel
  rw [Bool.and_eq_true] at h
  refine ⟨?_, ?_⟩
  · exact (Trace.parse (fun _ => none) 0 (textSource (str "2023-01-01 x\n A  1\n B\n")) Journal.new).res.toOption.get h.1
  · refine ⟨?_, by simpa using h.2⟩
    generalize (Trace.parse (fun _ => none) 0 (textSource (str "2023-01-01 x\n A  1\n B\n")) Journal.new).res = r at *
    cases r with
    | error e => exact absurd h.1 (by simp [Except.toOption])
    | ok j => rfl

/-- C85: which of the operations on amounts and balances make a null reference, and when. -/
theorem C85_operations (a b : Amount) (bal : Balance) :
    (.nullReference ∈ (Trace.inverse a).events ↔ a.comm = none) ∧
    (.nullReference ∈ (Trace.mul a b).events ↔ a.comm = none ∧ b.comm = none ∧ ∃ r, a.mul b = .ok r) ∧
    (.nullReference ∈ (Trace.addOp a b).events ↔ a.comm = none ∧ ∃ r, a.addOp b = .ok r) ∧
    (.nullReference ∈ (Trace.subAssign bal a).events ↔ a.comm = none ∧ ∀ x ∈ bal.amounts, x.comm ≠ none) := by
  refine ⟨by simp [Trace.mem_inverse], ⟨fun h => ?_, fun h => ?_⟩, ⟨fun h => ?_, fun h => ?_⟩, ?_⟩
  · obtain ⟨h1, h2⟩ := Trace.mem_mul h
    refine ⟨h1, h2, ?_⟩
    simp only [Trace.mul, Trace.mem_bind, Trace.events_lift, Trace.res_lift, List.not_mem_nil, false_or] at h
    obtain ⟨r, hr, _⟩ := h
    exact ⟨r, hr⟩
  · obtain ⟨h1, h2, r, hr⟩ := h
    simp only [Trace.mul, Trace.mem_bind, Trace.mem_reference, Trace.events_lift, Trace.res_lift, List.not_mem_nil, false_or]
    refine ⟨r, hr, .inl ⟨trivial, ?_⟩⟩
    unfold Amount.mul at hr
    cases hq : a.qty.mul b.qty with
    | error e => rw [hq] at hr; simp [bind, Except.bind] at hr
    | ok q =>
      rw [hq] at hr
      simp only [bind, Except.bind, Except.ok.injEq] at hr
      rw [← hr]; simp [h1, h2]
  · simp only [Trace.addOp, Trace.mem_bind, Trace.mem_reference, Trace.events_lift, Trace.res_lift, Trace.events_pure,
      List.not_mem_nil, false_or, and_false, exists_false, or_false] at h
    obtain ⟨r, hr, _, hn⟩ := h
    refine ⟨?_, r, hr⟩
    unfold Amount.addOp at hr
    split at hr
    · cases hr
    · cases hq : a.qty.add b.qty with
      | error e => rw [hq] at hr; simp [bind, Except.bind] at hr
      | ok q =>
        rw [hq] at hr
        simp only [bind, Except.bind, Except.ok.injEq] at hr
        rw [← hr] at hn; exact hn
  · obtain ⟨h1, r, hr⟩ := h
    simp only [Trace.addOp, Trace.mem_bind, Trace.mem_reference, Trace.events_lift, Trace.res_lift, List.not_mem_nil, false_or]
    refine ⟨r, hr, .inl ⟨trivial, ?_⟩⟩
    unfold Amount.addOp at hr
    split at hr
    · cases hr
    · cases hq : a.qty.add b.qty with
      | error e => rw [hq] at hr; simp [bind, Except.bind] at hr
      | ok q =>
        rw [hq] at hr
        simp only [bind, Except.bind, Except.ok.injEq] at hr
        rw [← hr]; exact h1
  · obtain ⟨l⟩ := bal
    simp only [Trace.subAssign, Trace.mem_bind, Trace.events_pure, List.not_mem_nil, and_false, exists_false, or_false]
    induction l with
    | nil => simp [Trace.subGo, Trace.mem_bind, Trace.mem_inverse]
    | cons x l ih =>
      rw [Trace.subGo]
      split
      · rename_i hx
        simp only [Trace.mem_bind, Trace.events_lift, Trace.events_pure, List.not_mem_nil, and_false, exists_false, or_false,
          false_iff, not_and]
        intro ha h
        exact h x (by simp) (hx.trans ha)
      · rename_i hx
        simp only [Trace.mem_bind, Trace.events_pure, List.not_mem_nil, and_false, exists_false, or_false, ih,
          List.forall_mem_cons]
        constructor
        · rintro ⟨ha, h⟩; exact ⟨ha, fun e => hx (e.trans ha.symm), h⟩
        · rintro ⟨ha, _, h⟩; exact ⟨ha, h⟩

/-- C85: finalising a transaction makes a null reference exactly when it succeeds, has a posting to fill in, and no
posting is booked in a commodity. -/
theorem C85_finalize (x : Xact) (pool : Pool) :
    .nullReference ∈ (Trace.finalize x pool).events ↔ (∃ r, Finalize.finalize x pool = .ok r) ∧
      (∃ p ∈ x.posts, p.Blank) ∧ ∀ a ∈ bookedAmounts x.posts, a.comm = none := by
  rw [Trace.mem_finalize]; simp

/-- C85 where it holds: reading makes no null reference if every transaction read has a posting booked in a commodity.
Missing: transactions without commodities (`C85_null_violated`, `C85_finalize`), and what reading does before a panic. -/
theorem C85_parse_partial (files : Files) (depth : Nat) (src : Source) (j j' : Journal)
    (h : parse files depth src j = .ok j')
    (hc : ∀ x ∈ j'.xacts.drop j.xacts.length, ∃ p ∈ x.posts, ∃ a, p.booked = some a ∧ a.comm ≠ none) :
    .nullReference ∉ (Trace.parse files depth src j).events := by
  intro he
  obtain ⟨new, e, hb⟩ := Trace.parse_appends files depth src j j' (by rw [Trace.parse_res]; exact h)
  obtain ⟨x, hx, hbare⟩ := hb he
  rw [e, List.drop_left] at hc
  obtain ⟨p, hp, a, ha, hne⟩ := hc x hx
  exact hne (hbare p hp a ha)

@[inherit_doc C85_parse_partial]
theorem C85_files_partial (files : Files) (depth : Nat) (fs : List Str) (j : Journal)
    (h : Cli.readFiles files depth fs Journal.new = .ok j)
    (hc : ∀ x ∈ j.xacts, ∃ p ∈ x.posts, ∃ a, p.booked = some a ∧ a.comm ≠ none) :
    .nullReference ∉ (Trace.readFiles files depth fs Journal.new).events := by
  intro he
  obtain ⟨new, e, hb⟩ := Trace.readFiles_appends files depth fs Journal.new j (by rw [Trace.readFiles_res]; exact h)
  obtain ⟨x, hx, hbare⟩ := hb he
  rw [e] at hc
  obtain ⟨p, hp, a, ha, hne⟩ := hc x (List.mem_append_right _ hx)
  exact hne (hbare p hp a ha)

/-- C85: recording events changes no result. -/
theorem C85_same_results (files : Files) (depth : Nat) (args : List Str) :
    (Trace.run files depth args).res = Cli.run files depth args := Trace.run_res files depth args

/-- The hypotheses of the partial theorems hold for a purchase. -/
example : ((Trace.parse (fun _ => none) 0 (textSource (str "2023-01-01 x\n A  10 VEUR @ 2 EUR\n B\n")) Journal.new).events = []) ∧
    (parsed "2023-01-01 x\n A  10 VEUR @ 2 EUR\n B\n").toOption.any (fun j =>
      j.xacts.all (fun x => x.posts.any (fun p => p.booked.any (fun a => a.comm.isSome)))) = true := by decide +kernel

end Ledger
