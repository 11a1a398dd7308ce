import Verif.Lemmas.MachineStale
/-
A balance report needs all pointers to the accounts above.
-/
namespace Ledger.Machine
open Ledger Ledger.Memory Ledger.Heap

/-- A report needs the pointers to the accounts above that it follows. -/
theorem reportGo_right {stays : Nat → Bool} {J : Jrn} (ps : List Path) (hn : ps.Nodup) {s s' : State} {ls : List Str} (hi : Inv s)
    (hb : ∀ p ∈ ps, Heap.Blank s p) (h : reportGo stays J ps s = .ok (s', ls)) : ∀ p ∈ ps, RightAt s p := by
  induction ps generalizing s s' ls with
  | nil => intro p hp; cases hp
  | cons p ps ih =>
    rw [reportGo] at h
    cases hx : s.master.at? p with
    | none => rw [hx] at h; cases h
    | some x =>
      rw [hx] at h
      simp only at h
      obtain ⟨b, hb', h⟩ := bind_ok h
      obtain ⟨t, ht, h⟩ := bind_ok h
      obtain ⟨⟨s1, n⟩, h1, h⟩ := bind_ok h
      obtain ⟨⟨s2, l2⟩, h2, _⟩ := bind_ok h
      have hi' : Inv s1 := by
        rcases (fullname_spec hi hx).1 with ⟨s0, g1, g2, _⟩ | ⟨g1, _⟩
        · rw [h1] at g1; injection g1 with g1; injection g1 with g1 _; rw [g1]; exact g2
        · rw [h1] at g1; cases g1
      obtain ⟨hnp, hn⟩ := List.nodup_cons.mp hn
      have hr := ih hn hi' (fun q hq => fullname_blank hi hx h1 (fun e => hnp (e ▸ hq)) (hb q (List.mem_cons_of_mem _ hq))) h2
      intro q hq
      rcases List.mem_cons.mp hq with rfl | hq
      · exact fullname_rightAt' hi hx (hb _ List.mem_cons_self) h1
      · exact fullname_rightAt h1 (hr q hq)

theorem balanceReport_right {stays : Nat → Bool} {j : Journal} {J : Jrn} (h : JrnR j J) {ls : List Str}
    (hr : balanceReport stays J = .ok ls) : ParentsRight J.tree := by
  have hw : J.tree.master.erase.WF := Account.reachable_wf h.tree.erase
  obtain ⟨homes, hbk⟩ := h.books
  unfold balanceReport at hr
  obtain ⟨⟨s, l⟩, hr, _⟩ := bind_ok hr
  have := reportGo_right _ (flatten_paths_nodup hw) h.tree.inv (fun p _ x hx => hbk.parents.2.2 p x hx) hr
  refine rightAt_all hw (fun p hp => this p ?_)
  obtain ⟨x, hx⟩ := Option.isSome_iff_exists.mp hp
  exact List.mem_map.mpr ⟨(p, x.erase.name), (Account.mem_flatten hw p _).mpr ⟨x.erase, by rw [Node.at?_erase, hx]; rfl, rfl⟩, rfl⟩

end Ledger.Machine
