import Verif.Spec.Stale
import Verif.Lemmas.HeapState
import Verif.Lemmas.Parse
import Verif.Lemmas.Memory
/-
Which addresses of accounts are referred to and which of them are given up.
-/
namespace Ledger
namespace Heap
open Ledger.Memory

/-- No account has more than three children. -/
def Few (t : Node) : Prop := ∀ x ∈ Node.nodes t, x.children.length ≤ 3

theorem few_iff (t : Node) : Few t ↔ t.children.length ≤ 3 ∧ ∀ c ∈ t.children, Few c := by
  unfold Few
  rw [nodes_eq]
  constructor
  · intro h
    refine ⟨h t (by simp), fun c hc x hx => h x ?_⟩
    exact List.mem_cons_of_mem _ (List.mem_flatMap.mpr ⟨c, hc, hx⟩)
  · rintro ⟨h1, h2⟩ x hx
    rcases List.mem_cons.mp hx with rfl | hx
    · exact h1
    · obtain ⟨c, hc, hx⟩ := List.mem_flatMap.mp hx
      exact h2 c hc x hx

/-- What `find_or_create`, which returns the address `b`, does to addresses and parent pointers. -/
structure Refs (next : Nat) (t t' : Node) (b : Nat) : Prop where
  parents : ∀ y ∈ Node.nodes t, ∃ y' ∈ Node.nodes t', y'.parent = y.parent
  few : Few t' → Few t
  fixed : Few t' → ∀ q x, t.at? q = some x → ∃ x', t'.at? q = some x' ∧ x'.addr = x.addr
  dead : (Node.addrs t).Nodup → (∀ a ∈ Node.addrs t, a < next) → Few t → ¬ Few t' →
    ∃ a ∈ t.children.flatMap Node.addrs, a ∉ Node.addrs t'
  known : Few t' → ∀ x ∈ Node.nodes t', x.addr ∈ Node.addrs t ∨ x.addr = b ∨ ∃ y ∈ Node.nodes t', y.parent = some x.addr

theorem Refs.refl (next : Nat) (t : Node) (b : Nat) : Refs next t t b :=
  ⟨fun y hy => ⟨y, hy, rfl⟩, id, fun _ _ x hx => ⟨x, hx, rfl⟩, fun _ _ h h' => absurd h h',
    fun _ _ hx => Or.inl (Node.addr_mem_of hx)⟩

theorem Refs.trans {n1 n2 n3 : Nat} {t1 t2 t3 : Node} {c b : Nat} (h : Refs n1 t1 t2 c) (g : Refs n2 t2 t3 b)
    (hs : Step n1 t1 t2 n2) (gs : Step n2 t2 t3 n3) (hc : ∃ y ∈ Node.nodes t3, y.parent = some c)
    (hf : Few t2 → Few t3) : Refs n1 t1 t3 b where
  parents y hy := by
    obtain ⟨y', h1, e1⟩ := h.parents y hy
    obtain ⟨y2, h2, e2⟩ := g.parents y' h1
    exact ⟨y2, h2, e2.trans e1⟩
  few hh := h.few (g.few hh)
  fixed hh q x hx := by
    obtain ⟨x1, h1, e1⟩ := h.fixed (g.few hh) q x hx
    obtain ⟨x2, h2, e2⟩ := g.fixed hh q x1 h1
    exact ⟨x2, h2, e2.trans e1⟩
  dead hu hb h1 h3 := by
    obtain ⟨a, ha, hn⟩ := h.dead hu hb h1 (fun h2 => h3 (hf h2))
    refine ⟨a, ha, fun h4 => ?_⟩
    rcases gs.addrs a h4 with h5 | h5
    · exact hn h5
    · have h6 : a ∈ Node.addrs t1 := by rw [node_addrs]; exact List.mem_cons_of_mem _ ha
      have := hb a h6; have := hs.le; omega
  known hh x hx := by
    rcases g.known hh x hx with h1 | h1 | h1
    · obtain ⟨x1, hx1, e⟩ := List.mem_map.mp h1
      rcases h.known (g.few hh) x1 hx1 with h2 | h2 | ⟨y, hy, h2⟩
      · exact Or.inl (e ▸ h2)
      · obtain ⟨y, hy, h3⟩ := hc
        exact Or.inr (Or.inr ⟨y, hy, by rw [h3, ← h2, e]⟩)
      · obtain ⟨y', hy', h3⟩ := g.parents y hy
        exact Or.inr (Or.inr ⟨y', hy', by rw [h3, h2, e]⟩)
    · exact Or.inr (Or.inl h1)
    · exact Or.inr (Or.inr h1)

theorem getChild_swap {m : Str} {l1 l2 : List Node} {c c' : Node} (hn : c'.name = c.name) :
    (∃ x, Node.getChild m (l1 ++ c :: l2) = some x ∧ Node.getChild m (l1 ++ c' :: l2) = some x) ∨
    (Node.getChild m (l1 ++ c :: l2) = some c ∧ Node.getChild m (l1 ++ c' :: l2) = some c') ∨
    (Node.getChild m (l1 ++ c :: l2) = none) := by
  induction l1 with
  | nil =>
    simp only [List.nil_append, Node.getChild, hn]
    by_cases h : c.name = m
    · simp [h]
    · simp only [if_neg h]
      cases h2 : Node.getChild m l2 with
      | none => simp
      | some x => exact Or.inl ⟨x, rfl, rfl⟩
  | cons x l1 ih =>
    simp only [List.cons_append, Node.getChild]
    by_cases h : x.name = m
    · simp only [if_pos h]; exact Or.inl ⟨x, rfl, rfl⟩
    · simp only [if_neg h]; exact ih

theorem Refs.child {next next' a : Nat} {pa : Option Nat} {an ca : Str} {ap : List PostRef} {l1 l2 : List Node}
    {c c' : Node} {b : Nat} (h : Refs next c c' b) (hs : Step next c c' next') :
    Refs next (.mk a pa an ca ap (l1 ++ c :: l2)) (.mk a pa an ca ap (l1 ++ c' :: l2)) b := by
  have hfew : ∀ d : Node, Few (.mk a pa an ca ap (l1 ++ d :: l2)) ↔
      (l1.length + l2.length + 1 ≤ 3 ∧ (∀ x ∈ l1, Few x) ∧ (∀ x ∈ l2, Few x)) ∧ Few d := by
    intro d
    rw [few_iff]
    simp only [Node.children, List.length_append, List.length_cons, List.mem_append, List.mem_cons]
    constructor
    · rintro ⟨h1, h2⟩
      exact ⟨⟨by omega, fun x hx => h2 x (Or.inl hx), fun x hx => h2 x (Or.inr (Or.inr hx))⟩, h2 d (Or.inr (Or.inl rfl))⟩
    · rintro ⟨⟨h1, h2, h3⟩, h4⟩
      refine ⟨by omega, ?_⟩
      rintro x (hx | rfl | hx)
      · exact h2 x hx
      · exact h4
      · exact h3 x hx
  refine ⟨?_, ?_, ?_, ?_, ?_⟩
  · intro y hy
    rcases Node.mem_nodes_mk.mp hy with rfl | ⟨x, hx, hxy⟩
    · exact ⟨_, Node.mem_self _, rfl⟩
    · rw [List.mem_append, List.mem_cons] at hx
      rcases hx with hx | rfl | hx
      · exact ⟨y, Node.mem_nodes_mk.mpr (Or.inr ⟨x, by simp [hx], hxy⟩), rfl⟩
      · obtain ⟨y', h1, h2⟩ := h.parents y hxy
        exact ⟨y', Node.mem_nodes_mk.mpr (Or.inr ⟨c', by simp, h1⟩), h2⟩
      · exact ⟨y, Node.mem_nodes_mk.mpr (Or.inr ⟨x, by simp [hx], hxy⟩), rfl⟩
  · rw [hfew, hfew]
    exact fun ⟨h1, h2⟩ => ⟨h1, h.few h2⟩
  · intro hh q x hx
    cases q with
    | nil =>
      rw [Node.at?_nil] at hx
      injection hx with hx
      exact ⟨_, Node.at?_nil _, by rw [← hx]; rfl⟩
    | cons m q =>
      rw [Node.at?_cons] at hx ⊢
      rcases getChild_swap (m := m) (l1 := l1) (l2 := l2) hs.name with ⟨y, h1, h2⟩ | ⟨h1, h2⟩ | h1
      · rw [h1] at hx; rw [h2]; exact ⟨x, hx, rfl⟩
      · rw [h1] at hx; rw [h2]
        exact h.fixed ((hfew c').mp hh).2 q x hx
      · rw [h1] at hx; cases hx
  · intro hu hb h1 h2
    rw [hfew] at h1 h2
    have hm : ∀ x, x ∈ Node.addrs c → x ∈ Node.addrs (.mk a pa an ca ap (l1 ++ c :: l2)) := by
      intro x hx
      rw [Node.addrs_mk]
      exact List.mem_cons_of_mem _ (List.mem_flatMap.mpr ⟨c, by simp, hx⟩)
    rw [Node.addrs_mk, List.flatMap_append, List.flatMap_cons, List.nodup_cons] at hu
    obtain ⟨u1, u2⟩ := hu
    rw [List.nodup_append] at u2
    obtain ⟨u2, u3, u4⟩ := u2
    rw [List.nodup_append] at u3
    obtain ⟨u5, u6, u7⟩ := u3
    obtain ⟨x, hx, hn⟩ := h.dead u5 (fun y hy => hb y (hm y hy)) h1.2 (fun h3 => h2 ⟨h1.1, h3⟩)
    have hxc : x ∈ Node.addrs c := by rw [node_addrs]; exact List.mem_cons_of_mem _ hx
    refine ⟨x, ?_, ?_⟩
    · exact List.mem_flatMap.mpr ⟨c, by simp [Node.children], hxc⟩
    · rw [Node.addrs_mk, List.flatMap_append, List.flatMap_cons, List.mem_cons, List.mem_append, List.mem_append]
      rintro (rfl | h3 | h3 | h3)
      · exact u1 (List.mem_append_right _ (List.mem_append_left _ hxc))
      · exact u4 x h3 x (List.mem_append_left _ hxc) rfl
      · exact hn h3
      · exact u7 x hxc x h3 rfl
  · intro hh x hx
    rcases Node.mem_nodes_mk.mp hx with rfl | ⟨y, hy, hxy⟩
    · exact Or.inl (by rw [Node.addrs_mk]; exact List.mem_cons_self)
    · have old : ∀ z ∈ l1 ++ c :: l2, x.addr ∈ Node.addrs z → x.addr ∈ Node.addrs (.mk a pa an ca ap (l1 ++ c :: l2)) := by
        intro z hz hxz
        rw [Node.addrs_mk]
        exact List.mem_cons_of_mem _ (List.mem_flatMap.mpr ⟨z, hz, hxz⟩)
      rw [List.mem_append, List.mem_cons] at hy
      rcases hy with hy | rfl | hy
      · exact Or.inl (old y (by simp [hy]) (Node.addr_mem_of hxy))
      · rcases h.known ((hfew _).mp hh).2 x hxy with h1 | h1 | ⟨z, hz, h1⟩
        · exact Or.inl (old c (by simp) h1)
        · exact Or.inr (Or.inl h1)
        · exact Or.inr (Or.inr ⟨z, Node.mem_nodes_mk.mpr (Or.inr ⟨_, by simp, hz⟩), h1⟩)
      · exact Or.inl (old y (by simp [hy]) (Node.addr_mem_of hxy))

theorem relocate_dead {next : Nat} {cs : List Node} {x : Node} (hu : (cs.flatMap Node.addrs).Nodup)
    (hb : ∀ a ∈ cs.flatMap Node.addrs, a < next) (hx : x ∈ cs) : x.addr ∉ (relocate next cs).flatMap Node.addrs := by
  intro hm
  have hlt := hb _ (List.mem_flatMap.mpr ⟨x, hx, Node.addr_mem x⟩)
  rcases relocate_addrs_mem hm with ⟨h3, _⟩ | ⟨y, hy, h4⟩
  · omega
  · obtain ⟨hnd, hp⟩ := List.nodup_flatMap.mp hu
    by_cases hxy : x = y
    · subst hxy
      have := hnd x hx
      rw [node_addrs, List.nodup_cons] at this
      exact this.1 h4
    · have hd : List.Disjoint (Node.addrs x) (Node.addrs y) :=
        Node.pairwise_of_ne (R := Function.onFun List.Disjoint Node.addrs) (fun _ _ h _ ha hb => h hb ha) hp hx hy hxy
      exact hd (Node.addr_mem x) (by rw [node_addrs]; exact List.mem_cons_of_mem _ h4)

theorem few_moveTo (a : Nat) (x : Node) : Few (x.moveTo a) ↔ Few x := by
  rw [few_iff, few_iff, moveTo_children]

theorem refs_insert (next a : Nat) (pa : Option Nat) (an ca : Str) (ap : List PostRef) (cs : List Node) (first : Str) :
    Refs next (.mk a pa an ca ap cs) (.mk a pa an ca ap (insertNew next a first cs).1) (insertNew next a first cs).2.1.addr := by
  have hi := insertNew_spec next a first cs
  have hgrow : cs.length = 3 → (insertNew next a first cs).1 = relocate next cs ++ [(insertNew next a first cs).2.1] ∧
      (insertNew next a first cs).2.1 = .mk (next + cs.length) (some a) first [] [] [] := by
    intro h3
    have : ¬ cs.length < room tableNext cs.length := by rw [h3]; decide
    unfold insertNew
    simp only [if_neg this, and_self]
  revert hi hgrow
  generalize insertNew next a first cs = ins
  obtain ⟨cs', c, next'⟩ := ins
  intro hi hgrow
  simp only at hi hgrow ⊢
  obtain ⟨hnew, _, ⟨ds, e1, e2, e3, e4⟩, _, _, hsmall⟩ := hi
  have hcf : Few c := by rw [hnew.2.2, few_iff]; exact ⟨Nat.zero_le _, by intro x hx; cases hx⟩
  have small : Few (.mk a pa an ca ap cs') → cs' = cs ++ [c] := fun h => hsmall ((few_iff _).mp h).1
  refine ⟨?_, ?_, ?_, ?_, ?_⟩
  · intro y hy
    rcases Node.mem_nodes_mk.mp hy with rfl | ⟨x, hx, hxy⟩
    · exact ⟨_, Node.mem_self _, rfl⟩
    · obtain ⟨d, hd, _, a', rfl, _⟩ := forall₂_mem e4.flip x hx
      rw [nodes_eq] at hxy
      have hd' : x.moveTo a' ∈ cs' := by rw [e1]; simp [hd]
      rcases List.mem_cons.mp hxy with rfl | hxy
      · exact ⟨_, Node.mem_nodes_mk.mpr (Or.inr ⟨_, hd', Node.mem_self _⟩), moveTo_parent _ _⟩
      · refine ⟨y, Node.mem_nodes_mk.mpr (Or.inr ⟨_, hd', ?_⟩), rfl⟩
        rw [nodes_eq, moveTo_children]
        exact List.mem_cons_of_mem _ hxy
  · intro h
    have hc := small h
    subst hc
    rw [few_iff] at h ⊢
    simp only [Node.children, List.length_append, List.length_singleton] at h ⊢
    exact ⟨by omega, fun x hx => h.2 x (List.mem_append_left _ hx)⟩
  · intro h q x hx
    rw [small h]
    cases q with
    | nil =>
      rw [Node.at?_nil] at hx
      injection hx with hx
      exact ⟨_, Node.at?_nil _, by rw [← hx]; rfl⟩
    | cons m q =>
      rw [Node.at?_cons] at hx ⊢
      rw [getChild_append]
      cases hg : Node.getChild m cs with
      | none => rw [hg] at hx; cases hx
      | some z => rw [hg] at hx; exact ⟨x, by simpa using hx, rfl⟩
  · intro hu hb h h'
    rw [few_iff] at h
    simp only [Node.children] at h
    rw [Node.addrs_mk, List.nodup_cons] at hu
    have h3 : cs.length = 3 := by
      by_contra h3
      apply h'
      rw [few_iff]
      simp only [Node.children]
      refine ⟨by rw [e1, List.length_append, e2, List.length_singleton]; omega, ?_⟩
      intro x hx
      rw [e1, List.mem_append, List.mem_singleton] at hx
      rcases hx with hx | rfl
      · obtain ⟨y, hy, _, a', rfl, _⟩ := forall₂_mem e4 x hx
        rw [few_moveTo]; exact h.2 y hy
      · exact hcf
    obtain ⟨g1, g2⟩ := hgrow h3
    have hb' : ∀ z ∈ cs.flatMap Node.addrs, z < next := fun z hz => hb z (by rw [Node.addrs_mk]; exact List.mem_cons_of_mem _ hz)
    cases cs with
    | nil => cases h3
    | cons x cs =>
      have hx : x.addr ∈ (x :: cs).flatMap Node.addrs := List.mem_flatMap.mpr ⟨x, by simp, Node.addr_mem x⟩
      refine ⟨x.addr, hx, ?_⟩
      rw [Node.addrs_mk, g1, List.flatMap_append, List.mem_cons, List.mem_append]
      rintro (h5 | h5 | h5)
      · exact hu.1 (h5 ▸ hx)
      · exact relocate_dead hu.2 hb' (by simp) h5
      · rw [g2] at h5
        simp [Node.addrs_mk] at h5
        have := hb' _ hx
        omega
  · intro h x hx
    rw [small h] at hx
    rcases Node.mem_nodes_mk.mp hx with rfl | ⟨y, hy, hxy⟩
    · exact Or.inl (by rw [Node.addrs_mk]; exact List.mem_cons_self)
    · rw [List.mem_append, List.mem_singleton] at hy
      rcases hy with hy | rfl
      · refine Or.inl ?_
        rw [Node.addrs_mk]
        exact List.mem_cons_of_mem _ (List.mem_flatMap.mpr ⟨y, hy, Node.addr_mem_of hxy⟩)
      · rw [hnew.2.2] at hxy
        rcases Node.mem_nodes_mk.mp hxy with rfl | ⟨z, hz, _⟩
        · exact Or.inr (Or.inl rfl)
        · cases hz

theorem go_step {fuel next : Nat} {t : Node} {n : Str} {auto : Bool} {t' : Node} {next' : Nat} {r : Option Nat}
    (h : findOrCreateGo fuel next t n auto = .ok (t', next', r)) : Step next t t' next' := by
  have := go_sim fuel next t n auto
  rw [h] at this
  exact this.1

/-- A new account gets a child that points to it if anything is registered below it. -/
theorem go_first {fuel next a : Nat} {pa : Option Nat} {an ca : Str} {ap : List PostRef} {n : Str} {t' : Node} {next' : Nat}
    {r : Option Nat} (h : findOrCreateGo fuel next (.mk a pa an ca ap []) n true = .ok (t', next', r)) :
    ∃ y ∈ Node.nodes t', y.parent = some a := by
  cases fuel with
  | zero => simp [findOrCreateGo] at h
  | succ fuel =>
    rw [findOrCreateGo] at h
    simp only [Node.getChild, if_true] at h
    obtain ⟨hnew, _, ⟨ds, e1, e2, _, _⟩, _, _, _⟩ := insertNew_spec next a (Account.splitName n).1 []
    revert h hnew e1
    generalize insertNew next a (Account.splitName n).1 [] = ins
    obtain ⟨cs', c, next1⟩ := ins
    intro h hnew e1
    simp only at h hnew e1
    have hds : ds = [] := List.length_eq_zero_iff.mp e2
    subst hds
    have hp : c.parent = some a := by rw [hnew.2.2]; rfl
    split at h
    · injection h with h
      injection h with h
      rw [← h, e1]
      exact ⟨c, Node.mem_nodes_mk.mpr (Or.inr ⟨c, by simp, Node.mem_self c⟩), hp⟩
    · cases hg : findOrCreateGo fuel next1 c (Account.splitName n).2 true with
      | error e => rw [hg] at h; cases h
      | ok v =>
        obtain ⟨c', next2, r'⟩ := v
        rw [hg] at h
        simp only [bind, Except.bind] at h
        have hst := go_step hg
        cases r' with
        | none => cases h
        | some x =>
          injection h with h
          injection h with h
          rw [← h, e1]
          refine ⟨c', Node.mem_nodes_mk.mpr (Or.inr ⟨c', ?_, Node.mem_self c'⟩), by rw [hst.parent, hp]⟩
          simp [Node.setChild, hst.name]

theorem go_refs (fuel next : Nat) (t : Node) (n : Str) {t' : Node} {next' b : Nat}
    (h : findOrCreateGo fuel next t n true = .ok (t', next', some b)) : Refs next t t' b := by
  induction fuel generalizing next t n t' next' b with
  | zero => cases t; simp [findOrCreateGo] at h
  | succ fuel ih =>
    obtain ⟨a, pa, an, ca, ap, cs⟩ := t
    rw [findOrCreateGo] at h
    cases hg : Node.getChild n cs with
    | some c =>
      rw [hg] at h
      injection h with h
      injection h with h
      rw [← h]; exact Refs.refl _ _ _
    | none =>
      rw [hg] at h
      simp only at h
      cases hf : Node.getChild (Account.splitName n).1 cs with
      | some c =>
        rw [hf] at h
        simp only at h
        split at h
        · injection h with h
          injection h with h
          rw [← h]; exact Refs.refl _ _ _
        · cases hgo : findOrCreateGo fuel next c (Account.splitName n).2 true with
          | error e => rw [hgo] at h; cases h
          | ok v =>
            obtain ⟨c', next2, r'⟩ := v
            rw [hgo] at h
            simp only [bind, Except.bind] at h
            have hst := go_step hgo
            cases r' with
            | none => cases h
            | some x =>
              injection h with h
              injection h with h1 h2
              injection h2 with _ h2
              injection h2 with h2
              subst h2
              obtain ⟨l1, l2, e1, e2, e3⟩ := Node.getChild_split hf
              rw [← h1, e3 c' (by rw [hst.name, (Node.getChild_some hf).2]), e1]
              exact (ih next c _ hgo).child hst
      | none =>
        rw [hf] at h
        simp only [if_true] at h
        have hins := step_insert next a pa an ca ap cs (Account.splitName n).1
        have hrefs := refs_insert next a pa an ca ap cs (Account.splitName n).1
        obtain ⟨hnew, _, _, _, _, _⟩ := insertNew_spec next a (Account.splitName n).1 cs
        obtain ⟨ds, d1, d2, d3, d4, d5⟩ := insertNew_table (next := next) (a := a) hf
        revert h hins hrefs hnew d1 d3
        clear d4 d5
        generalize insertNew next a (Account.splitName n).1 cs = ins
        obtain ⟨cs', c, next1⟩ := ins
        intro h hins hrefs hnew d1 d3
        simp only at h hins hrefs hnew d1 d3
        split at h
        · injection h with h
          injection h with h1 h2
          injection h2 with _ h2
          injection h2 with h2
          rw [← h1, ← h2]; exact hrefs
        · cases hgo : findOrCreateGo fuel next1 c (Account.splitName n).2 true with
          | error e => rw [hgo] at h; cases h
          | ok v =>
            obtain ⟨c', next2, r'⟩ := v
            rw [hgo] at h
            simp only [bind, Except.bind] at h
            have hst := go_step hgo
            cases r' with
            | none => cases h
            | some x =>
              injection h with h
              injection h with h1 h2
              injection h2 with h3 h2
              injection h2 with h2
              subst h2 h3
              have hget : Node.getChild (Account.splitName n).1 cs' = some c := by
                rw [d1]; exact Node.getChild_mid d2 d3
              obtain ⟨l1, l2, e1, e2, e3⟩ := Node.getChild_split hget
              have hset := e3 c' (by rw [hst.name, d3])
              have hc := ih next1 c _ hgo
              have hfc : Few c' := by
                by_contra hn
                have hcm := hnew.2.2
                have hcf : Few c := by rw [hcm, few_iff]; exact ⟨Nat.zero_le _, by intro x hx; cases hx⟩
                obtain ⟨z, hz, _⟩ := hc.dead (by rw [hcm, Node.addrs_mk]; simp)
                  (by rw [hcm, Node.addrs_mk]; intro z hz; simp at hz; omega) hcf hn
                rw [hcm] at hz
                cases hz
              rw [← h1, hset]
              refine hrefs.trans (n2 := next1) (n3 := next2) (t2 := .mk a pa an ca ap cs') ?_ hins ?_ ?_ ?_
              · conv => arg 2; rw [e1]
                exact hc.child hst
              · conv => arg 2; rw [e1]
                exact step_child hst
              · rw [hnew.2.2] at hgo
                obtain ⟨y, hy, hp⟩ := go_first hgo
                exact ⟨y, Node.mem_nodes_mk.mpr (Or.inr ⟨c', by simp, hy⟩), hp⟩
              · rw [e1, few_iff, few_iff]
                simp only [Node.children, List.length_append, List.length_cons]
                rintro ⟨f1, f2⟩
                refine ⟨f1, fun z hz => ?_⟩
                rw [List.mem_append, List.mem_cons] at hz
                rcases hz with hz | rfl | hz
                · exact f2 z (by simp [hz])
                · exact hfc
                · exact f2 z (by simp [hz])

/-! ### reading postings -/

theorem Books.reach {s : State} {homes : List Nat} {bs : List (PostRef × Path)} (h : Books s homes bs) : Reach s := by
  induction h with
  | new => exact .refl
  | post r _ hr ih => exact .push _ _ (.register _ ih hr)

theorem register_refs {s s' : State} {n : Str} {b : Nat} (h : s.register n = .ok (s', some b)) :
    Refs s.next s.master s'.master b := by
  unfold State.register at h
  cases hg : findOrCreateGo (n.length + 1) s.next s.master n true with
  | error e => rw [hg] at h; cases h
  | ok v =>
    obtain ⟨m, next, r⟩ := v
    rw [hg] at h
    simp only [bind, Except.bind] at h
    injection h with h
    injection h with h1 h2
    subst h2
    rw [← h1]
    exact go_refs _ _ _ _ hg

theorem few_mutate {a : Nat} {f : Node → Node} (hf : Mild f) (t : Node) : Few (t.mutate a f) ↔ Few t := by
  unfold Few
  rw [mutate_nodes hf]
  constructor
  · intro h x hx
    have := h _ (List.mem_map.mpr ⟨x, hx, rfl⟩)
    rwa [mutate_children hf, List.length_map] at this
  · intro h x hx
    obtain ⟨y, hy, rfl⟩ := List.mem_map.mp hx
    rw [mutate_children hf, List.length_map]
    exact h y hy

/-- The address is kept in a posting or as a parent. -/
def Referred (s : State) (homes : List Nat) (a : Nat) : Prop := a ∈ homes ∨ ∃ y ∈ Node.nodes s.master, y.parent = some a

/-- As long as no account has more than three children all accounts are referred to and nothing has moved; afterwards
something that has moved is referred to. -/
theorem Books.refs {s : State} {homes : List Nat} {bs : List (PostRef × Path)} (h : Books s homes bs) :
    (Few s.master → (∀ x ∈ s.master.children.flatMap Node.addrs, Referred s homes x) ∧ HomesRight s homes bs) ∧
    (¬ Few s.master → ∃ a, Referred s homes a ∧ a < s.next ∧ a ∉ Node.addrs s.master) := by
  induction h with
  | new =>
    refine ⟨fun _ => ⟨fun x hx => by simp [State.new, Node.children] at hx, .nil⟩, fun h => absurd ?_ h⟩
    rw [few_iff]
    exact ⟨Nat.zero_le _, by intro x hx; cases hx⟩
  | @post s s' homes bs n a r h hr ih =>
    have hinv := h.reach.inv
    have hinv' := hinv.register hr
    have hrefs := register_refs hr
    obtain ⟨hst, p?, hsim, hpt⟩ := register_sim hr
    have hm := mild_push r
    have hmaster : (s'.push a r).master = s'.master.mutate a (pushNode r) := rfl
    have hfew : Few (s'.push a r).master ↔ Few s'.master := few_mutate hm _
    have hkept : ∀ x, Referred s homes x → Referred (s'.push a r) (homes ++ [a]) x := by
      rintro x (hx | ⟨y, hy, hp⟩)
      · exact Or.inl (List.mem_append_left _ hx)
      · obtain ⟨y', hy', hp'⟩ := hrefs.parents y hy
        refine Or.inr ⟨y'.mutate a (pushNode r), ?_, by rw [mutate_parent hm, hp', hp]⟩
        rw [hmaster, mutate_nodes hm]
        exact List.mem_map.mpr ⟨y', hy', rfl⟩
    have hgone : ∀ x, x < s.next → x ∉ Node.addrs s.master → x < (s'.push a r).next ∧ x ∉ Node.addrs (s'.push a r).master := by
      intro x hx hn
      refine ⟨Nat.lt_of_lt_of_le hx hst.le, ?_⟩
      rw [hmaster, mutate_addrs hm]
      intro h1
      rcases hst.addrs x h1 with h2 | h2
      · exact hn h2
      · omega
    constructor
    · intro hf
      rw [hfew] at hf
      obtain ⟨i1, i2⟩ := ih.1 (hrefs.few hf)
      constructor
      · intro x hx
        have hx' : x ∈ Node.addrs s'.master ∧ x ≠ s'.master.addr := by
          have hu := hinv'.uniq
          rw [node_addrs, List.nodup_cons] at hu
          rw [hmaster, mutate_children hm, List.flatMap_map] at hx
          have e : (fun y => Node.addrs (Node.mutate a (pushNode r) y)) = Node.addrs := by
            funext y; exact mutate_addrs hm y
          rw [e] at hx
          rw [node_addrs]
          exact ⟨List.mem_cons_of_mem _ hx, fun e => hu.1 (e ▸ hx)⟩
        obtain ⟨y, hy, rfl⟩ := List.mem_map.mp hx'.1
        rcases hrefs.known hf y hy with h1 | h1 | ⟨z, hz, h1⟩
        · apply hkept
          apply i1
          rw [node_addrs, ← hst.addr] at h1
          exact (List.mem_cons.mp h1).resolve_left hx'.2
        · exact Or.inl (by rw [h1]; simp)
        · refine Or.inr ⟨z.mutate a (pushNode r), ?_, by rw [mutate_parent hm, h1]⟩
          rw [hmaster, mutate_nodes hm]
          exact List.mem_map.mpr ⟨z, hz, rfl⟩
      · have hu : (Node.addrs (s'.push a r).master).Nodup := by rw [hmaster, mutate_addrs hm]; exact hinv'.uniq
        have found : ∀ q x, s'.master.at? q = some x →
            ∃ y, (s'.push a r).master.at? q = some y ∧ (s'.push a r).deref x.addr = .ok y := by
          intro q x hx
          have h1 : (s'.push a r).master.at? q = some (x.mutate a (pushNode r)) := by
            rw [hmaster, mutate_at? hm, hx]; rfl
          refine ⟨_, h1, ?_⟩
          have := deref_ok hu (Node.at?_mem h1)
          rwa [mutate_addr hm] at this
        refine List.rel_append (i2.imp ?_) (.cons ?_ .nil)
        · rintro b ⟨r', q⟩ ⟨x, hx, hd⟩
          obtain ⟨x', hx', ha⟩ := hrefs.fixed hf q x hx
          obtain ⟨y, hy, hd'⟩ := found q x' hx'
          refine ⟨y, hy, ?_⟩
          have : x.addr = b := by
            unfold State.deref at hd
            split at hd
            · rename_i z hz
              injection hd with hd
              subst hd
              simpa using List.find?_some hz
            · cases hd
          rw [← this, ← ha]; exact hd'
        · have hw := Account.reachable_wf h.reach.erase
          rw [Account.findOrCreate_create _ _ hw] at hsim
          injection hsim with hsim
          injection hsim with _ hsim
          subst hsim
          obtain ⟨_, x, hx, rfl⟩ := hpt
          exact found _ x hx
    · intro hf
      rw [hfew] at hf
      by_cases hf0 : Few s.master
      · obtain ⟨x, hx, hn⟩ := hrefs.dead hinv.uniq hinv.below hf0 hf
        refine ⟨x, hkept x ((ih.1 hf0).1 x hx), ?_, ?_⟩
        · have : x ∈ Node.addrs s.master := by rw [node_addrs]; exact List.mem_cons_of_mem _ hx
          exact Nat.lt_of_lt_of_le (hinv.below x this) hst.le
        · rw [hmaster, mutate_addrs hm]; exact hn
      · obtain ⟨x, h1, h2, h3⟩ := ih.2 hf0
        exact ⟨x, hkept x h1, hgone x h2 h3⟩

theorem mem_nodes_up {t y : Node} (h : y ∈ Node.nodes t) : y = t ∨ ∃ x ∈ Node.nodes t, y ∈ x.children := by
  induction t using Node.ind with
  | h b p n c ps cs ih =>
    rcases Node.mem_nodes_mk.mp h with rfl | ⟨x, hx, hy⟩
    · exact Or.inl rfl
    · right
      rcases ih x hx hy with rfl | ⟨z, hz, hyz⟩
      · exact ⟨_, Node.mem_self _, hx⟩
      · exact ⟨z, Node.mem_nodes_mk.mpr (Or.inr ⟨x, hx, hz⟩), hyz⟩

/-- The pointers to accounts are all right exactly if no account has more than three children. -/
theorem Books.right {s : State} {homes : List Nat} {bs : List (PostRef × Path)} (h : Books s homes bs) :
    (HomesRight s homes bs ∧ ParentsRight s) ↔ Few s.master := by
  have hinv := h.reach.inv
  constructor
  · rintro ⟨h1, h2⟩
    by_contra hf
    obtain ⟨a, hr, _, hn⟩ := h.refs.2 hf
    rcases hr with hr | ⟨y, hy, hp⟩
    · obtain ⟨b, _, x, _, hd⟩ := forall₂_mem h1.flip a hr
      rw [deref_gone hn] at hd; cases hd
    · rcases mem_nodes_up hy with rfl | ⟨x, hx, hyx⟩
      · rw [hinv.noParent] at hp; cases hp
      · rw [h2 x hx y hyx] at hp
        injection hp with hp
        exact hn (hp ▸ Node.addr_mem_of hx)
  · intro hf
    refine ⟨(h.refs.1 hf).2, ?_⟩
    intro x hx
    rcases mem_nodes_up hx with rfl | ⟨z, hz, hxz⟩
    · exact hinv.own
    · exact hinv.tight z hz (hf z hz) x hxz

/-- The same in the tree of the model. -/
theorem few_erase {t : Node} (hw : t.erase.WF) : Few t ↔ ∀ q x, t.erase.at? q = some x → x.children.length ≤ 3 := by
  constructor
  · intro h q x hx
    rw [Node.at?_erase] at hx
    cases hy : t.at? q with
    | none => rw [hy] at hx; cases hx
    | some y =>
      rw [hy] at hx
      injection hx with hx
      rw [← hx, Node.erase_children, List.length_map]
      exact h y (Node.at?_mem hy)
  · intro h x hx
    obtain ⟨p, hp⟩ := mem_at? hw hx
    have := h p x.erase (by rw [Node.at?_erase, hp]; rfl)
    rwa [Node.erase_children, List.length_map] at this

end Heap

open Ledger.Heap Ledger.Memory Ledger.Parser

/-- The memory of a journal. -/
def Replays (j : Journal) : Prop := ∃ s homes, Books s homes (bookings j.xacts) ∧ s.master.erase = j.master

theorem Replays.congr {j j' : Journal} (h : Replays j) (hm : j'.master = j.master) (hk : bookings j'.xacts = bookings j.xacts) :
    Replays j' := by
  obtain ⟨s, homes, h1, h2⟩ := h
  exact ⟨s, homes, by rw [hk]; exact h1, by rw [hm]; exact h2⟩

theorem Replays.post {j : Journal} (h : Replays j) {xs : List Xact} {x : Xact} (hx : j.xacts = xs ++ [x]) {n : Str}
    {m : Account} {path : Path} (hf : j.master.findOrCreate n true = .ok (m, some path)) (pool : Pool)
    (am c : Option Amount) :
    Replays ⟨m.pushPost path (xs.length, x.posts.length), pool, xs ++ [{ x with posts := x.posts ++ [⟨path, am, c, none⟩] }]⟩ := by
  obtain ⟨s, homes, h1, h2⟩ := h
  have hr := h1.reach
  have hw := Account.reachable_wf hr.erase
  rw [← h2] at hf
  have hp : path = pathOf n := by
    rw [Account.findOrCreate_create _ _ hw] at hf
    injection hf with hf
    injection hf with _ hf
    injection hf with hf
    exact hf.symm
  subst hp
  have hg := go_sim (n.length + 1) s.next s.master n true
  have hf' : Account.findOrCreateGo (n.length + 1) s.master.erase n true = _ := hf
  have hreg : s.register n = (findOrCreateGo (n.length + 1) s.next s.master n true).bind
      (fun v => .ok (⟨v.1, v.2.1⟩, v.2.2)) := rfl
  revert hg hreg
  cases findOrCreateGo (n.length + 1) s.next s.master n true with
  | error e => intro hg; rw [hf'] at hg; cases hg
  | ok v =>
    obtain ⟨m', next, b?⟩ := v
    intro hg hreg
    simp only at hg
    obtain ⟨hst, p?, e1, e2⟩ := hg
    rw [hf'] at e1
    injection e1 with e1
    injection e1 with e1 e1'
    subst e1'
    cases b? with
    | none => exact absurd e2 id
    | some b =>
      obtain ⟨_, y, hy, rfl⟩ := e2
      have hb := Books.post (xs.length, x.posts.length) h1 hreg
      refine ⟨(State.mk m' next).push y.addr (xs.length, x.posts.length), homes ++ [y.addr], ?_, ?_⟩
      · have hbk : bookings (xs ++ [{ x with posts := x.posts ++ [⟨pathOf n, am, c, none⟩] }]) =
            bookings j.xacts ++ [((xs.length, x.posts.length), pathOf n)] := by
          rw [hx, bookings_snoc, bookings_snoc, postRefs_append, List.append_assoc]
        show Books _ _ (bookings (xs ++ _))
        rw [hbk]
        exact hb
      · rw [push_erase (s := ⟨m', next⟩) (hr.inv.register hreg) hy]
        show m'.erase.pushPost _ _ = _
        rw [← e1]

theorem readBody_replays {src rest : Source} {j j' : Journal} {xs : List Xact} {x : Xact} (hx : j.xacts = xs ++ [x])
    (h : readBody xs.length src j = .ok (j', rest)) (hb : Replays j) : Replays j' := by
  induction src generalizing j x with
  | nil =>
    simp only [readBody, Except.ok.injEq, Prod.mk.injEq] at h
    obtain ⟨rfl, rfl⟩ := h
    exact hb
  | cons l src ih =>
    cases l with
    | none =>
      simp only [readBody, Except.ok.injEq, Prod.mk.injEq] at h
      obtain ⟨rfl, rfl⟩ := h
      exact hb
    | some line =>
      rw [readBody] at h
      cases hc : classify line with
      | fin =>
        rw [hc] at h
        simp only [Except.ok.injEq, Prod.mk.injEq] at h
        obtain ⟨rfl, rfl⟩ := h
        exact hb
      | bad => rw [hc] at h; simp at h
      | note =>
        rw [hc] at h
        simp only at h
        cases h1 : parseTrailingNote line xs.length j with
        | error e => rw [h1] at h; simp [bind, Except.bind] at h
        | ok j1 =>
          rw [h1] at h
          simp only [bind, Except.bind] at h
          obtain ⟨r, _, hj1⟩ := parseTrailingNote_ok hx h1
          have hx1 : j1.xacts = xs ++ [if trim r = [] then x else x.addNote (trim r)] := by rw [hj1]
          have hacc : (if trim r = [] then x else x.addNote (trim r)).posts.map (·.account) = x.posts.map (·.account) := by
            split
            · rfl
            · exact (addNote_keep x _).1
          refine ih hx1 h (hb.congr (by rw [hj1]) ?_)
          rw [hx1, hx, bookings_snoc, bookings_snoc, postRefs_congr _ hacc]
      | post input =>
        rw [hc] at h
        simp only at h
        cases h1 : parsePost input xs.length j with
        | error e => rw [h1] at h; simp [bind, Except.bind] at h
        | ok j1 =>
          rw [h1] at h
          simp only [bind, Except.bind] at h
          obtain ⟨t, m, path, pool, am, c, k1, _, k3, k4, hj1⟩ := parsePost_ok hx h1
          refine ih (x := { x with posts := x.posts ++ [⟨path, am, c, none⟩] }) (by rw [hj1]) h ?_
          rw [hj1]
          exact hb.post hx k3 pool am c

theorem xactDirective_replays {line : Str} {rest rest' : Source} {j j' : Journal}
    (h : xactDirective line rest j = .ok (j', rest')) (hb : Replays j) : Replays j' := by
  unfold xactDirective createXact at h
  cases h1 : Scanner.tokenizeXactHeader line with
  | error e => rw [h1] at h; simp [bind, Except.bind] at h
  | ok r =>
    obtain ⟨d, a, p, n⟩ := r
    rw [h1] at h
    simp only [bind, Except.bind] at h
    cases h2 : Xact.create d a p n with
    | error e => rw [h2] at h; simp at h
    | ok x0 =>
      rw [h2] at h
      simp only [Journal.addXact] at h
      have hp0 : x0.posts = [] := (create_ok h2).2.2.2.1
      cases h3 : readBody j.xacts.length rest { j with xacts := j.xacts ++ [x0] } with
      | error e => rw [h3] at h; simp at h
      | ok r =>
        obtain ⟨j2, rest2⟩ := r
        rw [h3] at h
        simp only at h
        obtain ⟨x1, e1, _⟩ := readBody_ok rfl h3
        have hb2 : Replays j2 := readBody_replays rfl h3 (hb.congr rfl (bookings_empty_snoc _ _ hp0))
        unfold finalizeXact at h
        rw [e1] at h
        simp only [List.getElem?_append_right (Nat.le_refl _), Nat.sub_self, List.getElem?_cons_zero] at h
        cases h5 : Finalize.finalize x1 j2.pool with
        | error e => rw [h5] at h; simp [bind, Except.bind] at h
        | ok r =>
          obtain ⟨x2, pool2⟩ := r
          rw [h5] at h
          simp only [bind, Except.bind, Except.ok.injEq, Prod.mk.injEq] at h
          obtain ⟨rfl, rfl⟩ := h
          obtain ⟨k1, k2, k3, k4, k5⟩ := C34_nothing_altered_partial _ _ _ _ h5
          have hset : (j.xacts ++ [x1]).set j.xacts.length x2 = j.xacts ++ [x2] := by
            rw [List.set_append_right _ _ (Nat.le_refl _)]; simp
          have hacc : x2.posts.map (·.account) = x1.posts.map (·.account) := by
            have : ∀ ps ps' : List Post, List.Forall₂ (fun p p' => p'.account = p.account) ps ps' →
                ps'.map (·.account) = ps.map (·.account) := by
              intro ps ps' hF
              induction hF with
              | nil => rfl
              | cons h _ ih => rw [List.map_cons, List.map_cons, h, ih]
            exact this _ _ (k5.imp fun p p' h => h.1)
          refine hb2.congr rfl ?_
          show bookings ((j.xacts ++ [x1]).set j.xacts.length x2) = _
          rw [hset, e1, bookings_snoc, bookings_snoc, postRefs_congr _ hacc]

theorem parse_replays (files : Files) (depth : Nat) (src : Source) (j j' : Journal) (h : parse files depth src j = .ok j') :
    Replays j → Replays j' := by
  refine parse_induct (P := fun j j' => Replays j → Replays j') files ?_ ?_ ?_ ?_ depth src j j' h
  · exact fun j h => h
  · exact fun a b c h1 h2 h => h2 (h1 h)
  · exact fun line rest j j' rest' h hb => xactDirective_replays h hb
  · exact fun line j pool _ hb => hb.congr rfl rfl

theorem replays_new : Replays Journal.new := ⟨_, _, .new, rfl⟩

end Ledger
