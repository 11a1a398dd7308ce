import Verif.Spec.Follows
import Verif.Lemmas.Stale
/-
Which accounts are moved when an account is created, and which parent pointers become stale.
-/
namespace Ledger
open Ledger.Memory

theorem room_full {k : Nat} (h : Full k) : room tableNext k = k := by
  rcases h with rfl | ⟨i, rfl⟩
  · decide
  · induction i with
    | zero => decide
    | succ i ih =>
      have hpos : 0 < 2 ^ i := Nat.pow_pos (by decide)
      generalize hk : 7 * 2 ^ i = k at ih
      have h2 : 7 * 2 ^ (i + 1) = 2 * k := by rw [← hk, Nat.pow_succ]; ring
      have h1 : room tableNext (k + 1) = 2 * k := by
        rw [room, ih, if_neg (by omega)]
        unfold tableNext
        rw [if_neg (by omega), if_neg (by omega)]
      rw [h2, (room_block_fits (stays := fun _ => false) (n := k + 1) (m := 2 * k) (by omega) (by omega)).1, h1]

theorem full_room {k : Nat} (h : 1 ≤ k) : Full (room tableNext k) := by
  induction k with
  | zero => omega
  | succ n ih =>
    rw [room]
    cases n with
    | zero => exact Or.inl rfl
    | succ n =>
      have ih := ih (by omega)
      split
      · exact ih
      · generalize room tableNext (n + 1) = r at ih
        rcases ih with rfl | ⟨i, rfl⟩
        · exact Or.inr ⟨0, rfl⟩
        · right
          have hpos : 0 < 2 ^ i := Nat.pow_pos (by decide)
          refine ⟨i + 1, ?_⟩
          unfold tableNext
          rw [if_neg (by omega), if_neg (by omega), Nat.pow_succ]; ring

theorem full_iff {k : Nat} (h : 1 ≤ k) : Full k ↔ ¬ k < room tableNext k := by
  constructor
  · intro hf; rw [room_full hf]; omega
  · intro hn
    have h1 : k ≤ room tableNext k := room_ge tableNext_gt k
    have h2 : room tableNext k = k := by omega
    rw [← h2]; exact full_room h

namespace Heap

/-- What `find_or_create` does to an account: nothing, something to one child, or it adds a child, whose siblings move if
the table is full. -/
inductive Grow (next : Nat) : Node → Node → Prop
  | same (t : Node) : Grow next t t
  | down {a : Nat} {pa : Option Nat} {an ca : Str} {ap : List PostRef} {l1 l2 : List Node} {c c' : Node} (h : Grow next c c')
      (hn : c'.name = c.name) : Grow next (.mk a pa an ca ap (l1 ++ c :: l2)) (.mk a pa an ca ap (l1 ++ c' :: l2))
  | new {a : Nat} {pa : Option Nat} {an ca : Str} {ap : List PostRef} {cs ds : List Node} {c : Node}
      (hm : List.Forall₂ (fun x d => ∃ b, d = Node.moveTo b x ∧ ((Full cs.length ∧ next ≤ b) ∨ (¬ Full cs.length ∧ b = x.addr))) cs ds)
      (hp : c.parent = some a) (ho : ∀ x ∈ Node.nodes c, Own x) : Grow next (.mk a pa an ca ap cs) (.mk a pa an ca ap (ds ++ [c]))

theorem Grow.root {next : Nat} {t t' : Node} (h : Grow next t t') : t'.addr = t.addr ∧ t'.parent = t.parent := by
  cases h <;> exact ⟨rfl, rfl⟩

theorem insertNew_moves (next self : Nat) (first : Str) (cs : List Node) :
    ∃ ds, (insertNew next self first cs).1 = ds ++ [(insertNew next self first cs).2.1] ∧
      List.Forall₂ (fun x d => ∃ b, d = Node.moveTo b x ∧ ((Full cs.length ∧ next ≤ b) ∨ (¬ Full cs.length ∧ b = x.addr))) cs ds := by
  unfold insertNew
  by_cases hr : cs.length < room tableNext cs.length
  · simp only [if_pos hr]
    refine ⟨cs, rfl, List.forall₂_same.mpr fun x hx => ⟨x.addr, (moveTo_self x).symm, Or.inr ⟨fun hf => ?_, rfl⟩⟩⟩
    rw [room_full hf] at hr; omega
  · simp only [if_neg hr]
    refine ⟨relocate next cs, rfl, ?_⟩
    cases cs with
    | nil => exact .nil
    | cons c cs =>
      have hf : Full (c :: cs).length := (full_iff (by simp)).mpr hr
      exact (relocate_forall next (c :: cs)).imp fun x d ⟨b, h1, _, h2⟩ => ⟨b, h2, Or.inl ⟨hf, h1⟩⟩

theorem setChild_last {c c' : Node} {ds : List Node} (hd : ∀ x ∈ ds, x.name ≠ c.name) (hn : c'.name = c.name) :
    Node.setChild c' (ds ++ [c]) = ds ++ [c'] := by
  induction ds with
  | nil => simp [Node.setChild, hn]
  | cons x ds ih =>
    rw [List.cons_append, Node.setChild, if_neg (by rw [hn]; exact hd x (by simp)), ih (fun y hy => hd y (List.mem_cons_of_mem _ hy))]
    rfl

theorem few_own {t : Node} (hf : Few t) (ho : Own t) (ht : Tight t) : ∀ x ∈ Node.nodes t, Own x := by
  intro x hx
  rcases mem_nodes_up hx with rfl | ⟨z, hz, hxz⟩
  · exact ho
  · exact ht z hz (hf z hz) x hxz

theorem go_grow (fuel next : Nat) (t : Node) (n : Str) {t' : Node} {next' b : Nat}
    (h : findOrCreateGo fuel next t n true = .ok (t', next', some b)) : Grow next t t' := by
  induction fuel generalizing next t n t' next' b with
  | zero => cases t; simp [findOrCreateGo] at h
  | succ fuel ih =>
    obtain ⟨a, pa, an, ca, ap, cs⟩ := t
    rw [findOrCreateGo] at h
    cases hg : Node.getChild n cs with
    | some c =>
      rw [hg] at h
      injection h with h
      injection h with h
      rw [← h]; exact .same _
    | none =>
      rw [hg] at h
      simp only at h
      cases hf : Node.getChild (Account.splitName n).1 cs with
      | some c =>
        rw [hf] at h
        simp only at h
        split at h
        · injection h with h
          injection h with h
          rw [← h]; exact .same _
        · cases hgo : findOrCreateGo fuel next c (Account.splitName n).2 true with
          | error e => rw [hgo] at h; cases h
          | ok v =>
            obtain ⟨c', next2, r'⟩ := v
            rw [hgo] at h
            simp only [bind, Except.bind] at h
            have hst := go_step hgo
            cases r' with
            | none => cases h
            | some x =>
              injection h with h
              injection h with h1 h2
              obtain ⟨l1, l2, e1, e2, e3⟩ := Node.getChild_split hf
              rw [← h1, e3 c' (by rw [hst.name, (Node.getChild_some hf).2]), e1]
              exact .down (ih next c _ hgo) hst.name
      | none =>
        rw [hf] at h
        simp only [if_true] at h
        obtain ⟨hnew, _, _, _, _, _⟩ := insertNew_spec next a (Account.splitName n).1 cs
        obtain ⟨ds, d1, d2, d3, d4, d5⟩ := insertNew_table (next := next) (a := a) hf
        obtain ⟨ds', g1, g2⟩ := insertNew_moves next a (Account.splitName n).1 cs
        have hds : ds' = ds := by
          have := g1.symm.trans d1
          exact List.append_cancel_right this
        subst hds
        revert h hnew d1 d3
        clear d4 d5 g1
        generalize insertNew next a (Account.splitName n).1 cs = ins
        obtain ⟨cs', c, next1⟩ := ins
        intro h hnew d3 d1
        simp only at h hnew d1 d3
        have hcm := hnew.2.2
        have hcf : Few c := by rw [hcm, few_iff]; exact ⟨Nat.zero_le _, by intro x hx; cases hx⟩
        have hco : Own c := by rw [hcm]; intro x hx; cases hx
        have hct : Tight c := by rw [hcm, tight_mk]; simp
        split at h
        · injection h with h
          injection h with h1 h2
          rw [← h1, d1]
          exact .new g2 (by rw [hcm]; rfl) (few_own hcf hco hct)
        · cases hgo : findOrCreateGo fuel next1 c (Account.splitName n).2 true with
          | error e => rw [hgo] at h; cases h
          | ok v =>
            obtain ⟨c', next2, r'⟩ := v
            rw [hgo] at h
            simp only [bind, Except.bind] at h
            have hst := go_step hgo
            cases r' with
            | none => cases h
            | some x =>
              injection h with h
              injection h with h1 h2
              have hc := go_refs _ next1 c _ hgo
              have hfc : Few c' := by
                by_contra hn
                obtain ⟨z, hz, _⟩ := hc.dead (by rw [hcm, Node.addrs_mk]; simp)
                  (by rw [hcm, Node.addrs_mk]; intro z hz; simp at hz; omega) hcf hn
                rw [hcm] at hz
                cases hz
              rw [← h1, d1, setChild_last (by rw [d3]; exact d2) hst.name]
              exact .new g2 (by rw [hst.parent, hcm]; rfl) (few_own hfc (hst.own hco) (hst.tight hct))

/-- Accounts that were there: their parent pointers stay, and the children of an account move exactly if it gets one more than
its table has room for. -/
theorem Grow.old {next : Nat} {t t' : Node} (h : Grow next t t') (q : Path) {x : Node} (hx : t.at? q = some x) :
    ∃ x', t'.at? q = some x' ∧ x'.parent = x.parent ∧ x.children.length ≤ x'.children.length ∧ x'.children.length ≤ x.children.length + 1 ∧
      ∀ m y, Node.getChild m x.children = some y → ∃ y', Node.getChild m x'.children = some y' ∧ y'.parent = y.parent ∧
        ((x'.children.length ≠ x.children.length ∧ Full x.children.length ∧ next ≤ y'.addr) ∨
          (¬ (x'.children.length ≠ x.children.length ∧ Full x.children.length) ∧ y'.addr = y.addr)) := by
  have same : ∀ t x : Node, t.at? q = some x → ∃ x', t.at? q = some x' ∧ x'.parent = x.parent ∧ x.children.length ≤ x'.children.length ∧
      x'.children.length ≤ x.children.length + 1 ∧
      ∀ m y, Node.getChild m x.children = some y → ∃ y', Node.getChild m x'.children = some y' ∧ y'.parent = y.parent ∧
        ((x'.children.length ≠ x.children.length ∧ Full x.children.length ∧ next ≤ y'.addr) ∨
          (¬ (x'.children.length ≠ x.children.length ∧ Full x.children.length) ∧ y'.addr = y.addr)) := fun t x hx =>
    ⟨x, hx, rfl, Nat.le_refl _, by omega, fun m y hy => ⟨y, hy, rfl, Or.inr ⟨by simp, rfl⟩⟩⟩
  induction h generalizing q x with
  | same t => exact same t x hx
  | @down a pa an ca ap l1 l2 c c' h hn ih =>
    cases q with
    | nil =>
      rw [Node.at?_nil] at hx
      injection hx with hx
      subst hx
      refine ⟨_, Node.at?_nil _, rfl, by simp [Node.children], by simp [Node.children], ?_⟩
      intro m y hy
      simp only [Node.children] at hy ⊢
      rcases getChild_swap (m := m) (l1 := l1) (l2 := l2) hn with ⟨z, h1, h2⟩ | ⟨h1, h2⟩ | h1
      · rw [h1] at hy
        injection hy with hy
        exact ⟨z, h2, by rw [hy], Or.inr ⟨by simp, by rw [hy]⟩⟩
      · rw [h1] at hy
        injection hy with hy
        subst hy
        exact ⟨c', h2, h.root.2, Or.inr ⟨by simp, h.root.1⟩⟩
      · rw [h1] at hy; cases hy
    | cons k q =>
      rw [Node.at?_cons] at hx ⊢
      rcases getChild_swap (m := k) (l1 := l1) (l2 := l2) hn with ⟨z, h1, h2⟩ | ⟨h1, h2⟩ | h1
      · rw [h1] at hx; rw [h2]
        exact ⟨x, hx, rfl, Nat.le_refl _, by omega, fun m y hy => ⟨y, hy, rfl, Or.inr ⟨by simp, rfl⟩⟩⟩
      · rw [h1] at hx; rw [h2]
        exact ih q hx (fun t x hx => ⟨x, hx, rfl, Nat.le_refl _, by omega, fun m y hy => ⟨y, hy, rfl, Or.inr ⟨by simp, rfl⟩⟩⟩)
      · rw [h1] at hx; cases hx
  | @new a pa an ca ap cs ds c hm hp ho =>
    have hl : ds.length = cs.length := hm.length_eq.symm
    have get : ∀ m y, Node.getChild m cs = some y → ∃ b, Node.getChild m (ds ++ [c]) = some (y.moveTo b) ∧
        ((Full cs.length ∧ next ≤ b) ∨ (¬ Full cs.length ∧ b = y.addr)) := by
      intro m y hy
      rw [getChild_append]
      have : ∃ b, Node.getChild m ds = some (y.moveTo b) ∧ ((Full cs.length ∧ next ≤ b) ∨ (¬ Full cs.length ∧ b = y.addr)) := by
        clear hl hx
        revert hm
        generalize cs.length = L
        intro hm
        induction hm with
        | nil => cases hy
        | @cons x d xs ds hxd _ ih =>
          obtain ⟨b, rfl, hb⟩ := hxd
          rw [Node.getChild] at hy ⊢
          rw [moveTo_name]
          split at hy
          · injection hy with hy
            subst hy
            rename_i e
            exact ⟨b, if_pos e, hb⟩
          · rename_i e
            rw [if_neg e]; exact ih hy
      obtain ⟨b, h1, h2⟩ := this
      exact ⟨b, by rw [h1]; rfl, h2⟩
    cases q with
    | nil =>
      rw [Node.at?_nil] at hx
      injection hx with hx
      subst hx
      refine ⟨_, Node.at?_nil _, rfl, by simp [Node.children, hl], by simp [Node.children, hl], ?_⟩
      intro m y hy
      obtain ⟨b, h1, h2⟩ := get m y hy
      refine ⟨_, h1, moveTo_parent _ _, ?_⟩
      simp only [Node.children, List.length_append, List.length_singleton, hl, moveTo_addr]
      rcases h2 with ⟨h2, h3⟩ | ⟨h2, h3⟩
      · exact Or.inl ⟨by omega, h2, h3⟩
      · exact Or.inr ⟨fun h => h2 h.2, h3⟩
    | cons k q =>
      rw [Node.at?_cons] at hx ⊢
      cases hz : Node.getChild k cs with
      | none => rw [hz] at hx; cases hx
      | some z =>
        obtain ⟨b, h1, _⟩ := get k z hz
        rw [hz] at hx
        rw [h1]
        simp only [Option.bind_some] at hx ⊢
        cases q with
        | nil =>
          rw [Node.at?_nil] at hx
          injection hx with hx
          subst hx
          refine ⟨_, Node.at?_nil _, moveTo_parent _ _, ?_⟩
          rw [moveTo_children]
          exact ⟨Nat.le_refl _, by omega, fun m y hy => ⟨y, hy, rfl, Or.inr ⟨by simp, rfl⟩⟩⟩
        | cons l q =>
          rw [moveTo_at?]
          exact ⟨x, hx, rfl, Nat.le_refl _, by omega, fun m y hy => ⟨y, hy, rfl, Or.inr ⟨by simp, rfl⟩⟩⟩

/-- New accounts point to the accounts they are in. -/
theorem Grow.fresh {next : Nat} {t t' : Node} (h : Grow next t t') (q : Path) {x' y' : Node} {m : Str} (hx : t'.at? q = some x')
    (hy : Node.getChild m x'.children = some y') (hn : t.at? (q ++ [m]) = none) : y'.parent = some x'.addr := by
  have path : ∀ {t x y : Node} {q : Path}, t.at? q = some x → Node.getChild m x.children = some y → t.at? (q ++ [m]) = some y := by
    intro t x y q hx hy
    rw [Node.at?_append, hx]
    show x.at? [m] = some y
    rw [at?_cons', hy]
    exact Node.at?_nil y
  induction h generalizing q with
  | same t => rw [path hx hy] at hn; cases hn
  | @down a pa an ca ap l1 l2 c c' h hcn ih =>
    cases q with
    | nil =>
      rw [Node.at?_nil] at hx
      injection hx with hx
      subst hx
      simp only [Node.children] at hy
      rw [List.nil_append, Node.at?_cons] at hn
      exfalso
      rcases getChild_swap (m := m) (l1 := l1) (l2 := l2) hcn with ⟨z, h1, h2⟩ | ⟨h1, h2⟩ | h1
      · rw [h1] at hn; simp [Node.at?_nil] at hn
      · rw [h1] at hn; simp [Node.at?_nil] at hn
      · rcases getChild_swap (m := m) (l1 := l1) (l2 := l2) hcn.symm with ⟨z, h3, h4⟩ | ⟨h3, h4⟩ | h3
        · rw [h1] at h4; cases h4
        · rw [h1] at h4; cases h4
        · rw [h3] at hy; cases hy
    | cons k q =>
      rw [List.cons_append, Node.at?_cons] at hn
      rw [Node.at?_cons] at hx
      rcases getChild_swap (m := k) (l1 := l1) (l2 := l2) hcn.symm with ⟨z, h1, h2⟩ | ⟨h1, h2⟩ | h1
      · rw [h1] at hx; rw [h2] at hn
        rw [show (some z).bind (fun x => x.at? (q ++ [m])) = some y' from path hx hy] at hn
        cases hn
      · rw [h1] at hx; rw [h2] at hn
        exact ih q hx hn
      · rw [h1] at hx; cases hx
  | @new a pa an ca ap cs ds c hm hp ho =>
    have get : ∀ m y, Node.getChild m (ds ++ [c]) = some y → (∃ x b, Node.getChild m cs = some x ∧ y = x.moveTo b) ∨ y = c := by
      intro m y hy
      rw [getChild_append] at hy
      cases hd : Node.getChild m ds with
      | none =>
        rw [hd, Option.none_or, Node.getChild] at hy
        split at hy
        · injection hy with hy; exact Or.inr hy.symm
        · cases hy
      | some d =>
        rw [hd] at hy
        injection hy with hy
        subst hy
        left
        clear hx hn hy
        revert hm
        generalize cs.length = L
        intro hm
        induction hm with
        | nil => cases hd
        | @cons x d' xs ds hxd _ ih =>
          obtain ⟨b, rfl, _⟩ := hxd
          rw [Node.getChild, moveTo_name] at hd
          rw [Node.getChild]
          split at hd
          · injection hd with hd
            rename_i e
            exact ⟨x, b, if_pos e, hd.symm⟩
          · rename_i e
            rw [if_neg e]; exact ih hd
    cases q with
    | nil =>
      rw [Node.at?_nil] at hx
      injection hx with hx
      subst hx
      rw [List.nil_append, Node.at?_cons] at hn
      rcases get m y' hy with ⟨x, b, h1, _⟩ | rfl
      · rw [h1] at hn; simp [Node.at?_nil] at hn
      · exact hp
    | cons k q =>
      rw [List.cons_append, Node.at?_cons] at hn
      rw [Node.at?_cons] at hx
      cases hz : Node.getChild k (ds ++ [c]) with
      | none => rw [hz] at hx; cases hx
      | some z =>
        rw [hz] at hx
        simp only [Option.bind_some] at hx
        rcases get k z hz with ⟨z0, b, h1, rfl⟩ | rfl
        · rw [h1] at hn
          simp only [Option.bind_some] at hn
          have h2 := path hx hy
          cases q with
          | nil => rw [List.nil_append, moveTo_at?] at h2; rw [List.nil_append, h2] at hn; cases hn
          | cons l q => rw [List.cons_append, moveTo_at?] at h2; rw [List.cons_append, h2] at hn; cases hn
        · exact ho x' (Node.at?_mem hx) y' (Node.getChild_some hy).1

end Heap
end Ledger
