import Verif.Lemmas.HeapParents
import Verif.Props.Heap
/-
Names are made exactly of the accounts above, if the pointers to them are right.
-/
namespace Ledger
namespace Heap

theorem ParentsRight.mutate {s : State} (h : ParentsRight s) (a : Nat) {f : Node → Node} (hf : Mild f) :
    ParentsRight { s with master := s.master.mutate a f } := by
  intro x hx c hc
  rw [mutate_nodes hf] at hx
  obtain ⟨x0, hx0, rfl⟩ := List.mem_map.mp hx
  rw [mutate_children hf] at hc
  obtain ⟨c0, hc0, rfl⟩ := List.mem_map.mp hc
  rw [mutate_parent hf, mutate_addr hf]
  exact h x0 hx0 c0 hc0

/-- Where all pointers to the accounts above are right, climbing ends well. -/
theorem climb_right {s : State} (h : Inv s) (hp : ParentsRight s) (p : Path) {x : Node} (hx : s.master.at? p = some x) (text : Str)
    (fuel : Nat) (hf : p.length < fuel) : ∃ t, s.climb fuel x text = .ok t := by
  induction p using List.reverseRecOn generalizing x text fuel with
  | nil =>
    rw [Node.at?_nil] at hx; injection hx with hx
    obtain ⟨k, rfl⟩ : ∃ k, fuel = k + 1 := ⟨fuel - 1, by simp at hf; omega⟩
    rw [State.climb, ← hx, h.noParent]
    exact ⟨_, rfl⟩
  | append_singleton q n ih =>
    obtain ⟨k, rfl⟩ : ∃ k, fuel = k + 1 := ⟨fuel - 1, by simp at hf; omega⟩
    obtain ⟨y, hy, hyx, hn⟩ := Node.at?_snoc hx
    rw [State.climb, hp y (Node.at?_mem hy) x hyx]
    simp only [deref_ok h.uniq (Node.at?_mem hy), bind, Except.bind]
    exact ih hy _ k (by simp at hf; omega)

/-- Making a name writes it into the account and changes nothing else. -/
theorem fullname_shape {s s' : State} {a : Nat} {n : Str} (h : s.fullname a = .ok (s', n)) :
    s' = s ∨ ∃ c, s' = { s with master := s.master.mutate a (Node.setCache c) } := by
  unfold State.fullname at h
  cases hd : s.deref a with
  | error e => rw [hd] at h; cases h
  | ok x =>
    rw [hd] at h
    simp only [bind, Except.bind] at h
    split at h
    · injection h with h; injection h with h; exact Or.inl h.symm
    · split at h
      · injection h with h; injection h with h; exact Or.inl h.symm
      · cases hc : s.climb ((Node.nodes s.master).length + 1) x x.name with
        | error e => rw [hc] at h; cases h
        | ok t => rw [hc] at h; injection h with h; injection h with h _; exact Or.inr ⟨_, h.symm⟩

theorem fullname_right {s : State} (h : Inv s) (hp : ParentsRight s) {p : Path} {x : Node} (hx : s.master.at? p = some x) :
    ∃ s' n, s.fullname x.addr = .ok (s', n) ∧ ParentsRight s' := by
  have hex : ∃ s' n, s.fullname x.addr = .ok (s', n) := by
    rcases (fullname_spec h hx).1 with ⟨s', h1, _⟩ | ⟨h1, _⟩
    · exact ⟨s', _, h1⟩
    · unfold State.fullname at h1 ⊢
      rw [deref_ok h.uniq (Node.at?_mem hx)] at h1 ⊢
      simp only [bind, Except.bind] at h1 ⊢
      split
      · exact ⟨_, _, rfl⟩
      · split
        · exact ⟨_, _, rfl⟩
        · obtain ⟨t, ht⟩ := climb_right h hp p hx x.name _ (Nat.lt_succ_of_lt (Node.depth_lt hx))
          rw [ht]
          exact ⟨_, _, rfl⟩
  obtain ⟨s', n, hn⟩ := hex
  refine ⟨s', n, hn, ?_⟩
  rcases fullname_shape hn with rfl | ⟨c, rfl⟩
  · exact hp
  · exact hp.mutate _ (mild_cache c)

/-- A name that was not made before is made only if the pointer to the account above is right. -/
theorem fullname_parent {s s' : State} (h : Inv s) {q : Path} {x y : Node} (hy : s.master.at? q = some y) (hyx : x ∈ y.children)
    (hx : x ∈ Node.nodes s.master) (hc : x.cache = []) {n : Str} (hn : s.fullname x.addr = .ok (s', n)) : x.parent = some y.addr := by
  obtain ⟨b, hb, hb2⟩ := h.linked y (Node.at?_mem hy) x hyx
  rcases hb2 with e | e
  · rw [hb, e]
  · exfalso
    unfold State.fullname at hn
    rw [deref_ok h.uniq hx] at hn
    simp only [bind, Except.bind] at hn
    rw [if_neg (by rw [hb]; simp), if_neg (by simp [hc]), State.climb, hb] at hn
    simp only [deref_gone e.2, bind, Except.bind] at hn
    cases hn

/-- The path leads to an account with no name made yet. -/
def Blank (s : State) (p : Path) : Prop := ∀ x, s.master.at? p = some x → x.cache = []

theorem fullname_blank {s s' : State} (h : Inv s) {p : Path} {x : Node} (hx : s.master.at? p = some x) {n : Str}
    (hn : s.fullname x.addr = .ok (s', n)) {q : Path} (hq : q ≠ p) (hb : Blank s q) : Blank s' q := by
  rcases fullname_shape hn with rfl | ⟨c, rfl⟩
  · exact hb
  · intro z hz
    change (s.master.mutate _ _).at? q = some z at hz
    rw [mutate_at? (mild_cache _)] at hz
    cases hz0 : s.master.at? q with
    | none => rw [hz0] at hz; cases hz
    | some z0 =>
      rw [hz0, Option.map_some] at hz
      injection hz with hz
      have h0 := hb z0 hz0
      have ez : z0.addr ≠ x.addr := fun e => hq (Node.at?_inj h.uniq hz0 hx e)
      obtain ⟨zb, zp, zn, zc, zps, zcs⟩ := z0
      change zb ≠ x.addr at ez
      rw [mutate_mk, if_neg ez] at hz
      rw [← hz]; exact h0

/-- The pointer from the account at `p` to the account above is right. -/
def RightAt (s : State) (p : Path) : Prop :=
  ∀ q n y x, p = q ++ [n] → s.master.at? q = some y → s.master.at? p = some x → x.parent = some y.addr

theorem fullname_rightAt {s s' : State} {a : Nat} {n : Str} (hn : s.fullname a = .ok (s', n)) {p : Path} (h : RightAt s' p) : RightAt s p := by
  rcases fullname_shape hn with rfl | ⟨c, rfl⟩
  · exact h
  · intro q m y x hp hy hx
    have := h q m (y.mutate a (Node.setCache c)) (x.mutate a (Node.setCache c)) hp
      (by show (s.master.mutate _ _).at? q = _; rw [mutate_at? (mild_cache _), hy]; rfl)
      (by show (s.master.mutate _ _).at? p = _; rw [mutate_at? (mild_cache _), hx]; rfl)
    rwa [mutate_parent (mild_cache _), mutate_addr (mild_cache _)] at this

theorem fullname_rightAt' {s s' : State} (h : Inv s) {p : Path} {x : Node} (hx : s.master.at? p = some x) (hb : Blank s p) {n : Str}
    (hn : s.fullname x.addr = .ok (s', n)) : RightAt s p := by
  intro q m y x' hp hy hx'
  rw [hx] at hx'
  injection hx' with hx'
  subst hx' hp
  obtain ⟨y', hy', hyx, _⟩ := Node.at?_snoc hx
  rw [hy] at hy'
  injection hy' with hy'
  subst hy'
  exact fullname_parent h hy hyx (Node.at?_mem hx) (hb x hx) hn

theorem rightAt_all {s : State} (hw : s.master.erase.WF) (h : ∀ p, (s.master.at? p).isSome → RightAt s p) : ParentsRight s := by
  intro x hx c hc
  obtain ⟨p, hp⟩ := mem_at? hw hx
  have hcx : Node.getChild c.name x.children = some c := by
    refine getChild_mem_of_nodup ?_ hc
    have hex : s.master.erase.at? p = some x.erase := by rw [Node.at?_erase, hp]; rfl
    have hwx := Account.at?_wf hw hex
    obtain ⟨xa, xp, xn, xc, xps, cs⟩ := x
    rw [Node.erase_mk] at hwx
    have := ((Account.wf_mk _ _ _).mp hwx).1
    simpa [List.map_map, Function.comp_def, Node.erase_name, Node.children] using this
  have hc' : s.master.at? (p ++ [c.name]) = some c := by rw [at?_snoc_eq hp]; exact hcx
  exact h _ (by rw [hc']; rfl) p c.name x c rfl hp hc'

/-- Where at most three accounts are below each account that has others two levels below it, all pointers to the accounts above are right. -/
theorem parents_narrow {s : State} (h : Inv s) (hn : Narrow s.master.erase) (hw : s.master.erase.WF) : ParentsRight s := by
  refine rightAt_all hw (fun p hp q n y x e hy hx => ?_)
  subst e
  obtain ⟨y', hy', hyx, _⟩ := Node.at?_snoc hx
  rw [hy] at hy'
  injection hy' with hy'
  subst hy'
  have hsm := narrow_small hn _ hp
  have hown : Own y := by
    cases q using List.reverseRecOn with
    | nil => rw [Node.at?_nil] at hy; injection hy with hy; rw [← hy]; exact h.own
    | append_singleton q' m =>
      obtain ⟨z, hz, hzy, _⟩ := Node.at?_snoc hy
      refine h.tight z (Node.at?_mem hz) (hsm q' z ?_ ?_ hz) y hzy
      · rw [List.append_assoc]; exact List.prefix_append _ _
      · simp
  exact hown x hyx

end Heap
end Ledger
