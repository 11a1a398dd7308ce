import Verif.Lemmas.HeapGrow
import Verif.Props.Stale
/-
The parent pointers of a tree of accounts are stale exactly if the paths that were registered displace an account.
-/
namespace Ledger
open Ledger.Memory
namespace Heap

theorem register_grow {s s' : State} {n : Str} {b : Nat} (h : s.register n = .ok (s', some b)) : Grow s.next s.master s'.master := by
  unfold State.register at h
  cases hg : findOrCreateGo (n.length + 1) s.next s.master n true with
  | error e => rw [hg] at h; cases h
  | ok v =>
    obtain ⟨m, next, r⟩ := v
    rw [hg] at h
    simp only [bind, Except.bind] at h
    injection h with h
    injection h with h1 h2
    subst h2
    rw [← h1]
    exact go_grow _ _ _ _ hg

/-- The tree has the accounts that the paths lead to or through. -/
def Holds (t : Node) (ps : List Path) : Prop := t.erase.WF ∧ ∀ q, t.erase.Has q ↔ q = [] ∨ ∃ p ∈ ps, q <+: p

theorem holds_new : Holds State.new.master [] := by
  refine ⟨Account.reachable_wf (Reach.erase (s := State.new) .refl), fun q => ?_⟩
  rw [show State.new.master.erase = Account.new [] from rfl, Account.has_iff_postsAt, Account.postsAt_new]
  cases q <;> simp

theorem Holds.register {s s' : State} {ps : List Path} {n : Str} {b : Option Nat} (h : Holds s.master ps)
    (hr : s.register n = .ok (s', b)) : Holds s'.master (ps ++ [pathOf n]) := by
  obtain ⟨_, p?, h1, _⟩ := register_sim hr
  rw [Account.findOrCreate_create _ _ h.1] at h1
  injection h1 with h1
  injection h1 with h1 _
  rw [Holds, ← h1]
  refine ⟨Account.ensure_wf h.1 (pathOf_parts n), fun q => ?_⟩
  rw [Account.has_ensure, h.2]
  simp only [List.mem_append, List.mem_singleton, or_and_right, exists_or, exists_eq_left, or_assoc]

theorem Holds.push {s : State} {ps : List Path} (hi : Inv s) (h : Holds s.master ps) {p : Path} {x : Node} (hx : s.master.at? p = some x)
    (r : PostRef) : Holds (s.push x.addr r).master ps := by
  rw [Holds, push_erase hi hx]
  exact ⟨Account.pushPost_wf _ _ h.1, fun q => by rw [Account.has_pushPost, h.2]⟩

theorem Holds.at {t : Node} {ps : List Path} (h : Holds t ps) (q : Path) : (t.at? q).isSome ↔ q = [] ∨ ∃ p ∈ ps, q <+: p := by
  rw [← h.2 q, Account.Has, Node.at?_erase, Option.isSome_map]

theorem Holds.kids {t x : Node} {ps : List Path} (h : Holds t ps) {q : Path} (hx : t.at? q = some x) (k : Nat) :
    x.children.length ≤ k ↔ AtMost k (Below ps q) := by
  have hex : t.erase.at? q = some x.erase := by rw [Node.at?_erase, hx]; rfl
  have hwx := Account.at?_wf h.1 hex
  have hnd : (x.children.map Node.name).Nodup := by
    obtain ⟨xa, xp, xn, xc, xps, cs⟩ := x
    rw [Node.erase_mk] at hwx
    have := ((Account.wf_mk _ _ _).mp hwx).1
    simpa [List.map_map, Function.comp_def, Node.erase_name, Node.children] using this
  have hmem : ∀ n, n ∈ x.children.map Node.name ↔ Below ps q n := by
    intro n
    have h1 := h.at (q ++ [n])
    have h2 : (∃ p ∈ ps, q ++ [n] <+: p) ↔ (t.at? (q ++ [n])).isSome := by rw [h1]; simp
    show _ ↔ ∃ p ∈ ps, q ++ [n] <+: p
    rw [h2, Node.at?_append, hx]
    show _ ↔ (x.at? [n]).isSome
    rw [at?_cons', List.mem_map]
    cases hg : Node.getChild n x.children with
    | some c => exact iff_of_true ⟨c, Node.getChild_some hg⟩ (by simp [Node.at?_nil])
    | none =>
      refine iff_of_false ?_ (by simp)
      rintro ⟨c, hc, hn⟩
      exact Node.getChild_none hg c hc hn
  have := length_le_of_atMost (n := k) hnd hmem
  rw [List.length_map] at this
  exact this.symm

/-- The pointer from the account `q ++ [n, m]` to the account it is in becomes stale. -/
def Late (ps : List Path) (q : Path) (n m : Str) : Prop :=
  ∃ ps₁ ps₂, ps = ps₁ ++ ps₂ ∧ (∃ p ∈ ps₁, q ++ [n, m] <+: p) ∧ Overfills (Below ps₁ q) (Below ps q)

theorem displaced_iff (ps : List Path) : Displaced ps ↔ ∃ q n m, Late ps q n m := by
  constructor
  · rintro ⟨p1, p2, q, n, m, h⟩; exact ⟨q, n, m, p1, p2, h⟩
  · rintro ⟨q, n, m, p1, p2, h⟩; exact ⟨p1, p2, q, n, m, h⟩

theorem Below.append {ps : List Path} {q : Path} {n : Str} (h : Below ps q n) (ps' : List Path) : Below (ps ++ ps') q n := by
  obtain ⟨p, hp, h⟩ := h
  exact ⟨p, List.mem_append_left _ hp, h⟩

theorem AtMost.mono {α : Type} {k : Nat} {P Q : α → Prop} (h : AtMost k Q) (hpq : ∀ x, P x → Q x) : AtMost k P :=
  fun l hl hp => h l hl (fun x hx => hpq x (hp x hx))

theorem Late.append {ps : List Path} {q : Path} {n m : Str} (h : Late ps q n m) (ps' : List Path) : Late (ps ++ ps') q n m := by
  obtain ⟨p1, p2, rfl, h1, k, hk, h2, h3⟩ := h
  exact ⟨p1, p2 ++ ps', by rw [List.append_assoc], h1, k, hk, h2, fun h => h3 (AtMost.mono h fun x hx => Below.append hx ps')⟩

theorem Late.snoc {ps : List Path} {p : Path} {q : Path} {n m : Str} (h : Late (ps ++ [p]) q n m) :
    (∃ p' ∈ ps, q ++ [n, m] <+: p') ∧ ∃ ps₁ ps₂, ps = ps₁ ++ ps₂ ∧ (∃ p ∈ ps₁, q ++ [n, m] <+: p) ∧ Overfills (Below ps₁ q) (Below (ps ++ [p]) q) := by
  obtain ⟨p1, p2, he, ⟨p', hp', h1⟩, h2⟩ := h
  cases p2 using List.reverseRecOn with
  | nil =>
    rw [List.append_nil] at he
    subst he
    obtain ⟨k, _, h3, h4⟩ := h2
    exact absurd h3 h4
  | append_singleton p2 p0 =>
    rw [← List.append_assoc] at he
    obtain ⟨he, _⟩ := List.append_inj' he rfl
    subst he
    exact ⟨⟨p', List.mem_append_left _ hp', h1⟩, p1, p2, rfl, ⟨p', hp', h1⟩, h2⟩

/-- Every parent pointer is right except those that became stale. -/
def Parents (t : Node) (ps : List Path) : Prop :=
  ∀ q n m x z y, t.at? q = some x → Node.getChild n x.children = some z → Node.getChild m z.children = some y →
    (y.parent = some z.addr ↔ ¬ Late ps q n m)

theorem at?_snoc_eq {t x : Node} {q : Path} (hx : t.at? q = some x) (m : Str) : t.at? (q ++ [m]) = Node.getChild m x.children := by
  rw [Node.at?_append, hx]
  show x.at? [m] = _
  rw [at?_cons']
  cases Node.getChild m x.children with
  | none => rfl
  | some y => exact Node.at?_nil y

theorem Parents.register {s s' : State} {ps : List Path} {n0 : Str} {b : Nat} (hi : Inv s) (hh : Holds s.master ps) (h : Parents s.master ps)
    (hr : s.register n0 = .ok (s', some b)) : Parents s'.master (ps ++ [pathOf n0]) := by
  have hg := register_grow hr
  have hh' := hh.register hr
  intro q n m x' z' y' hx' hz' hy'
  have hqz' : s'.master.at? (q ++ [n]) = some z' := by rw [at?_snoc_eq hx', hz']
  cases hy : s.master.at? (q ++ [n, m]) with
  | none =>
    refine iff_of_true (hg.fresh (q ++ [n]) hqz' hy' (by simpa using hy)) ?_
    intro hl
    have := (hh.at (q ++ [n, m])).mpr (Or.inr hl.snoc.1)
    rw [hy] at this; cases this
  | some y =>
    have hy2 : s.master.at? ((q ++ [n]) ++ [m]) = some y := by simpa using hy
    have hz : ∃ z, s.master.at? (q ++ [n]) = some z := by
      rw [Node.at?_append] at hy2
      cases hz : s.master.at? (q ++ [n]) with
      | none => rw [hz] at hy2; cases hy2
      | some z => exact ⟨z, rfl⟩
    obtain ⟨z, hz⟩ := hz
    have hx : ∃ x, s.master.at? q = some x := by
      rw [Node.at?_append] at hz
      cases hx : s.master.at? q with
      | none => rw [hx] at hz; cases hz
      | some x => exact ⟨x, rfl⟩
    obtain ⟨x, hx⟩ := hx
    have hzx : Node.getChild n x.children = some z := by rw [← at?_snoc_eq hx, hz]
    have hyz : Node.getChild m z.children = some y := by rw [← at?_snoc_eq hz, hy2]
    obtain ⟨x1, a1, _, a3, a4, a5⟩ := hg.old q hx
    rw [hx'] at a1
    injection a1 with a1
    subst a1
    obtain ⟨z1, b1, _, b3⟩ := a5 n z hzx
    rw [hz'] at b1
    injection b1 with b1
    subst b1
    obtain ⟨z2, c1, _, _, _, c5⟩ := hg.old (q ++ [n]) hz
    rw [hqz'] at c1
    injection c1 with c1
    subst c1
    obtain ⟨y1, d1, d2, _⟩ := c5 m y hyz
    rw [hy'] at d1
    injection d1 with d1
    subst d1
    have k1 := hh.kids hx
    have k2 := hh'.kids hx'
    rcases b3 with ⟨e1, e2, e3⟩ | ⟨e1, e2⟩
    · refine iff_of_false ?_ ?_
      · rw [d2]
        obtain ⟨p, f1, f2⟩ := hi.linked z (Node.at?_mem hz) y (Node.getChild_some hyz).1
        rw [f1]
        intro e
        injection e with e
        subst e
        rcases f2 with f2 | f2
        · have := hi.below z.addr (Node.addr_mem_of (Node.at?_mem hz))
          omega
        · have := f2.1; omega
      · intro hn
        apply hn
        have hpre : ∃ p ∈ ps, q ++ [n, m] <+: p := by
          have := (hh.at (q ++ [n, m])).mp (by rw [hy]; rfl)
          simpa using this
        refine ⟨ps, [pathOf n0], rfl, hpre, x.children.length, e2, (k1 _).mp (Nat.le_refl _), fun h => ?_⟩
        have := (k2 _).mpr h
        omega
    · rw [d2, e2, h q n m x z y hx hzx hyz]
      refine not_congr ⟨fun hl => hl.append _, fun hl => ?_⟩
      obtain ⟨_, p1, p2, f1, f2, k, f3, f4, f5⟩ := hl.snoc
      refine ⟨p1, p2, f1, f2, k, f3, f4, fun h => e1 ?_⟩
      have g1 := (k1 k).mpr h
      have g2 : ¬ x'.children.length ≤ k := fun h => f5 ((k2 k).mp h)
      have : x.children.length = k := by omega
      exact ⟨by omega, this ▸ f3⟩

theorem Parents.push {t : Node} {ps : List Path} (h : Parents t ps) {a : Nat} {r : PostRef} : Parents (t.mutate a (pushNode r)) ps := by
  have hm := mild_push r
  intro q n m x' z' y' hx hz hy
  rw [mutate_at? hm] at hx
  cases hx0 : t.at? q with
  | none => rw [hx0] at hx; cases hx
  | some x =>
    rw [hx0] at hx
    injection hx with hx
    subst hx
    rw [mutate_children hm, mutate_getChild hm] at hz
    cases hz0 : Node.getChild n x.children with
    | none => rw [hz0] at hz; cases hz
    | some z =>
      rw [hz0] at hz
      injection hz with hz
      subst hz
      rw [mutate_children hm, mutate_getChild hm] at hy
      cases hy0 : Node.getChild m z.children with
      | none => rw [hy0] at hy; cases hy
      | some y =>
        rw [hy0] at hy
        injection hy with hy
        subst hy
        rw [mutate_parent hm, mutate_addr hm]
        exact h q n m x z y hx0 hz0 hy0

theorem Books.parents {s : State} {homes : List Nat} {bs : List (PostRef × Path)} (h : Books s homes bs) :
    Holds s.master (bs.map (·.2)) ∧ Parents s.master (bs.map (·.2)) ∧ ∀ p x, s.master.at? p = some x → x.cache = [] := by
  induction h with
  | new =>
    have key : ∀ p x, State.new.master.at? p = some x → x = State.new.master := by
      intro p x hx
      cases p with
      | nil => rw [Node.at?_nil] at hx; injection hx with hx; exact hx.symm
      | cons n p => rw [at?_cons'] at hx; cases hx
    refine ⟨holds_new, ?_, ?_⟩
    · intro q n m x z y hx hz
      rw [key q x hx] at hz
      cases hz
    · intro p x hx; rw [key p x hx]; rfl
  | @post s s' homes bs n a r h hr ih =>
    obtain ⟨i1, i2, i3⟩ := ih
    rw [List.map_append, List.map_cons, List.map_nil, push_eq]
    have hpush : Holds (s'.push a r).master (bs.map (·.2) ++ [pathOf n]) := by
      obtain ⟨_, p?, _, hpt⟩ := register_sim hr
      cases p? with
      | none => exact absurd hpt id
      | some p =>
        obtain ⟨_, x, hx, rfl⟩ := hpt
        exact (i1.register hr).push (h.reach.inv.register hr) hx r
    refine ⟨hpush, (i2.register h.reach.inv i1 hr).push, ?_⟩
    intro p x hx
    rw [mutate_at? (mild_push r)] at hx
    cases hx0 : s'.master.at? p with
    | none => rw [hx0] at hx; cases hx
    | some y =>
      rw [hx0] at hx
      injection hx with hx
      rw [← hx, mutate_push_cache]
      rcases (register_sim hr).1.caches p y hx0 with h1 | ⟨z, hz, h1⟩
      · exact h1
      · rw [← h1]; exact i3 p z hz

/-- The pointers to the accounts above are all right exactly if no account was displaced. -/
theorem Books.parentsRight {s : State} {homes : List Nat} {bs : List (PostRef × Path)} (h : Books s homes bs) :
    ParentsRight s ↔ ¬ Displaced (bs.map (·.2)) := by
  obtain ⟨h1, h2, _⟩ := h.parents
  rw [displaced_iff]
  constructor
  · rintro hp ⟨q, n, m, hl⟩
    have hy : (s.master.at? (q ++ [n, m])).isSome := by
      obtain ⟨p1, p2, he, ⟨p, hp, hpre⟩, _⟩ := hl
      exact (h1.at _).mpr (Or.inr ⟨p, by rw [he]; exact List.mem_append_left _ hp, hpre⟩)
    obtain ⟨y, hy⟩ := Option.isSome_iff_exists.mp hy
    rw [show q ++ [n, m] = (q ++ [n]) ++ [m] by simp] at hy
    cases hz : s.master.at? (q ++ [n]) with
    | none => rw [Node.at?_append, hz] at hy; cases hy
    | some z =>
      cases hx : s.master.at? q with
      | none => rw [Node.at?_append, hx] at hz; cases hz
      | some x =>
        rw [at?_snoc_eq hz] at hy
        have hz' := hz
        rw [at?_snoc_eq hx] at hz'
        exact (h2 q n m x z y hx hz' hy).mp (hp z (Node.at?_mem hz) y (Node.getChild_some hy).1) hl
  · intro hn x hx c hc
    obtain ⟨p, hp⟩ := mem_at? h1.1 hx
    have hcx : Node.getChild c.name x.children = some c := by
      refine getChild_mem_of_nodup ?_ hc
      have hex : s.master.erase.at? p = some x.erase := by rw [Node.at?_erase, hp]; rfl
      have hwx := Account.at?_wf h1.1 hex
      obtain ⟨xa, xp, xn, xc, xps, cs⟩ := x
      rw [Node.erase_mk] at hwx
      have := ((Account.wf_mk _ _ _).mp hwx).1
      simpa [List.map_map, Function.comp_def, Node.erase_name, Node.children] using this
    cases p using List.reverseRecOn with
    | nil =>
      rw [Node.at?_nil] at hp
      injection hp with hp
      subst hp
      exact h.reach.inv.own c hc
    | append_singleton q n =>
      cases hz : s.master.at? q with
      | none => rw [Node.at?_append, hz] at hp; cases hp
      | some z =>
        rw [at?_snoc_eq hz] at hp
        exact (h2 q n c.name z x c hz hp hcx).mpr (fun hl => hn ⟨q, n, c.name, hl⟩)

end Heap
end Ledger
