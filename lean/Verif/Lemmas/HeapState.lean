import Verif.Lemmas.Heap
import Verif.Spec.Heap
import Mathlib.Data.List.Induction
/-
The states of the account tree in memory: what holds in all of them, and what `fullname` does.
-/
namespace Ledger
namespace Heap
open Ledger.Memory

/-! ### mutation of one account -/

/-- A mutation that leaves address, parent, name and children alone. -/
structure Mild (f : Node → Node) : Prop where
  addr : ∀ x, (f x).addr = x.addr
  parent : ∀ x, (f x).parent = x.parent
  name : ∀ x, (f x).name = x.name
  children : ∀ x, (f x).children = x.children

theorem mutateList_eq (a : Nat) (f : Node → Node) (cs : List Node) : Node.mutateList a f cs = cs.map (Node.mutate a f) := by
  induction cs with
  | nil => rfl
  | cons c cs ih => rw [Node.mutateList, ih, List.map_cons]

theorem mutate_mk (a : Nat) (f : Node → Node) (b : Nat) (p : Option Nat) (n c : Str) (ps : List PostRef) (cs : List Node) :
    Node.mutate a f (.mk b p n c ps cs) =
      if b = a then f (.mk b p n c ps (cs.map (Node.mutate a f))) else .mk b p n c ps (cs.map (Node.mutate a f)) := by
  rw [Node.mutate, mutateList_eq]

theorem nodes_eq (x : Node) : Node.nodes x = x :: x.children.flatMap Node.nodes := by
  cases x; rw [Node.nodes_mk]; rfl

theorem at?_cons' (x : Node) (m : Str) (q : Path) : x.at? (m :: q) = (Node.getChild m x.children).bind (fun y => y.at? q) := by
  cases x; rw [Node.at?_cons]; rfl

section
variable {a : Nat} {f : Node → Node} (hf : Mild f)
include hf

theorem mutate_addr (x : Node) : (x.mutate a f).addr = x.addr := by
  cases x; rw [mutate_mk]; split
  · rw [hf.addr]; rfl
  · rfl

theorem mutate_parent (x : Node) : (x.mutate a f).parent = x.parent := by
  cases x; rw [mutate_mk]; split
  · rw [hf.parent]; rfl
  · rfl

theorem mutate_name (x : Node) : (x.mutate a f).name = x.name := by
  cases x; rw [mutate_mk]; split
  · rw [hf.name]; rfl
  · rfl

theorem mutate_children (x : Node) : (x.mutate a f).children = x.children.map (Node.mutate a f) := by
  cases x; rw [mutate_mk]; split
  · rw [hf.children]; rfl
  · rfl

theorem mutate_nodes (x : Node) : Node.nodes (x.mutate a f) = (Node.nodes x).map (Node.mutate a f) := by
  induction x using Node.ind with
  | h b p n c ps cs ih =>
    rw [nodes_eq, mutate_children hf, nodes_eq (.mk b p n c ps cs), List.map_cons, List.map_flatMap, List.flatMap_map]
    congr 1
    exact List.flatMap_congr ih

theorem mutate_addrs (x : Node) : Node.addrs (x.mutate a f) = Node.addrs x := by
  unfold Node.addrs
  rw [mutate_nodes hf, List.map_map]
  exact List.map_congr_left (fun y _ => mutate_addr hf y)

theorem mutate_getChild (m : Str) (cs : List Node) :
    Node.getChild m (cs.map (Node.mutate a f)) = (Node.getChild m cs).map (Node.mutate a f) := by
  induction cs with
  | nil => rfl
  | cons c cs ih =>
    rw [List.map_cons, Node.getChild, Node.getChild, mutate_name hf, ih]
    split <;> rfl

theorem mutate_at? (x : Node) (q : Path) : (x.mutate a f).at? q = (x.at? q).map (Node.mutate a f) := by
  induction q generalizing x with
  | nil => rw [Node.at?_nil, Node.at?_nil]; rfl
  | cons m q ih =>
    rw [at?_cons', at?_cons', mutate_children hf, mutate_getChild hf]
    cases Node.getChild m x.children with
    | none => rfl
    | some c => exact ih c

omit hf in
theorem mutate_gone (x : Node) (h : a ∉ Node.addrs x) : x.mutate a f = x := by
  induction x using Node.ind with
  | h b p n c ps cs ih =>
    rw [Node.addrs_mk, List.mem_cons, not_or] at h
    rw [mutate_mk, if_neg (fun e => h.1 e.symm)]
    congr 1
    conv_rhs => rw [← List.map_id cs]
    apply List.map_congr_left
    intro y hy
    exact ih y hy (fun hm => h.2 (List.mem_flatMap.mpr ⟨y, hy, hm⟩))

/-- In the tree of the model the mutation is the mutation at the path. -/
theorem mutate_erase {g : Account → Account} (hg : ∀ x, (f x).erase = g x.erase) {t x : Node} {p : Path}
    (hu : (Node.addrs t).Nodup) (hx : t.at? p = some x) (ha : x.addr = a) :
    (t.mutate a f).erase = Account.update g p t.erase := by
  induction p generalizing t with
  | nil =>
    rw [Node.at?_nil] at hx; injection hx with hx
    subst hx
    obtain ⟨b, p, n, c, ps, cs⟩ := t
    change b = a at ha
    rw [Node.addrs_mk, List.nodup_cons] at hu
    have : cs.map (Node.mutate a f) = cs := by
      conv_rhs => rw [← List.map_id cs]
      apply List.map_congr_left
      intro y hy
      exact mutate_gone y (fun hm => hu.1 (by rw [ha]; exact List.mem_flatMap.mpr ⟨y, hy, hm⟩))
    rw [mutate_mk, if_pos ha, this, hg]
    rfl
  | cons m p ih =>
    obtain ⟨b, pa, n, c, ps, cs⟩ := t
    rw [Node.at?_cons] at hx
    cases hc : Node.getChild m cs with
    | none => rw [hc] at hx; cases hx
    | some d =>
      rw [hc, Option.bind_some] at hx
      rw [Node.addrs_mk, List.nodup_cons] at hu
      obtain ⟨hnd, hdisj⟩ := List.nodup_flatMap.mp hu.2
      have hdm := (Node.getChild_some hc).1
      have had : a ∈ Node.addrs d := by rw [← ha]; exact Node.addr_mem_of (Node.at?_mem hx)
      have hba : b ≠ a := by
        intro e; exact hu.1 (by rw [e]; exact List.mem_flatMap.mpr ⟨d, hdm, had⟩)
      rw [mutate_mk, if_neg hba, Node.erase_mk, Node.erase_mk, Account.update, Node.getChild_erase, hc]
      simp only [Option.map_some]
      rw [← ih (hnd d hdm) hx, Node.setChild_erase]
      obtain ⟨l1, l2, e1, e2, e3⟩ := Node.getChild_split hc
      rw [e3 _ (by rw [mutate_name hf, (Node.getChild_some hc).2]), e1]
      have hother : ∀ y ∈ l1 ++ l2, Node.mutate a f y = y := by
        intro y hy
        apply mutate_gone
        intro hm
        rw [e1, List.pairwise_append, List.pairwise_cons] at hdisj
        rcases List.mem_append.mp hy with hy | hy
        · exact hdisj.2.2 y hy d (by simp) hm had
        · exact hdisj.2.1.1 y hy had hm
      rw [List.map_append, List.map_cons]
      have h1 : l1.map (Node.mutate a f) = l1 := by
        conv_rhs => rw [← List.map_id l1]
        exact List.map_congr_left (fun y hy => hother y (List.mem_append_left _ hy))
      have h2 : l2.map (Node.mutate a f) = l2 := by
        conv_rhs => rw [← List.map_id l2]
        exact List.map_congr_left (fun y hy => hother y (List.mem_append_right _ hy))
      rw [h1, h2]

theorem mutate_own {x : Node} (h : Own x) : Own (x.mutate a f) := by
  intro c hc
  rw [mutate_children hf] at hc
  obtain ⟨d, hd, rfl⟩ := List.mem_map.mp hc
  rw [mutate_parent hf, mutate_addr hf]; exact h d hd

theorem mutate_tight {t : Node} (h : Tight t) : Tight (t.mutate a f) := by
  intro x hx hl y hy
  rw [mutate_nodes hf] at hx
  obtain ⟨x0, hx0, rfl⟩ := List.mem_map.mp hx
  rw [mutate_children hf] at hy hl
  obtain ⟨y0, hy0, rfl⟩ := List.mem_map.mp hy
  rw [List.length_map] at hl
  exact mutate_own hf (h x0 hx0 hl y0 hy0)

theorem mutate_linked {D : Nat → Prop} {t : Node} (h : Linked D t) : Linked D (t.mutate a f) := by
  intro x hx y hy
  rw [mutate_nodes hf] at hx
  obtain ⟨x0, hx0, rfl⟩ := List.mem_map.mp hx
  rw [mutate_children hf] at hy
  obtain ⟨y0, hy0, rfl⟩ := List.mem_map.mp hy
  rw [mutate_parent hf, mutate_addr hf]; exact h x0 hx0 y0 hy0

end

/-- Pushing a posting. -/
def pushNode (r : PostRef) : Node → Node
  | .mk b p n c ps cs => .mk b p n c (ps ++ [r]) cs

theorem mild_push (r : PostRef) : Mild (pushNode r) := by
  constructor <;> intro x <;> cases x <;> rfl

theorem mild_cache (c : Str) : Mild (Node.setCache c) := by
  constructor <;> intro x <;> cases x <;> rfl

theorem push_eq (s : State) (a : Nat) (r : PostRef) : s.push a r = { s with master := s.master.mutate a (pushNode r) } := rfl

/-! ### the invariant -/

/-- What holds of the account tree in memory at any time. -/
structure Inv (s : State) : Prop where
  uniq : (Node.addrs s.master).Nodup
  below : ∀ a ∈ Node.addrs s.master, a < s.next
  linked : Linked (fun b => b < s.next ∧ b ∉ Node.addrs s.master) s.master
  tight : Tight s.master
  own : Own s.master
  noParent : s.master.parent = none
  noName : s.master.name = []
  caches : ∀ p x, s.master.at? p = some x → x.cache = [] ∨ x.cache = Account.fullname p

theorem inv_new : Inv State.new := by
  refine ⟨by decide, by decide, ?_, ?_, ?_, rfl, rfl, ?_⟩
  · unfold State.new; rw [linked_mk]; simp
  · unfold State.new; rw [tight_mk]; simp
  · intro c hc; cases hc
  · intro p x h
    cases p with
    | nil => rw [Node.at?_nil] at h; injection h with h; rw [← h]; exact Or.inl rfl
    | cons m q => unfold State.new at h; rw [Node.at?_cons] at h; cases h

theorem Inv.step {s : State} {m : Node} {next : Nat} (h : Inv s) (hs : Step s.next s.master m next) : Inv ⟨m, next⟩ where
  uniq := hs.uniq h.uniq h.below
  below := hs.below h.below
  linked := by
    refine hs.linked _ h.uniq h.below (h.linked.mono ?_) ?_
    · rintro b ⟨h1, h2⟩
      refine ⟨Nat.lt_of_lt_of_le h1 hs.le, fun h3 => ?_⟩
      rcases hs.addrs b h3 with h4 | h4
      · exact h2 h4
      · omega
    · intro b hb hn
      refine ⟨?_, hn⟩
      rcases hb with hb | hb
      · exact Nat.lt_of_lt_of_le (h.below b hb) hs.le
      · exact hb.2
  tight := hs.tight h.tight
  own := hs.own h.own
  noParent := hs.parent.trans h.noParent
  noName := hs.name.trans h.noName
  caches p x hx := by
    rcases hs.caches p x hx with h1 | ⟨y, hy, h1⟩
    · exact Or.inl h1
    · rw [← h1]; exact h.caches p y hy

theorem register_sim {s s' : State} {n : Str} {r : Option Nat} (hr : s.register n = .ok (s', r)) :
    Step s.next s.master s'.master s'.next ∧
    ∃ p?, s.master.erase.findOrCreate n true = .ok (s'.master.erase, p?) ∧ Points s'.master r p? := by
  unfold State.register at hr
  have h := go_sim (n.length + 1) s.next s.master n true
  cases hg : findOrCreateGo (n.length + 1) s.next s.master n true with
  | error e => rw [hg] at hr; cases hr
  | ok v =>
    obtain ⟨m, next, r'⟩ := v
    rw [hg] at hr h
    simp only [bind, Except.bind, Except.ok.injEq, Prod.mk.injEq] at hr
    obtain ⟨rfl, rfl⟩ := hr
    exact h

theorem Inv.register {s s' : State} {n : Str} {r : Option Nat} (h : Inv s) (hr : s.register n = .ok (s', r)) : Inv s' :=
  h.step (register_sim hr).1

theorem Inv.mutate {s : State} (h : Inv s) {a : Nat} {f : Node → Node} (hf : Mild f)
    (hc : ∀ p x, s.master.at? p = some x → x.addr = a → (f (x.mutate a f)).cache = [] ∨ (f (x.mutate a f)).cache = Account.fullname p)
    (hcc : ∀ x : Node, (f x).cache = (f (f x)).cache) :
    Inv { s with master := s.master.mutate a f } where
  uniq := by rw [mutate_addrs hf]; exact h.uniq
  below := by rw [mutate_addrs hf]; exact h.below
  linked := by rw [mutate_addrs hf]; exact mutate_linked hf h.linked
  tight := mutate_tight hf h.tight
  own := mutate_own hf h.own
  noParent := by rw [mutate_parent hf]; exact h.noParent
  noName := by rw [mutate_name hf]; exact h.noName
  caches p x hx := by
    rw [mutate_at? hf] at hx
    cases hy : s.master.at? p with
    | none => rw [hy] at hx; cases hx
    | some y =>
      rw [hy, Option.map_some] at hx
      injection hx with hx
      by_cases e : y.addr = a
      · have h1 := hc p y hy e
        obtain ⟨b, pa, n, c, ps, cs⟩ := y
        change b = a at e
        rw [mutate_mk, if_pos e] at hx h1
        rw [← hcc, hx] at h1
        exact h1
      · obtain ⟨b, pa, n, c, ps, cs⟩ := y
        change b ≠ a at e
        rw [mutate_mk, if_neg e] at hx
        rw [← hx]
        exact h.caches p (.mk b pa n c ps cs) hy

theorem mutate_push_cache (a : Nat) (r : PostRef) (x : Node) : (x.mutate a (pushNode r)).cache = x.cache := by
  cases x; rw [mutate_mk]; split <;> rfl

theorem Inv.push {s : State} (h : Inv s) (a : Nat) (r : PostRef) : Inv (s.push a r) := by
  rw [push_eq]
  refine h.mutate (mild_push r) ?_ ?_
  · intro p x hx _
    have : (pushNode r (x.mutate a (pushNode r))).cache = x.cache := by
      rw [← mutate_push_cache a r x]; cases x.mutate a (pushNode r); rfl
    rw [this]; exact h.caches p x hx
  · intro x; cases x; rfl

theorem Inv.setCache {s : State} (h : Inv s) {p : Path} {x : Node} (hx : s.master.at? p = some x) :
    Inv { s with master := s.master.mutate x.addr (Node.setCache (Account.fullname p)) } := by
  refine h.mutate (mild_cache _) ?_ ?_
  · intro q y hy e
    have : q = p := Node.at?_inj h.uniq hy hx e
    subst this
    cases y.mutate x.addr _; exact Or.inr rfl
  · intro y; cases y; rfl

theorem setCache_erase (c : Str) (x : Node) : (Node.setCache c x).erase = x.erase := by
  cases x; rw [Node.setCache, Node.erase_mk, Node.erase_mk]

theorem mutate_cache_erase (a : Nat) (c : Str) (t : Node) : (t.mutate a (Node.setCache c)).erase = t.erase := by
  induction t using Node.ind with
  | h b p n d ps cs ih =>
    have h1 : (Node.mk b p n d ps (cs.map (Node.mutate a (Node.setCache c)))).erase = (Node.mk b p n d ps cs).erase := by
      rw [Node.erase_mk, Node.erase_mk, List.map_map]
      congr 1
      exact List.map_congr_left ih
    rw [mutate_mk]; split
    · rw [setCache_erase, h1]
    · exact h1

/-! ### fullname -/

/-- The full name, built from the last name upwards. -/
def addUp (m t : Str) : Str := if m = [] then t else m ++ ':' :: t

theorem fullname_snoc (q : Path) (n : Str) : Account.fullname (q ++ [n]) = q.foldr addUp n := by
  induction q with
  | nil => rfl
  | cons m q ih =>
    rw [List.foldr_cons, ← ih]
    cases q with
    | nil => rfl
    | cons m2 q => rfl

/-- All tables above the parent of an account are small. -/
def SmallAbove (t : Node) (p : Path) : Prop :=
  ∀ q x, q <+: p → q.length + 2 ≤ p.length → t.at? q = some x → x.children.length ≤ 3

theorem at?_name_last {t x : Node} {p : Path} {n : Str} (h : t.at? (p ++ [n]) = some x) : x.name = n := by
  obtain ⟨_, _, _, e⟩ := Node.at?_snoc h; exact e

theorem climb_spec {s : State} (h : Inv s) (p : Path) {x : Node} (hx : s.master.at? p = some x) (text : Str) (fuel : Nat)
    (hf : p.length < fuel) :
    (s.climb fuel x text = .ok (p.dropLast.foldr addUp text) ∨ s.climb fuel x text = .error .danglingPointer) ∧
    (SmallAbove s.master p → s.climb fuel x text = .ok (p.dropLast.foldr addUp text)) := by
  induction p using List.reverseRecOn generalizing x text fuel with
  | nil =>
    rw [Node.at?_nil] at hx; injection hx with hx
    obtain ⟨k, rfl⟩ : ∃ k, fuel = k + 1 := ⟨fuel - 1, by simp at hf; omega⟩
    rw [State.climb, ← hx, h.noParent]
    exact ⟨Or.inl rfl, fun _ => rfl⟩
  | append_singleton q n ih =>
    obtain ⟨k, rfl⟩ : ∃ k, fuel = k + 1 := ⟨fuel - 1, by simp at hf; omega⟩
    obtain ⟨y, hy, hyx, hn⟩ := Node.at?_snoc hx
    obtain ⟨b, hb, hb2⟩ := h.linked y (Node.at?_mem hy) x hyx
    have hup : ∀ text, (if y.name = [] then text else y.name ++ ':' :: text) = (match q.getLast? with | some m => addUp m text | none => text) := by
      intro text
      cases q using List.reverseRecOn with
      | nil => rw [Node.at?_nil] at hy; injection hy with hy; rw [← hy, h.noName]; rfl
      | append_singleton q' m => rw [at?_name_last hy]; simp [addUp]
    have hfold : ∀ text, q.dropLast.foldr addUp (match q.getLast? with | some m => addUp m text | none => text) = q.foldr addUp text := by
      intro text
      cases q using List.reverseRecOn with
      | nil => rfl
      | append_singleton q' m => simp
    have hgo : b = y.addr → s.climb (k + 1) x text = s.climb k y (match q.getLast? with | some m => addUp m text | none => text) := by
      intro e
      rw [State.climb, hb]
      simp only [e, deref_ok h.uniq (Node.at?_mem hy), bind, Except.bind, hup]
    have hrec := ih hy (match q.getLast? with | some m => addUp m text | none => text) k (by simp at hf; omega)
    rw [hfold] at hrec
    rw [List.dropLast_concat]
    constructor
    · rcases hb2 with e | e
      · rw [hgo e]; exact hrec.1
      · refine Or.inr ?_
        rw [State.climb, hb]
        simp only [deref_gone e.2, bind, Except.bind]
    · intro hsm
      have e : b = y.addr := by
        have hown : Own y := by
          cases q using List.reverseRecOn with
          | nil => rw [Node.at?_nil] at hy; injection hy with hy; rw [← hy]; exact h.own
          | append_singleton q' m =>
            obtain ⟨z, hz, hzy, _⟩ := Node.at?_snoc hy
            refine h.tight z (Node.at?_mem hz) (hsm q' z ?_ ?_ hz) y hzy
            · rw [List.append_assoc]; exact List.prefix_append _ _
            · simp
        have := hown x hyx
        rw [hb] at this
        injection this
      rw [hgo e]
      refine hrec.2 ?_
      intro q' z hq hl hz
      exact hsm q' z (hq.trans (List.prefix_append _ _)) (by simp; omega) hz

/-- `fullname` of the account at a path. -/
theorem fullname_spec {s : State} (h : Inv s) {p : Path} {x : Node} (hx : s.master.at? p = some x) :
    ((∃ s', s.fullname x.addr = .ok (s', Account.fullname p) ∧ Inv s' ∧ s'.master.erase = s.master.erase ∧
        (∀ q, (s'.master.at? q).map Node.addr = (s.master.at? q).map Node.addr) ∧
        (∀ q y y', s.master.at? q = some y → s'.master.at? q = some y' → y.cache ≠ [] → y'.cache = y.cache) ∧
        (∀ q, SmallAbove s.master q → SmallAbove s'.master q) ∧
        (p ≠ [] → ∃ y, s'.master.at? p = some y ∧ y.cache = Account.fullname p)) ∨
      (s.fullname x.addr = .error .danglingPointer ∧ x.cache = [])) ∧
    (SmallAbove s.master p ∨ x.cache ≠ [] → ∃ s', s.fullname x.addr = .ok (s', Account.fullname p)) := by
  have hd := deref_ok h.uniq (Node.at?_mem hx)
  cases p using List.reverseRecOn with
  | nil =>
    rw [Node.at?_nil] at hx; injection hx with hx
    have : s.fullname x.addr = .ok (s, Account.fullname []) := by
      unfold State.fullname
      rw [hd]
      simp only [bind, Except.bind]
      rw [← hx, h.noParent, if_pos rfl]; rfl
    exact ⟨Or.inl ⟨s, this, h, rfl, fun _ => rfl, fun q y y' h1 h2 _ => by rw [h1] at h2; injection h2 with h2; rw [h2],
      fun _ h => h, fun e => absurd rfl e⟩, fun _ => ⟨s, this⟩⟩
  | append_singleton q n =>
    obtain ⟨y, hy, hyx, hn⟩ := Node.at?_snoc hx
    obtain ⟨b, hb, _⟩ := h.linked y (Node.at?_mem hy) x hyx
    have hne : x.parent ≠ none := by rw [hb]; simp
    by_cases hc : x.cache = []
    · have hcl := climb_spec h (q ++ [n]) hx x.name ((Node.nodes s.master).length + 1)
        (Nat.lt_succ_of_lt (Node.depth_lt hx))
      rw [List.dropLast_concat, hn, ← fullname_snoc] at hcl
      have hok : s.climb ((Node.nodes s.master).length + 1) x n = .ok (Account.fullname (q ++ [n])) →
          s.fullname x.addr = .ok ({ s with master := s.master.mutate x.addr (Node.setCache (Account.fullname (q ++ [n]))) },
            Account.fullname (q ++ [n])) := by
        intro e
        unfold State.fullname
        rw [hd]
        simp only [bind, Except.bind]
        rw [if_neg hne, if_neg (by simp [hc]), hn, e]
      refine ⟨?_, ?_⟩
      · rcases hcl.1 with e | e
        · refine Or.inl ⟨_, hok e, h.setCache hx, mutate_cache_erase _ _ _, ?_, ?_, ?_, ?_⟩
          · intro q'
            rw [mutate_at? (mild_cache _), Option.map_map]
            congr 1
            funext z
            exact mutate_addr (mild_cache _) z
          · intro q' z z' h1 h2 hz
            rw [mutate_at? (mild_cache _), h1, Option.map_some] at h2
            injection h2 with h2
            by_cases ez : z.addr = x.addr
            · have : q' = q ++ [n] := Node.at?_inj h.uniq h1 hx ez
              subst this
              rw [hx] at h1; injection h1 with h1; subst h1
              exact absurd hc hz
            · obtain ⟨zb, zp, zn, zc, zps, zcs⟩ := z
              change zb ≠ x.addr at ez
              rw [mutate_mk, if_neg ez] at h2
              rw [← h2]; rfl
          · intro q' hsm q2 z hp hl hz
            rw [mutate_at? (mild_cache _)] at hz
            cases hz0 : s.master.at? q2 with
            | none => rw [hz0] at hz; cases hz
            | some z0 =>
              rw [hz0, Option.map_some] at hz
              injection hz with hz
              rw [← hz, mutate_children (mild_cache _), List.length_map]
              exact hsm q2 z0 hp hl hz0
          · intro _
            refine ⟨x.mutate x.addr (Node.setCache (Account.fullname (q ++ [n]))), ?_, ?_⟩
            · rw [mutate_at? (mild_cache _), hx]; rfl
            · obtain ⟨xb, xp, xn, xc, xps, xcs⟩ := x
              rw [mutate_mk, if_pos (show xb = Node.addr _ from rfl)]; rfl
        · refine Or.inr ⟨?_, hc⟩
          unfold State.fullname
          rw [hd]
          simp only [bind, Except.bind]
          rw [if_neg hne, if_neg (by simp [hc]), hn, e]
      · rintro (hsm | hcn)
        · exact ⟨_, hok (hcl.2 hsm)⟩
        · exact absurd hc hcn
    · have : s.fullname x.addr = .ok (s, Account.fullname (q ++ [n])) := by
        unfold State.fullname
        rw [hd]
        simp only [bind, Except.bind]
        rw [if_neg hne, if_pos hc]
        rcases h.caches _ x hx with e | e
        · exact absurd e hc
        · rw [e]
      exact ⟨Or.inl ⟨s, this, h, rfl, fun _ => rfl, fun q y y' h1 h2 _ => by rw [h1] at h2; injection h2 with h2; rw [h2],
        fun _ h => h, fun _ => ⟨x, hx, (h.caches _ x hx).resolve_left hc⟩⟩, fun _ => ⟨s, this⟩⟩

/-! ### histories -/

theorem Later.inv {s0 s : State} (h0 : Inv s0) (h : Later s0 s) : Inv s := by
  induction h with
  | refl => exact h0
  | register n _ hr ih => exact ih.register hr
  | push a r _ ih => exact ih.push a r
  | fullname _ hx hr ih =>
    rcases (fullname_spec ih hx).1 with ⟨s'', h1, h2, _⟩ | ⟨h1, _⟩
    · rw [h1] at hr; injection hr with hr; injection hr with hr _; rw [← hr]; exact h2
    · rw [h1] at hr; cases hr

theorem Reach.inv {s : State} (h : Reach s) : Inv s := Later.inv inv_new h

theorem getChild_mem_of_nodup {cs : List Node} {c : Node} (hn : (cs.map Node.name).Nodup) (h : c ∈ cs) :
    Node.getChild c.name cs = some c := by
  induction cs with
  | nil => cases h
  | cons x xs ih =>
    rw [List.map_cons, List.nodup_cons] at hn
    rw [Node.getChild]
    rcases List.mem_cons.mp h with rfl | h
    · rw [if_pos rfl]
    · rw [if_neg, ih hn.2 h]
      intro e; exact hn.1 (by rw [e]; exact List.mem_map.mpr ⟨c, h, rfl⟩)

theorem mem_at? {t x : Node} (hw : t.erase.WF) (h : x ∈ Node.nodes t) : ∃ p, t.at? p = some x := by
  induction t using Node.ind with
  | h b p n c ps cs ih =>
    rw [Node.erase_mk, Account.wf_mk] at hw
    rcases Node.mem_nodes_mk.mp h with rfl | ⟨y, hy, hxy⟩
    · exact ⟨[], Node.at?_nil _⟩
    · obtain ⟨q, hq⟩ := ih y hy (hw.2.2 _ (List.mem_map.mpr ⟨y, hy, rfl⟩)) hxy
      refine ⟨y.name :: q, ?_⟩
      have hn : (cs.map Node.name).Nodup := by
        have := hw.1
        rw [List.map_map] at this
        simpa [Function.comp_def, Node.erase_name] using this
      rw [Node.at?_cons, getChild_mem_of_nodup hn hy]; exact hq

theorem pushNode_erase (r : PostRef) (x : Node) :
    (pushNode r x).erase = (fun | Account.mk n ps cs => Account.mk n (ps ++ [r]) cs) x.erase := by
  cases x; rw [pushNode, Node.erase_mk, Node.erase_mk]

theorem push_erase {s : State} (h : Inv s) {p : Path} {x : Node} (hx : s.master.at? p = some x) (r : PostRef) :
    (s.push x.addr r).master.erase = s.master.erase.pushPost p r := by
  rw [push_eq]
  exact mutate_erase (mild_push r) (pushNode_erase r) h.uniq hx rfl

theorem push_gone {s : State} {a : Nat} (h : a ∉ Node.addrs s.master) (r : PostRef) : s.push a r = s := by
  rw [push_eq, mutate_gone _ h]

/-- The tree in memory is a tree of the model. -/
theorem Reach.erase {s : State} (h : Reach s) : Account.Reachable s.master.erase := by
  unfold Reach at h
  generalize e0 : State.new = s0 at h
  have h0 : Inv s0 := by rw [← e0]; exact inv_new
  induction h with
  | refl => rw [← e0]; exact .refl _
  | register n _ hr ih =>
    obtain ⟨_, p?, h1, _⟩ := register_sim hr
    exact .register n ih h1
  | push a r h ih =>
    rename_i s
    by_cases ha : a ∈ Node.addrs s.master
    · obtain ⟨x, hx, e⟩ := List.mem_map.mp ha
      obtain ⟨p, hp⟩ := mem_at? (Account.reachable_wf ih) hx
      rw [← e, push_erase (h.inv h0) hp]
      exact .post p r ih
    · rw [push_gone ha]; exact ih
  | fullname h hx hr ih =>
    rcases (fullname_spec (h.inv h0) hx).1 with ⟨s'', h1, _, h3, _⟩ | ⟨h1, _⟩
    · rw [h1] at hr; injection hr with hr; injection hr with hr _; rw [← hr, h3]; exact ih
    · rw [h1] at hr; cases hr

theorem update_gone {f : Account → Account} {a : Account} {p : Path} (h : a.at? p = none) : Account.update f p a = a := by
  induction p generalizing a with
  | nil => rw [Account.at?_nil] at h; cases h
  | cons n p ih =>
    obtain ⟨an, ap, cs⟩ := a
    rw [Account.at?_cons] at h
    rw [Account.update]
    cases hc : Account.getChild n cs with
    | none => rfl
    | some c =>
      rw [hc] at h
      simp only
      rw [ih h, Account.setChild_self hc]

/-- Every tree of the model is the tree of a memory. -/
theorem exists_reach {a : Account} (h : Account.Reachable a) : ∃ s, Reach s ∧ s.master.erase = a := by
  unfold Account.Reachable at h
  generalize ha : Account.new [] = a0 at h
  induction h with
  | refl => exact ⟨State.new, .refl, by rw [← ha]; rfl⟩
  | register n hl hc ih =>
    obtain ⟨s, hs, e⟩ := ih
    have hg := go_sim (n.length + 1) s.next s.master n true
    rw [e] at hg
    rename_i b c r
    have hc' : Account.findOrCreateGo (n.length + 1) b n true = .ok (c, r) := hc
    rw [hc'] at hg
    have hreg : s.register n = (findOrCreateGo (n.length + 1) s.next s.master n true).bind
        (fun v => .ok (⟨v.1, v.2.1⟩, v.2.2)) := rfl
    revert hg hreg
    cases findOrCreateGo (n.length + 1) s.next s.master n true with
    | error e' => intro hg; cases hg
    | ok v =>
      obtain ⟨m, next, r'⟩ := v
      intro hg hreg
      simp only at hg
      obtain ⟨_, p?, h2, _⟩ := hg
      injection h2 with h2
      injection h2 with h2 _
      exact ⟨⟨m, next⟩, .register n hs hreg, h2.symm⟩
  | post p r hl ih =>
    obtain ⟨s, hs, e⟩ := ih
    cases hx : s.master.at? p with
    | none =>
      refine ⟨s, hs, ?_⟩
      unfold Account.pushPost
      rw [update_gone, e]
      rw [← e, Node.at?_erase, hx]; rfl
    | some x => exact ⟨s.push x.addr r, .push _ _ hs, by rw [push_erase hs.inv hx, e]⟩

/-! ### later -/

/-- A name that was computed stays in the cache. -/
theorem Later.cached {s s' : State} (h0 : Inv s) (h : Later s s') {p : Path} {x : Node} (hx : s.master.at? p = some x)
    (hc : x.cache ≠ []) : ∃ x', s'.master.at? p = some x' ∧ x'.cache = x.cache := by
  induction h with
  | refl => exact ⟨x, hx, rfl⟩
  | register n hl hr ih =>
    obtain ⟨y, hy, h1⟩ := ih
    obtain ⟨z, hz, h2⟩ := (register_sim hr).1.keeps p y hy
    exact ⟨z, hz, h2.trans h1⟩
  | push a r hl ih =>
    obtain ⟨y, hy, h1⟩ := ih
    refine ⟨y.mutate a (pushNode r), ?_, ?_⟩
    · rw [push_eq]; simp only; rw [mutate_at? (mild_push r), hy]; rfl
    · rw [mutate_push_cache, h1]
  | fullname hl hx' hr ih =>
    obtain ⟨y, hy, h1⟩ := ih
    rcases (fullname_spec (hl.inv h0) hx').1 with ⟨s'', g1, _, g3, g4, g5, _⟩ | ⟨g1, _⟩
    · rw [g1] at hr; injection hr with hr; injection hr with hr _
      subst hr
      have : (s''.master.at? p).isSome := by
        have := g4 p
        rw [hy] at this
        cases hz : s''.master.at? p with
        | none => rw [hz] at this; cases this
        | some z => rfl
      obtain ⟨z, hz⟩ := Option.isSome_iff_exists.mp this
      exact ⟨z, hz, (g5 p y z hy hz (by rw [h1]; exact hc)).trans h1⟩
    · rw [g1] at hr; cases hr

theorem small_of_narrow {t : Node} {p : Path} (h : NarrowAbove t.erase p) : SmallAbove t p := by
  intro q x hq hl hx
  have := h q x.erase hq hl (by rw [Node.at?_erase, hx]; rfl)
  rwa [Node.erase_children, List.length_map] at this

theorem joined_eq (p : Path) : Account.fullname p = joined p := by
  cases p using List.reverseRecOn with
  | nil => rfl
  | append_singleton q n =>
    have : joined (q ++ [n]) = List.intercalate [':'] (q.filter (· ≠ []) ++ [n]) := by simp [joined]
    rw [this, fullname_snoc]
    clear this
    induction q with
    | nil => simp [List.intercalate]
    | cons m q ih =>
      rw [List.foldr_cons, ih (fun e => by simp at e), addUp]
      by_cases hm : m = []
      · simp [hm]
      · rw [if_neg hm, List.filter_cons_of_pos (by simpa using hm)]
        cases hq : q.filter (· ≠ []) with
        | nil => simp [List.intercalate]
        | cons k ks => simp [List.intercalate]

end Heap
end Ledger
