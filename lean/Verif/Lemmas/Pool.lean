import Verif.Spec.Prices
import Verif.Lemmas.Assoc
import Mathlib.Data.List.Nodup
import Mathlib.Data.List.Induction
import Mathlib.Tactic.Ring
import Mathlib.Tactic.Linarith
/-
The pool invariant and the meaning of the price graph.
-/
namespace Ledger

theorem DateTime.key_lt_iff (a b : DateTime) (ha : a.WF) (hb : b.WF) : a.key < b.key ↔ a.Before b := by
  obtain ⟨⟨y, m, d⟩, ⟨h, mi, s⟩⟩ := a
  obtain ⟨⟨y', m', d'⟩, ⟨h', mi', s'⟩⟩ := b
  simp only [DateTime.WF, DateTime.key, DateTime.Before] at *
  omega

theorem DateTime.key_inj (a b : DateTime) (ha : a.WF) (hb : b.WF) (h : a.key = b.key) : a = b := by
  obtain ⟨⟨y, m, d⟩, ⟨h, mi, s⟩⟩ := a
  obtain ⟨⟨y', m', d'⟩, ⟨h', mi', s'⟩⟩ := b
  simp only [DateTime.WF, DateTime.key, DateTime.mk.injEq, Date.mk.injEq, Time.mk.injEq] at *
  omega

namespace PriceMap

/-- Keys ascending. -/
def Sorted (m : PriceMap) : Prop := m.Pairwise (fun x y => x.1.key < y.1.key)

theorem insert_ne_nil (t : DateTime) (q : Dec) (m : PriceMap) : PriceMap.insert t q m ≠ [] := by
  cases m with
  | nil => simp [PriceMap.insert]
  | cons x xs =>
    obtain ⟨t', q'⟩ := x
    unfold PriceMap.insert
    split
    · simp
    · split <;> simp

theorem insert_mem (t : DateTime) (q : Dec) (m : PriceMap) (x : DateTime × Dec) (h : x ∈ PriceMap.insert t q m) :
    x ∈ m ∨ x.1.key = t.key := by
  induction m with
  | nil => simp [PriceMap.insert] at h; subst h; exact Or.inr rfl
  | cons y ys ih =>
    obtain ⟨t', q'⟩ := y
    unfold PriceMap.insert at h
    split at h
    · rcases List.mem_cons.mp h with rfl | h
      · exact Or.inr rfl
      · exact Or.inl h
    · split at h
      · rename_i hk
        rcases List.mem_cons.mp h with rfl | h
        · exact Or.inr hk.symm
        · exact Or.inl (List.mem_cons_of_mem _ h)
      · rcases List.mem_cons.mp h with rfl | h
        · exact Or.inl List.mem_cons_self
        · rcases ih h with h | h
          · exact Or.inl (List.mem_cons_of_mem _ h)
          · exact Or.inr h

theorem insert_sorted (t : DateTime) (q : Dec) (m : PriceMap) (h : Sorted m) : Sorted (PriceMap.insert t q m) := by
  induction m with
  | nil => simp [PriceMap.insert, Sorted]
  | cons y ys ih =>
    obtain ⟨t', q'⟩ := y
    unfold Sorted at h ih ⊢
    rw [List.pairwise_cons] at h
    unfold PriceMap.insert
    split
    · rename_i hlt
      rw [List.pairwise_cons, List.pairwise_cons]
      refine ⟨?_, h⟩
      intro x hx
      rcases List.mem_cons.mp hx with rfl | hx
      · exact hlt
      · exact lt_trans hlt (h.1 x hx)
    · split
      · rw [List.pairwise_cons]; exact h
      · rename_i h1 h2
        rw [List.pairwise_cons]
        refine ⟨?_, ih h.2⟩
        intro x hx
        rcases insert_mem _ _ _ _ hx with hx | hx
        · exact h.1 x hx
        · show t'.key < x.1.key
          rw [hx]; omega

/-- The last entry after an insertion. -/
theorem latest_insert (t : DateTime) (q : Dec) (m : PriceMap) (h : Sorted m) (hw : ∀ x ∈ m, x.1.WF) (ht : t.WF) :
    (PriceMap.insert t q m).latest =
      match PriceMap.latest m with
      | none => some (t, q)
      | some (t', q') => if t.key < t'.key then some (t', q') else some (t, q) := by
  induction m with
  | nil => rfl
  | cons y ys ih =>
    obtain ⟨t', q'⟩ := y
    unfold Sorted at h
    rw [List.pairwise_cons] at h
    unfold PriceMap.latest at ih ⊢
    unfold PriceMap.insert
    by_cases h1 : t.key < t'.key
    · rw [if_pos h1]
      rw [List.getLast?_cons_cons]
      have hl : ((t', q') :: ys).getLast? = some (((t', q') :: ys).getLast (by simp)) := List.getLast?_eq_some_getLast _
      rw [hl]
      have hm := List.getLast_mem (l := (t', q') :: ys) (by simp)
      have : t.key < (((t', q') :: ys).getLast (by simp)).1.key := by
        rcases List.mem_cons.mp hm with e | e
        · rw [e]; exact h1
        · exact lt_trans h1 (h.1 _ e)
      simp only [this, if_true]
    · rw [if_neg h1]
      by_cases h2 : t.key = t'.key
      · rw [if_pos h2]
        have e : t = t' := DateTime.key_inj _ _ ht (hw (t', q') List.mem_cons_self) h2
        subst e
        cases ys with
        | nil => simp
        | cons z zs =>
          rw [List.getLast?_cons_cons, List.getLast?_cons_cons]
          have hl : (z :: zs).getLast? = some ((z :: zs).getLast (by simp)) := List.getLast?_eq_some_getLast _
          rw [hl]
          have hm := List.getLast_mem (l := z :: zs) (by simp)
          have := h.1 _ hm
          simp only [this, if_true]
      · rw [if_neg h2]
        have ih' := ih h.2 (fun x hx => hw x (List.mem_cons_of_mem _ hx))
        have hne := insert_ne_nil t q ys
        have e1 : ((t', q') :: PriceMap.insert t q ys).getLast? = (PriceMap.insert t q ys).getLast? := by
          cases hi : PriceMap.insert t q ys with
          | nil => exact absurd hi hne
          | cons z zs => rw [List.getLast?_cons_cons]
        rw [e1, ih']
        cases ys with
        | nil => simp [h1]
        | cons z zs => rw [List.getLast?_cons_cons]

end PriceMap

namespace History

theorem findEdge_insertPrice (i j : Nat) (t : DateTime) (q : Dec) (es : List Edge) (i' j' : Nat) :
    findEdge i' j' (insertPrice i j t q es) =
      if i' = i ∧ j' = j then some (PriceMap.insert t q ((findEdge i j es).getD []))
      else findEdge i' j' es := by
  induction es with
  | nil =>
    simp only [insertPrice, findEdge]
    by_cases h : i' = i ∧ j' = j
    · rw [if_pos h, if_pos ⟨h.1.symm, h.2.symm⟩]; rfl
    · rw [if_neg h, if_neg (fun e => h ⟨e.1.symm, e.2.symm⟩)]
  | cons e es ih =>
    unfold insertPrice
    by_cases he : e.src = i ∧ e.dst = j
    · rw [if_pos he]
      simp only [findEdge]
      by_cases h : i' = i ∧ j' = j
      · rw [if_pos h, if_pos ⟨he.1.trans h.1.symm, he.2.trans h.2.symm⟩, if_pos he]; rfl
      · have h3 : ¬ (e.src = i' ∧ e.dst = j') := fun e2 => h ⟨e2.1.symm.trans he.1, e2.2.symm.trans he.2⟩
        rw [if_neg h, if_neg h3, if_neg h3]
    · rw [if_neg he]
      simp only [findEdge]
      rw [if_neg he]
      by_cases h : i' = i ∧ j' = j
      · rw [if_pos h]
        have h3 : ¬ (e.src = i' ∧ e.dst = j') := fun e2 => he ⟨e2.1.trans h.1, e2.2.trans h.2⟩
        rw [if_neg h3, ih, if_pos h]
      · rw [if_neg h, ih, if_neg h]

end History

/-- The pool invariant: the commodities, in order of creation, are the nodes of the price graph, with their
positions as indices. -/
structure Pool.Inv (p : Pool) : Prop where
  nodup : p.history.nodes.Nodup
  keys : p.commodities.map (·.1) = p.history.nodes
  entry : ∀ (i : Nat) (s : Str) (c : Commodity), p.commodities[i]? = some (s, c) → c.symbol = s ∧ c.graphIndex = i
  nonempty : [] ∉ p.history.nodes

namespace Pool

theorem inv_empty : Pool.empty.Inv := by
  constructor <;> simp [Pool.empty, History.empty]

theorem Inv.find {p : Pool} (h : p.Inv) {s : Str} {c : Commodity} (hf : p.find s = some c) :
    c.symbol = s ∧ p.history.nodes[c.graphIndex]? = some s := by
  have hm := assocGet_mem _ _ _ hf
  obtain ⟨i, hi⟩ := List.mem_iff_getElem?.mp hm
  obtain ⟨h1, h2⟩ := h.entry i s c hi
  refine ⟨h1, ?_⟩
  rw [← h.keys, h2, List.getElem?_map, hi]; rfl

theorem Inv.find_none {p : Pool} (h : p.Inv) {s : Str} : p.find s = none ↔ s ∉ p.history.nodes := by
  unfold Pool.find; rw [assocGet_none_iff, h.keys]

theorem Inv.find_some {p : Pool} (h : p.Inv) {s : Str} (hs : s ∈ p.history.nodes) : ∃ c, p.find s = some c := by
  cases hf : p.find s with
  | some c => exact ⟨c, rfl⟩
  | none => exact absurd hs (h.find_none.mp hf)

theorem Inv.index {p : Pool} (h : p.Inv) {s : Str} {i : Nat} (hi : p.history.nodes[i]? = some s) :
    ∃ c, p.find s = some c ∧ c.graphIndex = i := by
  obtain ⟨c, hc⟩ := h.find_some (List.mem_of_getElem? hi)
  refine ⟨c, hc, ?_⟩
  have h2 := (h.find hc).2
  obtain ⟨l1, e1⟩ := List.getElem?_eq_some_iff.mp hi
  obtain ⟨l2, e2⟩ := List.getElem?_eq_some_iff.mp h2
  exact (h.nodup.getElem_inj_iff).mp (e2.trans e1.symm)

theorem Inv.index_inj {p : Pool} (h : p.Inv) {s s' : Str} {c c' : Commodity} (h1 : p.find s = some c)
    (h2 : p.find s' = some c') (e : c.graphIndex = c'.graphIndex) : s = s' := by
  have a := (h.find h1).2
  have b := (h.find h2).2
  rw [e, b] at a
  injection a with a; exact a.symm

/-- The two outcomes of `findOrCreate` with a symbol. -/
theorem findOrCreate_old {p : Pool} {s : Str} {c : Commodity} (hs : s ≠ []) (hf : p.find s = some c)
    (ann : Option Annotation) :
    (p.findOrCreate s ann).2 = some s ∧ (p.findOrCreate s ann).1.commodities = p.commodities ∧
      (p.findOrCreate s ann).1.history = p.history ∧
      (p.findOrCreate s ann).1.annotated = (match ann with
        | some a => if (assocGet s p.annotated).isNone then assocInsert s a p.annotated else p.annotated
        | none => p.annotated) := by
  unfold Pool.findOrCreate
  rw [if_neg hs, hf]
  cases ann with
  | none => exact ⟨rfl, rfl, rfl, rfl⟩
  | some a =>
    simp only
    split <;> simp_all

theorem findOrCreate_new {p : Pool} {s : Str} (hs : s ≠ []) (hf : p.find s = none) (ann : Option Annotation) :
    (p.findOrCreate s ann).2 = some s ∧
      (p.findOrCreate s ann).1.commodities = p.commodities ++ [(s, ⟨s, p.history.nodes.length, ann.isSome⟩)] ∧
      (p.findOrCreate s ann).1.history = ⟨p.history.nodes ++ [s], p.history.edges⟩ ∧
      (p.findOrCreate s ann).1.annotated = (match ann with
        | some a => assocInsert s a p.annotated
        | none => p.annotated) := by
  unfold Pool.findOrCreate
  rw [if_neg hs, hf]
  unfold Pool.create
  refine ⟨rfl, ?_, rfl, rfl⟩
  exact assocInsert_new _ _ _ hf

theorem findOrCreate_empty (p : Pool) (ann : Option Annotation) : p.findOrCreate [] ann = (p, none) := by
  unfold Pool.findOrCreate; rw [if_pos rfl]

theorem inv_findOrCreate {p : Pool} (h : p.Inv) (s : Str) (ann : Option Annotation) :
    (p.findOrCreate s ann).1.Inv := by
  by_cases hs : s = []
  · subst hs; rw [findOrCreate_empty]; exact h
  · cases hf : p.find s with
    | some c =>
      obtain ⟨_, h2, h3, _⟩ := findOrCreate_old hs hf ann
      exact ⟨by rw [h3]; exact h.nodup, by rw [h2, h3]; exact h.keys, by rw [h2]; exact h.entry,
        by rw [h3]; exact h.nonempty⟩
    | none =>
      obtain ⟨_, h2, h3, _⟩ := findOrCreate_new hs hf ann
      have hn := h.find_none.mp hf
      have hlen : p.commodities.length = p.history.nodes.length := by
        rw [← h.keys, List.length_map]
      refine ⟨?_, ?_, ?_, ?_⟩
      · rw [h3]; simp only
        rw [List.nodup_append]
        exact ⟨h.nodup, by simp, by intro a ha b hb e; simp at hb; subst hb; subst e; exact hn ha⟩
      · rw [h2, h3, List.map_append, h.keys]; rfl
      · intro i s' c' hi
        rw [h2] at hi
        rw [List.getElem?_append] at hi
        split at hi
        · exact h.entry i s' c' hi
        · rename_i hlt
          have : i - p.commodities.length = 0 := by
            by_contra hne
            rw [List.getElem?_eq_none (by simp; omega)] at hi
            cases hi
          rw [this] at hi
          simp at hi
          obtain ⟨rfl, rfl⟩ := hi
          exact ⟨rfl, by simp only; omega⟩
      · rw [h3]; simp only [List.mem_append, List.mem_singleton, not_or]
        exact ⟨h.nonempty, fun e => hs e.symm⟩

/-- What a successful price recording does. -/
theorem addPrice_ok {p p' : Pool} {s : Option Str} {t : DateTime} {pr : Amount} (h : p.addPrice s t pr = .ok p') :
    ∃ A B cA cB, s = some A ∧ pr.comm = some B ∧ A ≠ B ∧ p.find A = some cA ∧ p.find B = some cB ∧
      p' = { p with history := { p.history with
        edges := History.insertPrice cA.graphIndex cB.graphIndex t pr.qty p.history.edges } } := by
  unfold Pool.addPrice at h
  cases s with
  | none => simp [Pool.deref, bind, Except.bind] at h
  | some A =>
    cases hA : p.find A with
    | none => simp [Pool.deref, hA, bind, Except.bind] at h
    | some cA =>
      have hd : p.deref (some A) = .ok cA := by unfold Pool.deref; simp only [hA]
      rw [hd] at h
      simp only [bind, Except.bind] at h
      split at h
      · cases h
      · rename_i hne
        cases hB : pr.comm with
        | none => rw [hB] at h; simp at h
        | some B =>
          rw [hB] at h hne
          simp only at h
          cases hf : p.find B with
          | none => simp [Pool.deref, hf] at h
          | some cB =>
            have hd : p.deref (some B) = .ok cB := by unfold Pool.deref; simp only [hf]
            rw [hd] at h
            simp only [Except.ok.injEq] at h
            exact ⟨A, B, cA, cB, rfl, rfl, fun e => hne (by rw [e]), hA, hf, h.symm⟩

theorem addPrice_eq {p : Pool} {A B : Str} {cA cB : Commodity} (hA : p.find A = some cA) (hB : p.find B = some cB)
    (hne : A ≠ B) (t : DateTime) (q : Dec) :
    p.addPrice (some A) t ⟨q, some B⟩ = .ok { p with history := { p.history with
        edges := History.insertPrice cA.graphIndex cB.graphIndex t q p.history.edges } } := by
  unfold Pool.addPrice Pool.deref
  simp only [hA, hB, bind, Except.bind]
  rw [if_neg (by intro e; injection e with e; exact hne e)]

theorem inv_addPrice {p p' : Pool} (h : p.Inv) {s : Option Str} {t : DateTime} {pr : Amount}
    (hp : p.addPrice s t pr = .ok p') : p'.Inv := by
  obtain ⟨A, B, cA, cB, _, _, _, _, _, rfl⟩ := addPrice_ok hp
  exact ⟨h.nodup, h.keys, h.entry, h.nonempty⟩

theorem inv_run {p p' : Pool} (h : p.Inv) (op : PoolOp) (hp : op.run p = .ok p') : p'.Inv := by
  cases op with
  | findOrCreate s a => injection hp with hp; subst hp; exact inv_findOrCreate h s a
  | addPrice s t pr => exact inv_addPrice h hp

theorem runOps_cons (p : Pool) (op : PoolOp) (ops : List PoolOp) (p' : Pool) (h : runOps p (op :: ops) = .ok p') :
    ∃ q, op.run p = .ok q ∧ runOps q ops = .ok p' := by
  unfold runOps at h
  cases hq : op.run p with
  | error e => rw [hq] at h; simp [bind, Except.bind] at h
  | ok q => rw [hq] at h; exact ⟨q, rfl, h⟩

theorem runOps_append (p : Pool) (a b : List PoolOp) :
    runOps p (a ++ b) = (do let q ← runOps p a; runOps q b) := by
  induction a generalizing p with
  | nil => rfl
  | cons op ops ih =>
    rw [List.cons_append]
    show (do let p' ← op.run p; runOps p' (ops ++ b)) = (do let q ← (do let p' ← op.run p; runOps p' ops); runOps q b)
    cases hq : op.run p with
    | error e => rfl
    | ok q => exact ih q

theorem runOps_snoc (p p' : Pool) (ops : List PoolOp) (op : PoolOp) (h : runOps p (ops ++ [op]) = .ok p') :
    ∃ q, runOps p ops = .ok q ∧ op.run q = .ok p' := by
  rw [runOps_append] at h
  cases hq : runOps p ops with
  | error e => rw [hq] at h; simp [bind, Except.bind] at h
  | ok q =>
    rw [hq] at h
    simp only [bind, Except.bind] at h
    obtain ⟨r, h1, h2⟩ := runOps_cons _ _ _ _ h
    injection h2 with h2; subst h2
    exact ⟨q, rfl, h1⟩

theorem inv_runOps {p p' : Pool} (h : p.Inv) (ops : List PoolOp) (hp : runOps p ops = .ok p') : p'.Inv := by
  induction ops generalizing p with
  | nil => injection hp with hp; subst hp; exact h
  | cons op ops ih =>
    obtain ⟨q, h1, h2⟩ := runOps_cons _ _ _ _ hp
    exact ih (inv_run h op h1) h2

theorem find_findOrCreate {p : Pool} {s s' : Str} {c : Commodity} (ann : Option Annotation)
    (hf : p.find s' = some c) : (p.findOrCreate s ann).1.find s' = some c := by
  by_cases hs : s = []
  · subst hs; rw [findOrCreate_empty]; exact hf
  · cases h : p.find s with
    | some c0 =>
      unfold Pool.find; rw [(findOrCreate_old hs h ann).2.1]; exact hf
    | none =>
      unfold Pool.find at *
      rw [(findOrCreate_new hs h ann).2.1, assocGet_append, hf]; rfl

theorem find_run {p p' : Pool} (op : PoolOp) (hp : op.run p = .ok p') {s : Str} {c : Commodity}
    (hf : p.find s = some c) : p'.find s = some c := by
  cases op with
  | findOrCreate s' a => injection hp with hp; subst hp; exact find_findOrCreate a hf
  | addPrice s' t pr => obtain ⟨A, B, cA, cB, _, _, _, _, _, rfl⟩ := addPrice_ok hp; exact hf

theorem find_runOps {p p' : Pool} (ops : List PoolOp) (hp : runOps p ops = .ok p') {s : Str} {c : Commodity}
    (hf : p.find s = some c) : p'.find s = some c := by
  induction ops generalizing p with
  | nil => injection hp with hp; subst hp; exact hf
  | cons op ops ih =>
    obtain ⟨q, h1, h2⟩ := runOps_cons _ _ _ _ hp
    exact ih h2 (find_run op h1 hf)

end Pool

/-- The price map a pair has after the recordings. -/
def pairMap (recs : List Recording) (A B : Str) : Option PriceMap :=
  recs.foldl (fun m r => if r.src = A ∧ r.dst = B then some (PriceMap.insert r.time r.qty (m.getD [])) else m) none

theorem pairMap_snoc (recs : List Recording) (r : Recording) (A B : Str) :
    pairMap (recs ++ [r]) A B =
      if r.src = A ∧ r.dst = B then some (PriceMap.insert r.time r.qty ((pairMap recs A B).getD []))
      else pairMap recs A B := by
  unfold pairMap; rw [List.foldl_append]; rfl

theorem pairMap_none_iff (recs : List Recording) (A B : Str) : pairMap recs A B = none ↔ ¬ Priced recs A B := by
  induction recs using List.reverseRecOn with
  | nil => simp [pairMap, Priced]
  | append_singleton recs r ih =>
    rw [pairMap_snoc]
    split
    · rename_i h
      simp only [reduceCtorEq, false_iff, not_not]
      exact ⟨r, by simp, h⟩
    · rename_i h
      rw [ih]
      unfold Priced
      constructor
      · rintro h1 ⟨r', hr, h2⟩
        rcases List.mem_append.mp hr with hr | hr
        · exact h1 ⟨r', hr, h2⟩
        · simp at hr; subst hr; exact h h2
      · rintro h1 ⟨r', hr, h2⟩
        exact h1 ⟨r', List.mem_append_left _ hr, h2⟩

theorem priced_snoc (recs : List Recording) (r : Recording) (A B : Str) :
    Priced (recs ++ [r]) A B ↔ Priced recs A B ∨ (r.src = A ∧ r.dst = B) := by
  unfold Priced
  constructor
  · rintro ⟨r', hr, h2⟩
    rcases List.mem_append.mp hr with hr | hr
    · exact Or.inl ⟨r', hr, h2⟩
    · simp at hr; subst hr; exact Or.inr h2
  · rintro (⟨r', hr, h2⟩ | h)
    · exact ⟨r', List.mem_append_left _ hr, h2⟩
    · exact ⟨r, by simp, h⟩

/-- The price map of a pair is sorted and its last entry is the latest recording. -/
theorem pairMap_latest (recs : List Recording) (hw : ∀ r ∈ recs, r.time.WF) (A B : Str) (m : PriceMap)
    (hm : pairMap recs A B = some m) :
    PriceMap.Sorted m ∧ (∀ x ∈ m, x.1.WF) ∧ ∃ t q, PriceMap.latest m = some (t, q) ∧ IsLatest recs A B t q := by
  induction recs using List.reverseRecOn generalizing m with
  | nil => simp [pairMap] at hm
  | append_singleton recs r ih =>
    have hw' : ∀ r ∈ recs, r.time.WF := fun x hx => hw x (List.mem_append_left _ hx)
    have hr : r.time.WF := hw r (by simp)
    rw [pairMap_snoc] at hm
    split at hm
    · rename_i h
      injection hm with hm
      subst hm
      have hrec : r = ⟨A, B, r.time, r.qty⟩ := by rw [← h.1, ← h.2]
      cases hp : pairMap recs A B with
      | none =>
        refine ⟨by simp [PriceMap.Sorted, PriceMap.insert], by simpa [PriceMap.insert] using hr, r.time, r.qty, rfl,
          recs, [], by rw [← hrec], ?_, by simp⟩
        intro r' hr' h1 h2
        exact absurd ⟨r', hr', h1, h2⟩ ((pairMap_none_iff _ _ _).mp hp)
      | some m0 =>
        obtain ⟨s1, s2, t, q, s3, pre, post, s4, s5, s6⟩ := ih hw' m0 hp
        simp only [Option.getD_some]
        refine ⟨PriceMap.insert_sorted _ _ _ s1, ?_, ?_⟩
        · clear ih hp s3 s4 s5 s6 s1
          induction m0 with
          | nil => simpa [PriceMap.insert] using hr
          | cons y ys ih2 =>
            obtain ⟨t', q'⟩ := y
            intro x hx
            unfold PriceMap.insert at hx
            split at hx
            · rcases List.mem_cons.mp hx with rfl | hx
              · exact hr
              · exact s2 x hx
            · split at hx
              · rcases List.mem_cons.mp hx with rfl | hx
                · exact s2 (t', q') List.mem_cons_self
                · exact s2 x (List.mem_cons_of_mem _ hx)
              · rcases List.mem_cons.mp hx with rfl | hx
                · exact s2 (t', q') List.mem_cons_self
                · exact ih2 (fun y hy => s2 y (List.mem_cons_of_mem _ hy)) x hx
        · rw [PriceMap.latest_insert _ _ _ s1 s2 hr, s3]
          simp only
          have ht : t.WF := by
            have := hw' ⟨A, B, t, q⟩ (by rw [s4]; simp)
            exact this
          by_cases hlt : r.time.key < t.key
          · rw [if_pos hlt]
            refine ⟨t, q, rfl, pre, post ++ [r], by rw [s4]; simp, s5, ?_⟩
            intro r' hr' h1 h2
            rcases List.mem_append.mp hr' with hr' | hr'
            · exact s6 r' hr' h1 h2
            · simp at hr'; subst hr'
              exact (DateTime.key_lt_iff _ _ hr ht).mp hlt
          · rw [if_neg hlt]
            refine ⟨r.time, r.qty, rfl, recs, [], by rw [← hrec], ?_, by simp⟩
            intro r' hr' h1 h2 hb
            have hw2 := hw' r' hr'
            rw [← DateTime.key_lt_iff _ _ hr hw2] at hb
            rw [s4] at hr'
            rcases List.mem_append.mp hr' with hr' | hr'
            · have := s5 r' hr' h1 h2
              rw [← DateTime.key_lt_iff _ _ ht hw2] at this
              omega
            · rcases List.mem_cons.mp hr' with rfl | hr'
              · exact hlt hb
              · have := s6 r' hr' h1 h2
                rw [← DateTime.key_lt_iff _ _ hw2 ht] at this
                omega
    · rename_i h
      obtain ⟨s1, s2, t, q, s3, pre, post, s4, s5, s6⟩ := ih hw' m hm
      refine ⟨s1, s2, t, q, s3, pre, post ++ [r], by rw [s4]; simp, s5, ?_⟩
      intro r' hr' h1 h2
      rcases List.mem_append.mp hr' with hr' | hr'
      · exact s6 r' hr' h1 h2
      · simp at hr'; subst hr'; exact absurd ⟨h1, h2⟩ h

theorem recordings_snoc (ops : List PoolOp) (op : PoolOp) :
    recordings (ops ++ [op]) = recordings ops ++ (match op.recording with | some r => [r] | none => []) := by
  unfold recordings
  rw [List.filterMap_append]
  congr 1
  cases h : op.recording <;> simp [h]

/-- The price graph after a history of calls: the edge between two commodities carries the map of the recordings
of that pair; every edge is between commodities of the pool. -/
theorem graph_spec (ops : List PoolOp) (p : Pool) (h : runOps Pool.empty ops = .ok p) :
    (∀ A B cA cB, p.find A = some cA → p.find B = some cB →
      History.findEdge cA.graphIndex cB.graphIndex p.history.edges = pairMap (recordings ops) A B) ∧
    (∀ i j, (History.findEdge i j p.history.edges).isSome →
      ∃ A B, p.history.nodes[i]? = some A ∧ p.history.nodes[j]? = some B) ∧
    (∀ r ∈ recordings ops, r.src ≠ r.dst ∧ r.src ∈ p.history.nodes ∧ r.dst ∈ p.history.nodes) := by
  induction ops using List.reverseRecOn generalizing p with
  | nil =>
    injection h with h; subst h
    refine ⟨fun A B cA cB hA => ?_, ?_, ?_⟩
    · cases hA
    · intro i j hi; simp [Pool.empty, History.empty, History.findEdge] at hi
    · intro r hr; cases hr
  | append_singleton ops op ih =>
    obtain ⟨q, h1, h2⟩ := Pool.runOps_snoc _ _ _ _ h
    have hinv := Pool.inv_runOps Pool.inv_empty ops h1
    have hinv' := Pool.inv_run hinv op h2
    obtain ⟨g1, g2, g3⟩ := ih q h1
    rw [recordings_snoc]
    cases op with
    | findOrCreate s a =>
      injection h2 with h2; subst h2
      simp only [PoolOp.recording, List.append_nil]
      by_cases hs : s = []
      · subst hs; rw [Pool.findOrCreate_empty]; exact ⟨g1, g2, g3⟩
      cases hf : q.find s with
      | some c =>
        obtain ⟨_, e2, e3, _⟩ := Pool.findOrCreate_old hs hf a
        rw [e3]
        refine ⟨?_, g2, g3⟩
        intro A B cA cB hA hB
        unfold Pool.find at hA hB
        rw [e2] at hA hB
        exact g1 A B cA cB hA hB
      | none =>
        obtain ⟨_, e2, e3, _⟩ := Pool.findOrCreate_new hs hf a
        rw [e3]
        refine ⟨?_, ?_, ?_⟩
        · intro A B cA cB hA hB
          simp only
          unfold Pool.find at hA hB
          rw [e2, assocGet_append] at hA hB
          have key : ∀ X cX, ((assocGet X q.commodities).or (assocGet X [(s, (⟨s, q.history.nodes.length, a.isSome⟩ : Commodity))])) = some cX →
              q.find X = some cX ∨ (X = s ∧ cX.graphIndex = q.history.nodes.length) := by
            intro X cX hX
            cases hq : assocGet X q.commodities with
            | some c0 => rw [hq] at hX; left; unfold Pool.find; rw [hq]; exact hX
            | none =>
              rw [hq] at hX
              simp only [Option.none_or, assocGet] at hX
              split at hX
              · rename_i e; injection hX with hX; subst hX; right; exact ⟨e.symm, rfl⟩
              · cases hX
          have hnew : ∀ X Y, X = s ∨ Y = s → pairMap (recordings ops) X Y = none := by
            intro X Y hXY
            rw [pairMap_none_iff]
            rintro ⟨r, hr, hr1, hr2⟩
            have := g3 r hr
            have hn := hinv.find_none.mp hf
            rcases hXY with e | e
            · apply hn; rw [← e, ← hr1]; exact this.2.1
            · apply hn; rw [← e, ← hr2]; exact this.2.2
          have hout : ∀ i j, (i = q.history.nodes.length ∨ j = q.history.nodes.length) →
              History.findEdge i j q.history.edges = none := by
            intro i j hij
            cases he : History.findEdge i j q.history.edges with
            | none => rfl
            | some m =>
              exfalso
              obtain ⟨X, Y, hX, hY⟩ := g2 i j (by rw [he]; rfl)
              have l1 := (List.getElem?_eq_some_iff.mp hX).1
              have l2 := (List.getElem?_eq_some_iff.mp hY).1
              omega
          rcases key A cA hA with hA' | ⟨eA, iA⟩
          · rcases key B cB hB with hB' | ⟨eB, iB⟩
            · exact g1 A B cA cB hA' hB'
            · rw [hnew A B (Or.inr eB), hout _ _ (Or.inr iB)]
          · rw [hnew A B (Or.inl eA), hout _ _ (Or.inl iA)]
        · intro i j hi
          obtain ⟨X, Y, hX, hY⟩ := g2 i j hi
          exact ⟨X, Y, by rw [List.getElem?_append_left (List.getElem?_eq_some_iff.mp hX).1]; exact hX,
            by rw [List.getElem?_append_left (List.getElem?_eq_some_iff.mp hY).1]; exact hY⟩
        · intro r hr
          obtain ⟨a1, a2, a3⟩ := g3 r hr
          exact ⟨a1, List.mem_append_left _ a2, List.mem_append_left _ a3⟩
    | addPrice s t pr =>
      obtain ⟨A0, B0, cA0, cB0, e1, e2, e3, e4, e5, rfl⟩ := Pool.addPrice_ok h2
      injection e1 with e1; subst e1
      obtain ⟨qty, comm⟩ := pr
      simp only at e2; subst e2
      simp only [PoolOp.recording]
      have n1 := (hinv.find e4).2
      have n2 := (hinv.find e5).2
      refine ⟨?_, ?_, ?_⟩
      · intro A B cA cB hA hB
        change q.find A = some cA at hA
        change q.find B = some cB at hB
        rw [History.findEdge_insertPrice, pairMap_snoc]
        by_cases hAB : s = A ∧ B0 = B
        · obtain ⟨rfl, rfl⟩ := hAB
          rw [e4] at hA; rw [e5] at hB
          injection hA with hA; injection hB with hB; subst hA; subst hB
          simp only [and_self, if_true]
          rw [g1 _ _ _ _ e4 e5]
        · rw [if_neg hAB, if_neg]
          · exact g1 A B cA cB hA hB
          · rintro ⟨i1, i2⟩
            exact hAB ⟨(hinv.index_inj hA e4 i1).symm, (hinv.index_inj hB e5 i2).symm⟩
      · intro i j hi
        rw [History.findEdge_insertPrice] at hi
        split at hi
        · rename_i hij
          rw [hij.1, hij.2]
          exact ⟨_, _, n1, n2⟩
        · exact g2 i j hi
      · intro r hr
        rcases List.mem_append.mp hr with hr | hr
        · exact g3 r hr
        · simp at hr; subst hr
          exact ⟨e3, List.mem_of_getElem? n1, List.mem_of_getElem? n2⟩

end Ledger
