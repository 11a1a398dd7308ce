import Verif.Spec.Search
import Mathlib.Data.List.Basic
import Mathlib.Data.List.Nodup
import Mathlib.Data.List.Perm.Subperm
/-
A search meeting the contract `History.IsShortest`: enumeration of walks by length.
-/
namespace Ledger

theorem Walk.head {E : Nat → Nat → Prop} {i j : Nat} {l : List Nat} (h : Walk E i j l) : ∃ r, l = i :: r := by
  cases h with
  | here => exact ⟨[], rfl⟩
  | step _ _ => exact ⟨_, rfl⟩

theorem Walk.last {E : Nat → Nat → Prop} {i j : Nat} {l : List Nat} (h : Walk E i j l) : l.getLast? = some j := by
  induction h with
  | here => rfl
  | step _ hw ih =>
    obtain ⟨r, rfl⟩ := hw.head
    rw [List.getLast?_cons_cons]; exact ih

theorem Walk.suffix {E : Nat → Nat → Prop} {i j x : Nat} {l : List Nat} (h : Walk E i j l) (hx : x ∈ l) :
    ∃ l', Walk E x j l' ∧ l'.Sublist l := by
  induction h with
  | here i => simp at hx; subst hx; exact ⟨_, Walk.here _, List.Sublist.refl _⟩
  | @step i j k l he hw ih =>
    rcases List.mem_cons.mp hx with rfl | hx
    · exact ⟨_, Walk.step he hw, List.Sublist.refl _⟩
    · obtain ⟨l', h1, h2⟩ := ih hx
      exact ⟨l', h1, h2.cons _⟩

theorem Walk.nodup {E : Nat → Nat → Prop} {i j : Nat} {l : List Nat} (h : Walk E i j l) :
    ∃ l', Walk E i j l' ∧ l'.Nodup ∧ l'.length ≤ l.length := by
  induction h with
  | here i => exact ⟨[i], Walk.here i, by simp, Nat.le_refl _⟩
  | @step i j k l he hw ih =>
    obtain ⟨l', h1, h2, h3⟩ := ih
    by_cases hi : i ∈ l'
    · obtain ⟨l2, g1, g2⟩ := h1.suffix hi
      refine ⟨l2, g1, g2.nodup h2, ?_⟩
      have := g2.length_le
      simp only [List.length_cons]; omega
    · exact ⟨i :: l', Walk.step he h1, List.nodup_cons.mpr ⟨hi, h2⟩, by simp only [List.length_cons]; omega⟩

theorem Walk.tail_subset {h : History} {i j : Nat} {l : List Nat} (hw : Walk h.HasEdge i j l) :
    ∀ x ∈ l.tail, x ∈ h.edges.map Edge.dst := by
  induction hw with
  | here => simp
  | @step i j k l he hw ih =>
    obtain ⟨r, rfl⟩ := hw.head
    obtain ⟨e, h1, _, h3⟩ := he
    intro x hx
    simp only [List.tail_cons] at hx ih
    rcases List.mem_cons.mp hx with rfl | hx
    · rw [← h3]; exact List.mem_map_of_mem h1
    · exact ih x hx

theorem Walk.short {h : History} {i j : Nat} {l : List Nat} (hw : Walk h.HasEdge i j l) :
    ∃ l', Walk h.HasEdge i j l' ∧ l'.length ≤ h.edges.length + 1 ∧ l'.length ≤ l.length := by
  obtain ⟨l', h1, h2, h3⟩ := hw.nodup
  refine ⟨l', h1, ?_, h3⟩
  have hs : l'.tail.length ≤ (h.edges.map Edge.dst).length :=
    (List.subperm_of_subset h2.tail (Walk.tail_subset h1)).length_le
  simp at hs
  omega

/-- All walks with `k` steps from `i`. -/
def walksOf (h : History) : Nat → Nat → List (List Nat)
  | 0, i => [[i]]
  | k + 1, i => (h.edges.filter (fun e => e.src = i)).flatMap (fun e => (walksOf h k e.dst).map (i :: ·))

theorem mem_walksOf (h : History) (k i : Nat) (l : List Nat) :
    l ∈ walksOf h k i ↔ (∃ j, Walk h.HasEdge i j l) ∧ l.length = k + 1 := by
  induction k generalizing i l with
  | zero =>
    simp only [walksOf, List.mem_singleton]
    constructor
    · rintro rfl; exact ⟨⟨i, Walk.here i⟩, rfl⟩
    · rintro ⟨⟨j, hw⟩, hl⟩
      obtain ⟨r, rfl⟩ := hw.head
      simp at hl; subst hl; rfl
  | succ k ih =>
    simp only [walksOf, List.mem_flatMap, List.mem_filter, List.mem_map, decide_eq_true_eq]
    constructor
    · rintro ⟨e, ⟨h1, h2⟩, l', h3, rfl⟩
      obtain ⟨⟨j, hw⟩, hl⟩ := (ih _ _).mp h3
      exact ⟨⟨j, Walk.step ⟨e, h1, h2, rfl⟩ hw⟩, by simp [hl]⟩
    · rintro ⟨⟨j, hw⟩, hl⟩
      cases hw with
      | here => simp at hl
      | @step _ j' _ l' he hw =>
        obtain ⟨e, h1, h2, h3⟩ := he
        refine ⟨e, ⟨h1, h2⟩, l', ?_, rfl⟩
        rw [h3, ih]
        exact ⟨⟨j, hw⟩, by simpa using hl⟩

/-- Walks with `k` steps from `i` to `j`: the first found. -/
def walkOf (h : History) (i j k : Nat) : Option (Nat × List Nat) :=
  ((walksOf h k i).find? (fun l => l.getLast? = some j)).map (fun l => (k, l))

/-- Search by increasing number of steps. -/
def shortestSearch : History.Search := fun h i j =>
  (List.range (h.edges.length + 1)).findSome? (walkOf h i j)

theorem walkOf_some {h : History} {i j k n : Nat} {l : List Nat} (hs : walkOf h i j k = some (n, l)) :
    n = k ∧ Walk h.HasEdge i j l ∧ l.length = k + 1 := by
  unfold walkOf at hs
  rw [Option.map_eq_some_iff] at hs
  obtain ⟨l', h1, h2⟩ := hs
  injection h2 with h2 h3; subst h2; subst h3
  have h4 := List.mem_of_find?_eq_some h1
  have h5 := List.find?_some h1
  simp only [decide_eq_true_eq] at h5
  obtain ⟨⟨j', hw⟩, hl⟩ := (mem_walksOf _ _ _ _).mp h4
  have : j' = j := by
    have := hw.last; rw [h5] at this; injection this with this; exact this.symm
  subst this
  exact ⟨rfl, hw, hl⟩

theorem walkOf_none {h : History} {i j k : Nat} (hs : walkOf h i j k = none) (l : List Nat)
    (hw : Walk h.HasEdge i j l) : l.length ≠ k + 1 := by
  intro hl
  unfold walkOf at hs
  rw [Option.map_eq_none_iff, List.find?_eq_none] at hs
  exact hs l ((mem_walksOf _ _ _ _).mpr ⟨⟨j, hw⟩, hl⟩) (by simpa using hw.last)

theorem shortestSearch_isShortest : History.IsShortest shortestSearch := by
  intro h i j
  constructor
  · intro hn l hw
    obtain ⟨l', h1, h2, _⟩ := hw.short
    unfold shortestSearch at hn
    rw [List.findSome?_eq_none_iff] at hn
    obtain ⟨r, rfl⟩ := h1.head
    have := walkOf_none (hn r.length (by simp only [List.mem_range]; simp at h2; omega)) _ h1
    simp at this
  · intro n l hs
    unfold shortestSearch at hs
    rw [List.findSome?_eq_some_iff] at hs
    obtain ⟨as, k, bs, h1, h2, h3⟩ := hs
    obtain ⟨rfl, hw, hl⟩ := walkOf_some h2
    refine ⟨hw, hl, ?_⟩
    intro l' hw'
    by_contra hlt
    obtain ⟨r, rfl⟩ := hw'.head
    simp only [List.length_cons] at hlt
    have hmem : r.length ∈ as := by
      have hp := List.pairwise_lt_range (n := h.edges.length + 1)
      have hn : n ∈ List.range (h.edges.length + 1) := by rw [h1]; simp
      rw [List.mem_range] at hn
      have hr : r.length ∈ List.range (h.edges.length + 1) := by rw [List.mem_range]; omega
      rw [h1] at hp hr
      rw [List.pairwise_append, List.pairwise_cons] at hp
      rcases List.mem_append.mp hr with hr | hr
      · exact hr
      · rcases List.mem_cons.mp hr with e | hr
        · omega
        · have := hp.2.1.1 _ hr; omega
    exact walkOf_none (h3 _ hmem) _ hw' (by simp)

end Ledger
