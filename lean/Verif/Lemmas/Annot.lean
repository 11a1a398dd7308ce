import Verif.Lemmas.Pool
/-
Annotations of a pool after a history of calls.
-/
namespace Ledger

theorem annot_spec (ops : List PoolOp) (p : Pool) (h : runOps Pool.empty ops = .ok p) (s : Str) (hs : s ≠ []) :
    ((assocGet s p.annotated).isSome ↔ ∃ a, PoolOp.findOrCreate s (some a) ∈ ops) ∧
    (∀ c, p.find s = some c →
      (c.annotated = true → ∃ a, PoolOp.findOrCreate s (some a) ∈ ops) ∧
      (c.annotated = false → PoolOp.findOrCreate s none ∈ ops)) := by
  induction ops using List.reverseRecOn generalizing p with
  | nil =>
    injection h with h; subst h
    constructor
    · simp [Pool.empty, assocGet]
    · intro c hc; cases hc
  | append_singleton ops op ih =>
    obtain ⟨q, h1, h2⟩ := Pool.runOps_snoc _ _ _ _ h
    obtain ⟨i1, i2⟩ := ih q h1
    have mono : ∀ x, x ∈ ops → x ∈ ops ++ [op] := fun x hx => List.mem_append_left _ hx
    cases op with
    | addPrice s' t pr =>
      obtain ⟨A, B, cA, cB, _, _, _, _, _, rfl⟩ := Pool.addPrice_ok h2
      constructor
      · rw [i1]
        simp
      · intro c hc
        obtain ⟨a1, a2⟩ := i2 c hc
        exact ⟨fun e => (a1 e).imp fun a ha => mono _ ha, fun e => mono _ (a2 e)⟩
    | findOrCreate s' ann =>
      injection h2 with h2; subst h2
      by_cases hs' : s' = []
      · subst hs'
        rw [Pool.findOrCreate_empty]
        constructor
        · rw [i1]; simp [hs]
        · intro c hc
          obtain ⟨a1, a2⟩ := i2 c hc
          exact ⟨fun e => (a1 e).imp fun a ha => mono _ ha, fun e => mono _ (a2 e)⟩
      · by_cases hss : s' = s
        · subst hss
          cases hf : q.find s' with
          | some c0 =>
            obtain ⟨_, e2, _, e4⟩ := Pool.findOrCreate_old hs' hf ann
            constructor
            · rw [e4]
              cases ann with
              | none => simp only [i1, List.mem_append, List.mem_singleton]; simp
              | some a =>
                simp only
                constructor
                · intro _; exact ⟨a, by simp⟩
                · intro _
                  split
                  · rw [assocGet_insert_self]; rfl
                  · rename_i hn; cases hg : assocGet s' q.annotated with
                    | none => rw [hg] at hn; simp at hn
                    | some _ => rfl
            · intro c hc
              unfold Pool.find at hc
              rw [e2] at hc
              obtain ⟨a1, a2⟩ := i2 c hc
              exact ⟨fun e => (a1 e).imp fun a ha => mono _ ha, fun e => mono _ (a2 e)⟩
          | none =>
            obtain ⟨_, e2, _, e4⟩ := Pool.findOrCreate_new hs' hf ann
            constructor
            · rw [e4]
              cases ann with
              | none => simp only [i1, List.mem_append, List.mem_singleton]; simp
              | some a =>
                simp only [assocGet_insert_self, Option.isSome_some, true_iff]
                exact ⟨a, by simp⟩
            · intro c hc
              unfold Pool.find at hc hf
              rw [e2, assocGet_append, hf] at hc
              simp [assocGet] at hc
              subst hc
              cases ann with
              | none => simp
              | some a => simp
        · have e4 : assocGet s (q.findOrCreate s' ann).1.annotated = assocGet s q.annotated := by
            cases hf : q.find s' with
            | some c0 =>
              obtain ⟨_, _, _, e4⟩ := Pool.findOrCreate_old hs' hf ann
              rw [e4]
              cases ann with
              | none => rfl
              | some a =>
                simp only
                split
                · rw [assocGet_insert_ne _ _ _ _ (Ne.symm hss)]
                · rfl
            | none =>
              obtain ⟨_, _, _, e4⟩ := Pool.findOrCreate_new hs' hf ann
              rw [e4]
              cases ann with
              | none => rfl
              | some a => simp only; rw [assocGet_insert_ne _ _ _ _ (Ne.symm hss)]
          have e2 : (q.findOrCreate s' ann).1.find s = q.find s := by
            unfold Pool.find
            cases hf : q.find s' with
            | some c0 => rw [(Pool.findOrCreate_old hs' hf ann).2.1]
            | none =>
              rw [(Pool.findOrCreate_new hs' hf ann).2.1, assocGet_append]
              simp [assocGet, hss]
          rw [e4, e2]
          constructor
          · rw [i1]
            simp [Ne.symm hss]
          · intro c hc
            obtain ⟨a1, a2⟩ := i2 c hc
            exact ⟨fun e => (a1 e).imp fun a ha => mono _ ha, fun e => mono _ (a2 e)⟩

/-- A stored annotation is never replaced. -/
theorem annot_stays (p p' : Pool) (ops : List PoolOp) (h : runOps p ops = .ok p') (hi : p.Inv)
    (hc : ∀ s, (assocGet s p.annotated).isSome → (p.find s).isSome) (s : Str) (a : Annotation)
    (ha : assocGet s p.annotated = some a) : assocGet s p'.annotated = some a := by
  induction ops generalizing p with
  | nil => injection h with h; subst h; exact ha
  | cons op ops ih =>
    obtain ⟨q, h1, h2⟩ := Pool.runOps_cons _ _ _ _ h
    cases op with
    | addPrice s' t pr =>
      obtain ⟨A, B, cA, cB, _, _, _, _, _, rfl⟩ := Pool.addPrice_ok h1
      exact ih _ h2 (Pool.inv_addPrice hi h1) hc ha
    | findOrCreate s' ann =>
      injection h1 with h1; subst h1
      refine ih _ h2 (Pool.inv_findOrCreate hi _ _) ?_ ?_
      · intro x hx
        by_cases hs' : s' = []
        · subst hs'; rw [Pool.findOrCreate_empty] at hx ⊢; exact hc x hx
        cases hp : p.find x with
        | some c => rw [Pool.find_findOrCreate ann hp]; rfl
        | none =>
          have hnx : assocGet x p.annotated = none := by
            cases hg : assocGet x p.annotated with
            | none => rfl
            | some b => have := hc x (by rw [hg]; rfl); rw [hp] at this; cases this
          cases hf : p.find s' with
          | some c0 =>
            obtain ⟨_, _, _, e4⟩ := Pool.findOrCreate_old hs' hf ann
            rw [e4] at hx
            have hxs : x ≠ s' := by rintro rfl; rw [hf] at hp; cases hp
            exfalso
            cases ann with
            | none => rw [hnx] at hx; cases hx
            | some a =>
              simp only at hx
              split at hx
              · rw [assocGet_insert_ne _ _ _ _ hxs, hnx] at hx; cases hx
              · rw [hnx] at hx; cases hx
          | none =>
            obtain ⟨_, e2, _, e4⟩ := Pool.findOrCreate_new hs' hf ann
            rw [e4] at hx
            by_cases hxs : x = s'
            · subst hxs
              unfold Pool.find at hf ⊢
              rw [e2, assocGet_append, hf]; simp [assocGet]
            · exfalso
              cases ann with
              | none => rw [hnx] at hx; cases hx
              | some a => simp only at hx; rw [assocGet_insert_ne _ _ _ _ hxs, hnx] at hx; cases hx
      · by_cases hs' : s' = []
        · subst hs'; rw [Pool.findOrCreate_empty]; exact ha
        cases hf : p.find s' with
        | some c0 =>
          obtain ⟨_, _, _, e4⟩ := Pool.findOrCreate_old hs' hf ann
          rw [e4]
          cases ann with
          | none => exact ha
          | some b =>
            simp only
            split
            · rename_i hn
              rw [assocGet_insert_ne]
              · exact ha
              · rintro rfl; rw [ha] at hn; simp at hn
            · exact ha
        | none =>
          obtain ⟨_, _, _, e4⟩ := Pool.findOrCreate_new hs' hf ann
          rw [e4]
          have hne : s ≠ s' := by
            rintro rfl; have := hc s (by rw [ha]; rfl); rw [hf] at this; cases this
          cases ann with
          | none => exact ha
          | some b => simp only; rw [assocGet_insert_ne _ _ _ _ hne]; exact ha

/-- The annotation a call looks a symbol up with. -/
def lookupOf (s : Str) : PoolOp → Option (Option Annotation)
  | .findOrCreate s' a => if s' = s then some a else none
  | .addPrice _ _ _ => none

/-- The flag says whether the first lookup of the symbol had an annotation. -/
theorem annot_first (ops : List PoolOp) (p : Pool) (h : runOps Pool.empty ops = .ok p) (s : Str) (hs : s ≠ []) :
    (p.find s).map (·.annotated) = (ops.findSome? (lookupOf s)).map (·.isSome) := by
  induction ops using List.reverseRecOn generalizing p with
  | nil => injection h with h; subst h; rfl
  | append_singleton ops op ih =>
    obtain ⟨q, h1, h2⟩ := Pool.runOps_snoc _ _ _ _ h
    have ih := ih q h1
    rw [List.findSome?_append]
    cases op with
    | addPrice s' t pr =>
      obtain ⟨A, B, cA, cB, _, _, _, _, _, rfl⟩ := Pool.addPrice_ok h2
      simp only [List.findSome?_cons, List.findSome?_nil, lookupOf, Option.or_none]
      exact ih
    | findOrCreate s' ann =>
      injection h2 with h2; subst h2
      by_cases hss : s' = s
      · subst hss
        simp only [List.findSome?_cons, List.findSome?_nil, lookupOf, if_true]
        cases hf : q.find s' with
        | some c0 =>
          rw [hf] at ih
          have : (q.findOrCreate s' ann).1.find s' = some c0 := by
            unfold Pool.find at hf ⊢
            rw [(Pool.findOrCreate_old hs hf ann).2.1, hf]
          rw [this, ih]
          cases hx : ops.findSome? (lookupOf s') with
          | none => rw [hx] at ih; cases ih
          | some x => rfl
        | none =>
          rw [hf] at ih
          cases hx : ops.findSome? (lookupOf s') with
          | some x => rw [hx] at ih; cases ih
          | none =>
            have hf' := hf
            unfold Pool.find at hf'
            unfold Pool.find
            rw [(Pool.findOrCreate_new hs hf ann).2.1, assocGet_append, hf']
            simp [assocGet]
      · simp only [List.findSome?_cons, List.findSome?_nil, lookupOf, hss, if_false, Option.or_none]
        rw [← ih]
        congr 1
        by_cases hs' : s' = []
        · subst hs'; rw [Pool.findOrCreate_empty]
        · unfold Pool.find
          cases hf : q.find s' with
          | some c0 => rw [(Pool.findOrCreate_old hs' hf ann).2.1]
          | none =>
            rw [(Pool.findOrCreate_new hs' hf ann).2.1, assocGet_append]
            simp [assocGet, hss]

end Ledger
