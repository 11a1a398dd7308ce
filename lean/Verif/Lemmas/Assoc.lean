import Verif.Model.Basic
import Mathlib.Data.List.Basic
import Mathlib.Data.List.Nodup
/-
Association lists.
-/
namespace Ledger

variable {β : Type}

theorem assocGet_insert_self (k : Str) (v : β) (l : List (Str × β)) : assocGet k (assocInsert k v l) = some v := by
  induction l with
  | nil => simp [assocInsert, assocGet]
  | cons x xs ih =>
    obtain ⟨k', v'⟩ := x
    unfold assocInsert
    by_cases h : k' = k
    · simp [h, assocGet]
    · simp [h, assocGet, ih]

theorem assocGet_insert_ne (k k2 : Str) (v : β) (l : List (Str × β)) (h : k2 ≠ k) :
    assocGet k2 (assocInsert k v l) = assocGet k2 l := by
  induction l with
  | nil => simp [assocInsert, assocGet, Ne.symm h]
  | cons x xs ih =>
    obtain ⟨k', v'⟩ := x
    unfold assocInsert
    by_cases h1 : k' = k
    · subst h1; simp [assocGet, Ne.symm h]
    · simp only [h1, if_false, assocGet, ih]

theorem assocGet_insert (k k2 : Str) (v : β) (l : List (Str × β)) :
    assocGet k2 (assocInsert k v l) = if k2 = k then some v else assocGet k2 l := by
  split
  · rename_i h; subst h; exact assocGet_insert_self _ _ _
  · rename_i h; exact assocGet_insert_ne _ _ _ _ h

theorem assocInsert_new (k : Str) (v : β) (l : List (Str × β)) (h : assocGet k l = none) :
    assocInsert k v l = l ++ [(k, v)] := by
  induction l with
  | nil => rfl
  | cons x xs ih =>
    obtain ⟨k', v'⟩ := x
    unfold assocGet at h
    split at h
    · cases h
    · rename_i hk; unfold assocInsert; rw [if_neg hk, ih h]; rfl

theorem assocGet_none_iff (k : Str) (l : List (Str × β)) : assocGet k l = none ↔ k ∉ l.map (·.1) := by
  induction l with
  | nil => simp [assocGet]
  | cons x xs ih =>
    obtain ⟨k', v'⟩ := x
    unfold assocGet
    by_cases h : k' = k
    · simp [h]
    · simp only [h, if_false, ih, List.map_cons, List.mem_cons, not_or]
      exact ⟨fun h2 => ⟨fun e => h e.symm, h2⟩, fun h2 => h2.2⟩

theorem assocGet_mem (k : Str) (v : β) (l : List (Str × β)) (h : assocGet k l = some v) : (k, v) ∈ l := by
  induction l with
  | nil => simp [assocGet] at h
  | cons x xs ih =>
    obtain ⟨k', v'⟩ := x
    unfold assocGet at h
    split at h
    · rename_i hk; subst hk; injection h with h; subst h; exact List.mem_cons_self
    · exact List.mem_cons_of_mem _ (ih h)

theorem assocGet_of_mem (k : Str) (v : β) (l : List (Str × β)) (hn : (l.map (·.1)).Nodup) (h : (k, v) ∈ l) :
    assocGet k l = some v := by
  induction l with
  | nil => cases h
  | cons x xs ih =>
    obtain ⟨k', v'⟩ := x
    rw [List.map_cons, List.nodup_cons] at hn
    unfold assocGet
    rcases List.mem_cons.mp h with e | e
    · injection e with e1 e2; subst e1; subst e2; simp
    · have : k' ≠ k := by
        intro e2; apply hn.1; subst e2
        exact List.mem_map_of_mem (f := (·.1)) e
      rw [if_neg this]; exact ih hn.2 e

theorem assocInsert_keys (k : Str) (v : β) (l : List (Str × β)) :
    (assocInsert k v l).map (·.1) = if k ∈ l.map (·.1) then l.map (·.1) else l.map (·.1) ++ [k] := by
  induction l with
  | nil => simp [assocInsert]
  | cons x xs ih =>
    obtain ⟨k', v'⟩ := x
    unfold assocInsert
    by_cases h : k' = k
    · subst h; simp
    · rw [if_neg h, List.map_cons, ih]
      by_cases hk : k ∈ xs.map (·.1)
      · rw [if_pos hk, if_pos (by rw [List.map_cons]; exact List.mem_cons_of_mem _ hk)]; rfl
      · rw [if_neg hk, if_neg]
        · rfl
        · rw [List.map_cons, List.mem_cons, not_or]; exact ⟨fun e => h e.symm, hk⟩

theorem assocInsert_keys_nodup (k : Str) (v : β) (l : List (Str × β)) (h : (l.map (·.1)).Nodup) :
    ((assocInsert k v l).map (·.1)).Nodup := by
  rw [assocInsert_keys]
  split
  · exact h
  · rename_i hk
    rw [List.nodup_append]
    exact ⟨h, by simp, by intro a ha b hb e; simp at hb; subst hb; subst e; exact hk ha⟩

theorem assocGet_append (k : Str) (l l' : List (Str × β)) :
    assocGet k (l ++ l') = (assocGet k l).or (assocGet k l') := by
  induction l with
  | nil => simp [assocGet]
  | cons x xs ih =>
    obtain ⟨k', v'⟩ := x
    simp only [List.cons_append, assocGet]
    split
    · rfl
    · exact ih

end Ledger
