import Verif.Spec.Accounts
import Mathlib.Data.List.Basic
import Mathlib.Data.List.Perm.Basic
/-
Lexicographic order and sorting.
-/
namespace Ledger

section Lex
variable {α : Type} {r : α → α → Prop}

theorem lex_irrefl (hi : ∀ a, ¬ r a a) (l : List α) : ¬ List.Lex r l l := by
  induction l with
  | nil => intro h; cases h
  | cons a l ih =>
    intro h
    cases h with
    | rel h => exact hi a h
    | cons h => exact ih h

theorem lex_trans (ht : ∀ a b c, r a b → r b c → r a c) {l1 l2 l3 : List α} (h1 : List.Lex r l1 l2)
    (h2 : List.Lex r l2 l3) : List.Lex r l1 l3 := by
  induction h1 generalizing l3 with
  | nil => cases h2 <;> exact List.Lex.nil
  | rel h =>
    cases h2 with
    | rel h' => exact List.Lex.rel (ht _ _ _ h h')
    | cons _ => exact List.Lex.rel h
  | cons h ih =>
    cases h2 with
    | rel h' => exact List.Lex.rel h'
    | cons h' => exact List.Lex.cons (ih h')

theorem lex_tri (ht : ∀ a b, r a b ∨ a = b ∨ r b a) (l1 l2 : List α) : List.Lex r l1 l2 ∨ l1 = l2 ∨ List.Lex r l2 l1 := by
  induction l1 generalizing l2 with
  | nil =>
    cases l2 with
    | nil => exact Or.inr (Or.inl rfl)
    | cons b l2 => exact Or.inl List.Lex.nil
  | cons a l1 ih =>
    cases l2 with
    | nil => exact Or.inr (Or.inr List.Lex.nil)
    | cons b l2 =>
      rcases ht a b with h | h | h
      · exact Or.inl (List.Lex.rel h)
      · subst h
        rcases ih l2 with h | h | h
        · exact Or.inl (List.Lex.cons h)
        · subst h; exact Or.inr (Or.inl rfl)
        · exact Or.inr (Or.inr (List.Lex.cons h))
      · exact Or.inr (Or.inr (List.Lex.rel h))
end Lex

theorem strBefore_irrefl (a : Str) : ¬ StrBefore a a := lex_irrefl (fun c => Nat.lt_irrefl c.toNat) a

theorem strBefore_trans {a b c : Str} (h1 : StrBefore a b) (h2 : StrBefore b c) : StrBefore a c :=
  lex_trans (r := fun a b : Char => a.toNat < b.toNat) (fun _ _ _ h h' => Nat.lt_trans h h') h1 h2

theorem char_tri (a b : Char) : a.toNat < b.toNat ∨ a = b ∨ b.toNat < a.toNat := by
  rcases Nat.lt_trichotomy a.toNat b.toNat with h | h | h
  · exact Or.inl h
  · exact Or.inr (Or.inl (Char.ext (UInt32.toNat_inj.mp h)))
  · exact Or.inr (Or.inr h)

theorem strBefore_tri (a b : Str) : StrBefore a b ∨ a = b ∨ StrBefore b a := lex_tri char_tri a b

theorem pathBefore_irrefl (a : Path) : ¬ PathBefore a a := lex_irrefl strBefore_irrefl a

theorem pathBefore_trans {a b c : Path} (h1 : PathBefore a b) (h2 : PathBefore b c) : PathBefore a c :=
  lex_trans (r := StrBefore) (fun _ _ _ h h' => strBefore_trans h h') h1 h2

theorem strLe_iff (a b : Str) : strLe a b = true ↔ StrBefore a b ∨ a = b := by
  induction a generalizing b with
  | nil =>
    cases b with
    | nil => simp [strLe]
    | cons b bs => simp only [strLe, true_iff]; exact Or.inl List.Lex.nil
  | cons a as ih =>
    cases b with
    | nil =>
      simp only [strLe, Bool.false_eq_true, false_iff]
      rintro (h | h) <;> cases h
    | cons b bs =>
      unfold strLe
      by_cases h1 : a.toNat < b.toNat
      · simp only [h1, if_true, true_iff]; exact Or.inl (List.Lex.rel h1)
      · rw [if_neg h1]
        by_cases h2 : a = b
        · subst h2
          rw [if_pos rfl, ih]
          constructor
          · rintro (h | h)
            · exact Or.inl (List.Lex.cons h)
            · exact Or.inr (by rw [h])
          · rintro (h | h)
            · cases h with
              | rel h => exact absurd h h1
              | cons h => exact Or.inl h
            · injection h with _ h; exact Or.inr h
        · rw [if_neg h2]
          simp only [Bool.false_eq_true, false_iff]
          rintro (h | h)
          · cases h with
            | rel h => exact h1 h
            | cons h => exact h2 rfl
          · injection h with h _; exact h2 h

theorem insertByKey_perm {β : Type} (x : Str × β) (l : List (Str × β)) : (insertByKey x l).Perm (x :: l) := by
  induction l with
  | nil => exact List.Perm.refl _
  | cons y ys ih =>
    unfold insertByKey
    split
    · exact List.Perm.refl _
    · exact (List.Perm.cons y ih).trans (List.Perm.swap x y ys)

theorem sortByKey_perm {β : Type} (l : List (Str × β)) : (sortByKey l).Perm l := by
  induction l with
  | nil => exact List.Perm.refl _
  | cons x xs ih => exact (insertByKey_perm x _).trans (List.Perm.cons x ih)

theorem insertByKey_sorted {β : Type} (x : Str × β) (l : List (Str × β))
    (h : l.Pairwise (fun a b => strLe a.1 b.1 = true)) :
    (insertByKey x l).Pairwise (fun a b => strLe a.1 b.1 = true) := by
  induction l with
  | nil => simp [insertByKey]
  | cons y ys ih =>
    rw [List.pairwise_cons] at h
    unfold insertByKey
    split
    · rename_i hxy
      rw [List.pairwise_cons, List.pairwise_cons]
      refine ⟨?_, h⟩
      intro z hz
      rcases List.mem_cons.mp hz with rfl | hz
      · exact hxy
      · have h1 := h.1 z hz
        rw [strLe_iff] at hxy h1 ⊢
        rcases hxy with a | a
        · rcases h1 with b | b
          · exact Or.inl (strBefore_trans a b)
          · rw [← b]; exact Or.inl a
        · rw [a]; exact h1
    · rename_i hxy
      rw [List.pairwise_cons]
      refine ⟨?_, ih h.2⟩
      intro z hz
      rcases List.mem_cons.mp ((insertByKey_perm x ys).mem_iff.mp hz) with rfl | hz
      · rw [strLe_iff]
        rw [strLe_iff, not_or] at hxy
        rcases strBefore_tri z.1 y.1 with a | a | a
        · exact absurd a hxy.1
        · exact absurd a hxy.2
        · exact Or.inl a
      · exact h.1 z hz

theorem sortByKey_sorted {β : Type} (l : List (Str × β)) :
    (sortByKey l).Pairwise (fun a b => strLe a.1 b.1 = true) := by
  induction l with
  | nil => exact List.Pairwise.nil
  | cons x xs ih => exact insertByKey_sorted x _ ih

/-- With distinct keys the sorted keys are strictly ascending. -/
theorem sortByKey_strict {β : Type} (l : List (Str × β)) (hn : (l.map (·.1)).Nodup) :
    (sortByKey l).Pairwise (fun a b => StrBefore a.1 b.1) := by
  have h1 := sortByKey_sorted l
  have h2 : ((sortByKey l).map (·.1)).Nodup := ((sortByKey_perm l).map _).nodup_iff.mpr hn
  unfold List.Nodup at h2
  rw [List.pairwise_map] at h2
  refine (h1.and h2).imp ?_
  rintro a b ⟨h, hne⟩
  rw [strLe_iff] at h
  exact h.resolve_right hne

/-- A strictly ascending list is determined by its elements. -/
theorem sorted_unique {α : Type} {r : α → α → Prop} (hi : ∀ a, ¬ r a a) (ht : ∀ a b c, r a b → r b c → r a c)
    (l1 l2 : List α) (h1 : l1.Pairwise r) (h2 : l2.Pairwise r) (he : ∀ x, x ∈ l1 ↔ x ∈ l2) : l1 = l2 := by
  induction l1 generalizing l2 with
  | nil =>
    cases l2 with
    | nil => rfl
    | cons b l2 => have := (he b).mpr List.mem_cons_self; cases this
  | cons a l1 ih =>
    cases l2 with
    | nil => have := (he a).mp List.mem_cons_self; cases this
    | cons b l2 =>
      rw [List.pairwise_cons] at h1 h2
      have hab : a = b := by
        have ha := (he a).mp List.mem_cons_self
        have hb := (he b).mpr List.mem_cons_self
        rcases List.mem_cons.mp ha with e | e
        · exact e
        · rcases List.mem_cons.mp hb with e' | e'
          · exact e'.symm
          · exact absurd (ht _ _ _ (h2.1 a e) (h1.1 b e')) (hi b)
      subst hab
      congr 1
      apply ih l2 h1.2 h2.2
      intro x
      constructor
      · intro hx
        rcases List.mem_cons.mp ((he x).mp (List.mem_cons_of_mem _ hx)) with rfl | h
        · exact absurd (h1.1 x hx) (hi x)
        · exact h
      · intro hx
        rcases List.mem_cons.mp ((he x).mpr (List.mem_cons_of_mem _ hx)) with rfl | h
        · exact absurd (h2.1 x hx) (hi x)
        · exact h

end Ledger
