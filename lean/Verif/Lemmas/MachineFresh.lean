import Verif.Lemmas.MachineTime
import Verif.Lemmas.Causes
/-
A transaction is completed without following a stale pointer exactly if its pointers are fresh.
-/
namespace Ledger.Machine
open Ledger Ledger.Memory Ledger.Heap Ledger.Parser

/-! ### every figure is looked at -/

theorem addTo_live {p : Store} {x a : Amt} {xs b' : List Amt} (h : addTo p (x :: xs) a = .ok b') (hx : ∀ y ∈ xs, Live p y) :
    Live p x ∧ Live p a ∧ b' ≠ [] ∧ ∀ y ∈ b', Live p y := by
  induction xs generalizing x b' with
  | nil =>
    obtain ⟨eq, he, h⟩ := bind_ok h
    obtain ⟨h1, h2⟩ := same_live he
    refine ⟨h1, h2, ?_⟩
    cases eq with
    | true =>
      obtain ⟨x', hx', h⟩ := bind_ok (show (x.add a >>= fun x' => Except.ok (x' :: [])) = .ok b' from h)
      injection h with h
      rw [← h]
      refine ⟨by simp, ?_⟩
      intro y hy
      rw [List.mem_singleton] at hy
      rw [hy]
      unfold Amt.add at hx'
      split at hx'
      · cases hx'
      · split at hx'
        · injection hx' with hx'; rw [← hx']; exact h1
        · obtain ⟨q, _, hx'⟩ := bind_ok hx'
          injection hx' with hx'; rw [← hx']; exact h1
    | false =>
      obtain ⟨xs', h3, h⟩ := bind_ok (show (addTo p [] a >>= fun xs' => Except.ok (x :: xs')) = .ok b' from h)
      injection h3 with h3
      injection h with h
      rw [← h, ← h3]
      exact ⟨by simp, by intro y hy; simp only [List.mem_cons, List.not_mem_nil, or_false] at hy; rcases hy with rfl | rfl <;> assumption⟩
  | cons z zs ih =>
    obtain ⟨eq, he, h⟩ := bind_ok h
    obtain ⟨h1, h2⟩ := same_live he
    refine ⟨h1, h2, ?_⟩
    cases eq with
    | true =>
      obtain ⟨x', hx', h⟩ := bind_ok (show (x.add a >>= fun x' => Except.ok (x' :: z :: zs)) = .ok b' from h)
      injection h with h
      rw [← h]
      refine ⟨by simp, ?_⟩
      intro y hy
      rcases List.mem_cons.mp hy with rfl | hy
      · unfold Amt.add at hx'
        split at hx'
        · cases hx'
        · split at hx'
          · injection hx' with hx'; rw [← hx']; exact h1
          · obtain ⟨q, _, hx'⟩ := bind_ok hx'
            injection hx' with hx'; rw [← hx']; exact h1
      · exact hx y hy
    | false =>
      obtain ⟨xs', h3, h⟩ := bind_ok (show (addTo p (z :: zs) a >>= fun xs' => Except.ok (x :: xs')) = .ok b' from h)
      obtain ⟨_, _, _, h4⟩ := ih h3 (fun y hy => hx y (List.mem_cons_of_mem _ hy))
      injection h with h
      rw [← h]
      exact ⟨by simp, by intro y hy; rcases List.mem_cons.mp hy with rfl | hy; exacts [h1, h4 y hy]⟩

/-- What a posting adds to the balance. -/
def Pst.figure (X : Pst) : Option Amt := match X.cost with | some c => some c | none => X.amount

theorem sumPosts_cons (p : Store) (x : Pst) (xs : List Pst) (i : Nat) (b : List Amt) (np : Option Nat) :
    sumPosts p (x :: xs) i b np = match x.figure with
    | some a => addTo p b a >>= fun b' => sumPosts p xs (i + 1) b' np
    | none => match np with
      | some _ => .error .secondNullPost
      | none => sumPosts p xs (i + 1) b (some i) := by
  conv_lhs => unfold sumPosts
  rfl

theorem sumPosts_live {p : Store} {xs : List Pst} {i : Nat} {b b' : List Amt} {np np' : Option Nat} (hb : b ≠ []) (hl : ∀ y ∈ b, Live p y)
    (h : sumPosts p xs i b np = .ok (b', np')) : ∀ X ∈ xs, ∀ f, X.figure = some f → Live p f := by
  induction xs generalizing i b np with
  | nil => intro X hX; cases hX
  | cons x xs ih =>
    rw [sumPosts_cons] at h
    intro X hX f hf
    cases hx : x.figure with
    | some a =>
      simp only [hx] at h
      obtain ⟨z, zs, rfl⟩ := List.exists_cons_of_ne_nil hb
      obtain ⟨b1, h1, h⟩ := bind_ok h
      obtain ⟨_, h3, h4, h5⟩ := addTo_live h1 (fun y hy => hl y (List.mem_cons_of_mem _ hy))
      rcases List.mem_cons.mp hX with rfl | hX
      · rw [hx] at hf; injection hf with hf; exact hf ▸ h3
      · exact ih h4 h5 h X hX f hf
    | none =>
      simp only [hx] at h
      cases np with
      | some n => cases h
      | none =>
        rcases List.mem_cons.mp hX with rfl | hX
        · rw [hx] at hf; cases hf
        · exact ih hb hl h X hX f hf

theorem sumPosts_one {p : Store} {xs : List Pst} {i : Nat} {a : Amt} {b' : List Amt} {np np' : Option Nat}
    (h : sumPosts p xs i [a] np = .ok (b', np')) :
    (Live p a ∧ ∀ X ∈ xs, ∀ f, X.figure = some f → Live p f) ∨ (b' = [a] ∧ ∀ X ∈ xs, X.figure = none) := by
  induction xs generalizing i np with
  | nil => injection h with h; exact Or.inr ⟨(fst_ext h).1.symm, by intro X hX; cases hX⟩
  | cons x xs ih =>
    rw [sumPosts_cons] at h
    cases hx : x.figure with
    | some c =>
      simp only [hx] at h
      obtain ⟨b1, h1, h⟩ := bind_ok h
      obtain ⟨h2, h3, h4, h5⟩ := addTo_live h1 (by intro y hy; cases hy)
      refine Or.inl ⟨h2, ?_⟩
      intro X hX f hf
      rcases List.mem_cons.mp hX with rfl | hX
      · rw [hx] at hf; injection hf with hf; exact hf ▸ h3
      · exact sumPosts_live h4 h5 h X hX f hf
    | none =>
      simp only [hx] at h
      cases np with
      | some n => cases h
      | none =>
        rcases ih h with ⟨h1, h2⟩ | ⟨h1, h2⟩
        · refine Or.inl ⟨h1, ?_⟩
          intro X hX f hf
          rcases List.mem_cons.mp hX with rfl | hX
          · rw [hx] at hf; cases hf
          · exact h2 X hX f hf
        · refine Or.inr ⟨h1, ?_⟩
          intro X hX
          rcases List.mem_cons.mp hX with rfl | hX
          · exact hx
          · exact h2 X hX

theorem sumPosts_some {p : Store} {xs : List Pst} {i : Nat} {b b' : List Amt} {n : Nat} {np' : Option Nat}
    (h : sumPosts p xs i b (some n) = .ok (b', np')) : np' = some n := by
  induction xs generalizing i b with
  | nil => injection h with h; exact (fst_ext h).2.symm
  | cons x xs ih =>
    rw [sumPosts_cons] at h
    cases hx : x.figure with
    | some c =>
      simp only [hx] at h
      obtain ⟨b1, _, h⟩ := bind_ok h
      exact ih h
    | none => simp only [hx] at h; cases h

theorem sumPosts_blank {p : Store} {xs : List Pst} {i : Nat} {b b' : List Amt} (h : sumPosts p xs i b none = .ok (b', none)) :
    ∀ X ∈ xs, X.figure ≠ none := by
  induction xs generalizing i b with
  | nil => intro X hX; cases hX
  | cons x xs ih =>
    rw [sumPosts_cons] at h
    cases hx : x.figure with
    | some c =>
      simp only [hx] at h
      obtain ⟨b1, _, h⟩ := bind_ok h
      intro X hX
      rcases List.mem_cons.mp hX with rfl | hX
      · rw [hx]; simp
      · exact ih h X hX
    | none =>
      simp only [hx] at h
      cases sumPosts_some h

/-- The first loop, from nothing. -/
theorem sumPosts_zero {p : Store} {xs : List Pst} {i : Nat} {b' : List Amt} {np np' : Option Nat}
    (h : sumPosts p xs i [] np = .ok (b', np')) :
    (∀ X ∈ xs, ∀ f, X.figure = some f → Live p f) ∨
    (∃ l X r f, xs = l ++ X :: r ∧ X.figure = some f ∧ b' = [f] ∧ ∀ Y ∈ l ++ r, Y.figure = none) := by
  induction xs generalizing i np with
  | nil => exact Or.inl (by intro X hX; cases hX)
  | cons x xs ih =>
    rw [sumPosts_cons] at h
    cases hx : x.figure with
    | some c =>
      simp only [hx] at h
      obtain ⟨b1, h1, h⟩ := bind_ok h
      injection h1 with h1
      subst h1
      rcases sumPosts_one h with ⟨h1, h2⟩ | ⟨h1, h2⟩
      · refine Or.inl ?_
        intro X hX f hf
        rcases List.mem_cons.mp hX with rfl | hX
        · rw [hx] at hf; injection hf with hf; exact hf ▸ h1
        · exact h2 X hX f hf
      · exact Or.inr ⟨[], x, xs, c, rfl, hx, h1, h2⟩
    | none =>
      simp only [hx] at h
      cases np with
      | some n => cases h
      | none =>
        rcases ih h with h1 | ⟨l, X, r, f, h1, h2, h3, h4⟩
        · refine Or.inl ?_
          intro X hX f hf
          rcases List.mem_cons.mp hX with rfl | hX
          · rw [hx] at hf; cases hf
          · exact h1 X hX f hf
        · refine Or.inr ⟨x :: l, X, r, f, by rw [h1]; rfl, h2, h3, ?_⟩
          intro Y hY
          rcases List.mem_cons.mp hY with rfl | hY
          · exact hx
          · exact h4 Y hY

theorem impliedCosts_some {p : Store} {ps : List Pst} {b : List Amt} {n : Nat} : impliedCosts p ps b (some n) = .ok (ps, b) := by
  unfold impliedCosts; rfl

/-- Every figure of a completed transaction could be looked up. -/
theorem finalize_figures {date : Option Date} {posts ps : List Pst} {p p' : Store} (h : finalize date posts p = .ok (ps, p')) :
    ∀ X ∈ posts, ∀ f, X.figure = some f → Live p f := by
  unfold finalize at h
  obtain ⟨⟨b, np⟩, h1, h⟩ := bind_ok h
  simp only at h
  split at h
  · cases h
  · rename_i hlen
    obtain ⟨⟨ps1, b1⟩, h2, h⟩ := bind_ok h
    simp only at h
    obtain ⟨⟨ps2, p2⟩, h3, h⟩ := bind_ok h
    simp only at h
    obtain ⟨ps3, h4, h⟩ := bind_ok h
    rcases sumPosts_zero h1 with g | ⟨l, X, r, f, g1, g2, g3, g4⟩
    · exact g
    · have hf : Live p f := by
        cases np with
        | none =>
          exfalso
          have hb := sumPosts_blank h1
          cases hl : l ++ r with
          | nil =>
            obtain ⟨rfl, rfl⟩ := List.append_eq_nil_iff.mp hl
            rw [g1] at hlen
            exact hlen rfl
          | cons Y t =>
            refine hb Y ?_ (g4 Y (by rw [hl]; simp))
            have : Y ∈ l ++ r := by rw [hl]; simp
            rw [g1]
            rcases List.mem_append.mp this with h | h
            · exact List.mem_append_left _ h
            · exact List.mem_append_right _ (List.mem_cons_of_mem _ h)
        | some n =>
          rw [impliedCosts_some] at h2
          injection h2 with h2
          obtain ⟨rfl, rfl⟩ := fst_ext h2
          subst g3
          simp only [fillNull] at h4
          obtain ⟨a', ha', _⟩ := bind_ok h4
          obtain ⟨c, hc, _⟩ := bind_ok ha'
          obtain ⟨_, k2, _⟩ := recordPrices_later h3
          refine ⟨c, ?_⟩
          rw [← hc]
          unfold Store.look Store.deref Store.keys
          rw [k2]
      intro Y hY f' hf'
      rw [g1] at hY
      rcases List.mem_append.mp hY with h | h
      · rw [g4 Y (List.mem_append_left _ h)] at hf'; cases hf'
      · rcases List.mem_cons.mp h with rfl | h
        · rw [g2] at hf'; injection hf' with hf'; exact hf' ▸ hf
        · rw [g4 Y (List.mem_append_right _ h)] at hf'; cases hf'

/-! ### where the pointers of the final amounts come from -/

theorem addTo_from {p : Store} {b b' : List Amt} {a : Amt} (h : addTo p b a = .ok b') :
    ∀ y ∈ b', (∃ x ∈ b, y.ptr = x.ptr) ∨ y.ptr = a.ptr := by
  induction b generalizing b' with
  | nil =>
    injection h with h
    rw [← h]
    intro y hy
    rw [List.mem_singleton] at hy
    exact Or.inr (by rw [hy])
  | cons x xs ih =>
    obtain ⟨eq, _, h⟩ := bind_ok h
    cases eq with
    | true =>
      obtain ⟨x', hx', h⟩ := bind_ok (show (x.add a >>= fun x' => Except.ok (x' :: xs)) = .ok b' from h)
      injection h with h
      rw [← h]
      intro y hy
      rcases List.mem_cons.mp hy with rfl | hy
      · refine Or.inl ⟨x, by simp, ?_⟩
        unfold Amt.add at hx'
        split at hx'
        · cases hx'
        · split at hx'
          · injection hx' with hx'; rw [← hx']
          · obtain ⟨q, _, hx'⟩ := bind_ok hx'
            injection hx' with hx'; rw [← hx']
      · exact Or.inl ⟨y, by simp [hy], rfl⟩
    | false =>
      obtain ⟨xs', h3, h⟩ := bind_ok (show (addTo p xs a >>= fun xs' => Except.ok (x :: xs')) = .ok b' from h)
      injection h with h
      rw [← h]
      intro y hy
      rcases List.mem_cons.mp hy with rfl | hy
      · exact Or.inl ⟨y, by simp, rfl⟩
      · rcases ih h3 y hy with ⟨z, hz, e⟩ | e
        · exact Or.inl ⟨z, by simp [hz], e⟩
        · exact Or.inr e

theorem sumPosts_from {p : Store} {xs : List Pst} {i : Nat} {b b' : List Amt} {np np' : Option Nat} (h : sumPosts p xs i b np = .ok (b', np')) :
    ∀ y ∈ b', (∃ x ∈ b, y.ptr = x.ptr) ∨ ∃ X ∈ xs, ∃ f, X.figure = some f ∧ y.ptr = f.ptr := by
  induction xs generalizing i b np with
  | nil =>
    injection h with h
    intro y hy
    exact Or.inl ⟨y, by rw [(fst_ext h).1]; exact hy, rfl⟩
  | cons x xs ih =>
    rw [sumPosts_cons] at h
    intro y hy
    cases hx : x.figure with
    | some a =>
      simp only [hx] at h
      obtain ⟨b1, h1, h⟩ := bind_ok h
      rcases ih h y hy with ⟨z, hz, e⟩ | ⟨X, hX, f, hf, e⟩
      · rcases addTo_from h1 z hz with ⟨v, hv, e'⟩ | e'
        · exact Or.inl ⟨v, hv, e.trans e'⟩
        · exact Or.inr ⟨x, by simp, a, hx, e.trans e'⟩
      · exact Or.inr ⟨X, by simp [hX], f, hf, e⟩
    | none =>
      simp only [hx] at h
      cases np with
      | some n => cases h
      | none =>
        rcases ih h y hy with h1 | ⟨X, hX, f, hf, e⟩
        · exact Or.inl h1
        · exact Or.inr ⟨X, by simp [hX], f, hf, e⟩

theorem assignCosts_amounts {p : Store} {c : Option Commodity} {u : Amt} {xs xs' : List Pst} {b b' : List Amt}
    (h : assignCosts p c u xs b = .ok (xs', b')) : xs'.map (·.amount) = xs.map (·.amount) := by
  induction xs generalizing xs' b b' with
  | nil => injection h with h; rw [← (fst_ext h).1]
  | cons x xs ih =>
    rw [assignCosts] at h
    cases ha : x.amount with
    | none => rw [ha] at h; cases h
    | some a =>
      rw [ha] at h
      simp only at h
      obtain ⟨k, _, h⟩ := bind_ok h
      split at h
      · obtain ⟨b1, _, h⟩ := bind_ok h
        obtain ⟨k1, _, h⟩ := bind_ok h
        obtain ⟨b2, _, h⟩ := bind_ok h
        obtain ⟨⟨xs1, b3⟩, h1, h⟩ := bind_ok h
        injection h with h
        rw [← (fst_ext h).1, List.map_cons, List.map_cons, ih h1, ha]
      · obtain ⟨⟨xs1, b3⟩, h1, h⟩ := bind_ok h
        injection h with h
        rw [← (fst_ext h).1, List.map_cons, List.map_cons, ih h1]

theorem impliedCosts_amounts {p : Store} {ps ps' : List Pst} {b b' : List Amt} {np : Option Nat}
    (h : impliedCosts p ps b np = .ok (ps', b')) : ps'.map (·.amount) = ps.map (·.amount) := by
  unfold impliedCosts at h
  split at h
  · split at h
    · injection h with h; rw [← (fst_ext h).1]
    · split at h
      · obtain ⟨cx, _, h⟩ := bind_ok h
        obtain ⟨ct, _, h⟩ := bind_ok h
        simp only at h
        obtain ⟨cm, _, h⟩ := bind_ok h
        obtain ⟨u, _, h⟩ := bind_ok h
        exact assignCosts_amounts h
      · injection h with h; rw [← (fst_ext h).1]
  · injection h with h; rw [← (fst_ext h).1]

/-- The amounts of a completed transaction are those it had; that of the blank posting has the pointer of some figure. -/
theorem finalize_amounts {date : Option Date} {posts ps : List Pst} {p p' : Store} (h : finalize date posts p = .ok (ps, p')) :
    ps.length = posts.length ∧ ∀ (i : Nat) P', ps[i]? = some P' → ∃ P, posts[i]? = some P ∧ (P'.amount = P.amount ∨
      (P.amount = none ∧ ∃ A' X f, P'.amount = some A' ∧ X ∈ posts ∧ X.figure = some f ∧ A'.ptr = f.ptr)) := by
  unfold finalize at h
  obtain ⟨⟨b, np⟩, h1, h⟩ := bind_ok h
  simp only at h
  split at h
  · cases h
  · obtain ⟨⟨ps1, b1⟩, h2, h⟩ := bind_ok h
    simp only at h
    obtain ⟨⟨ps2, p2⟩, h3, h⟩ := bind_ok h
    simp only at h
    obtain ⟨ps3, h4, h⟩ := bind_ok h
    injection h with h
    obtain ⟨e1, e2⟩ := fst_ext h
    subst e1 e2
    have hm := impliedCosts_amounts h2
    obtain ⟨_, _, _, g4⟩ := recordPrices_later h3
    have hl1 : ps1.length = posts.length := by simpa using congrArg List.length hm
    have hl2 : ps2.length = ps1.length := g4.length_eq.symm
    have hps2 : ∀ (i : Nat) Q, ps2[i]? = some Q → ∃ P, posts[i]? = some P ∧ Q.amount = P.amount := by
      intro i Q hQ
      obtain ⟨Q1, f1, _, f2, _⟩ := forall₂_getElem?_right g4 hQ
      have h5 := congrArg (fun l => l[i]?) hm
      simp only [List.getElem?_map, f1, Option.map_some] at h5
      cases hp : posts[i]? with
      | none => rw [hp] at h5; cases h5
      | some P =>
        rw [hp] at h5
        simp only [Option.map_some, Option.some.injEq] at h5
        exact ⟨P, rfl, f2.trans h5⟩
    unfold fillNull at h4
    cases np with
    | none =>
      injection h4 with h4
      subst h4
      refine ⟨by omega, ?_⟩
      intro i P' hP'
      obtain ⟨P, k1, k2⟩ := hps2 i P' hP'
      exact ⟨P, k1, Or.inl k2⟩
    | some n =>
      rw [impliedCosts_some] at h2
      injection h2 with h2
      obtain ⟨rfl, rfl⟩ := fst_ext h2
      simp only at h4
      split at h4
      · obtain ⟨a', ha', h4⟩ := bind_ok h4
        injection h4 with h4
        subst h4
        refine ⟨by simp only [List.length_modify]; omega, ?_⟩
        intro i P' hP'
        rw [List.getElem?_modify] at hP'
        cases hq : ps2[i]? with
        | none => rw [hq] at hP'; simp at hP'
        | some Q =>
          obtain ⟨P, k1, k2⟩ := hps2 i Q hq
          rw [hq] at hP'
          simp only [Option.map_some, Option.map_eq_map, Option.some.injEq] at hP'
          refine ⟨P, k1, ?_⟩
          by_cases hn : n = i
          · rw [if_pos hn] at hP'
            right
            rw [← hP']
            have hnone : P.amount = none := by
              rcases sumPosts_null h1 with e | ⟨k, P0, e1, e2, e3, e4⟩
              · cases e
              · injection e1 with e1
                rw [Nat.zero_add] at e1
                subst e1
                rw [hn, k1] at e2
                injection e2 with e2
                rw [e2]; exact e3
            refine ⟨hnone, a', ?_⟩
            rcases sumPosts_from h1 _ (List.mem_singleton.mpr rfl) with ⟨x, hx, _⟩ | ⟨X, hX, f, hf, e⟩
            · cases hx
            · refine ⟨X, f, rfl, hX, hf, ?_⟩
              obtain ⟨c, _, ha'⟩ := bind_ok ha'
              injection ha' with ha'
              rw [← ha']; exact e
          · rw [if_neg hn] at hP'
            left
            rw [← hP']; exact k2
      · cases h4

end Ledger.Machine
