import Verif.Model.Output
import Verif.Spec.Output
import Mathlib.Tactic.IntervalCases
/-
The `Debug` text of a list of strings.
-/
namespace Ledger
open Ledger.Output

theorem hexVal_brace : hexVal '}' = none := by decide

theorem hexVal_hexChar (n : Nat) (h : n < 16) : hexVal (hexChar n) = some n := by
  interval_cases n <;> decide

theorem hexDenotes_append (v : Nat) (a b : Str) :
    hexDenotes v (a ++ b) = (hexDenotes v a).bind (fun w => hexDenotes w b) := by
  induction a generalizing v with
  | nil => rfl
  | cons c a ih =>
    rw [List.cons_append, hexDenotes, hexDenotes]
    cases hexVal c with
    | none => rfl
    | some d => exact ih _

/-- The digits of a number denote it. -/
theorem hexGo_denotes (f n : Nat) (hn : n < 16 ^ f) (acc : Str) :
    hexDenotes 0 (hexGo f n acc) = hexDenotes n acc := by
  induction f generalizing n acc with
  | zero =>
    have : n = 0 := by simpa using hn
    subst this; rfl
  | succ f ih =>
    rw [hexGo]
    have hm : n % 16 < 16 := Nat.mod_lt _ (by decide)
    split
    · rename_i h0
      rw [hexDenotes, hexVal_hexChar _ hm]
      show hexDenotes (16 * 0 + n % 16) acc = _
      congr 1; omega
    · rw [ih (n / 16) (by rw [Nat.div_lt_iff_lt_mul (by decide)]; rw [Nat.pow_succ] at hn; exact hn), hexDenotes,
        hexVal_hexChar _ hm]
      show hexDenotes (16 * (n / 16) + n % 16) acc = _
      congr 1; omega

theorem char_hex (c : Char) : hexDenotes 0 (hexGo 8 c.toNat []) = some c.toNat := by
  rw [hexGo_denotes]
  · rfl
  · have : c.toNat < 1114112 := by
      rcases c.valid with h | h
      · exact lt_trans h (by decide)
      · exact h.2
    exact lt_trans this (by decide)

/-! ### the text is a list of literals -/

theorem debugChar_literal (plain : Char → Bool) (c : Char) {t s : Str} (h : LiteralRest t s) :
    LiteralRest (debugChar plain c ++ t) (c :: s) := by
  unfold debugChar
  by_cases h1 : c = '\x00'
  · subst h1; exact .escaped .nul h
  by_cases h2 : c = '\t'
  · subst h2; exact .escaped .tab h
  by_cases h3 : c = '\r'
  · subst h3; exact .escaped .cr h
  by_cases h4 : c = '\n'
  · subst h4; exact .escaped .lf h
  by_cases h5 : c = '\\'
  · subst h5; exact .escaped .backslash h
  by_cases h6 : c = '"'
  · subst h6; exact .escaped .quote h
  rw [if_neg h1, if_neg h2, if_neg h3, if_neg h4, if_neg h5, if_neg h6]
  split
  · exact .char h6 h5 h
  · have := LiteralRest.unicode (char_hex c) h
    simpa using this

theorem debugStr_literal (plain : Char → Bool) (s : Str) : LiteralRest (s.flatMap (debugChar plain) ++ ['"']) s := by
  induction s with
  | nil => exact .close
  | cons c s ih =>
    rw [List.flatMap_cons, List.append_assoc]
    exact debugChar_literal plain c ih

theorem debugList_literal (plain : Char → Bool) (xs : List Str) : LiteralList (debugList plain xs) xs := by
  unfold debugList
  cases xs with
  | nil => exact .empty
  | cons s ss =>
    refine .some ?_
    induction ss generalizing s with
    | nil => exact .last (debugStr_literal plain s)
    | cons s' ss ih =>
      have := LiteralsRest.more (debugStr_literal plain s) (ih s')
      simpa [debugItems, debugStr, str] using this

/-! ### a text has only one reading -/

theorem Escaped.unique {e c c' : Char} (h : Escaped e c) (h' : Escaped e c') : c = c' := by
  cases h <;> cases h' <;> rfl

theorem hexDenotes_unique {ds ds' t t' : Str} {v n n' : Nat} (h : hexDenotes v ds = some n) (h' : hexDenotes v ds' = some n')
    (e : ds ++ '}' :: t = ds' ++ '}' :: t') : n = n' ∧ t = t' := by
  induction ds generalizing ds' v with
  | nil =>
    cases ds' with
    | nil =>
      rw [hexDenotes] at h h'
      cases h; cases h'
      exact ⟨rfl, by simpa using e⟩
    | cons d ds' =>
      simp only [List.nil_append, List.cons_append, List.cons.injEq] at e
      rw [← e.1, hexDenotes, hexVal_brace] at h'; cases h'
  | cons d ds ih =>
    cases ds' with
    | nil =>
      simp only [List.nil_append, List.cons_append, List.cons.injEq] at e
      rw [e.1, hexDenotes, hexVal_brace] at h; cases h
    | cons d' ds' =>
      simp only [List.cons_append, List.cons.injEq] at e
      obtain ⟨rfl, e⟩ := e
      rw [hexDenotes] at h h'
      cases hd : hexVal d with
      | none => rw [hd] at h; cases h
      | some x => rw [hd] at h h'; exact ih h h' e

theorem LiteralRest.unique {t s t' s' r r' : Str} (h : LiteralRest t s) (h' : LiteralRest t' s') (e : t ++ r = t' ++ r') :
    s = s' ∧ r = r' := by
  induction h generalizing t' s' with
  | close =>
    cases h' with
    | close => exact ⟨rfl, by simpa using e⟩
    | char h1 h2 h => simp only [List.cons_append, List.cons.injEq] at e; exact absurd e.1.symm h1
    | escaped he h => simp at e
    | unicode hd h => simp at e
  | char h1 h2 h ih =>
    cases h' with
    | close => simp only [List.cons_append, List.cons.injEq] at e; exact absurd e.1 h1
    | char g1 g2 g =>
      simp only [List.cons_append, List.cons.injEq] at e
      obtain ⟨a, b⟩ := ih g e.2
      exact ⟨by rw [e.1, a], b⟩
    | escaped he h => simp only [List.cons_append, List.cons.injEq] at e; exact absurd e.1 h2
    | unicode hd h => simp only [List.cons_append, List.cons.injEq] at e; exact absurd e.1 h2
  | escaped he h ih =>
    cases h' with
    | close => simp at e
    | char g1 g2 g => simp only [List.cons_append, List.cons.injEq] at e; exact absurd e.1.symm g2
    | escaped he' g =>
      simp only [List.cons_append, List.cons.injEq, true_and] at e
      obtain ⟨rfl, e⟩ := e
      obtain ⟨a, b⟩ := ih g e
      exact ⟨by rw [he.unique he', a], b⟩
    | unicode hd g =>
      simp only [List.cons_append, List.cons.injEq, true_and] at e
      rw [e.1] at he; cases he
  | unicode hd h ih =>
    cases h' with
    | close => simp at e
    | char g1 g2 g => simp only [List.cons_append, List.cons.injEq] at e; exact absurd e.1.symm g2
    | escaped he' g =>
      simp only [List.cons_append, List.cons.injEq, true_and] at e
      rw [← e.1] at he'; cases he'
    | unicode hd' g =>
      simp only [List.cons_append, List.cons.injEq, true_and, List.append_assoc] at e
      obtain ⟨a, b⟩ := hexDenotes_unique hd hd' e
      obtain ⟨a', b'⟩ := ih g b
      refine ⟨?_, b'⟩
      rw [Char.toNat_inj.mp a, a']

theorem LiteralsRest.unique {t t' : Str} {ss ss' : List Str} {r r' : Str} (h : LiteralsRest t ss) (h' : LiteralsRest t' ss')
    (e : t ++ r = t' ++ r') : ss = ss' ∧ r = r' := by
  induction h generalizing t' ss' with
  | last h =>
    cases h' with
    | last g =>
      simp only [List.cons_append, List.cons.injEq, true_and, List.append_assoc] at e
      obtain ⟨a, b⟩ := h.unique g e
      exact ⟨by rw [a], by simpa using b⟩
    | more g gs =>
      simp only [List.cons_append, List.cons.injEq, true_and, List.append_assoc] at e
      obtain ⟨a, b⟩ := h.unique g e
      simp at b
  | more h hs ih =>
    cases h' with
    | last g =>
      simp only [List.cons_append, List.cons.injEq, true_and, List.append_assoc] at e
      obtain ⟨a, b⟩ := h.unique g e
      simp at b
    | more g gs =>
      simp only [List.cons_append, List.cons.injEq, true_and, List.append_assoc] at e
      obtain ⟨a, b⟩ := h.unique g e
      simp only [List.cons.injEq, true_and] at b
      obtain ⟨a', b'⟩ := ih gs b
      exact ⟨by rw [a, a'], b'⟩

theorem LiteralList.unique {t t' : Str} {ss ss' : List Str} {r r' : Str} (h : LiteralList t ss) (h' : LiteralList t' ss')
    (e : t ++ r = t' ++ r') : ss = ss' ∧ r = r' := by
  cases h with
  | empty =>
    cases h' with
    | empty => exact ⟨rfl, by simpa using e⟩
    | some g => cases g <;> simp at e
  | some h =>
    cases h' with
    | empty => cases h <;> simp at e
    | some g =>
      simp only [List.cons_append, List.cons.injEq, true_and] at e
      exact h.unique g e

/-! ### no line feeds -/

theorem hexChar_ne (n : Nat) (h : n < 16) : hexChar n ≠ '\n' := by interval_cases n <;> decide

theorem hexGo_no_lf (f n : Nat) (acc : Str) (h : '\n' ∉ acc) : '\n' ∉ hexGo f n acc := by
  induction f generalizing n acc with
  | zero => exact h
  | succ f ih =>
    have hc : '\n' ∉ hexChar (n % 16) :: acc := by
      rw [List.mem_cons, not_or]
      exact ⟨(hexChar_ne _ (Nat.mod_lt _ (by decide))).symm, h⟩
    rw [hexGo]
    split
    · exact hc
    · exact ih _ _ hc

theorem debugChar_no_lf (plain : Char → Bool) (c : Char) : '\n' ∉ debugChar plain c := by
  unfold debugChar
  by_cases h4 : c = '\n'
  · subst h4
    rw [if_neg (by decide), if_neg (by decide), if_neg (by decide), if_pos rfl]; decide
  · have := hexGo_no_lf 8 c.toNat [] (by simp)
    repeat' split
    all_goals first
      | decide
      | (simp only [List.mem_singleton]; exact fun e => h4 e.symm)
      | (simp only [List.mem_append, List.mem_cons, List.not_mem_nil, or_false, not_or]
         exact ⟨⟨⟨by decide, by decide, by decide⟩, this⟩, by decide⟩)

theorem debugStr_no_lf (plain : Char → Bool) (s : Str) : '\n' ∉ debugStr plain s := by
  unfold debugStr
  simp only [List.cons_append, List.mem_cons, List.mem_append, List.mem_flatMap, List.not_mem_nil, or_false, not_or,
    not_exists, not_and]
  exact ⟨by decide, fun c _ => debugChar_no_lf plain c, by decide⟩

theorem debugList_no_lf (plain : Char → Bool) (xs : List Str) : '\n' ∉ debugList plain xs := by
  have key : '\n' ∉ debugItems plain xs := by
    induction xs with
    | nil => simp [debugItems]
    | cons s ss ih =>
      cases ss with
      | nil => exact debugStr_no_lf plain s
      | cons s' ss =>
        rw [debugItems, List.mem_append, List.mem_append]
        · rintro ((h | h) | h)
          · exact debugStr_no_lf plain s h
          · exact absurd h (by decide)
          · exact ih h
        · simp
  unfold debugList
  simp only [List.cons_append, List.mem_cons, List.mem_append, List.not_mem_nil, or_false, not_or]
  exact ⟨by decide, key, by decide⟩

end Ledger
