import Verif.Lemmas.Order
/-
Facts about the account tree.
-/
namespace Ledger
open List

/-! ### names and paths -/

theorem splitName_nil : Account.splitName [] = ([], []) := rfl

theorem splitName_cons (c : Char) (s : Str) :
    Account.splitName (c :: s) = if c = ':' then ([], s) else (c :: (Account.splitName s).1, (Account.splitName s).2) := by
  unfold Account.splitName splitAtFirst
  by_cases h : c = ':'
  · subst h; simp
  · rw [if_neg h]
    have h' : (!(c == ':')) = true := by simp [h]
    rw [List.takeWhile_cons_of_pos (by simpa using h), List.dropWhile_cons_of_pos (by simpa using h)]
    cases hd : s.dropWhile (fun c => !(c == ':')) <;> simp

theorem splitColon_ne_nil (n : Str) : splitColon n ≠ [] := by
  cases n with
  | nil => simp [splitColon]
  | cons c cs =>
    unfold splitColon
    split
    · simp
    · split <;> simp

theorem splitColon_eq (n : Str) :
    splitColon n = (Account.splitName n).1 :: (if ':' ∈ n then splitColon (Account.splitName n).2 else []) := by
  induction n with
  | nil => simp [splitColon, splitName_nil]
  | cons c s ih =>
    rw [splitName_cons]
    by_cases h : c = ':'
    · subst h; simp [splitColon]
    · rw [if_neg h]
      rw [splitColon, if_neg h, ih]
      have : (':' ∈ c :: s) ↔ ':' ∈ s := by simp [Ne.symm h]
      simp only [this]

theorem splitName_rest_length (n : Str) : (Account.splitName n).2.length ≤ n.length ∧ (n ≠ [] → (Account.splitName n).2.length < n.length) := by
  induction n with
  | nil => simp [splitName_nil]
  | cons c s ih =>
    rw [splitName_cons]
    split
    · simp
    · simp only [length_cons]; exact ⟨by omega, fun _ => by omega⟩

theorem splitName_noColon {n : Str} (h : ':' ∉ n) : Account.splitName n = (n, []) := by
  induction n with
  | nil => rfl
  | cons c s ih =>
    simp only [mem_cons, not_or] at h
    rw [splitName_cons, if_neg (Ne.symm h.1), ih h.2]

theorem splitName_first_noColon (n : Str) : ':' ∉ (Account.splitName n).1 := by
  induction n with
  | nil => simp [splitName_nil]
  | cons c s ih =>
    rw [splitName_cons]
    split
    · simp
    · rename_i h; simp [Ne.symm h, ih]

theorem splitName_colon {n : Str} (h : ':' ∈ n) : n = (Account.splitName n).1 ++ ':' :: (Account.splitName n).2 := by
  induction n with
  | nil => simp at h
  | cons c s ih =>
    rw [splitName_cons]
    split
    · rename_i hc; subst hc; rfl
    · rename_i hc
      have : ':' ∈ s := by simpa [Ne.symm hc] using h
      simp only [cons_append]
      rw [← ih this]

theorem splitName_rest_ne {n : Str} (h : (Account.splitName n).2 ≠ []) : ':' ∈ n := by
  by_contra hn; rw [splitName_noColon hn] at h; exact h rfl

theorem pathOf_eq (n : Str) : pathOf n =
    if (Account.splitName n).2 = [] then [(Account.splitName n).1]
    else (Account.splitName n).1 :: pathOf (Account.splitName n).2 := by
  unfold pathOf
  simp only
  rw [splitColon_eq n]
  by_cases hc : ':' ∈ n
  · rw [if_pos hc]
    by_cases hr : (Account.splitName n).2 = []
    · rw [if_pos hr, hr]; simp [splitColon]
    · rw [if_neg hr]
      have hne := splitColon_ne_nil (Account.splitName n).2
      have hg : ((Account.splitName n).1 :: splitColon (Account.splitName n).2).getLast? =
          (splitColon (Account.splitName n).2).getLast? := by
        rw [List.getLast?_cons]; cases hx : (splitColon (Account.splitName n).2).getLast? with
        | none => rw [List.getLast?_eq_none_iff] at hx; exact absurd hx hne
        | some x => rfl
      rw [hg]
      have hl : (splitColon (Account.splitName n).2).length ≥ 1 := by
        cases hx : splitColon (Account.splitName n).2 with
        | nil => exact absurd hx hne
        | cons a b => simp
      have hd : ((Account.splitName n).1 :: splitColon (Account.splitName n).2).dropLast =
          (Account.splitName n).1 :: (splitColon (Account.splitName n).2).dropLast := by
        cases hx : splitColon (Account.splitName n).2 with
        | nil => exact absurd hx hne
        | cons a b => rfl
      rw [hd]
      simp only [length_cons]
      by_cases hlast : (splitColon (Account.splitName n).2).getLast? = some []
      · have h2 : 2 ≤ (splitColon (Account.splitName n).2).length := by
          -- a single empty part means an empty text
          rw [splitColon_eq] at hlast ⊢
          by_cases hc2 : ':' ∈ (Account.splitName n).2
          · rw [if_pos hc2]
            have := splitColon_ne_nil (Account.splitName (Account.splitName n).2).2
            cases hx : splitColon (Account.splitName (Account.splitName n).2).2 with
            | nil => exact absurd hx this
            | cons a b => simp
          · rw [if_neg hc2, splitName_noColon hc2] at hlast
            simp at hlast
            exact absurd hlast hr
        rw [if_pos ⟨by omega, hlast⟩, if_pos ⟨h2, hlast⟩]
      · rw [if_neg (fun h => hlast h.2), if_neg (fun h => hlast h.2)]
  · rw [if_neg hc, splitName_noColon hc]; simp

theorem pathOf_ne_nil (n : Str) : pathOf n ≠ [] := by
  rw [pathOf_eq]; split <;> simp

theorem pathOf_noColon_name {n : Str} (h : ':' ∉ n) : pathOf n = [n] := by
  rw [pathOf_eq, splitName_noColon h]; rfl

/-- No part of a path contains a colon. -/
theorem pathOf_parts (n : Str) : ∀ x ∈ pathOf n, ':' ∉ x := by
  generalize hk : n.length = k
  induction k using Nat.strongRecOn generalizing n with
  | _ k ih =>
    rw [pathOf_eq]
    split
    · intro x hx; rw [List.mem_singleton] at hx; subst hx; exact splitName_first_noColon n
    · rename_i hr
      intro x hx
      rcases List.mem_cons.mp hx with rfl | hx
      · exact splitName_first_noColon n
      · have hn : n ≠ [] := by rintro rfl; exact hr rfl
        exact ih _ (by have := (splitName_rest_length n).2 hn; omega) _ rfl x hx

theorem splitColon_proper_rest {n : Str} (hp : ProperName n) (h : ':' ∈ n) : ProperName (Account.splitName n).2 := by
  unfold ProperName at *
  rw [splitColon_eq, if_pos h] at hp
  exact fun hm => hp (List.mem_cons_of_mem _ hm)

theorem proper_ne_nil {n : Str} (hp : ProperName n) : n ≠ [] := by
  rintro rfl; exact hp (by simp [splitColon])

/-- The path of a proper name. -/
theorem pathOf_proper {n : Str} (hp : ProperName n) : pathOf n = splitColon n := by
  unfold pathOf
  simp only
  rw [if_neg]
  rintro ⟨_, h⟩
  exact hp (List.mem_of_getLast? h)

theorem fullname_cons {a : Str} {p : Path} (ha : a ≠ []) (hp : p ≠ []) :
    Account.fullname (a :: p) = a ++ ':' :: Account.fullname p := by
  cases p with
  | nil => exact absurd rfl hp
  | cons b p => simp [Account.fullname, ha]

theorem fullname_pathOf {n : Str} (hp : ProperName n) : Account.fullname (pathOf n) = n := by
  generalize hk : n.length = k
  induction k using Nat.strongRecOn generalizing n with
  | _ k ih =>
    by_cases hc : ':' ∈ n
    · have hp2 := splitColon_proper_rest hp hc
      rw [pathOf_eq, if_neg (proper_ne_nil hp2)]
      have h1 : (Account.splitName n).1 ≠ [] := by
        intro h; apply hp; rw [splitColon_eq, h]; simp
      rw [fullname_cons h1 (pathOf_ne_nil _), ih _ _ hp2 rfl]
      · exact (splitName_colon hc).symm
      · have := (splitName_rest_length n).2 (proper_ne_nil hp); omega
    · rw [pathOf_noColon_name hc]; rfl

/-- Paths of non-empty, colon-free parts are recovered from the full name. -/
theorem splitColon_fullname {p : Path} (hne : p ≠ []) (h1 : ∀ x ∈ p, x ≠ []) (h2 : ∀ x ∈ p, ':' ∉ x) :
    splitColon (Account.fullname p) = p := by
  have key : ∀ (a s : Str), ':' ∉ a → splitColon (a ++ ':' :: s) = a :: splitColon s := by
    intro a s ha
    induction a with
    | nil => simp [splitColon]
    | cons c a ih =>
      simp only [mem_cons, not_or] at ha
      simp only [cons_append]
      rw [splitColon, if_neg (Ne.symm ha.1), ih ha.2]
  have key1 : ∀ a : Str, ':' ∉ a → splitColon a = [a] := by
    intro a ha
    rw [splitColon_eq, if_neg ha, splitName_noColon ha]
  induction p with
  | nil => exact absurd rfl hne
  | cons a p ih =>
    cases p with
    | nil => simp only [Account.fullname]; exact key1 a (h2 a (by simp))
    | cons b p =>
      rw [fullname_cons (h1 a (by simp)) (by simp), key _ _ (h2 a (by simp)), ih (by simp)
        (fun x hx => h1 x (List.mem_cons_of_mem _ hx)) (fun x hx => h2 x (List.mem_cons_of_mem _ hx))]

theorem splitColon_part (a s : Str) (ha : ':' ∉ a) : splitColon (a ++ ':' :: s) = a :: splitColon s := by
  induction a with
  | nil => simp [splitColon]
  | cons c a ih =>
    simp only [mem_cons, not_or] at ha
    simp only [cons_append]
    rw [splitColon, if_neg (Ne.symm ha.1), ih ha.2]

theorem shown_cons (n m : Str) (p : Path) : shown (n :: m :: p) = if n = [] then shown (m :: p) else n :: shown (m :: p) := by
  unfold shown
  by_cases h : n = []
  · simp [h]
  · simp [h]

/-- The full name splits into the parts shown. -/
theorem splitColon_shown {p : Path} (hne : p ≠ []) (h2 : ∀ x ∈ p, ':' ∉ x) :
    splitColon (Account.fullname p) = shown p := by
  induction p with
  | nil => exact absurd rfl hne
  | cons n p ih =>
    cases p with
    | nil =>
      show splitColon n = shown [n]
      rw [splitColon_eq, if_neg (h2 n (by simp)), splitName_noColon (h2 n (by simp))]
      rfl
    | cons m p =>
      rw [shown_cons]
      have ih := ih (by simp) (fun x hx => h2 x (List.mem_cons_of_mem _ hx))
      by_cases h : n = []
      · simp only [Account.fullname, h, if_true]; exact ih
      · simp only [Account.fullname, h, if_false]
        rw [splitColon_part _ _ (h2 n (by simp)), ih]

theorem fullname_shown (p : Path) : Account.fullname (shown p) = Account.fullname p := by
  induction p with
  | nil => rfl
  | cons n p ih =>
    cases p with
    | nil => rfl
    | cons m p =>
      rw [shown_cons]
      by_cases h : n = []
      · simp only [Account.fullname, h, if_true]; exact ih
      · rw [if_neg h]
        have hs : shown (m :: p) ≠ [] := by unfold shown; simp
        rw [fullname_cons h hs, fullname_cons h (by simp), ih]

theorem fullname_nil_iff (p : Path) : Account.fullname p = [] ↔ ∀ x ∈ p, x = [] := by
  induction p with
  | nil => simp [Account.fullname]
  | cons n p ih =>
    cases p with
    | nil => simp [Account.fullname]
    | cons m p =>
      by_cases h : n = []
      · simp only [Account.fullname, h, if_true]; rw [ih]; simp
      · simp [Account.fullname, h]

namespace Account

/-! ### children -/

theorem name_mk (n : Str) (p : List PostRef) (c : List Account) : (mk n p c).name = n := rfl

theorem getChild_some {n : Str} {cs : List Account} {c : Account} (h : getChild n cs = some c) : c ∈ cs ∧ c.name = n := by
  induction cs with
  | nil => cases h
  | cons x xs ih =>
    unfold getChild at h
    split at h
    · rename_i hx; cases h; exact ⟨by simp, hx⟩
    · exact ⟨List.mem_cons_of_mem _ (ih h).1, (ih h).2⟩

theorem getChild_none {n : Str} {cs : List Account} : getChild n cs = none ↔ ∀ c ∈ cs, c.name ≠ n := by
  induction cs with
  | nil => simp [getChild]
  | cons x xs ih =>
    unfold getChild
    split
    · rename_i hx; simp [hx]
    · rename_i hx; simp [hx, ih]

theorem getChild_mem {cs : List Account} {c : Account} (hn : (cs.map name).Nodup) (h : c ∈ cs) : getChild c.name cs = some c := by
  induction cs with
  | nil => cases h
  | cons x xs ih =>
    rw [List.map_cons, List.nodup_cons] at hn
    unfold getChild
    rcases List.mem_cons.mp h with rfl | h
    · rw [if_pos rfl]
    · rw [if_neg, ih hn.2 h]
      intro e; apply hn.1; rw [e]; exact List.mem_map_of_mem h

theorem getChild_setChild (m : Str) (c : Account) (cs : List Account) :
    getChild m (setChild c cs) = if m = c.name then (getChild m cs).map (fun _ => c) else getChild m cs := by
  induction cs with
  | nil => simp [setChild, getChild]
  | cons x xs ih =>
    unfold setChild
    by_cases hx : x.name = c.name
    · rw [if_pos hx]
      by_cases hm : m = c.name
      · subst hm; simp [getChild, hx]
      · rw [if_neg hm]; simp [getChild, hx, Ne.symm hm]
    · rw [if_neg hx]
      unfold getChild
      by_cases hm : x.name = m
      · have : m ≠ c.name := by rw [← hm]; exact hx
        simp [hm, this]
      · rw [if_neg hm, ih, if_neg hm]

theorem getChild_append (m : Str) (cs ds : List Account) : getChild m (cs ++ ds) = (getChild m cs).or (getChild m ds) := by
  induction cs with
  | nil => simp [getChild]
  | cons x xs ih =>
    simp only [cons_append, getChild]
    split <;> simp [ih]

theorem setChild_names (c : Account) (cs : List Account) : (setChild c cs).map name = cs.map name := by
  induction cs with
  | nil => rfl
  | cons x xs ih =>
    unfold setChild
    split
    · rename_i h; simp [h]
    · simp [ih]

theorem setChild_mem {c x : Account} {cs : List Account} (h : x ∈ setChild c cs) : x = c ∨ x ∈ cs := by
  induction cs with
  | nil => cases h
  | cons y ys ih =>
    unfold setChild at h
    split at h
    · rcases List.mem_cons.mp h with h | h
      · exact Or.inl h
      · exact Or.inr (List.mem_cons_of_mem _ h)
    · rcases List.mem_cons.mp h with h | h
      · exact Or.inr (by simp [h])
      · rcases ih h with h | h
        · exact Or.inl h
        · exact Or.inr (List.mem_cons_of_mem _ h)

theorem setChild_self {c : Account} {n : Str} {cs : List Account} (h : getChild n cs = some c) : setChild c cs = cs := by
  induction cs with
  | nil => rfl
  | cons x xs ih =>
    unfold getChild at h
    unfold setChild
    split at h
    · rename_i hx; cases h; simp
    · rename_i hx
      have := (getChild_some h).2
      rw [if_neg (by rw [this]; exact hx), ih h]

theorem setChild_append_new {c c' : Account} {cs : List Account} (h : ∀ x ∈ cs, x.name ≠ c'.name) (hc : c.name = c'.name) :
    setChild c' (cs ++ [c]) = cs ++ [c'] := by
  induction cs with
  | nil => simp [setChild, hc]
  | cons x xs ih =>
    simp only [cons_append]
    unfold setChild
    rw [if_neg (h x (by simp)), ih (fun y hy => h y (List.mem_cons_of_mem _ hy))]

/-! ### induction over trees -/

mutual
theorem ind_aux {P : Account → Prop} (h : ∀ n ps cs, (∀ c ∈ cs, P c) → P (mk n ps cs)) : ∀ a, P a
  | mk n ps cs => h n ps cs (ind_auxList h cs)
theorem ind_auxList {P : Account → Prop} (h : ∀ n ps cs, (∀ c ∈ cs, P c) → P (mk n ps cs)) : ∀ cs : List Account, ∀ c ∈ cs, P c
  | [] => fun _ hc => by cases hc
  | x :: xs => fun c hc => by
    rcases List.mem_cons.mp hc with e | e
    · rw [e]; exact ind_aux h x
    · exact ind_auxList h xs c e
end

@[elab_as_elim]
theorem ind {P : Account → Prop} (a : Account) (h : ∀ n ps cs, (∀ c ∈ cs, P c) → P (mk n ps cs)) : P a := ind_aux h a

theorem wfList_iff (cs : List Account) : WFList cs ↔ ∀ c ∈ cs, WF c := by
  induction cs with
  | nil => simp [WFList]
  | cons c cs ih => simp [WFList, ih]

theorem wf_mk (n : Str) (ps : List PostRef) (cs : List Account) :
    WF (mk n ps cs) ↔ (cs.map name).Nodup ∧ (∀ c ∈ cs, ':' ∉ c.name) ∧ ∀ c ∈ cs, WF c := by
  rw [WF, wfList_iff]

theorem wf_new (n : Str) : WF (new n) := by simp [new, wf_mk]

/-! ### paths -/

theorem at?_nil (a : Account) : at? a [] = some a := by cases a; rfl

theorem at?_cons (n : Str) (ps : List PostRef) (cs : List Account) (m : Str) (q : Path) :
    at? (mk n ps cs) (m :: q) = (getChild m cs).bind (fun c => at? c q) := by
  rw [at?]; cases getChild m cs <;> rfl

theorem at?_append (a : Account) (p q : Path) : at? a (p ++ q) = (at? a p).bind (fun b => at? b q) := by
  induction p generalizing a with
  | nil => simp [at?_nil]
  | cons n p ih =>
    obtain ⟨an, ap, cs⟩ := a
    rw [cons_append, at?_cons, at?_cons]
    cases getChild n cs with
    | none => rfl
    | some c => simp only [Option.bind_some]; exact ih c

theorem has_nil (a : Account) : a.Has [] := by simp [Has, at?_nil]

theorem has_prefix {a : Account} {p q : Path} (h : a.Has q) (hp : p <+: q) : a.Has p := by
  obtain ⟨r, rfl⟩ := hp
  unfold Has at *
  rw [at?_append] at h
  cases hx : at? a p with
  | none => rw [hx] at h; simp at h
  | some b => rfl

theorem at?_wf {a b : Account} {p : Path} (hw : WF a) (h : at? a p = some b) : WF b := by
  induction p generalizing a with
  | nil => rw [at?_nil] at h; cases h; exact hw
  | cons n p ih =>
    obtain ⟨an, ap, cs⟩ := a
    rw [at?_cons] at h
    cases hx : getChild n cs with
    | none => rw [hx] at h; cases h
    | some c =>
      rw [hx] at h
      rw [wf_mk] at hw
      exact ih (hw.2.2 c (getChild_some hx).1) h

/-- The name of the account at a path is the last part of the path. -/
theorem at?_name {a b : Account} {p : Path} {n : Str} (h : at? a (p ++ [n]) = some b) : b.name = n := by
  rw [at?_append] at h
  cases hx : at? a p with
  | none => rw [hx] at h; cases h
  | some c =>
    rw [hx] at h
    simp only [Option.bind_some] at h
    obtain ⟨cn, cp, cs⟩ := c
    rw [at?_cons] at h
    cases hy : getChild n cs with
    | none => rw [hy] at h; cases h
    | some d =>
      rw [hy] at h; simp only [Option.bind_some, at?_nil, Option.some.injEq] at h
      rw [← h]; exact (getChild_some hy).2

theorem has_parts {a : Account} (hw : WF a) {p : Path} (h : a.Has p) : ∀ x ∈ p, ':' ∉ x := by
  induction p generalizing a with
  | nil => simp
  | cons n p ih =>
    obtain ⟨an, ap, cs⟩ := a
    unfold Has at h
    rw [at?_cons] at h
    cases hx : getChild n cs with
    | none => rw [hx] at h; simp at h
    | some c =>
      rw [hx] at h
      rw [wf_mk] at hw
      have hc := getChild_some hx
      intro x hx'
      rcases List.mem_cons.mp hx' with rfl | hx'
      · rw [← hc.2]; exact hw.2.1 c hc.1
      · exact ih (hw.2.2 c hc.1) h x hx'

/-! ### creation of a path -/

/-- Create the missing accounts on a path. -/
def ensure : Path → Account → Account
  | [], a => a
  | n :: p, mk an ap cs => match getChild n cs with
    | some c => mk an ap (setChild (ensure p c) cs)
    | none => mk an ap (cs ++ [ensure p (new n)])

theorem ensure_name (p : Path) (a : Account) : (ensure p a).name = a.name := by
  cases p with
  | nil => rfl
  | cons n p =>
    obtain ⟨an, ap, cs⟩ := a
    unfold ensure
    cases getChild n cs <;> rfl

theorem ensure_posts (p : Path) (a : Account) : (ensure p a).posts = a.posts := by
  cases p with
  | nil => rfl
  | cons n p =>
    obtain ⟨an, ap, cs⟩ := a
    unfold ensure
    cases getChild n cs <;> rfl

theorem ensure_wf {p : Path} {a : Account} (hw : WF a) (hp : ∀ x ∈ p, ':' ∉ x) : WF (ensure p a) := by
  induction p generalizing a with
  | nil => exact hw
  | cons n p ih =>
    obtain ⟨an, ap, cs⟩ := a
    have hp' : ∀ x ∈ p, ':' ∉ x := fun x hx => hp x (List.mem_cons_of_mem _ hx)
    rw [wf_mk] at hw
    unfold ensure
    cases hx : getChild n cs with
    | some c =>
      simp only
      rw [wf_mk]
      have hc := getChild_some hx
      have hwc := ih (hw.2.2 c hc.1) hp'
      refine ⟨by rw [setChild_names]; exact hw.1, ?_, ?_⟩
      · intro x hx'
        rcases setChild_mem hx' with rfl | h
        · rw [ensure_name]; exact hw.2.1 c hc.1
        · exact hw.2.1 x h
      · intro x hx'
        rcases setChild_mem hx' with rfl | h
        · exact hwc
        · exact hw.2.2 x h
    | none =>
      simp only
      rw [wf_mk]
      rw [getChild_none] at hx
      refine ⟨?_, ?_, ?_⟩
      · rw [List.map_append, List.nodup_append]
        refine ⟨hw.1, by simp, ?_⟩
        intro x hx1 y hy e
        obtain ⟨c, hc, rfl⟩ := List.mem_map.mp hx1
        simp only [List.map_cons, List.map_nil, List.mem_singleton, ensure_name, new, name_mk] at hy
        exact hx c hc (e.trans hy)
      · intro x hx1
        rcases List.mem_append.mp hx1 with h | h
        · exact hw.2.1 x h
        · rw [List.mem_singleton] at h; rw [h, ensure_name]; exact hp n (by simp)
      · intro x hx1
        rcases List.mem_append.mp hx1 with h | h
        · exact hw.2.2 x h
        · rw [List.mem_singleton] at h; rw [h]; exact ih (wf_new n) hp'

theorem has_iff_postsAt (a : Account) (q : Path) : a.Has q ↔ (postsAt a q).isSome := by
  simp [Has, postsAt]

theorem postsAt_new (n : Str) (q : Path) : postsAt (new n) q = if q = [] then some [] else none := by
  cases q with
  | nil => rfl
  | cons m q => simp [postsAt, new, at?_cons, getChild]

theorem postsAt_cons (n : Str) (ps : List PostRef) (cs : List Account) (m : Str) (q : Path) :
    postsAt (mk n ps cs) (m :: q) = (getChild m cs).bind (fun c => postsAt c q) := by
  unfold postsAt; rw [at?_cons]; cases getChild m cs <;> rfl

theorem postsAt_ensure (p : Path) (a : Account) (q : Path) :
    postsAt (ensure p a) q = (postsAt a q).or (if q <+: p then some [] else none) := by
  induction p generalizing a q with
  | nil =>
    unfold ensure
    by_cases hq : q = []
    · subst hq; simp [postsAt, at?_nil]
    · simp [hq]
  | cons n p ih =>
    obtain ⟨an, ap, cs⟩ := a
    cases q with
    | nil => simp [postsAt, at?_nil, ensure_posts]
    | cons m q =>
      unfold ensure
      cases hx : getChild n cs with
      | some c =>
        simp only
        rw [postsAt_cons, postsAt_cons, getChild_setChild, ensure_name, (getChild_some hx).2]
        by_cases hm : m = n
        · subst hm
          rw [if_pos rfl, hx]
          simp [ih]
        · rw [if_neg hm]
          simp [hm]
      | none =>
        simp only
        rw [postsAt_cons, postsAt_cons, getChild_append]
        by_cases hm : m = n
        · subst hm
          rw [hx]
          simp only [Option.none_or, Option.bind_none]
          rw [getChild, if_pos (by rw [ensure_name]; rfl)]
          simp only [Option.bind_some, ih, postsAt_new, cons_prefix_cons, true_and]
          by_cases hq : q = []
          · subst hq; simp
          · simp [hq]
        · have : getChild m [ensure p (new n)] = none := by
            rw [getChild, if_neg (by rw [ensure_name]; exact fun e => hm e.symm)]; rfl
          rw [this]; simp [hm]

theorem has_ensure (p : Path) (a : Account) (q : Path) : (ensure p a).Has q ↔ a.Has q ∨ q <+: p := by
  rw [has_iff_postsAt, has_iff_postsAt, postsAt_ensure]
  by_cases h : q <+: p <;> simp [h]

theorem ensure_has {p : Path} {a : Account} (h : a.Has p) : ensure p a = a := by
  induction p generalizing a with
  | nil => rfl
  | cons n p ih =>
    obtain ⟨an, ap, cs⟩ := a
    unfold Has at h
    rw [at?_cons] at h
    unfold ensure
    cases hx : getChild n cs with
    | none => rw [hx] at h; simp at h
    | some c =>
      rw [hx] at h
      simp only
      rw [ih h, setChild_self hx]

/-! ### booking -/

theorem update_name {f : Account → Account} (hf : ∀ a, (f a).name = a.name) (p : Path) (a : Account) :
    (update f p a).name = a.name := by
  cases p with
  | nil => exact hf a
  | cons n p =>
    obtain ⟨an, ap, cs⟩ := a
    unfold update
    cases getChild n cs <;> rfl

theorem update_wf {f : Account → Account} (hf : ∀ a, (f a).name = a.name) (hw : ∀ a, WF a → WF (f a)) (p : Path)
    (a : Account) (h : WF a) : WF (update f p a) := by
  induction p generalizing a with
  | nil => exact hw a h
  | cons n p ih =>
    obtain ⟨an, ap, cs⟩ := a
    have h' := (wf_mk _ _ _).mp h
    unfold update
    cases hx : getChild n cs with
    | none => exact h
    | some c =>
      have hc := getChild_some hx
      simp only
      rw [wf_mk]
      refine ⟨by rw [setChild_names]; exact h'.1, ?_, ?_⟩
      · intro x hx'
        rcases setChild_mem hx' with rfl | h
        · rw [update_name hf]; exact h'.2.1 c hc.1
        · exact h'.2.1 x h
      · intro x hx'
        rcases setChild_mem hx' with rfl | h
        · exact ih c (h'.2.2 c hc.1)
        · exact h'.2.2 x h

theorem pushPost_name (a : Account) (p : Path) (r : PostRef) : (a.pushPost p r).name = a.name :=
  update_name (by rintro ⟨⟩; rfl) p a

theorem pushPost_wf {a : Account} (p : Path) (r : PostRef) (h : WF a) : WF (a.pushPost p r) :=
  update_wf (by rintro ⟨⟩; rfl) (by rintro ⟨n, ps, cs⟩ h; rw [wf_mk] at h ⊢; exact h) p a h

theorem postsAt_pushPost (a : Account) (p : Path) (r : PostRef) (q : Path) :
    postsAt (a.pushPost p r) q = if q = p then (postsAt a q).map (· ++ [r]) else postsAt a q := by
  induction p generalizing a q with
  | nil =>
    obtain ⟨an, ap, cs⟩ := a
    cases q with
    | nil => rfl
    | cons m q => simp [pushPost, update, postsAt_cons]
  | cons n p ih =>
    obtain ⟨an, ap, cs⟩ := a
    cases q with
    | nil =>
      unfold pushPost update
      cases getChild n cs <;> (simp [postsAt, at?_nil]; try rfl)
    | cons m q =>
      unfold pushPost update
      cases hx : getChild n cs with
      | none =>
        simp only
        by_cases he : m :: q = n :: p
        · injection he with e1 e2; subst e1 e2
          simp [postsAt_cons, hx]
        · rw [if_neg he]
      | some c =>
        simp only
        rw [postsAt_cons, postsAt_cons, getChild_setChild, update_name (by rintro ⟨⟩; rfl), (getChild_some hx).2]
        by_cases hm : m = n
        · subst hm
          rw [if_pos rfl, hx]
          simp only [Option.map_some, Option.bind_some]
          have := ih c q
          unfold pushPost at this
          rw [this]
          simp
        · rw [if_neg hm]; simp [hm]

theorem has_pushPost (a : Account) (p : Path) (r : PostRef) (q : Path) : (a.pushPost p r).Has q ↔ a.Has q := by
  rw [has_iff_postsAt, has_iff_postsAt, postsAt_pushPost]
  split <;> simp

/-! ### find_or_create -/

theorem findOrCreateGo_create (fuel : Nat) (a : Account) (n : Str) (hw : WF a) (hf : n.length < fuel) :
    findOrCreateGo fuel a n true = .ok (ensure (pathOf n) a, some (pathOf n)) := by
  induction fuel generalizing a n with
  | zero => omega
  | succ fuel ih =>
    obtain ⟨an, ap, cs⟩ := a
    rw [wf_mk] at hw
    unfold findOrCreateGo
    cases hd : getChild n cs with
    | some c =>
      have hc := getChild_some hd
      have hn : ':' ∉ n := by rw [← hc.2]; exact hw.2.1 c hc.1
      simp only [pathOf_noColon_name hn, ensure, hd, setChild_self hd]
    | none =>
      simp only
      rw [pathOf_eq]
      have hlen : (splitName n).2 ≠ [] → (splitName n).2.length < fuel := by
        intro h
        have hn : n ≠ [] := by rintro rfl; exact h rfl
        have := (splitName_rest_length n).2 hn; omega
      cases hx : getChild (splitName n).1 cs with
      | some c =>
        have hc := getChild_some hx
        simp only
        by_cases hr : (splitName n).2 = []
        · simp only [hr, if_true, ensure, hx, setChild_self hx]
        · simp only [if_neg hr]
          rw [ih c _ (hw.2.2 c hc.1) (hlen hr)]
          simp only [bind, Except.bind, ensure, hx]
      | none =>
        simp only [if_true]
        by_cases hr : (splitName n).2 = []
        · simp only [hr, if_true, ensure, hx]
        · simp only [if_neg hr]
          rw [ih _ _ (wf_new _) (hlen hr)]
          simp only [bind, Except.bind, ensure, hx]
          rw [setChild_append_new]
          · intro x hx1; rw [ensure_name]; exact getChild_none.mp hx x hx1
          · rw [ensure_name]

theorem findOrCreate_create (a : Account) (n : Str) (hw : WF a) :
    a.findOrCreate n true = .ok (ensure (pathOf n) a, some (pathOf n)) :=
  findOrCreateGo_create _ a n hw (Nat.lt_succ_self _)

/-- The three outcomes of a lookup. -/
theorem findOrCreateGo_find (fuel : Nat) (a : Account) (n : Str) (hw : WF a) (hf : n.length < fuel) :
    findOrCreateGo fuel a n false =
      if a.Has (pathOf n) then .ok (a, some (pathOf n))
      else if a.Has ((pathOf n).take 1) then .error .accountUnwrapNone
      else .ok (a, none) := by
  induction fuel generalizing a n with
  | zero => omega
  | succ fuel ih =>
    obtain ⟨an, ap, cs⟩ := a
    have hw0 := hw
    rw [wf_mk] at hw
    unfold findOrCreateGo
    cases hd : getChild n cs with
    | some c =>
      have hc := getChild_some hd
      have hn : ':' ∉ n := by rw [← hc.2]; exact hw.2.1 c hc.1
      have hh : (mk an ap cs).Has [n] := by simp [Has, at?_cons, hd, at?_nil]
      simp only [pathOf_noColon_name hn, if_pos hh]
    | none =>
      simp only
      have hlen : (splitName n).2 ≠ [] → (splitName n).2.length < fuel := by
        intro h
        have hn : n ≠ [] := by rintro rfl; exact h rfl
        have := (splitName_rest_length n).2 hn; omega
      have htake : (pathOf n).take 1 = [(splitName n).1] := by rw [pathOf_eq]; split <;> simp
      rw [htake]
      cases hx : getChild (splitName n).1 cs with
      | some c =>
        have hc := getChild_some hx
        have hh : (mk an ap cs).Has [(splitName n).1] := by simp [Has, at?_cons, hx, at?_nil]
        simp only [if_pos hh]
        by_cases hr : (splitName n).2 = []
        · rw [pathOf_eq]
          simp only [hr, if_true, if_pos hh]
        · simp only [if_neg hr]
          rw [ih c _ (hw.2.2 c hc.1) (hlen hr), pathOf_eq n, if_neg hr]
          have he : (mk an ap cs).Has ((splitName n).1 :: pathOf (splitName n).2) ↔ c.Has (pathOf (splitName n).2) := by
            simp [Has, at?_cons, hx]
          by_cases h1 : c.Has (pathOf (splitName n).2)
          · simp only [if_pos h1, if_pos (he.mpr h1), bind, Except.bind, setChild_self hx]
          · rw [if_neg h1, if_neg (fun h => h1 (he.mp h))]
            by_cases h2 : c.Has ((pathOf (splitName n).2).take 1)
            · simp only [if_pos h2, bind, Except.bind]
            · simp only [if_neg h2, bind, Except.bind]
      | none =>
        have hno : ¬ (mk an ap cs).Has [(splitName n).1] := by simp [Has, at?_cons, hx]
        have hno2 : ¬ (mk an ap cs).Has (pathOf n) := fun h => hno (has_prefix h (htake ▸ List.take_prefix 1 _))
        simp [if_neg hno, if_neg hno2]

theorem findOrCreate_find (a : Account) (n : Str) (hw : WF a) :
    a.findOrCreate n false =
      if a.Has (pathOf n) then .ok (a, some (pathOf n))
      else if a.Has ((pathOf n).take 1) then .error .accountUnwrapNone
      else .ok (a, none) := findOrCreateGo_find _ a n hw (Nat.lt_succ_self _)

theorem findAccount_eq (a : Account) (n : Str) (hw : WF a) :
    a.findAccount n =
      if a.Has (pathOf n) then .ok (some (pathOf n))
      else if a.Has ((pathOf n).take 1) then .error .accountUnwrapNone
      else .ok none := by
  unfold findAccount
  rw [findOrCreate_find a n hw]
  split
  · rfl
  · split <;> rfl

/-- `findOrCreateGo` never runs out of fuel. -/
theorem findOrCreateGo_fuel (fuel : Nat) (a : Account) (n : Str) (auto : Bool) (hf : n.length < fuel) :
    findOrCreateGo fuel a n auto ≠ .error .outOfFuel := by
  induction fuel generalizing a n with
  | zero => omega
  | succ fuel ih =>
    obtain ⟨an, ap, cs⟩ := a
    unfold findOrCreateGo
    have hlen : (splitName n).2 ≠ [] → (splitName n).2.length < fuel := by
      intro h
      have hn : n ≠ [] := by rintro rfl; exact h rfl
      have := (splitName_rest_length n).2 hn; omega
    cases getChild n cs with
    | some c => simp
    | none =>
      simp only
      split
      · simp
      · rename_i c cs' _
        split
        · simp
        · rename_i hr
          have := ih c _ (hlen hr)
          cases hx : findOrCreateGo fuel c (splitName n).2 auto with
          | error e => rw [hx] at this; simpa [bind, Except.bind] using this
          | ok r =>
            obtain ⟨c', o⟩ := r
            cases o <;> simp [bind, Except.bind]

/-! ### flatten -/

theorem foldList_eq {β : Type} (f : Str → List PostRef → List (Str × β) → β) (cs : List Account) :
    foldList f cs = cs.map (fun c => (c.name, fold f c)) := by
  induction cs with
  | nil => rfl
  | cons c cs ih => simp [foldList, ih]

theorem fold_mk {β : Type} (f : Str → List PostRef → List (Str × β) → β) (n : Str) (ps : List PostRef) (cs : List Account) :
    fold f (mk n ps cs) = f n ps (cs.map (fun c => (c.name, fold f c))) := by
  rw [fold, foldList_eq]

theorem flatten_mk (n : Str) (ps : List PostRef) (cs : List Account) :
    flatten (mk n ps cs) = ([], n) :: (sortByKey (cs.map (fun c => (c.name, flatten c)))).flatMap
      (fun r => r.2.map (fun x => (r.1 :: x.1, x.2))) := by
  unfold flatten; rw [fold_mk]

theorem mem_flatten {a : Account} (hw : WF a) (p : Path) (x : Str) :
    (p, x) ∈ flatten a ↔ ∃ b, at? a p = some b ∧ b.name = x := by
  induction a using ind generalizing p x with
  | h n ps cs ih =>
    have hw' := (wf_mk n ps cs).mp hw
    rw [flatten_mk, List.mem_cons]
    cases p with
    | nil =>
      constructor
      · rintro (h | h)
        · exact ⟨mk n ps cs, at?_nil _, by injection h with _ h; exact h.symm⟩
        · exfalso
          obtain ⟨r, _, hr⟩ := List.mem_flatMap.mp h
          obtain ⟨y, _, hy⟩ := List.mem_map.mp hr
          injection hy with hy _; cases hy
      · rintro ⟨b, hb, hx⟩
        rw [at?_nil] at hb; cases hb
        left; rw [← hx]; rfl
    | cons m q =>
      have : ((m :: q, x) = (([] : Path), n)) ↔ False := by simp
      rw [this, false_or, List.mem_flatMap]
      constructor
      · rintro ⟨r, hr, hx⟩
        obtain ⟨y, hy, e⟩ := List.mem_map.mp hx
        rw [(sortByKey_perm _).mem_iff] at hr
        obtain ⟨c, hc, rfl⟩ := List.mem_map.mp hr
        simp only [Prod.mk.injEq, List.cons.injEq] at e
        obtain ⟨⟨e1, e2⟩, e3⟩ := e
        have := (ih c hc (hw'.2.2 c hc) q x).mp (by rw [← e2, ← e3]; exact hy)
        rw [at?_cons, ← e1, getChild_mem hw'.1 hc]
        exact this
      · rintro ⟨b, hb, hx⟩
        rw [at?_cons] at hb
        cases hg : getChild m cs with
        | none => rw [hg] at hb; cases hb
        | some c =>
          rw [hg] at hb
          have hc := getChild_some hg
          refine ⟨(c.name, flatten c), (sortByKey_perm _).mem_iff.mpr (List.mem_map_of_mem hc.1), ?_⟩
          exact List.mem_map.mpr ⟨(q, x), (ih c hc.1 (hw'.2.2 c hc.1) q x).mpr ⟨b, hb, hx⟩, by simp [hc.2]⟩

theorem flatten_sorted {a : Account} (hw : WF a) : (flatten a).Pairwise (fun x y => PathBefore x.1 y.1) := by
  induction a using ind with
  | h n ps cs ih =>
    have hw' := (wf_mk n ps cs).mp hw
    rw [flatten_mk, List.pairwise_cons]
    constructor
    · intro y hy
      obtain ⟨r, _, hr⟩ := List.mem_flatMap.mp hy
      obtain ⟨z, _, rfl⟩ := List.mem_map.mp hr
      exact List.Lex.nil
    · rw [List.pairwise_flatMap]
      constructor
      · intro r hr
        rw [(sortByKey_perm _).mem_iff] at hr
        obtain ⟨c, hc, rfl⟩ := List.mem_map.mp hr
        rw [List.pairwise_map]
        exact (ih c hc (hw'.2.2 c hc)).imp (fun h => List.Lex.cons h)
      · have hn : ((cs.map (fun c => (c.name, flatten c))).map (·.1)).Nodup := by
          rw [List.map_map]; exact hw'.1
        refine (sortByKey_strict _ hn).imp ?_
        intro r s hrs x hx y hy
        obtain ⟨x', _, rfl⟩ := List.mem_map.mp hx
        obtain ⟨y', _, rfl⟩ := List.mem_map.mp hy
        exact List.Lex.rel hrs

/-- A proper prefix comes before. -/
theorem pathBefore_prefix {p q : Path} (h : p <+: q) (hne : p ≠ q) : PathBefore p q := by
  obtain ⟨r, rfl⟩ := h
  induction p with
  | nil =>
    cases r with
    | nil => exact absurd rfl hne
    | cons a r => exact List.Lex.nil
  | cons a p ih =>
    exact List.Lex.cons (ih (fun e => hne (by rw [cons_append, ← e])))

theorem flatten_eq_of_same {a b : Account} (ha : WF a) (hb : WF b) (hn : a.name = b.name)
    (hh : ∀ p, a.Has p ↔ b.Has p) : flatten a = flatten b := by
  apply sorted_unique (r := fun x y : Path × Str => PathBefore x.1 y.1) (fun x => pathBefore_irrefl x.1)
    (fun _ _ _ h h' => pathBefore_trans h h') _ _ (flatten_sorted ha) (flatten_sorted hb)
  rintro ⟨p, x⟩
  rw [mem_flatten ha, mem_flatten hb]
  have key : ∀ {a b : Account}, a.name = b.name → (∀ p, a.Has p ↔ b.Has p) →
      (∃ c, at? a p = some c ∧ c.name = x) → ∃ c, at? b p = some c ∧ c.name = x := by
    intro a b hn hh
    rintro ⟨c, hc, hx⟩
    have : b.Has p := (hh p).mp (by simp [Has, hc])
    obtain ⟨d, hd⟩ := Option.isSome_iff_exists.mp this
    refine ⟨d, hd, ?_⟩
    rcases List.eq_nil_or_concat p with rfl | ⟨q, m, rfl⟩
    · rw [at?_nil] at hc hd; cases hc; cases hd; rw [← hn]; exact hx
    · rw [List.concat_eq_append] at hc hd
      rw [at?_name hd, ← at?_name hc]; exact hx
  exact ⟨key hn hh, key hn.symm (fun p => (hh p).symm)⟩

end Account

/-! ### program runs -/

namespace Account

theorem later_wf {a b : Account} (h : Later a b) (hw : WF a) : WF b := by
  induction h with
  | refl => exact hw
  | register n _ hc ih =>
    rw [findOrCreate_create _ n ih] at hc
    cases hc
    exact ensure_wf ih (pathOf_parts n)
  | post p r _ ih => exact pushPost_wf p r ih

theorem later_has {a b : Account} (h : Later a b) (hw : WF a) {q : Path} (hq : a.Has q) : b.Has q := by
  induction h with
  | refl => exact hq
  | register n h' hc ih =>
    rw [findOrCreate_create _ n (later_wf h' hw)] at hc
    cases hc
    exact (has_ensure _ _ _).mpr (Or.inl ih)
  | post p r _ ih => exact (has_pushPost _ _ _ _).mpr ih

theorem reachable_wf {a : Account} (h : Reachable a) : WF a := later_wf h (wf_new _)

theorem later_name {a b : Account} (h : Later a b) (hw : WF a) : b.name = a.name := by
  induction h with
  | refl => rfl
  | register n h' hc ih =>
    rw [findOrCreate_create _ n (later_wf h' hw)] at hc
    cases hc
    rw [ensure_name]; exact ih
  | post p r _ ih => rw [pushPost_name]; exact ih

end Account

/-! ### registrations -/

theorem registerAll_ok (a : Account) (ns : List Str) (hw : a.WF) :
    ∃ b, registerAll a ns = .ok b ∧ b.WF ∧ b.name = a.name ∧
      ∀ q, b.postsAt q = (a.postsAt q).or (if ∃ n ∈ ns, q <+: pathOf n then some [] else none) := by
  induction ns generalizing a with
  | nil => exact ⟨a, rfl, hw, rfl, by simp⟩
  | cons n ns ih =>
    obtain ⟨b, hb, hwb, hnb, hpb⟩ := ih (Account.ensure (pathOf n) a) (Account.ensure_wf hw (pathOf_parts n))
    refine ⟨b, ?_, hwb, by rw [hnb, Account.ensure_name], ?_⟩
    · unfold registerAll; rw [Account.findOrCreate_create a n hw]; exact hb
    · intro q
      rw [hpb, Account.postsAt_ensure]
      by_cases h1 : q <+: pathOf n
      · simp [h1]
      · simp [h1]

end Ledger
