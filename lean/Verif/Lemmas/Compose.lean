import Verif.Spec.Text
import Verif.Lemmas.Parse
/-
Parsing of concatenated sources.
-/
namespace Ledger
open Ledger.Parser

/-! ### kinds of lines -/

theorem dropWhile_nil_iff {α : Type} (p : α → Bool) (l : List α) : l.dropWhile p = [] ↔ ∀ x ∈ l, p x = true := by
  induction l with
  | nil => simp
  | cons a l ih =>
    by_cases h : p a
    · simp [h, ih]
    · simp [h]

theorem classify_fin (line : Str) : classify line = .fin ↔ EndLine line := by
  unfold EndLine
  constructor
  · intro h
    unfold classify at h
    split at h
    · rename_i rest
      right
      split at h
      · rename_i he
        exact ⟨rest, rfl, (dropWhile_nil_iff _ _).mp he⟩
      · split at h <;> cases h
    · rename_i rest; exact Or.inl ⟨'\r', rest, rfl, Or.inr rfl⟩
    · rename_i rest; exact Or.inl ⟨'\n', rest, rfl, Or.inl rfl⟩
    · cases h
  · rintro (⟨c, rest, rfl, rfl | rfl⟩ | ⟨rest, rfl, h⟩)
    · rfl
    · rfl
    · have : trimStart (' ' :: rest) = [] := (dropWhile_nil_iff _ _).mpr h
      simp only [classify, this]

theorem includePath_cases (f : Str) :
    includePath f = .includeFile f ∨ includePath f = .skipped ∨ includePath f = .fails .includeRoot := by
  unfold includePath
  repeat' split
  all_goals simp

theorem topLine_xact (line : Str) : topLine line = .xact ↔ HeaderLine line := by
  unfold HeaderLine topLine
  constructor
  · intro h
    split at h
    · cases h
    · split at h
      · cases h
      · rename_i c rest _
        split at h
        · cases h
        · split at h
          · cases h
          · split at h
            · rename_i hd; exact ⟨c, rest, rfl, hd⟩
            · split at h
              · cases h
              · exfalso
                unfold generalDirective at h
                revert h
                simp only
                split
                · simp
                · split
                  · split
                    · split
                      · simp
                      · rcases includePath_cases (nextWord (nextWord (c :: rest)).2).1 with e | e | e <;> rw [e] <;> simp
                    · split <;> simp
                  · simp
  · rintro ⟨c, rest, rfl, hd⟩
    have h0 : ∀ d : Char, isDig d = false → c ≠ d := by rintro d hd' rfl; rw [hd] at hd'; cases hd'
    have h1 : ¬ (c :: rest = ['\r', '\n'] ∨ c :: rest = ['\n']) := by
      rintro (h | h)
      · injection h with h _; exact h0 _ (by decide) h
      · injection h with h _; exact h0 _ (by decide) h
    have h2 : ¬ (c = ';' ∨ c = '#' ∨ c = '*' ∨ c = '|') := by
      rintro (h | h | h | h) <;> exact h0 _ (by decide) h
    have h3 : c ≠ '-' := h0 _ (by decide)
    rw [if_neg h1]
    simp only [h2, h3, hd, if_true, if_false]

theorem topLine_ignored (line : Str) : topLine line = .ignored ↔ IgnoredLine line := by
  unfold IgnoredLine topLine
  constructor
  · intro h
    split at h
    · rename_i h1; exact h1.elim (fun e => Or.inr (Or.inl e)) Or.inl
    · split at h
      · cases h
      · rename_i c rest _
        right; right
        refine ⟨c, rest, rfl, ?_⟩
        split at h
        · rename_i h2; rcases h2 with rfl | rfl | rfl | rfl <;> decide
        · split at h
          · rename_i h3; subst h3; decide
          · exfalso
            split at h
            · cases h
            · split at h
              · cases h
              · unfold generalDirective at h
                revert h
                simp only
                split
                · simp
                · split
                  · split
                    · split
                      · simp
                      · rcases includePath_cases (nextWord (nextWord (c :: rest)).2).1 with e | e | e <;> rw [e] <;> simp
                    · split <;> simp
                  · simp
  · rintro (rfl | rfl | ⟨c, rest, rfl, h⟩)
    · rfl
    · rfl
    · simp only [List.mem_cons, List.not_mem_nil, or_false] at h
      rcases h with rfl | rfl | rfl | rfl | rfl <;> simp

/-! ### the lines of a transaction -/

theorem readBody_stop (i : Nat) (s t : Source) (j : Journal) (hs : Text s) (hf : ∃ line, some line ∈ s ∧ EndLine line) :
    readBody i (s ++ t) j = (readBody i s j).map (fun r => (r.1, r.2 ++ t)) := by
  induction s generalizing j with
  | nil => obtain ⟨_, h, _⟩ := hf; cases h
  | cons l s ih =>
    cases l with
    | none => exact absurd (List.mem_cons_self) hs
    | some line =>
      have hs' : Text s := fun h => hs (List.mem_cons_of_mem _ h)
      rw [List.cons_append, readBody, readBody]
      have hf' : classify line ≠ .fin → ∃ line, some line ∈ s ∧ EndLine line := by
        intro hc
        obtain ⟨line', hm, he⟩ := hf
        rcases List.mem_cons.mp hm with h | h
        · injection h with h; subst h; exact absurd ((classify_fin _).mpr he) hc
        · exact ⟨line', h, he⟩
      cases hc : classify line with
      | fin => rfl
      | bad => rfl
      | note =>
        simp only [bind, Except.bind]
        cases parseTrailingNote line i j with
        | error e => rfl
        | ok j' => exact ih j' hs' (hf' (by rw [hc]; simp))
      | post input =>
        simp only [bind, Except.bind]
        cases parsePost input i j with
        | error e => rfl
        | ok j' => exact ih j' hs' (hf' (by rw [hc]; simp))

theorem readBody_extra (i : Nat) (s : Source) (b : Str) (j : Journal) (hs : Text s)
    (hf : ¬ ∃ line, some line ∈ s ∧ EndLine line) (hb : EndLine b) :
    readBody i (s ++ [some b]) j = readBody i s j := by
  induction s generalizing j with
  | nil =>
    rw [List.nil_append]; simp only [readBody, (classify_fin b).mpr hb]
  | cons l s ih =>
    cases l with
    | none => exact absurd (List.mem_cons_self) hs
    | some line =>
      have hs' : Text s := fun h => hs (List.mem_cons_of_mem _ h)
      have hf' : ¬ ∃ line, some line ∈ s ∧ EndLine line := by
        rintro ⟨l', hm, he⟩; exact hf ⟨l', List.mem_cons_of_mem _ hm, he⟩
      rw [List.cons_append, readBody, readBody]
      cases hc : classify line with
      | fin => exact absurd ⟨line, List.mem_cons_self, (classify_fin _).mp hc⟩ hf
      | bad => rfl
      | note =>
        simp only [bind, Except.bind]
        cases parseTrailingNote line i j with
        | error e => rfl
        | ok j' => exact ih j' hs' hf'
      | post input =>
        simp only [bind, Except.bind]
        cases parsePost input i j with
        | error e => rfl
        | ok j' => exact ih j' hs' hf'

/-- The lines a transaction uses: no headers; and they end with the file or with an end line. -/
theorem readBody_used {i : Nat} {s r : Source} {j j' : Journal} (hs : Text s) (h : readBody i s j = .ok (j', r)) :
    ∃ used, s = used ++ r ∧ (∀ l ∈ used, ∃ line, l = some line ∧ classify line ≠ .bad) ∧
      ((r = [] ∧ ∀ line, some line ∈ used → ¬ EndLine line) ∨
        ∃ u line, used = u ++ [some line] ∧ EndLine line) := by
  induction s generalizing j with
  | nil =>
    simp only [readBody, Except.ok.injEq, Prod.mk.injEq] at h
    obtain ⟨rfl, rfl⟩ := h
    exact ⟨[], rfl, by simp, Or.inl ⟨rfl, by simp⟩⟩
  | cons l s ih =>
    cases l with
    | none => exact absurd (List.mem_cons_self) hs
    | some line =>
      have hs' : Text s := fun h => hs (List.mem_cons_of_mem _ h)
      have step : ∀ j1, classify line ≠ .bad → classify line ≠ .fin → readBody i s j1 = .ok (j', r) →
          ∃ used, some line :: s = used ++ r ∧ (∀ l ∈ used, ∃ line, l = some line ∧ classify line ≠ .bad) ∧
            ((r = [] ∧ ∀ line, some line ∈ used → ¬ EndLine line) ∨
              ∃ u line, used = u ++ [some line] ∧ EndLine line) := by
        intro j1 hb hfin h1
        obtain ⟨used, e, hu, hx⟩ := ih hs' h1
        refine ⟨some line :: used, by rw [e]; rfl, ?_, ?_⟩
        · intro l hl
          rcases List.mem_cons.mp hl with h | h
          · exact ⟨line, h, hb⟩
          · exact hu l h
        · rcases hx with ⟨h1, h2⟩ | ⟨u, l, h1, h2⟩
          · refine Or.inl ⟨h1, ?_⟩
            intro l hl
            rcases List.mem_cons.mp hl with h | h
            · injection h with h; subst h; exact fun he => hfin ((classify_fin _).mpr he)
            · exact h2 l h
          · exact Or.inr ⟨some line :: u, l, by rw [h1]; rfl, h2⟩
      rw [readBody] at h
      cases hc : classify line with
      | fin =>
        rw [hc] at h
        simp only [Except.ok.injEq, Prod.mk.injEq] at h
        obtain ⟨rfl, rfl⟩ := h
        refine ⟨[some line], rfl, ?_, Or.inr ⟨[], line, rfl, (classify_fin _).mp hc⟩⟩
        intro l hl
        exact ⟨line, by simpa using hl, by rw [hc]; simp⟩
      | bad => rw [hc] at h; simp at h
      | note =>
        rw [hc] at h
        simp only [bind, Except.bind] at h
        cases h1 : parseTrailingNote line i j with
        | error e => rw [h1] at h; simp at h
        | ok j1 => rw [h1] at h; exact step j1 (by rw [hc]; simp) (by rw [hc]; simp) h
      | post input =>
        rw [hc] at h
        simp only [bind, Except.bind] at h
        cases h1 : parsePost input i j with
        | error e => rw [h1] at h; simp at h
        | ok j1 => rw [h1] at h; exact step j1 (by rw [hc]; simp) (by rw [hc]; simp) h

/-! ### transactions -/

theorem xactDirective_used {line : Str} {s r : Source} {j j' : Journal} (hs : Text s)
    (h : xactDirective line s j = .ok (j', r)) :
    ∃ used, s = used ++ r ∧ (∀ l ∈ used, ∃ line, l = some line ∧ classify line ≠ .bad) ∧
      ((r = [] ∧ ∀ line, some line ∈ used → ¬ EndLine line) ∨
        ∃ u line, used = u ++ [some line] ∧ EndLine line) := by
  unfold xactDirective at h
  cases h1 : createXact line j with
  | error e => rw [h1] at h; simp [bind, Except.bind] at h
  | ok x =>
    obtain ⟨j1, i⟩ := x
    rw [h1] at h
    simp only [bind, Except.bind] at h
    cases h2 : readBody i s j1 with
    | error e => rw [h2] at h; simp at h
    | ok x =>
      obtain ⟨j2, r2⟩ := x
      rw [h2] at h
      simp only at h
      cases h3 : finalizeXact i j2 with
      | error e => rw [h3] at h; simp at h
      | ok j3 =>
        rw [h3] at h
        simp only [Except.ok.injEq, Prod.mk.injEq] at h
        obtain ⟨rfl, rfl⟩ := h
        exact readBody_used hs h2

theorem xactDirective_stop (line : Str) (s t : Source) (j : Journal) (hs : Text s)
    (hf : ∃ line, some line ∈ s ∧ EndLine line) :
    xactDirective line (s ++ t) j = (xactDirective line s j).map (fun r => (r.1, r.2 ++ t)) := by
  unfold xactDirective
  cases h1 : createXact line j with
  | error e => rfl
  | ok x =>
    obtain ⟨j1, i⟩ := x
    simp only [bind, Except.bind]
    rw [readBody_stop i s t j1 hs hf]
    cases h2 : readBody i s j1 with
    | error e => rfl
    | ok x =>
      obtain ⟨j2, r2⟩ := x
      simp only [Except.map]
      cases h3 : finalizeXact i j2 with
      | error e => rfl
      | ok j3 => rfl

theorem xactDirective_extra (line : Str) (s : Source) (b : Str) (j : Journal) (hs : Text s)
    (hf : ¬ ∃ line, some line ∈ s ∧ EndLine line) (hb : EndLine b) :
    xactDirective line (s ++ [some b]) j = xactDirective line s j := by
  unfold xactDirective
  cases h1 : createXact line j with
  | error e => rfl
  | ok x =>
    obtain ⟨j1, i⟩ := x
    simp only [bind, Except.bind]
    rw [readBody_extra i s b j1 hs hf hb]

/-! ### boundaries -/

theorem AtTop.tail {l : Option Str} {s : Source} (h : AtTop (l :: s)) : AtTop s := by
  generalize hk : l :: s = k at h
  induction h generalizing s with
  | nil => cases hk
  | fin u hf =>
    cases u with
    | nil => injection hk with _ e; subst e; exact .nil
    | cons a u =>
      rw [List.cons_append] at hk
      injection hk with _ e; subst e; exact .fin u hf
  | @line u ln hu hn ih =>
    cases u with
    | nil => injection hk with _ e; subst e; exact .nil
    | cons a u =>
      rw [List.cons_append] at hk
      injection hk with e1 e2
      subst e2; subst e1
      exact .line (ih rfl) hn

theorem AtTop.after {u r : Source} {line : Str} (h : AtTop (u ++ some line :: r)) : AtTop r := by
  generalize hk : u ++ some line :: r = k at h
  induction h generalizing r with
  | nil => simp at hk
  | @fin v ln hf =>
    rcases List.eq_nil_or_concat r with rfl | ⟨r', x, rfl⟩
    · exact .nil
    · rw [List.concat_eq_append, ← List.cons_append, ← List.append_assoc] at hk
      have := List.append_inj_right' hk rfl
      rw [List.concat_eq_append, this]
      exact .fin r' hf
  | @line v ln hv hn ih =>
    rcases List.eq_nil_or_concat r with rfl | ⟨r', x, rfl⟩
    · exact .nil
    · rw [List.concat_eq_append, ← List.cons_append, ← List.append_assoc] at hk
      have h1 := List.append_inj_right' hk rfl
      have h2 := List.append_inj_left' hk rfl
      rw [List.concat_eq_append, h1]
      exact .line (ih h2) hn

theorem AtTop.ends {line : Str} {s : Source} (h : AtTop (some line :: s)) (hl : HeaderLine line) :
    ∃ line, some line ∈ s ∧ EndLine line := by
  generalize hk : some line :: s = k at h
  induction h generalizing s with
  | nil => cases hk
  | @fin u b hf =>
    cases u with
    | nil =>
      injection hk with e _
      injection e with e
      subst e
      obtain ⟨c, rest, rfl, hd⟩ := hl
      exfalso
      rcases hf with ⟨c', r', e, h1 | h1⟩ | ⟨r', e, _⟩
      · injection e with e _; subst e; subst h1; revert hd; decide
      · injection e with e _; subst e; subst h1; revert hd; decide
      · injection e with e _; subst e; revert hd; decide
    | cons a u =>
      rw [List.cons_append] at hk
      injection hk with _ e; subst e
      exact ⟨b, by simp, hf⟩
  | @line u b hu hn ih =>
    cases u with
    | nil =>
      injection hk with e _
      injection e with e
      subst e
      exact absurd hl hn
    | cons a u =>
      rw [List.cons_append] at hk
      injection hk with e1 e2
      subst e2; subst e1
      obtain ⟨l', hm, he⟩ := ih rfl
      exact ⟨l', by simp [hm], he⟩

theorem Text.append_right {s t : Source} (h : Text (s ++ t)) : Text t := fun hm => h (List.mem_append_right _ hm)

theorem Text.append_left {s t : Source} (h : Text (s ++ t)) : Text s := fun hm => h (List.mem_append_left _ hm)

theorem Text.append {s t : Source} (h1 : Text s) (h2 : Text t) : Text (s ++ t) := by
  intro hm; rcases List.mem_append.mp hm with h | h
  · exact h1 h
  · exact h2 h

/-- Parsing of a source after a boundary continues from the journal at the boundary. -/
theorem parseWith_append (inc : Str → Journal → Res Journal) (s t : Source) (j : Journal) (hs : Text s) (ht : AtTop s) :
    parseWith inc (s ++ t) j = (do let j' ← parseWith inc s j; parseWith inc t j') := by
  generalize hk : s.length = k
  induction k using Nat.strongRecOn generalizing s j with
  | _ k ih =>
    cases s with
    | nil => rw [parseWith_nil]; rfl
    | cons l s =>
      rw [List.length_cons] at hk
      subst hk
      cases l with
      | none => exact absurd (List.mem_cons_self) hs
      | some line =>
        have hs' : Text s := fun h => hs (List.mem_cons_of_mem _ h)
        rw [List.cons_append, parseWith_cons, parseWith_cons]
        have hrec : ∀ j, parseWith inc (s ++ t) j = (do let j' ← parseWith inc s j; parseWith inc t j') :=
          fun j => ih s.length (by omega) s j hs' ht.tail rfl
        cases hl : topLine line with
        | ignored => exact hrec j
        | skipped => exact hrec j
        | indented => rfl
        | fails p => rfl
        | price =>
          simp only [bind, Except.bind]
          cases j.pool.parsePriceDirective line with
          | error e => rfl
          | ok p => exact hrec _
        | includeFile f =>
          simp only [bind, Except.bind]
          cases inc f j with
          | error e => rfl
          | ok p => exact hrec _
        | xact =>
          have hf := ht.ends ((topLine_xact _).mp hl)
          rw [xactDirective_stop line s t j hs' hf]
          simp only [bind, Except.bind]
          cases hx : xactDirective line s j with
          | error e => rfl
          | ok r =>
            obtain ⟨j', r⟩ := r
            simp only [Except.map]
            obtain ⟨used, e, _, hu⟩ := xactDirective_used hs' hx
            have hr : AtTop r := by
              rcases hu with ⟨rfl, _⟩ | ⟨u, b, e2, _⟩
              · exact .nil
              · rw [e, e2] at ht
                refine AtTop.after (u := some line :: u) (line := b) ?_
                simpa using ht
            have hlen : r.length ≤ s.length := by rw [e, List.length_append]; omega
            exact ih r.length (by omega) r j' (by rw [e] at hs'; exact hs'.append_right) hr rfl

/-- An empty line at the end of a source changes nothing. -/
theorem parseWith_blank (inc : Str → Journal → Res Journal) (s : Source) (b : Str) (j : Journal) (hs : Text s)
    (hb : EndLine b) (hi : IgnoredLine b) : parseWith inc (s ++ [some b]) j = parseWith inc s j := by
  generalize hk : s.length = k
  induction k using Nat.strongRecOn generalizing s j with
  | _ k ih =>
    cases s with
    | nil => rw [List.nil_append, parseWith_cons, (topLine_ignored b).mpr hi]
    | cons l s =>
      rw [List.length_cons] at hk
      subst hk
      cases l with
      | none => exact absurd (List.mem_cons_self) hs
      | some line =>
        have hs' : Text s := fun h => hs (List.mem_cons_of_mem _ h)
        rw [List.cons_append, parseWith_cons, parseWith_cons]
        have hrec : ∀ j, parseWith inc (s ++ [some b]) j = parseWith inc s j :=
          fun j => ih s.length (by omega) s j hs' rfl
        cases hl : topLine line with
        | ignored => exact hrec j
        | skipped => exact hrec j
        | indented => rfl
        | fails p => rfl
        | price => simp only [hrec]
        | includeFile f => simp only [hrec]
        | xact =>
          by_cases hf : ∃ line, some line ∈ s ∧ EndLine line
          · rw [xactDirective_stop line s _ j hs' hf]
            simp only [bind, Except.bind]
            cases hx : xactDirective line s j with
            | error e => rfl
            | ok r =>
              obtain ⟨j', r⟩ := r
              simp only [Except.map]
              obtain ⟨used, e, _, _⟩ := xactDirective_used hs' hx
              have hlen : r.length ≤ s.length := by rw [e, List.length_append]; omega
              exact ih r.length (by omega) r j' (by rw [e] at hs'; exact hs'.append_right) rfl
          · rw [xactDirective_extra line s b j hs' hf hb]

theorem parse_append (files : Files) (depth : Nat) (s t : Source) (j : Journal) (hs : Text s) (ht : AtTop s) :
    parse files depth (s ++ t) j = (do let j' ← parse files depth s j; parse files depth t j') := by
  cases depth with
  | zero => exact parseWith_append _ s t j hs ht
  | succ d => exact parseWith_append _ s t j hs ht

theorem parse_blank (files : Files) (depth : Nat) (s : Source) (b : Str) (j : Journal) (hs : Text s)
    (hb : EndLine b) (hi : IgnoredLine b) : parse files depth (s ++ [some b]) j = parse files depth s j := by
  cases depth with
  | zero => exact parseWith_blank _ s b j hs hb hi
  | succ d => exact parseWith_blank _ s b j hs hb hi

theorem endLine_nl : EndLine ['\n'] := Or.inl ⟨'\n', [], rfl, Or.inl rfl⟩
theorem ignoredLine_nl : IgnoredLine ['\n'] := Or.inl rfl
theorem endLine_crnl : EndLine ['\r', '\n'] := Or.inl ⟨'\r', ['\n'], rfl, Or.inr rfl⟩
theorem ignoredLine_crnl : IgnoredLine ['\r', '\n'] := Or.inr (Or.inl rfl)

/-- Two sources with an empty line between them. -/
theorem parse_two (files : Files) (depth : Nat) (s t : Source) (j : Journal) (hs : Text s) :
    parse files depth (s ++ some ['\n'] :: t) j = (do let j' ← parse files depth s j; parse files depth t j') := by
  have e : s ++ some ['\n'] :: t = (s ++ [some ['\n']]) ++ t := by simp
  rw [e, parse_append files depth _ t j (hs.append (by simp [Text])) (.fin s endLine_nl),
    parse_blank files depth s _ j hs endLine_nl ignoredLine_nl]

theorem parse_ignored (files : Files) (depth : Nat) (ins : List Str) (h : ∀ l ∈ ins, IgnoredLine l) (t : Source)
    (j : Journal) : parse files depth (ins.map some ++ t) j = parse files depth t j := by
  induction ins with
  | nil => rfl
  | cons l ins ih =>
    rw [← ih (fun l hl => h l (List.mem_cons_of_mem _ hl))]
    have hl := (topLine_ignored l).mpr (h l List.mem_cons_self)
    cases depth with
    | zero =>
      rw [parse, parse, List.map_cons, List.cons_append, parseWith_cons, hl]
    | succ d =>
      rw [parse, parse, List.map_cons, List.cons_append, parseWith_cons, hl]

/-! ### texts -/

theorem readLines_append_nl (a b : Str) : readLines (a ++ '\n' :: b) = readLines (a ++ ['\n']) ++ readLines b := by
  induction a with
  | nil => rfl
  | cons c a ih =>
    simp only [List.cons_append, readLines]
    split
    · rw [ih]; rfl
    · rw [ih]
      cases hr : readLines (a ++ ['\n']) with
      | nil =>
        exfalso
        cases a with
        | nil => simp [readLines] at hr
        | cons d a =>
          simp only [List.cons_append, readLines] at hr
          split at hr
          · cases hr
          · split at hr <;> cases hr
      | cons l ls => rfl

/-- A text that is empty or ends with a line feed. -/
def LineTerminated (a : Str) : Prop := a = [] ∨ ∃ b, a = b ++ ['\n']

theorem readLines_append {a : Str} (h : LineTerminated a) (b : Str) : readLines (a ++ b) = readLines a ++ readLines b := by
  rcases h with rfl | ⟨a, rfl⟩
  · rfl
  · rw [List.append_assoc, List.singleton_append, readLines_append_nl]

theorem textSource_append {a : Str} (h : LineTerminated a) (b : Str) : textSource (a ++ b) = textSource a ++ textSource b := by
  unfold textSource; rw [readLines_append h, List.map_append]

theorem text_textSource (a : Str) : Text (textSource a) := by
  unfold Text textSource; simp

/-- The lines of a text are its lines: joined they give the text. -/
theorem readLines_flatten (a : Str) : (readLines a).flatten = a := by
  induction a with
  | nil => rfl
  | cons c a ih =>
    rw [readLines]
    split
    · rename_i h; subst h; simp [ih]
    · cases hr : readLines a with
      | nil => rw [hr] at ih; simp at ih; subst ih; rfl
      | cons l ls => rw [hr] at ih; simp only [List.flatten_cons, List.cons_append] at ih ⊢; rw [ih]

theorem lineTerminated_append {a b : Str} (ha : LineTerminated a) (hb : LineTerminated b) : LineTerminated (a ++ b) := by
  rcases hb with rfl | ⟨b, rfl⟩
  · rw [List.append_nil]; exact ha
  · exact Or.inr ⟨a ++ b, by simp⟩

/-! ### nesting of includes -/

/-- More room for nested includes changes nothing unless the room was too small. -/
theorem parseWith_inc (inc inc' : Str → Journal → Res Journal)
    (hi : ∀ f j, inc f j ≠ .error .stackOverflow → inc' f j = inc f j) (s : Source) (j : Journal)
    (h : parseWith inc s j ≠ .error .stackOverflow) : parseWith inc' s j = parseWith inc s j := by
  generalize hk : s.length = k
  induction k using Nat.strongRecOn generalizing s j with
  | _ k ih =>
    cases s with
    | nil => rfl
    | cons l s =>
      rw [List.length_cons] at hk
      subst hk
      cases l with
      | none => rfl
      | some line =>
        rw [parseWith_cons] at h ⊢
        rw [parseWith_cons]
        cases hl : topLine line with
        | ignored => rw [hl] at h; exact ih s.length (by omega) s j h rfl
        | skipped => rw [hl] at h; exact ih s.length (by omega) s j h rfl
        | indented => rfl
        | fails p => rfl
        | price =>
          rw [hl] at h
          simp only [bind, Except.bind] at h ⊢
          cases hp : j.pool.parsePriceDirective line with
          | error e => rfl
          | ok p => rw [hp] at h; exact ih s.length (by omega) s _ h rfl
        | includeFile f =>
          rw [hl] at h
          simp only [bind, Except.bind] at h ⊢
          cases hp : inc f j with
          | error e =>
            rw [hp] at h
            rw [hi f j (by rw [hp]; exact h), hp]
          | ok p =>
            rw [hp] at h
            rw [hi f j (by rw [hp]; simp), hp]
            exact ih s.length (by omega) s _ h rfl
        | xact =>
          rw [hl] at h
          simp only [bind, Except.bind] at h ⊢
          cases hp : xactDirective line s j with
          | error e => rfl
          | ok r =>
            obtain ⟨j', r⟩ := r
            rw [hp] at h
            obtain ⟨_, _, _, _, _, _, _, _, _, _, _, _, _, hlen⟩ := xactDirective_ok hp
            exact ih r.length (by omega) r _ h rfl

theorem parse_depth (files : Files) (d : Nat) (s : Source) (j : Journal)
    (h : parse files d s j ≠ .error .stackOverflow) : parse files (d + 1) s j = parse files d s j := by
  induction d generalizing s j with
  | zero =>
    rw [parse] at h ⊢
    rw [parse]
    refine parseWith_inc _ _ ?_ s j h
    intro f j hf
    cases hfile : files f with
    | none => rfl
    | some s => rw [hfile] at hf; exact absurd rfl hf
  | succ d ih =>
    rw [parse] at h ⊢
    rw [parse]
    refine parseWith_inc _ _ ?_ s j h
    intro f j hf
    cases hfile : files f with
    | none => rfl
    | some s => rw [hfile] at hf; exact ih s j hf

theorem parse_depth_le (files : Files) (d e : Nat) (hd : d ≤ e) (s : Source) (j : Journal)
    (h : parse files d s j ≠ .error .stackOverflow) : parse files e s j = parse files d s j := by
  induction hd with
  | refl => rfl
  | step _ ih => rw [parse_depth files _ s j (by rw [ih]; exact h), ih]

theorem parse_skipped (files : Files) (d : Nat) (line : Str) (hl : topLine line = .skipped) (t : Source) (j : Journal) :
    parse files d (some line :: t) j = parse files d t j := by
  cases d <;> simp only [parse, parseWith_cons, hl]

/-- An include line. -/
theorem parse_include (files : Files) (d : Nat) (line f : Str) (hl : topLine line = .includeFile f) (t : Source)
    (j : Journal) : parse files d (some line :: t) j = (match files f with
      | none => parse files d t j
      | some u => match d with
        | 0 => .error .stackOverflow
        | d' + 1 => (do let j' ← parse files d' u j; parse files (d' + 1) t j')) := by
  cases d with
  | zero =>
    rw [parse, parseWith_cons, hl]
    cases hf : files f with
    | none => simp only [hf]; rfl
    | some u => simp only [hf]; rfl
  | succ d =>
    rw [parse, parseWith_cons, hl]
    cases hf : files f with
    | none => simp only [hf]; rfl
    | some u => simp only [hf]; rfl

end Ledger
