import Verif.Model.Shell
import Verif.Spec.Shell
/-
Lemmas for C79: the automaton that splits command lines against the grammar of command lines.
-/
namespace Ledger.Shell
open Ledger

theorem isBlank_iff (c : Char) : isBlank c = true ↔ ShellBlank c := by
  simp [isBlank, ShellBlank, or_assoc]

theorem blank_not {c : Char} (h : ShellBlank c) : c ≠ '\'' ∧ c ≠ '"' ∧ c ≠ '\\' ∧ c ≠ '#' := by
  rcases h with rfl | rfl | rfl <;> decide

/-- What the automaton does with the rest of a line from each of its states, in terms of the grammar: `n` is the word read
in the rest, `ws` the words after it. -/
def Tail (w : Str) (ws out : List Str) (text : Str) : Prop :=
  (∃ t s rest vs, text = t ++ rest ∧ Pieces t s ∧ (rest = [] ∨ ∃ c r, rest = c :: r ∧ ShellBlank c) ∧
    CommandText rest vs ∧ out = ws ++ (w ++ s) :: vs) ∨
  (∃ t s, text = t ++ ['\\'] ∧ Pieces t s ∧ out = ws ++ [w ++ s ++ ['\\']])

/-- What the rest of the line is in each state. -/
def Meaning : State → Str → List Str → List Str → Str → Prop
  | .delimiter, w, ws, out, text => w = [] → ∃ vs, CommandText text vs ∧ out = ws ++ vs
  | .backslash, w, ws, out, text => w = [] → ∃ vs, CommandText ('\\' :: text) vs ∧ out = ws ++ vs
  | .unquoted, w, ws, out, text => Tail w ws out text
  | .unquotedBackslash, w, ws, out, text => Tail w ws out ('\\' :: text)
  | .singleQuoted, w, ws, out, text => ∃ b rest, text = b ++ '\'' :: rest ∧ '\'' ∉ b ∧ Tail (w ++ b) ws out rest
  | .doubleQuoted, w, ws, out, text => ∃ b u rest, text = b ++ '"' :: rest ∧ DoubleBody b u ∧ Tail (w ++ u) ws out rest
  | .doubleQuotedBackslash, w, ws, out, text =>
    ∃ b u rest, '\\' :: text = b ++ '"' :: rest ∧ DoubleBody b u ∧ Tail (w ++ u) ws out rest
  | .comment, w, ws, out, text => w = [] → ∃ vs, CommandText ('#' :: text) vs ∧ out = ws ++ vs

/-- A piece in front of the rest of a word. -/
theorem Tail.cons {w : Str} {ws out : List Str} {text p u : Str}
    (hp : ∀ t s, Pieces t s → Pieces (p ++ t) (u ++ s)) (h : Tail (w ++ u) ws out text) : Tail w ws out (p ++ text) := by
  rcases h with ⟨t, s, rest, vs, rfl, h1, h2, h3, rfl⟩ | ⟨t, s, rfl, h1, rfl⟩
  · exact Or.inl ⟨p ++ t, u ++ s, rest, vs, by simp, hp _ _ h1, h2, h3, by simp⟩
  · exact Or.inr ⟨p ++ t, u ++ s, by simp, hp _ _ h1, by simp⟩

/-- The rest of a word, from where a word starts. -/
theorem Tail.command {ws out : List Str} {c : Char} {r : Str} (hc : c ≠ '#') (hb : ¬ ShellBlank c)
    (hj : ¬ (c = '\\' ∧ r.head? = some '\n')) (h : Tail [] ws out (c :: r)) : ∃ vs, CommandText (c :: r) vs ∧ out = ws ++ vs := by
  rcases h with ⟨t, s, rest, vs, he, h1, h2, h3, rfl⟩ | ⟨t, s, he, h1, rfl⟩
  · cases t with
    | nil =>
      rcases h2 with rfl | ⟨c', r', rfl, hb'⟩
      · simp at he
      · simp at he
        exact absurd (he.1 ▸ hb') hb
    | cons a t =>
      simp only [List.cons_append, List.cons.injEq] at he
      obtain ⟨rfl, rfl⟩ := he
      refine ⟨s :: vs, CommandText.word (t := c :: t) ⟨c, t, rfl, hc, ?_⟩ h1 h2 h3, by simp⟩
      rintro ⟨h4, h5⟩
      cases t with
      | nil => simp at h5
      | cons => exact hj ⟨h4, by simpa using h5⟩
  · cases t with
    | nil =>
      simp only [List.nil_append] at he
      rw [he]
      refine ⟨[s ++ ['\\']], CommandText.backslash (t := []) (Or.inl rfl) h1, by simp⟩
    | cons a t =>
      simp only [List.cons_append, List.cons.injEq] at he
      obtain ⟨rfl, rfl⟩ := he
      refine ⟨[s ++ ['\\']], CommandText.backslash (t := c :: t) (Or.inr ⟨c, t, rfl, hc, ?_⟩) h1, by simp⟩
      rintro ⟨h4, h5⟩
      cases t with
      | nil => simp at h5
      | cons => exact hj ⟨h4, by simpa using h5⟩

theorem comment_cons {c : Char} {t : Str} {vs : List Str} (hc : c ≠ '\n') (h : CommandText ('#' :: t) vs) :
    CommandText ('#' :: c :: t) vs := by
  generalize hx : '#' :: t = x at h
  cases h with
  | nil => simp at hx
  | blank hb h =>
    simp only [List.cons.injEq] at hx
    exact absurd hx.1.symm (blank_not hb).2.2.2
  | joined h => simp at hx
  | @comment b t' ws hb h =>
    simp only [List.cons.injEq, true_and] at hx
    subst hx
    exact CommandText.comment (b := c :: b) (by simp [hb, Ne.symm hc]) h
  | @lastComment b hb =>
    simp only [List.cons.injEq, true_and] at hx
    subst hx
    exact CommandText.lastComment (by simp [hb, Ne.symm hc])
  | @word t' s rest ws hw hp hr h =>
    obtain ⟨a, r, rfl, ha, -⟩ := hw
    simp at hx
    exact absurd hx.1.symm ha
  | @backslash t' s hw hp =>
    rcases hw with rfl | ⟨a, r, rfl, ha, -⟩
    · simp at hx
    · simp at hx
      exact absurd hx.1.symm ha

/-- What the automaton returns is what the grammar says. -/
theorem splitGo_sound (text : Str) : ∀ (st : State) (w : Str) (ws out : List Str),
    splitGo st w ws text = .ok out → Meaning st w ws out text := by
  induction text with
  | nil =>
    intro st w ws out h
    cases st <;> simp only [splitGo, Except.ok.injEq, reduceCtorEq] at h <;> subst h
    · exact fun _ => ⟨[], .nil, by simp⟩
    · rintro rfl
      exact ⟨[['\\']], CommandText.backslash (t := []) (Or.inl rfl) .nil, by simp⟩
    · exact Or.inl ⟨[], [], [], [], rfl, .nil, Or.inl rfl, .nil, by simp⟩
    · exact Or.inr ⟨[], [], rfl, .nil, by simp⟩
    · exact fun _ => ⟨[], CommandText.lastComment (by simp), by simp⟩
  | cons c cs ih =>
    intro st w ws out h
    have single : ∀ {w : Str} {ws : List Str}, (∃ b rest, cs = b ++ '\'' :: rest ∧ '\'' ∉ b ∧ Tail (w ++ b) ws out rest) →
        Tail w ws out ('\'' :: cs) := by
      rintro w ws ⟨b, rest, rfl, hb, ht⟩
      have := Tail.cons (p := '\'' :: (b ++ ['\''])) (fun t s hp => by simpa using Pieces.single hb hp) ht
      simpa using this
    have double : ∀ {w : Str} {ws : List Str}, (∃ b u rest, cs = b ++ '"' :: rest ∧ DoubleBody b u ∧ Tail (w ++ u) ws out rest) →
        Tail w ws out ('"' :: cs) := by
      rintro w ws ⟨b, u, rest, rfl, hb, ht⟩
      have := Tail.cons (p := '"' :: (b ++ ['"'])) (fun t s hp => by simpa using Pieces.double hb hp) ht
      simpa using this
    cases st <;> simp only [splitGo] at h
    case delimiter =>
      rintro rfl
      split at h
      · rename_i hc; subst hc
        exact (single (ih _ _ _ _ h)).command (by decide) (by unfold ShellBlank; decide) (by simp)
      split at h
      · rename_i hc; subst hc
        exact (double (ih _ _ _ _ h)).command (by decide) (by unfold ShellBlank; decide) (by simp)
      split at h
      · rename_i hc; subst hc
        exact ih _ _ _ _ h rfl
      split at h
      · rename_i hb
        obtain ⟨vs, h1, h2⟩ := ih _ _ _ _ h rfl
        exact ⟨vs, .blank ((isBlank_iff c).1 hb) h1, h2⟩
      split at h
      · rename_i hc; subst hc
        exact ih _ _ _ _ h rfl
      rename_i h1 h2 h3 h4 h5
      have hb : ¬ ShellBlank c := fun hb => h4 ((isBlank_iff c).2 hb)
      have := Tail.cons (w := []) (p := [c]) (u := [c]) (fun t s hp => Pieces.plain hb (by simp [h1, h2, h3]) hp) (ih _ _ _ _ h)
      exact this.command h5 hb (fun h => h3 h.1)
    case backslash =>
      rintro rfl
      split at h
      · rename_i hc; subst hc
        obtain ⟨vs, h1, h2⟩ := ih _ _ _ _ h rfl
        exact ⟨vs, .joined h1, h2⟩
      rename_i hc
      have := Tail.cons (w := []) (p := ['\\', c]) (u := [c]) (fun t s hp => Pieces.escaped hc hp) (ih _ _ _ _ h)
      exact Tail.command (by decide) (by unfold ShellBlank; decide) (by simp [hc]) this
    case unquoted =>
      split at h
      · rename_i hc; subst hc; exact single (ih _ _ _ _ h)
      split at h
      · rename_i hc; subst hc; exact double (ih _ _ _ _ h)
      split at h
      · rename_i hc; subst hc; exact ih _ _ _ _ h
      split at h
      · rename_i hb
        obtain ⟨vs, h1, h2⟩ := ih _ _ _ _ h rfl
        have hb := (isBlank_iff c).1 hb
        exact Or.inl ⟨[], [], c :: cs, vs, rfl, .nil, Or.inr ⟨c, cs, rfl, hb⟩, .blank hb h1, by simp [h2]⟩
      rename_i h1 h2 h3 h4
      have hb : ¬ ShellBlank c := fun hb => h4 ((isBlank_iff c).2 hb)
      exact Tail.cons (p := [c]) (u := [c]) (fun t s hp => Pieces.plain hb (by simp [h1, h2, h3]) hp) (ih _ _ _ _ h)
    case unquotedBackslash =>
      split at h
      · rename_i hc; subst hc
        exact Tail.cons (p := ['\\', '\n']) (u := []) (fun t s hp => Pieces.joined hp) (by simpa [Meaning] using ih _ _ _ _ h)
      rename_i hc
      exact Tail.cons (p := ['\\', c]) (u := [c]) (fun t s hp => Pieces.escaped hc hp) (ih _ _ _ _ h)
    case singleQuoted =>
      split at h
      · rename_i hc; subst hc
        exact ⟨[], cs, rfl, by simp, by simpa [Meaning] using ih _ _ _ _ h⟩
      rename_i hc
      obtain ⟨b, rest, rfl, hb, ht⟩ := ih _ _ _ _ h
      exact ⟨c :: b, rest, rfl, by simp [hb, Ne.symm hc], by simpa using ht⟩
    case doubleQuoted =>
      split at h
      · rename_i hc; subst hc
        exact ⟨[], [], cs, rfl, .nil, by simpa [Meaning] using ih _ _ _ _ h⟩
      split at h
      · rename_i hc; subst hc
        exact ih _ _ _ _ h
      rename_i h1 h2
      obtain ⟨b, u, rest, rfl, hb, ht⟩ := ih _ _ _ _ h
      exact ⟨c :: b, c :: u, rest, rfl, .plain h1 h2 hb, by simpa using ht⟩
    case doubleQuotedBackslash =>
      split at h
      · rename_i hc; subst hc
        obtain ⟨b, u, rest, rfl, hb, ht⟩ := ih _ _ _ _ h
        exact ⟨'\\' :: '\n' :: b, u, rest, rfl, .joined hb, ht⟩
      split at h
      · rename_i h1 hc
        obtain ⟨b, u, rest, rfl, hb, ht⟩ := ih _ _ _ _ h
        exact ⟨'\\' :: c :: b, c :: u, rest, rfl, .special (by simpa using hc) hb, by simpa using ht⟩
      rename_i h1 hc
      obtain ⟨b, u, rest, rfl, hb, ht⟩ := ih _ _ _ _ h
      refine ⟨'\\' :: c :: b, '\\' :: c :: u, rest, rfl, .kept ?_ hb, by simpa using ht⟩
      simp only [not_or] at hc
      simp [hc, h1]
    case comment =>
      rintro rfl
      split at h
      · rename_i hc; subst hc
        obtain ⟨vs, h1, h2⟩ := ih _ _ _ _ h rfl
        exact ⟨vs, .comment (b := []) (by simp) h1, h2⟩
      rename_i hc
      obtain ⟨vs, h1, h2⟩ := ih _ _ _ _ h rfl
      exact ⟨vs, comment_cons hc h1, h2⟩

/-! ### The other direction -/

theorem splitGo_single {b : Str} (hb : '\'' ∉ b) (w : Str) (ws : List Str) (t : Str) :
    splitGo .singleQuoted w ws (b ++ '\'' :: t) = splitGo .unquoted (w ++ b) ws t := by
  induction b generalizing w with
  | nil => simp [splitGo]
  | cons c b ih =>
    simp only [List.mem_cons, not_or] at hb
    simp [splitGo, Ne.symm hb.1, ih hb.2]

theorem splitGo_double {b u : Str} (hb : DoubleBody b u) (w : Str) (ws : List Str) (t : Str) :
    splitGo .doubleQuoted w ws (b ++ '"' :: t) = splitGo .unquoted (w ++ u) ws t := by
  induction hb generalizing w with
  | nil => simp [splitGo]
  | plain h1 h2 h ih => simp [splitGo, h1, h2, ih]
  | @special c t s hc h ih =>
    have hn : c ≠ '\n' := by rintro rfl; simp at hc
    have hc : c = '$' ∨ c = '`' ∨ c = '"' ∨ c = '\\' := by simpa using hc
    simp [splitGo, hn, hc, ih]
  | joined h ih => simp [splitGo, ih]
  | @kept c t s hc h ih =>
    simp only [List.mem_cons, List.not_mem_nil, or_false, not_or] at hc
    simp [splitGo, hc, ih]

/-- The pieces of a word inside the word. -/
theorem splitGo_pieces {t s : Str} (hp : Pieces t s) (w : Str) (ws : List Str) (rest : Str) :
    splitGo .unquoted w ws (t ++ rest) = splitGo .unquoted (w ++ s) ws rest := by
  induction hp generalizing w with
  | nil => simp
  | @plain c t s hb hc h ih =>
    simp only [List.mem_cons, List.not_mem_nil, or_false, not_or] at hc
    have hb : ¬ isBlank c = true := fun hb' => hb ((isBlank_iff c).1 hb')
    simp [splitGo, hc, hb, ih]
  | escaped hc h ih => simp [splitGo, hc, ih]
  | joined h ih => simp [splitGo, ih]
  | single hb h ih => simp [splitGo, splitGo_single hb, ih]
  | double hb h ih => simp [splitGo, splitGo_double hb, ih]

/-- The pieces of a word from its start. -/
theorem splitGo_word {t s : Str} (hw : WordStart t) (hp : Pieces t s) (ws : List Str) (rest : Str) :
    splitGo .delimiter [] ws (t ++ rest) = splitGo .unquoted s ws rest := by
  obtain ⟨c, r, rfl, hc, hj⟩ := hw
  cases hp with
  | plain hb hc' h =>
    simp only [List.mem_cons, List.not_mem_nil, or_false, not_or] at hc'
    have hb : ¬ isBlank c = true := fun hb' => hb ((isBlank_iff c).1 hb')
    simp [splitGo, hc, hc', hb, splitGo_pieces h]
  | escaped hc' h => simp [splitGo, hc', splitGo_pieces h]
  | joined h => simp at hj
  | single hb h => simp [splitGo, splitGo_single hb, splitGo_pieces h]
  | double hb h => simp [splitGo, splitGo_double hb, splitGo_pieces h]

theorem splitGo_comment {b : Str} (hb : '\n' ∉ b) (w : Str) (ws : List Str) (t : Str) :
    splitGo .comment w ws (b ++ '\n' :: t) = splitGo .delimiter w ws t := by
  induction b with
  | nil => simp [splitGo]
  | cons c b ih =>
    simp only [List.mem_cons, not_or] at hb
    simp [splitGo, Ne.symm hb.1, ih hb.2]

theorem splitGo_lastComment {b : Str} (hb : '\n' ∉ b) (w : Str) (ws : List Str) : splitGo .comment w ws b = .ok ws := by
  induction b with
  | nil => simp [splitGo]
  | cons c b ih =>
    simp only [List.mem_cons, not_or] at hb
    simp [splitGo, Ne.symm hb.1, ih hb.2]

/-- What the grammar says is what the automaton returns. -/
theorem splitGo_complete {text : Str} {vs : List Str} (h : CommandText text vs) (ws : List Str) :
    splitGo .delimiter [] ws text = .ok (ws ++ vs) := by
  induction h generalizing ws with
  | nil => simp [splitGo]
  | @blank c t vs hc h ih =>
    have := blank_not hc
    simp [splitGo, this, (isBlank_iff c).2 hc, ih]
  | joined h ih => simp [splitGo, ih]
  | comment hb h ih =>
    have h1 : isBlank '#' = false := by decide
    simp [splitGo, h1, splitGo_comment hb, ih]
  | lastComment hb =>
    have h1 : isBlank '#' = false := by decide
    simp [splitGo, h1, splitGo_lastComment hb]
  | @word t s rest vs hw hp hr h ih =>
    rw [splitGo_word hw hp]
    rcases hr with rfl | ⟨c, r, rfl, hb⟩
    · have := ih []
      simp only [splitGo, List.nil_append, Except.ok.injEq] at this
      simp [splitGo, ← this]
    · have hn := blank_not hb
      have hb := (isBlank_iff c).2 hb
      have h2 := ih (ws ++ [s])
      simp only [splitGo, hn, hb, if_false, if_true] at h2 ⊢
      rw [h2]
      simp
  | @backslash t s hw hp =>
    rcases hw with rfl | hw
    · cases hp
      simp [splitGo]
    · rw [splitGo_word hw hp]
      simp [splitGo]

theorem split_iff (text : Str) (ws : List Str) : split text = .ok ws ↔ CommandText text ws := by
  constructor
  · intro h
    obtain ⟨vs, h1, h2⟩ := splitGo_sound text _ _ _ _ h rfl
    rw [h2]
    exact h1
  · intro h
    simpa [split] using splitGo_complete h []

theorem splitGo_error (text : Str) : ∀ (st : State) (w : Str) (ws : List Str) (e : Panic),
    splitGo st w ws text = .error e → e = .commandLine := by
  induction text with
  | nil => intro st w ws e h; cases st <;> simp_all [splitGo]
  | cons c cs ih =>
    intro st w ws e h
    cases st <;> simp only [splitGo] at h <;> (repeat' split at h) <;> exact ih _ _ _ _ h

end Ledger.Shell
