import Verif.Props.Exactly
import Verif.Props.Parser
/-
Lines that are read alike with and without a line feed at their end.
-/
namespace Ledger
open Ledger.Parser Ledger.Scanner

/-- A line that says the same with and without a line feed at its end: not a lone carriage return, not a header line
without a space, not a price line. -/
def Plain (l : Str) : Prop := l ≠ ['\r'] ∧ (HeaderLine l → ' ' ∈ l) ∧ ¬ TopPart l .price

/-! ### two lines that say the same -/

/-- Two lines that are read alike wherever they stand. -/
structure LineAlike (l l' : Str) : Prop where
  top : topLine l = topLine l'
  price : topLine l ≠ .price
  header : topLine l = .xact → ∀ j, createXact l j = createXact l' j
  body : (classify l = .fin ∧ classify l' = .fin) ∨ (classify l = .bad ∧ classify l' = .bad) ∨
    (classify l = .note ∧ classify l' = .note ∧ ∀ i j, parseTrailingNote l i j = parseTrailingNote l' i j) ∨
    ∃ p p', classify l = .post p ∧ classify l' = .post p' ∧ ∀ i j j', parsePost p i j = .ok j' ↔ parsePost p' i j = .ok j'

theorem LineAlike.symm {l l' : Str} (h : LineAlike l l') : LineAlike l' l where
  top := h.top.symm
  price := h.top ▸ h.price
  header := fun e j => (h.header (h.top.trans e) j).symm
  body := by
    rcases h.body with ⟨a, b⟩ | ⟨a, b⟩ | ⟨a, b, c⟩ | ⟨p, p', a, b, c⟩
    · exact .inl ⟨b, a⟩
    · exact .inr (.inl ⟨b, a⟩)
    · exact .inr (.inr (.inl ⟨b, a, fun i j => (c i j).symm⟩))
    · exact .inr (.inr (.inr ⟨p', p, b, a, fun i j j' => (c i j j').symm⟩))

theorem readBody_last {l l' : Str} (h : LineAlike l l') (i : Nat) (s : Source) {j j1 : Journal} {r : Source}
    (e : readBody i (s ++ [some l]) j = .ok (j1, r)) :
    (r = [] ∧ readBody i (s ++ [some l']) j = .ok (j1, [])) ∨
      ∃ s', r = s' ++ [some l] ∧ readBody i (s ++ [some l']) j = .ok (j1, s' ++ [some l']) := by
  induction s generalizing j with
  | nil =>
    left
    simp only [List.nil_append, readBody] at e ⊢
    rcases h.body with ⟨a, b⟩ | ⟨a, b⟩ | ⟨a, b, c⟩ | ⟨p, p', a, b, c⟩
    · rw [a] at e; rw [b]
      simp only [Except.ok.injEq, Prod.mk.injEq] at e ⊢
      exact ⟨e.2.symm, e.1, trivial⟩
    · rw [a] at e; cases e
    · rw [a] at e; rw [b, ← c]
      cases hn : parseTrailingNote l i j with
      | error k => simp only [hn, bind, Except.bind] at e; cases e
      | ok j2 =>
        simp only [hn, bind, Except.bind, Except.ok.injEq, Prod.mk.injEq] at e ⊢
        exact ⟨e.2.symm, e.1, trivial⟩
    · rw [a] at e; rw [b]
      cases hn : parsePost p i j with
      | error k => simp only [hn, bind, Except.bind] at e; cases e
      | ok j2 =>
        have hn' := (c i j j2).mp hn
        simp only [hn, hn', bind, Except.bind, Except.ok.injEq, Prod.mk.injEq] at e ⊢
        exact ⟨e.2.symm, e.1, trivial⟩
  | cons x s ih =>
    cases x with
    | none =>
      simp only [List.cons_append, readBody, Except.ok.injEq, Prod.mk.injEq] at e ⊢
      exact .inr ⟨s, e.2.symm, e.1, rfl⟩
    | some line =>
      simp only [List.cons_append, readBody] at e ⊢
      cases hc : classify line with
      | fin =>
        rw [hc] at e
        simp only [Except.ok.injEq, Prod.mk.injEq] at e ⊢
        exact .inr ⟨s, e.2.symm, e.1, rfl⟩
      | bad => rw [hc] at e; cases e
      | note =>
        rw [hc] at e
        simp only [bind, Except.bind] at e ⊢
        cases hn : parseTrailingNote line i j with
        | error k => rw [hn] at e; cases e
        | ok j2 => rw [hn] at e; exact ih e
      | post p =>
        rw [hc] at e
        simp only [bind, Except.bind] at e ⊢
        cases hn : parsePost p i j with
        | error k => rw [hn] at e; cases e
        | ok j2 => rw [hn] at e; exact ih e

theorem xactDirective_last {l l' : Str} (h : LineAlike l l') (line : Str) (s : Source) {j j1 : Journal} {r : Source}
    (e : xactDirective line (s ++ [some l]) j = .ok (j1, r)) :
    (r = [] ∧ xactDirective line (s ++ [some l']) j = .ok (j1, [])) ∨
      ∃ s', r = s' ++ [some l] ∧ xactDirective line (s ++ [some l']) j = .ok (j1, s' ++ [some l']) := by
  simp only [xactDirective, bind, Except.bind] at e ⊢
  cases hx : createXact line j with
  | error k => rw [hx] at e; cases e
  | ok v =>
    obtain ⟨j2, i⟩ := v
    rw [hx] at e
    simp only at e ⊢
    cases hb : readBody i (s ++ [some l]) j2 with
    | error k => rw [hb] at e; cases e
    | ok v =>
      obtain ⟨j3, r3⟩ := v
      rw [hb] at e
      simp only at e
      cases hf : finalizeXact i j3 with
      | error k => rw [hf] at e; cases e
      | ok j4 =>
        rw [hf] at e
        simp only [Except.ok.injEq, Prod.mk.injEq] at e
        obtain ⟨rfl, rfl⟩ := e
        rcases readBody_last h i s hb with ⟨rfl, h2⟩ | ⟨s', rfl, h2⟩
        · exact .inl ⟨rfl, by simp only [h2, hf]⟩
        · exact .inr ⟨s', rfl, by simp only [h2, hf]⟩

theorem parseGo_last {l l' : Str} (h : LineAlike l l') (inc : Str → Journal → Res Journal) (fuel : Nat) (s : Source)
    {j j' : Journal} (e : parseGo inc fuel (s ++ [some l]) j = .ok j') : parseGo inc fuel (s ++ [some l']) j = .ok j' := by
  induction fuel generalizing s j with
  | zero => simp [parseGo] at e
  | succ fuel ih =>
    cases s with
    | nil =>
      simp only [List.nil_append, parseGo] at e ⊢
      rw [← h.top]
      cases ht : topLine l with
      | xact =>
        rw [ht] at e
        simp only [xactDirective, h.header ht] at e ⊢
        exact e
      | price => exact absurd ht h.price
      | _ => rw [ht] at e; exact e
    | cons x s =>
      cases x with
      | none => simpa only [List.cons_append, parseGo] using e
      | some line =>
        simp only [List.cons_append, parseGo] at e ⊢
        cases ht : topLine line with
        | ignored => rw [ht] at e; exact ih s e
        | skipped => rw [ht] at e; exact ih s e
        | indented => rw [ht] at e; cases e
        | fails p => rw [ht] at e; cases e
        | xact =>
          rw [ht] at e
          simp only [bind, Except.bind] at e ⊢
          cases hx : xactDirective line (s ++ [some l]) j with
          | error k => rw [hx] at e; cases e
          | ok v =>
            obtain ⟨j1, r⟩ := v
            rw [hx] at e
            rcases xactDirective_last h line s hx with ⟨rfl, h2⟩ | ⟨s', rfl, h2⟩
            · rw [h2]; exact e
            · rw [h2]; exact ih s' e
        | includeFile f =>
          rw [ht] at e
          simp only [bind, Except.bind] at e ⊢
          cases hx : inc f j with
          | error k => rw [hx] at e; cases e
          | ok j1 => rw [hx] at e; exact ih s e
        | price =>
          rw [ht] at e
          simp only [bind, Except.bind] at e ⊢
          cases hx : j.pool.parsePriceDirective line with
          | error k => rw [hx] at e; cases e
          | ok j1 => rw [hx] at e; exact ih s e

theorem parse_last {l l' : Str} (h : LineAlike l l') (files : Files) (depth : Nat) (s : Source) (j j' : Journal) :
    parse files depth (s ++ [some l]) j = .ok j' ↔ parse files depth (s ++ [some l']) j = .ok j' := by
  have e : (s ++ [some l]).length = (s ++ [some l']).length := by simp
  constructor
  · intro hp
    cases depth <;>
      · simp only [parse, parseWith] at hp ⊢
        rw [← e]
        exact parseGo_last h _ _ _ hp
  · intro hp
    cases depth <;>
      · simp only [parse, parseWith] at hp ⊢
        rw [e]
        exact parseGo_last h.symm _ _ _ hp

/-! ### a line feed at the end -/

theorem trim_blank_end (s : Str) {t : Str} (ht : Blank t) : trim (s ++ t) = trim s := by
  obtain ⟨a, b, e, ha, hb, hs⟩ := trim_split s
  have : s ++ t = a ++ trim s ++ (b ++ t) := by
    conv_lhs => rw [e]
    simp
  rw [this]
  refine trim_text ha hs ?_
  intro c hc
  rcases List.mem_append.mp hc with h | h
  · exact hb c h
  · exact ht c h

theorem blank_nl : Blank ['\n'] := by
  intro c hc
  rw [List.mem_singleton] at hc
  subst hc
  decide

theorem splitAtFirst_keep (p : Char → Bool) (s t : Str) (h : ∃ c ∈ s, p c = true) :
    splitAtFirst p (s ++ t) = ((splitAtFirst p s).1, (splitAtFirst p s).2 ++ t) := by
  induction s with
  | nil => obtain ⟨c, hc, _⟩ := h; cases hc
  | cons x s ih =>
    unfold splitAtFirst at ih ⊢
    by_cases hx : p x = true
    · simp [hx]
    · have : ∃ c ∈ s, p c = true := by
        obtain ⟨c, hc, h2⟩ := h
        rcases List.mem_cons.mp hc with rfl | hc
        · exact absurd h2 hx
        · exact ⟨c, hc, h2⟩
      have := ih this
      simp only [Prod.mk.injEq] at this
      simp [hx, this.1, this.2]

theorem tokenizePayee_nl (s : Str) : (do let (p, r) := tokenizePayee (s ++ ['\n']); let n ← tokenizeNote r; .ok (p, n) : Res (Str × Str)) =
    (do let (p, r) := tokenizePayee s; let n ← tokenizeNote r; .ok (p, n)) := by
  unfold tokenizePayee
  cases hf : findSub [' ', ' ', ';'] s with
  | some v =>
    obtain ⟨a, b⟩ := v
    rw [findSub_append hf]
    obtain ⟨_, t, rfl⟩ := findSub_some hf
    have d3 : ∀ u : Str, dropBytes (' ' :: ' ' :: ';' :: u) 3 = .ok u := by
      intro u
      have h1 : ' '.utf8Size = 1 := by decide
      have h2 : ';'.utf8Size = 1 := by decide
      simp [dropBytes, h1, h2]
    simp [tokenizeNote, bind, Except.bind, d3, trim_blank_end _ blank_nl]
  | none =>
    have : findSub [' ', ' ', ';'] (s ++ ['\n']) = none := by
      cases hg : findSub [' ', ' ', ';'] (s ++ ['\n']) with
      | none => rfl
      | some v =>
        obtain ⟨a, b⟩ := v
        obtain ⟨e, t, rfl⟩ := findSub_some hg
        exfalso
        rcases List.eq_nil_or_concat' t with rfl | ⟨t', c, rfl⟩
        · have := congrArg List.getLast? e
          simp at this
        · have e' : s = a ++ ([' ', ' ', ';'] ++ t') := by
            have h3 : s ++ ['\n'] = (a ++ ([' ', ' ', ';'] ++ t')) ++ [c] := by rw [e]; simp
            exact (List.append_inj' h3 rfl).1
          obtain ⟨x, y, hh, hn⟩ := noteMark_split (s := s) ⟨a, t', by rw [e']; simp⟩
          rw [hh, findSub_mark _ _ hn] at hf
          cases hf
    rw [this]
    simp [trim_blank_end _ blank_nl]

theorem dropWhile_keep (p : Char → Bool) (s t : Str) (h : ∃ c ∈ s, p c = false) :
    (s ++ t).dropWhile p = s.dropWhile p ++ t := by
  induction s with
  | nil => obtain ⟨c, hc, _⟩ := h; cases hc
  | cons x s ih =>
    cases hx : p x with
    | false => simp [hx]
    | true =>
      have : ∃ c ∈ s, p c = false := by
        obtain ⟨c, hc, h2⟩ := h
        rcases List.mem_cons.mp hc with rfl | hc
        · rw [hx] at h2; cases h2
        · exact ⟨c, hc, h2⟩
      simp [hx, ih this]

theorem mem_dropWhile_keep {p : Char → Bool} {c : Char} {s : Str} (h : c ∈ s) (hp : p c = false) : c ∈ s.dropWhile p := by
  induction s with
  | nil => cases h
  | cons x s ih =>
    cases hx : p x with
    | false => simpa [List.dropWhile, hx] using h
    | true =>
      rcases List.mem_cons.mp h with rfl | h
      · rw [hx] at hp; cases hp
      · simpa [List.dropWhile, hx] using ih h

theorem tokenizeXactHeader_nl {l : Str} (h : ' ' ∈ l) : tokenizeXactHeader (l ++ ['\n']) = tokenizeXactHeader l := by
  have hne : l ≠ [] := by rintro rfl; cases h
  have hne' : l ++ ['\n'] ≠ [] := by simp
  have e1 : scanDate (l ++ ['\n']) = ((scanDate l).1, (scanDate l).2 ++ ['\n']) :=
    splitAtFirst_keep _ _ _ ⟨' ', h, by decide⟩
  have h2 : ' ' ∈ (scanDate l).2 := mem_dropWhile_keep h (by decide)
  have e2 : tokenizeAuxDate ((scanDate l).2 ++ ['\n']) =
      ((tokenizeAuxDate (scanDate l).2).1, (tokenizeAuxDate (scanDate l).2).2 ++ ['\n']) := by
    generalize (scanDate l).2 = r at h2
    unfold tokenizeAuxDate
    cases r with
    | nil => cases h2
    | cons c r =>
      by_cases hc : c = '='
      · subst hc
        have h3 : (('=' :: r) ++ ['\n']).dropWhile (fun c => c == '=') = ('=' :: r).dropWhile (fun c => c == '=') ++ ['\n'] :=
          dropWhile_keep _ _ _ ⟨' ', h2, by decide⟩
        have h4 : ' ' ∈ ('=' :: r).dropWhile (fun c => c == '=') := mem_dropWhile_keep h2 (by decide)
        have := splitAtFirst_keep (fun c => c == ' ') _ ['\n'] ⟨' ', h4, by decide⟩
        rw [← h3] at this
        exact this
      · have a1 : ∀ x : Str, tokenizeAuxDate (c :: x) = ([], c :: x) := by
          intro x
          unfold tokenizeAuxDate
          split
          · rename_i h; simp at h; exact absurd h.1 hc
          · rfl
        have := a1 (r ++ ['\n'])
        have := a1 r
        unfold tokenizeAuxDate at *
        simp_all
  have e3 := tokenizePayee_nl (tokenizeAuxDate (scanDate l).2).2
  unfold tokenizeXactHeader
  rw [if_neg hne, if_neg hne']
  simp only [e1, e2]
  generalize tokenizeAuxDate (scanDate l).2 = v at e3 ⊢
  generalize (scanDate l).1 = d
  simp only [bind, Except.bind] at e3 ⊢
  cases h1 : tokenizeNote (tokenizePayee (v.2 ++ ['\n'])).2 with
  | error k =>
    cases h2 : tokenizeNote (tokenizePayee v.2).2 with
    | error k' => simp only [h1, h2, Except.error.injEq] at e3 ⊢; exact e3
    | ok n => simp only [h1, h2] at e3; cases e3
  | ok n =>
    cases h2 : tokenizeNote (tokenizePayee v.2).2 with
    | error k' => simp only [h1, h2] at e3; cases e3
    | ok n' =>
      simp only [h1, h2, Except.ok.injEq, Prod.mk.injEq] at e3 ⊢
      exact ⟨trivial, trivial, e3⟩

theorem nextWord_nl (s : Str) : (nextWord (s ++ ['\n'])).1 = (nextWord s).1 ∧
    ((nextWord s).1 = [] ∨ (nextWord (s ++ ['\n'])).2 = (nextWord s).2 ++ ['\n']) := by
  have e := trimStart_blanks s blank_nl
  unfold nextWord
  rw [e]
  cases ht : trimStart s with
  | nil => exact ⟨by decide, .inl rfl⟩
  | cons c cs =>
    simp only [addBlanks, reduceCtorEq, if_false]
    have hw : isWs '\n' = true := by decide
    generalize hx : c :: cs = x
    constructor
    · unfold splitAtFirst
      simp only
      rw [List.takeWhile_append]
      split
      · rename_i hl
        simp [hw, (List.takeWhile_prefix _).eq_of_length hl]
      · rfl
    · right
      unfold splitAtFirst
      simp only
      clear hx ht e
      induction x with
      | nil => simp [hw]
      | cons y x ih =>
        cases hy : isWs y <;> simp [hy, ih]

theorem generalDirective_nl (l : Str) : generalDirective (l ++ ['\n']) = generalDirective l := by
  obtain ⟨h1, h2⟩ := nextWord_nl l
  unfold generalDirective
  generalize nextWord (l ++ ['\n']) = v' at h1 h2 ⊢
  generalize nextWord l = v at h1 h2 ⊢
  obtain ⟨d, r⟩ := v
  obtain ⟨d', r'⟩ := v'
  simp only at h1 h2
  subst h1
  cases d' with
  | nil => rfl
  | cons c cs =>
    rcases h2 with h2 | rfl
    · cases h2
    · simp only [(nextWord_nl r).1]

theorem topLine_nl {l : Str} (h : l ≠ ['\r']) (hne : l ≠ []) (hl : '\n' ∉ l) : topLine (l ++ ['\n']) = topLine l := by
  cases l with
  | nil => exact absurd rfl hne
  | cons c cs =>
    have n1 : ¬ (c :: cs = ['\r', '\n'] ∨ c :: cs = ['\n']) := by
      rintro (e | e) <;> rw [e] at hl <;> simp at hl
    have n2 : ¬ ((c :: cs) ++ ['\n'] = ['\r', '\n'] ∨ (c :: cs) ++ ['\n'] = ['\n']) := by
      rintro (e | e)
      · exact h (List.append_cancel_right (bs := ['\n']) (cs := ['\r']) e)
      · simp at e
    unfold topLine
    rw [if_neg n1, if_neg n2, List.cons_append]
    simp only
    rw [← List.cons_append, generalDirective_nl]

theorem twoSpaces_nl (s : Str) : TwoSpaces (s ++ ['\n']) ↔ TwoSpaces s := by
  constructor
  · rintro ⟨a, b, e⟩
    rcases List.eq_nil_or_concat' b with rfl | ⟨b', c, rfl⟩
    · have := congrArg List.getLast? e
      simp at this
    · have h3 : s ++ ['\n'] = (a ++ ' ' :: ' ' :: b') ++ [c] := by rw [e]; simp
      exact ⟨a, b', (List.append_inj' h3 rfl).1⟩
  · rintro ⟨a, b, rfl⟩
    exact ⟨a, b ++ ['\n'], by simp⟩

theorem alike_nl {l : Str} (hne : l ≠ []) (hl : '\n' ∉ l) (h : Plain l) : LineAlike l (l ++ ['\n']) where
  top := (topLine_nl h.1 hne hl).symm
  price := fun e => h.2.2 ((topPart_iff _ _).mpr e)
  header := by
    intro e j
    have hh : HeaderLine l := by
      cases l with
      | nil => exact absurd rfl hne
      | cons c cs =>
        refine ⟨c, cs, rfl, ?_⟩
        by_contra hd
        unfold topLine at e
        split at e
        · cases e
        · simp only at e
          split at e
          · cases e
          · split at e
            · cases e
            · split at e
              · cases e
              · unfold generalDirective at e
                simp only at e
                split at e
                · cases e
                · split at e
                  · split at e
                    · split at e
                      · cases e
                      · unfold includePath at e
                        split at e <;> first | (split at e <;> cases e) | cases e
                    · split at e <;> cases e
                  · cases e
    unfold createXact
    rw [tokenizeXactHeader_nl (h.2.1 hh)]
  body := by
    cases l with
    | nil => exact absurd rfl hne
    | cons c cs =>
      by_cases h1 : c = ' '
      · subst h1
        have e1 : ∀ x : Str, classify (' ' :: x) = match trimStart (' ' :: x) with
            | [] => .fin
            | c :: cs => if c = ';' then .note else .post (c :: cs) := fun x => rfl
        have e2 := trimStart_blanks (' ' :: cs) blank_nl
        cases ht : trimStart (' ' :: cs) with
        | nil =>
          rw [ht] at e2
          left
          rw [List.cons_append] at e2 ⊢
          rw [e1, e1, ht, e2]
          exact ⟨rfl, rfl⟩
        | cons d ds =>
          rw [ht] at e2
          simp only [addBlanks] at e2
          by_cases hd : d = ';'
          · subst hd
            refine .inr (.inr (.inl ⟨?_, ?_, ?_⟩))
            · rw [e1, ht]; rfl
            · rw [List.cons_append] at e2 ⊢
              rw [e1, e2]; rfl
            · intro i j
              unfold parseTrailingNote
              have h2 : ';'.utf8Size = 1 := by decide
              rw [e2, ht]
              simp [dropBytes, h2, bind, Except.bind, trim_blank_end _ blank_nl]
          · refine .inr (.inr (.inr ⟨d :: ds, (d :: ds) ++ ['\n'], ?_, ?_, ?_⟩))
            · rw [e1, ht]; simp [hd]
            · rw [List.cons_append] at e2 ⊢
              rw [e1, e2]; simp [hd]
            · have hw : isWs d = false := trimStart_head (' ' :: cs) d (by rw [ht]; rfl)
              have hs : Skip (d :: ds) (d :: ds) := ⟨[], by
                refine ⟨rfl, by simp, ?_⟩
                intro c hc
                simp at hc
                subst hc
                simp [hw]⟩
              have key := (C51_exactly hs blank_nl).1
              have same : ∀ t, scanPost ((d :: ds) ++ ['\n']) = .ok t ↔ scanPost (d :: ds) = .ok t := by
                intro t
                rw [key t, twoSpaces_nl]
                exact ⟨fun h => h.1, fun h => ⟨h, em _⟩⟩
              intro i j j'
              unfold parsePost
              cases hp : scanPost (d :: ds) with
              | ok t => rw [(same t).mpr hp]
              | error k =>
                cases hp' : scanPost ((d :: ds) ++ ['\n']) with
                | ok t => rw [(same t).mp hp'] at hp; cases hp
                | error k' =>
                  simp only [bind, Except.bind]
                  exact ⟨fun h => (by cases h), fun h => (by cases h)⟩
      · by_cases h2 : c = '\r'
        · subst h2; exact .inl ⟨rfl, rfl⟩
        · have h3 : c ≠ '\n' := by rintro rfl; simp at hl
          have e1 : ∀ x : Str, classify (c :: x) = .bad := by
            intro x
            unfold classify
            split
            · rename_i h; simp at h; exact absurd h.1 h1
            · rename_i h; simp at h; exact absurd h.1 h2
            · rename_i h; simp at h; exact absurd h.1 h3
            · rfl
          exact .inr (.inl ⟨e1 _, e1 _⟩)

theorem textSource_joinTexts {ts : List Str} (h : ∀ t ∈ ts, LineTerminated t) :
    textSource (joinTexts ts) = joinSources (ts.map textSource) := by
  induction ts with
  | nil => rfl
  | cons a ts ih =>
    cases ts with
    | nil => rfl
    | cons b ts =>
      have ih' := ih (fun t ht => h t (List.mem_cons_of_mem _ ht))
      simp only [List.map_cons, joinSources, joinTexts] at ih' ⊢
      rw [← ih', textSource_append (h a List.mem_cons_self)]
      rfl

theorem readLines_one {l : Str} (hne : l ≠ []) (hl : '\n' ∉ l) : readLines l = [l] ∧ readLines (l ++ ['\n']) = [l ++ ['\n']] := by
  induction l with
  | nil => exact absurd rfl hne
  | cons c cs ih =>
    have hc : c ≠ '\n' := by rintro rfl; simp at hl
    have hcs : '\n' ∉ cs := fun h => hl (List.mem_cons_of_mem _ h)
    by_cases he : cs = []
    · subst he
      constructor <;> simp [readLines, hc]
    · obtain ⟨h1, h2⟩ := ih he hcs
      constructor
      · simp [readLines, hc, h1]
      · simp [readLines, hc, h2]

theorem createXact_short {l : Str} (h : ' ' ∉ l) (j : Journal) : createXact (l ++ ['\n']) j = .error .dateParse := by
  have bad : ∀ x : Str, Chrono.parseDate (x ++ ['\n']) = none := by
    intro x
    cases hp : Chrono.parseDate (x ++ ['\n']) with
    | none => rfl
    | some v =>
      obtain ⟨c, h1, h2⟩ := parseDate_last hp
      simp at h1
      subst h1
      exact absurd h2 (by decide)
  have hne' : l ++ ['\n'] ≠ [] := by simp
  obtain ⟨d, a, p, n, hh⟩ := tokenizeXactHeader_total hne'
  rw [← headerPart_iff hne'] at hh
  have key : (∃ x, d = x ++ ['\n']) ∨ ∃ x, a = x ++ ['\n'] := by
    obtain ⟨r1, r2, h1, h2, _⟩ := hh
    rcases List.eq_nil_or_concat' r1 with rfl | ⟨r1', c, rfl⟩
    · left
      have := h1.1
      rw [List.append_nil] at this
      exact ⟨l, this.symm⟩
    · right
      have e := h1.1
      rw [← List.append_assoc] at e
      have hc := (List.append_inj' e rfl).2
      have hl := (List.append_inj' e rfl).1
      simp at hc
      subst hc
      rcases h2 with ⟨h3, _⟩ | ⟨eqs, r, _, h4, h5⟩
      · exfalso
        have h6 := h1.2.2
        cases r1' with
        | nil =>
          have := h6 '\n' rfl
          revert this; decide
        | cons x xs =>
          have := h6 x rfl
          have hx : x ≠ ' ' := by
            rintro rfl
            exact h (by rw [hl]; simp)
          have hx' : x ≠ '=' := by
            rintro rfl
            exact h3 rfl
          exact this ⟨hx', hx⟩
      · have h6 : r1' ++ ['\n'] = eqs ++ r := by simpa using h4.1
        have h7 : r2 = [] := by
          cases r2 with
          | nil => rfl
          | cons x xs =>
            have hx : x = ' ' := by
              have := h5.2.2 x rfl
              simpa using this
            subst hx
            have : ' ' ∈ r1' ++ ['\n'] := by rw [h6, h5.1]; simp
            rcases List.mem_append.mp this with h8 | h8
            · exact absurd (by rw [hl]; simp [h8]) h
            · simp at h8
        subst h7
        have h8 := h5.1
        rw [List.append_nil] at h8
        subst h8
        rcases List.eq_nil_or_concat' r with rfl | ⟨x, c, rfl⟩
        · rw [List.append_nil] at h6
          have := h4.2.1 '\n' (by rw [← h6]; simp)
          simp at this
        · refine ⟨x, ?_⟩
          rw [← List.append_assoc] at h6
          rw [(List.append_inj' h6 rfl).2]
  rw [headerPart_iff hne'] at hh
  simp only [createXact, hh, bind, Except.bind, Xact.create, Xact.parseDate]
  rcases key with ⟨x, rfl⟩ | ⟨x, rfl⟩
  · simp [bad]
  · simp only [bad]
    by_cases hd : d = []
    · simp [hd]
    · cases hp : Chrono.parseDate d <;> simp [hd]

end Ledger
