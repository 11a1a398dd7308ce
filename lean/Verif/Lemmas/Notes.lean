import Verif.Lemmas.Compose
/-
The notes a transaction collects, and the order of transactions.
-/
namespace Ledger
open Ledger.Parser

/-! ### lines of a transaction -/

theorem dropWhile_skip {α : Type} (p : α → Bool) (a b : List α) (h : ∀ x ∈ a, p x = true) :
    (a ++ b).dropWhile p = b.dropWhile p := by
  induction a with
  | nil => rfl
  | cons x a ih =>
    rw [List.cons_append, List.dropWhile_cons, if_pos (h x List.mem_cons_self)]
    exact ih (fun y hy => h y (List.mem_cons_of_mem _ hy))

theorem trimStart_skip (sp : Str) (c : Char) (rest : Str) (h : ∀ c ∈ sp, isWs c = true) (hc : isWs c = false) :
    trimStart (sp ++ c :: rest) = c :: rest := by
  unfold trimStart
  rw [dropWhile_skip _ _ _ h, List.dropWhile_cons, if_neg (by rw [hc]; simp)]

theorem CommentLine.trim {line text : Str} (h : CommentLine line text) :
    ∃ rest, trimStart line = ';' :: rest ∧ text = Ledger.trim rest ∧ classify line = .note := by
  obtain ⟨sp, rest, rfl, hsp, rfl⟩ := h
  have e : trimStart (' ' :: sp ++ ';' :: rest) = ';' :: rest :=
    trimStart_skip (' ' :: sp) ';' rest (by
      intro c hc
      rcases List.mem_cons.mp hc with rfl | hc
      · decide
      · exact hsp c hc) (by decide)
  refine ⟨rest, e, rfl, ?_⟩
  rw [List.cons_append] at e ⊢
  simp only [classify, e, if_true]

theorem PostingLine.trim {line : Str} (h : PostingLine line) : ∃ input, classify line = .post input := by
  obtain ⟨sp, c, rest, rfl, hsp, hc, hne⟩ := h
  have e : trimStart (' ' :: sp ++ c :: rest) = c :: rest :=
    trimStart_skip (' ' :: sp) c rest (by
      intro c hc
      rcases List.mem_cons.mp hc with rfl | hc
      · decide
      · exact hsp c hc) hc
  refine ⟨c :: rest, ?_⟩
  rw [List.cons_append] at e ⊢
  simp only [classify, e]
  rw [if_neg hne]

/-- A line of a transaction: a comment with its text or a posting. -/
inductive BodyItem where
  | comment (text : Str)
  | posting
deriving DecidableEq

/-- What the line is. -/
def BodyItem.Is (line : Str) : BodyItem → Prop
  | .comment t => CommentLine line t
  | .posting => PostingLine line

/-- The notes of the transaction and its postings after a line. -/
def noteStep (s : Option Str × List (Option Str)) : BodyItem → Option Str × List (Option Str)
  | .posting => (s.1, s.2 ++ [none])
  | .comment t =>
    if t = [] then s
    else if s.2 = [] then (some t, [])
    else (s.1, s.2.dropLast ++ [some t])

theorem noteLast_notes (n : Str) (ps : List Post) (h : ps ≠ []) :
    (Xact.noteLast n ps).map (·.note) = (ps.map (·.note)).dropLast ++ [some n] := by
  induction ps with
  | nil => exact absurd rfl h
  | cons p ps ih =>
    cases ps with
    | nil => rfl
    | cons q r =>
      rw [Xact.noteLast, List.map_cons, ih (by simp)]
      simp

theorem addNote_notes (x : Xact) (n : Str) (hn : n ≠ []) :
    ((x.addNote n).note, (x.addNote n).posts.map (·.note)) = noteStep (x.note, x.posts.map (·.note)) (.comment n) := by
  unfold Xact.addNote
  simp only [noteStep]
  rw [if_neg hn]
  by_cases h : x.posts = []
  · simp [h]
  · simp [h, noteLast_notes n x.posts h]

theorem readBody_notes {items : List (Str × BodyItem)} (hi : ∀ x ∈ items, x.2.Is x.1) {tail r : Source} {j j' : Journal}
    {xs : List Xact} {x : Xact} (hx : j.xacts = xs ++ [x])
    (ht : tail = [] ∨ ∃ line rest, tail = some line :: rest ∧ EndLine line)
    (h : readBody xs.length (items.map (fun x => some x.1) ++ tail) j = .ok (j', r)) :
    ∃ x', j'.xacts = xs ++ [x'] ∧
      (x'.note, x'.posts.map (·.note)) = (items.map (·.2)).foldl noteStep (x.note, x.posts.map (·.note)) := by
  induction items generalizing j x with
  | nil =>
    rcases ht with rfl | ⟨line, rest, rfl, he⟩
    · simp only [List.map_nil, List.nil_append, readBody, Except.ok.injEq, Prod.mk.injEq] at h
      obtain ⟨rfl, _⟩ := h
      exact ⟨x, hx, rfl⟩
    · simp only [List.map_nil, List.nil_append, readBody, (classify_fin line).mpr he, Except.ok.injEq, Prod.mk.injEq] at h
      obtain ⟨rfl, _⟩ := h
      exact ⟨x, hx, rfl⟩
  | cons it items ih =>
    obtain ⟨line, it⟩ := it
    have hi' : ∀ x ∈ items, x.2.Is x.1 := fun x hx => hi x (List.mem_cons_of_mem _ hx)
    have hit : it.Is line := hi (line, it) List.mem_cons_self
    simp only [List.map_cons, List.cons_append, List.foldl_cons] at h ⊢
    rw [readBody] at h
    cases it with
    | comment t =>
      obtain ⟨rest, e1, e2, e3⟩ := CommentLine.trim hit
      rw [e3] at h
      simp only [bind, Except.bind] at h
      cases h1 : parseTrailingNote line xs.length j with
      | error e => rw [h1] at h; simp at h
      | ok j1 =>
        rw [h1] at h
        obtain ⟨r', k1, k2⟩ := parseTrailingNote_ok hx h1
        rw [e1] at k1
        have : r' = rest := by
          have e : dropBytes (';' :: rest) 1 = .ok rest := by
            have : Char.utf8Size ';' = 1 := by decide
            simp [dropBytes, this]
          rw [e] at k1; injection k1 with k1; exact k1.symm
        subst this
        rw [← e2] at k2
        have hx1 : j1.xacts = xs ++ [if t = [] then x else x.addNote t] := by rw [k2]
        obtain ⟨x', g1, g2⟩ := ih hi' hx1 h
        refine ⟨x', g1, g2.trans ?_⟩
        congr 1
        by_cases ht0 : t = []
        · simp [ht0, noteStep]
        · rw [if_neg ht0]; exact addNote_notes x t ht0
    | posting =>
      obtain ⟨input, e3⟩ := PostingLine.trim hit
      rw [e3] at h
      simp only [bind, Except.bind] at h
      cases h1 : parsePost input xs.length j with
      | error e => rw [h1] at h; simp at h
      | ok j1 =>
        rw [h1] at h
        obtain ⟨_, _, path, _, am, c, _, _, _, _, k⟩ := parsePost_ok hx h1
        have hx1 : j1.xacts = xs ++ [{ x with posts := x.posts ++ [⟨path, am, c, none⟩] }] := by rw [k]
        obtain ⟨x', g1, g2⟩ := ih hi' hx1 h
        refine ⟨x', g1, g2.trans ?_⟩
        congr 1
        simp [noteStep]

theorem lastText_snoc (ts : List Str) (t : Str) : lastText (ts ++ [t]) = if t = [] then lastText ts else some t := by
  unfold lastText
  rw [List.filter_append]
  by_cases h : t = []
  · simp [h]
  · simp [h]

/-- Comments before the first posting. -/
theorem foldl_lead (n : Option Str) (ts : List Str) :
    (ts.map BodyItem.comment).foldl noteStep (n, []) = ((lastText ts).or n, []) := by
  induction ts using List.reverseRecOn with
  | nil => rfl
  | append_singleton ts t ih =>
    rw [List.map_append, List.foldl_append, ih, lastText_snoc]
    simp only [List.map_cons, List.map_nil, List.foldl_cons, List.foldl_nil, noteStep]
    split
    · rfl
    · rfl

/-- Comments after a posting. -/
theorem foldl_after (n : Option Str) (ns : List (Option Str)) (m : Option Str) (ts : List Str) :
    (ts.map BodyItem.comment).foldl noteStep (n, ns ++ [m]) = (n, ns ++ [(lastText ts).or m]) := by
  induction ts using List.reverseRecOn with
  | nil => rfl
  | append_singleton ts t ih =>
    rw [List.map_append, List.foldl_append, ih, lastText_snoc]
    simp only [List.map_cons, List.map_nil, List.foldl_cons, List.foldl_nil, noteStep]
    split
    · rfl
    · simp

theorem foldl_groups (n : Option Str) (ns : List (Option Str)) (gs : List (List Str)) :
    (gs.flatMap (fun ts => BodyItem.posting :: ts.map BodyItem.comment)).foldl noteStep (n, ns) =
      (n, ns ++ gs.map lastText) := by
  induction gs generalizing ns with
  | nil => simp
  | cons ts gs ih =>
    rw [List.flatMap_cons, List.foldl_append, List.foldl_cons]
    simp only [noteStep]
    rw [foldl_after, ih, List.map_cons]
    simp

/-! ### order of transactions -/

theorem xactDirective_header {line : Str} {rest rest' : Source} {j j' : Journal}
    (h : xactDirective line rest j = .ok (j', rest')) : ∃ x, j'.xacts = j.xacts ++ [x] ∧ HeaderOf line x := by
  obtain ⟨d, a, p, n, x0, x', h1, h2, h3, h4, _⟩ := xactDirective_ok h
  obtain ⟨c1, c2, c3, _⟩ := create_ok h2
  exact ⟨x', h3, d, a, p, n, h1, by rw [h4.1]; exact c1, by rw [h4.2.1]; exact c2, by rw [h4.2.2]; exact c3⟩

theorem headersOf_body (inc : Str → List Str) (line : Str) (h : classify line ≠ .bad)
    (hr : ∀ c rest, line = c :: rest → c = '\n' ∨ c = '\r' → line = ['\n'] ∨ line = ['\r', '\n']) :
    headersOf inc (some line) = [] := by
  unfold headersOf
  unfold classify at h
  split at h
  · rename_i rest
    have : topLine (' ' :: rest) = .indented := by simp [topLine, isDig]
    simp [this, isDig]
  · rename_i rest
    rcases hr '\r' rest rfl (Or.inr rfl) with e | e <;> rw [e] <;> rfl
  · rename_i rest
    rcases hr '\n' rest rfl (Or.inl rfl) with e | e <;> rw [e] <;> rfl
  · exact absurd rfl h

theorem headersOf_header (inc : Str → List Str) {line : Str} (h : HeaderLine line) : headersOf inc (some line) = [line] := by
  obtain ⟨c, rest, rfl, hd⟩ := h
  simp [headersOf, hd]

theorem headersOf_other (inc : Str → List Str) {line : Str} (h : ¬ HeaderLine line) :
    headersOf inc (some line) = match topLine line with
      | .includeFile f => inc f
      | _ => [] := by
  have h1 : ¬ ((line.head?.map isDig).getD false = true) := by
    intro h1
    apply h
    cases line with
    | nil => simp at h1
    | cons c rest => exact ⟨c, rest, rfl, by simpa using h1⟩
  simp only [headersOf]
  rw [if_neg h1]
  cases topLine line <;> rfl

theorem PlainReturns.append_right {s t : Source} (h : PlainReturns (s ++ t)) : PlainReturns t :=
  fun c rest hm => h c rest (List.mem_append_right _ hm)

theorem parseWith_headers (inc : Str → Journal → Res Journal) (incH : Str → List Str)
    (hinc : ∀ f j j', inc f j = .ok j' → ∃ new, j'.xacts = j.xacts ++ new ∧ List.Forall₂ HeaderOf (incH f) new)
    (s : Source) (j j' : Journal) (hs : Text s) (hp : PlainReturns s) (h : parseWith inc s j = .ok j') :
    ∃ new, j'.xacts = j.xacts ++ new ∧ List.Forall₂ HeaderOf (s.flatMap (headersOf incH)) new := by
  generalize hk : s.length = k
  induction k using Nat.strongRecOn generalizing s j with
  | _ k ih =>
    cases s with
    | nil =>
      rw [parseWith_nil] at h; injection h with h; subst h
      exact ⟨[], by simp, List.Forall₂.nil⟩
    | cons l s =>
      rw [List.length_cons] at hk
      subst hk
      cases l with
      | none => exact absurd (List.mem_cons_self) hs
      | some line =>
        have hs' : Text s := fun h => hs (List.mem_cons_of_mem _ h)
        have hp' : PlainReturns s := fun c rest hm => hp c rest (List.mem_cons_of_mem _ hm)
        rw [parseWith_cons] at h
        rw [List.flatMap_cons]
        have hnot : topLine line ≠ .xact → ¬ HeaderLine line := fun hx hh => hx ((topLine_xact _).mpr hh)
        cases hl : topLine line with
        | ignored =>
          rw [headersOf_other _ (hnot (by rw [hl]; simp)), hl]
          rw [hl] at h
          exact ih s.length (by omega) s j hs' hp' h rfl
        | skipped =>
          rw [headersOf_other _ (hnot (by rw [hl]; simp)), hl]
          rw [hl] at h
          exact ih s.length (by omega) s j hs' hp' h rfl
        | indented => rw [hl] at h; simp at h
        | fails p => rw [hl] at h; simp at h
        | price =>
          rw [headersOf_other _ (hnot (by rw [hl]; simp)), hl]
          rw [hl] at h
          simp only [bind, Except.bind] at h
          cases hq : j.pool.parsePriceDirective line with
          | error e => rw [hq] at h; simp at h
          | ok pool =>
            rw [hq] at h
            exact ih s.length (by omega) s { j with pool := pool } hs' hp' h rfl
        | includeFile f =>
          rw [headersOf_other _ (hnot (by rw [hl]; simp)), hl]
          rw [hl] at h
          simp only [bind, Except.bind] at h
          cases hq : inc f j with
          | error e => rw [hq] at h; simp at h
          | ok j1 =>
            rw [hq] at h
            obtain ⟨n1, e1, f1⟩ := hinc f j j1 hq
            obtain ⟨n2, e2, f2⟩ := ih s.length (by omega) s _ hs' hp' h rfl
            exact ⟨n1 ++ n2, by rw [e2, e1, List.append_assoc], List.rel_append f1 f2⟩
        | xact =>
          rw [headersOf_header _ ((topLine_xact _).mp hl)]
          rw [hl] at h
          simp only [bind, Except.bind] at h
          cases hq : xactDirective line s j with
          | error e => rw [hq] at h; simp at h
          | ok r =>
            obtain ⟨j1, r⟩ := r
            rw [hq] at h
            obtain ⟨x, e1, f1⟩ := xactDirective_header hq
            obtain ⟨used, e, hu, _⟩ := xactDirective_used hs' hq
            have hlen : r.length ≤ s.length := by rw [e, List.length_append]; omega
            have hu0 : used.flatMap (headersOf incH) = [] := by
              rw [List.flatMap_eq_nil_iff]
              intro l hl
              obtain ⟨line', rfl, hc⟩ := hu l hl
              refine headersOf_body _ _ hc ?_
              rintro c rest rfl hcr
              exact hp' c rest (by rw [e]; exact List.mem_append_left _ hl) hcr
            rw [e] at hs' hp'
            obtain ⟨n2, e2, f2⟩ := ih r.length (by omega) r _ hs'.append_right hp'.append_right h rfl
            refine ⟨[x] ++ n2, by rw [e2, e1, List.append_assoc], ?_⟩
            rw [e, List.flatMap_append, hu0, List.nil_append]
            exact List.Forall₂.cons f1 f2

theorem parse_headers (files : Files) (hf : ∀ f u, files f = some u → Text u ∧ PlainReturns u) (d : Nat)
    (s : Source) (j j' : Journal) (hs : Text s) (hp : PlainReturns s) (h : parse files d s j = .ok j') :
    ∃ new, j'.xacts = j.xacts ++ new ∧ List.Forall₂ HeaderOf (headerLines files d s) new := by
  induction d generalizing s j j' with
  | zero =>
    refine parseWith_headers _ _ ?_ s j j' hs hp h
    intro f j j' hi
    cases hfile : files f with
    | none => rw [hfile] at hi; injection hi with hi; subst hi; exact ⟨[], by simp, List.Forall₂.nil⟩
    | some u => rw [hfile] at hi; simp at hi
  | succ d ih =>
    refine parseWith_headers _ _ ?_ s j j' hs hp h
    intro f j j' hi
    cases hfile : files f with
    | none => rw [hfile] at hi; injection hi with hi; subst hi; exact ⟨[], by simp, by simp⟩
    | some u =>
      rw [hfile] at hi
      exact ih u j j' (hf f u hfile).1 (hf f u hfile).2 hi

end Ledger
