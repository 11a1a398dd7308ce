import Verif.Lemmas.Notes
import Verif.Props.Journal
import Verif.Model.Report
/-
C40 (order), C41, C42, C45, C56, C57: the parser as a function of the lines of the text.
-/
namespace Ledger
open Ledger.Parser

/-! ### C40 -/

/-- C40: new transactions are appended in the order of their header lines, those of an included file at the place of the
include line; each has the dates and the payee of its header line. -/
theorem C40_file_order (files : Files) (hf : ∀ f u, files f = some u → Text u ∧ PlainReturns u) (depth : Nat)
    (src : Source) (j j' : Journal) (hs : Text src) (hp : PlainReturns src) (h : parse files depth src j = .ok j') :
    ∃ new, j'.xacts = j.xacts ++ new ∧ List.Forall₂ HeaderOf (headerLines files depth src) new :=
  parse_headers files hf depth src j j' hs hp h

example : headerLines (fun f => if f = str "b" then some (textSource (str "2023-05-02 two\n A  1\n B\n")) else none) 1
    (textSource (str "2023-05-01 one\n A  1\n B\n\ninclude b\n; x\n2023-05-03=2023-05-04 three\n")) =
    [str "2023-05-01 one\n", str "2023-05-02 two\n", str "2023-05-03=2023-05-04 three\n"] := by decide +kernel

/-! ### C41 -/

/-- Sources with an empty line after each but the last. -/
def joinSources : List Source → Source
  | [] => []
  | [s] => s
  | s :: t :: ss => s ++ some ['\n'] :: joinSources (t :: ss)

/-- Texts with an empty line after each but the last. -/
def joinTexts : List Str → Str
  | [] => []
  | [a] => a
  | a :: b :: as => a ++ '\n' :: joinTexts (b :: as)

/-- C41 is violated for a file whose last line is not terminated: a file that holds just the date `2023-05-01` is read,
but with the line feeds of the concatenation it is refused. -/
theorem C41_unterminated_violated :
    (∃ j, Cli.readFiles (fun f => if f = str "a" then some (textSource (str "2023-05-01")) else
        if f = str "b" then some (textSource (str "2023-05-02 x\n A  1\n B\n")) else none) 0 [str "a", str "b"] Journal.new = .ok j ∧
      j.xacts.length = 2) ∧
    parsed "2023-05-01\n\n2023-05-02 x\n A  1\n B\n" = .error .dateParse := by
  refine ⟨ok_and (by decide +kernel), by decide +kernel⟩

/-- C41: reading files one after the other gives the same as reading their lines with an empty line between the files,
including failures.  Missing: the concatenation as texts when a file does not end with a line feed, for which the claim
is false. -/
theorem C41_files_like_one_partial (files : Files) (depth : Nat) (fs : List Str) (content : Str → Source)
    (hc : ∀ f ∈ fs, files f = some (content f) ∧ Text (content f)) (j : Journal) :
    Cli.readFiles files depth fs j = parse files depth (joinSources (fs.map content)) j := by
  induction fs generalizing j with
  | nil => cases depth <;> rfl
  | cons f fs ih =>
    obtain ⟨h1, h2⟩ := hc f List.mem_cons_self
    have ih' := fun j => ih (fun g hg => hc g (List.mem_cons_of_mem _ hg)) j
    rw [Cli.readFiles]
    simp only [parseFile, h1]
    cases fs with
    | nil =>
      simp only [List.map_cons, List.map_nil, joinSources, Cli.readFiles]
      cases parse files depth (content f) j <;> rfl
    | cons g fs =>
      simp only [List.map_cons, joinSources]
      rw [parse_two files depth _ _ j h2]
      simp only [ih', List.map_cons]

/-- C41 for texts whose last lines are terminated: the concatenation of the texts with empty lines in between. -/
theorem C41_texts_like_one_partial (files : Files) (depth : Nat) (fs : List Str) (content : Str → Str)
    (hc : ∀ f ∈ fs, files f = some (textSource (content f)) ∧ LineTerminated (content f)) (j : Journal) :
    Cli.readFiles files depth fs j = parseText files depth (joinTexts (fs.map content)) j := by
  rw [C41_files_like_one_partial files depth fs (fun f => textSource (content f))
    (fun f hf => ⟨(hc f hf).1, text_textSource _⟩)]
  unfold parseText
  congr 1
  clear j
  have hc' : ∀ t ∈ fs.map content, LineTerminated t := by
    intro t ht
    obtain ⟨f, hf, rfl⟩ := List.mem_map.mp ht
    exact (hc f hf).2
  have e : fs.map (fun f => textSource (content f)) = (fs.map content).map textSource := by rw [List.map_map]; rfl
  rw [e]
  generalize fs.map content = ts at hc'
  induction ts with
  | nil => rfl
  | cons a ts ih =>
    cases ts with
    | nil => rfl
    | cons b ts =>
      have ih' := ih (fun t ht => hc' t (List.mem_cons_of_mem _ ht))
      simp only [List.map_cons, joinSources, joinTexts] at ih' ⊢
      rw [ih', textSource_append (hc' a List.mem_cons_self)]
      rfl

/-- C41 for the program: the command on several files prints the same, or ends with the same panic, as on one file with their
texts and empty lines in between.  Missing: as before. -/
theorem C41_run_like_one_partial (files : Files) (depth : Nat) (fs : List Str) (f : Str) (content : Str → Str)
    (hc : ∀ g ∈ fs, files g = some (textSource (content g)) ∧ LineTerminated (content g))
    (hf : files f = some (textSource (joinTexts (fs.map content)))) {args args' commands : List Str}
    (ha : Options.processArguments args = .ok (commands, fs)) (ha' : Options.processArguments args' = .ok (commands, [f])) :
    Cli.run files depth args = Cli.run files depth args' := by
  have h : Cli.readFiles files depth fs Journal.new = Cli.readFiles files depth [f] Journal.new := by
    rw [C41_texts_like_one_partial files depth fs content hc]
    simp only [Cli.readFiles, parseFile, hf, parseText]
    cases parse files depth (textSource (joinTexts (fs.map content))) Journal.new <;> rfl
  simp only [Cli.run, ha, ha', bind, Except.bind, Cli.executeCommand, h]

example : Cli.run (fun f => if f = str "a" then some (textSource (str "2023-05-01 x\n A  1\n B\n")) else
      if f = str "b" then some (textSource (str "2023-05-02 y\n A  2\n C\n")) else
      if f = str "c" then some (textSource (str "2023-05-01 x\n A  1\n B\n\n2023-05-02 y\n A  2\n C\n")) else none) 0
      [str "bal", str "-f", str "a", str "-f", str "b"] =
    Cli.run (fun f => if f = str "a" then some (textSource (str "2023-05-01 x\n A  1\n B\n")) else
      if f = str "b" then some (textSource (str "2023-05-02 y\n A  2\n C\n")) else
      if f = str "c" then some (textSource (str "2023-05-01 x\n A  1\n B\n\n2023-05-02 y\n A  2\n C\n")) else none) 0
      [str "bal", str "-f", str "c"] := by
  refine C41_run_like_one_partial _ 0 [str "a", str "b"] (str "c")
    (fun g => if g = str "a" then str "2023-05-01 x\n A  1\n B\n" else str "2023-05-02 y\n A  2\n C\n") ?_ (by decide +kernel)
    (commands := [str "bal"]) (by decide +kernel) (by decide +kernel)
  intro g hg
  rcases List.mem_cons.mp hg with rfl | hg
  · exact ⟨by decide +kernel, Or.inr ⟨str "2023-05-01 x\n A  1\n B", by decide +kernel⟩⟩
  · rw [List.mem_singleton.mp hg]
    exact ⟨by decide +kernel, Or.inr ⟨str "2023-05-02 y\n A  2\n C", by decide +kernel⟩⟩

example : LineTerminated (str "2023-05-02 x\n A  1\n B\n") := Or.inr ⟨str "2023-05-02 x\n A  1\n B", by decide⟩

example : joinTexts [str "2023-05-01 x\n A  1\n B\n", str "; second\n", str "2023-05-02 y\n"] =
    str "2023-05-01 x\n A  1\n B\n\n; second\n\n2023-05-02 y\n" := by decide

/-! ### C42 -/

theorem readLines_fullLines (ins : List Str) (h : ∀ l ∈ ins, FullLine l) : readLines ins.flatten = ins ∧
    LineTerminated ins.flatten := by
  induction ins with
  | nil => exact ⟨rfl, Or.inl rfl⟩
  | cons l ins ih =>
    obtain ⟨x, rfl, hx⟩ := h l List.mem_cons_self
    have h1 : readLines (x ++ ['\n']) = [x ++ ['\n']] := by
      clear ih h
      induction x with
      | nil => rfl
      | cons c x ih =>
        have hc : c ≠ '\n' := fun e => hx (by rw [e]; exact List.mem_cons_self)
        rw [List.cons_append, readLines, if_neg hc, ih (fun hm => hx (List.mem_cons_of_mem _ hm))]
    have ht : LineTerminated (x ++ ['\n']) := Or.inr ⟨x, rfl⟩
    obtain ⟨e1, e2⟩ := ih (fun l hl => h l (List.mem_cons_of_mem _ hl))
    rw [List.flatten_cons]
    exact ⟨by rw [readLines_append ht, h1, e1]; rfl, lineTerminated_append ht e2⟩

/-- **C42** Inserting comment lines, option lines and empty lines at any place outside transactions changes nothing,
not even failures; sources. -/
theorem C42_ignored_lines (files : Files) (depth : Nat) (s t : Source) (ins : List Str) (j : Journal) (hs : Text s)
    (ht : AtTop s) (hi : ∀ l ∈ ins, IgnoredLine l) :
    parse files depth (s ++ (ins.map some ++ t)) j = parse files depth (s ++ t) j := by
  rw [parse_append files depth s _ j hs ht, parse_append files depth s t j hs ht]
  simp only [parse_ignored files depth ins hi]

/-- C42 for texts. -/
theorem C42_ignored_texts (files : Files) (depth : Nat) (a b : Str) (ins : List Str) (j : Journal)
    (ha : LineTerminated a) (ht : AtTop (textSource a)) (hi : ∀ l ∈ ins, IgnoredLine l ∧ FullLine l) :
    parseText files depth (a ++ (ins.flatten ++ b)) j = parseText files depth (a ++ b) j := by
  obtain ⟨e1, e2⟩ := readLines_fullLines ins (fun l hl => (hi l hl).2)
  unfold parseText
  rw [textSource_append ha, textSource_append e2, textSource_append ha]
  have : textSource ins.flatten = ins.map some := by unfold textSource; rw [e1]
  rw [this]
  exact C42_ignored_lines files depth _ _ ins j (text_textSource a) ht (fun l hl => (hi l hl).1)

example : AtTop (textSource (str "2023-05-01 x\n A  1\n B\n\n; c\n")) ∧ IgnoredLine (str "# comment\n") ∧
    FullLine (str "# comment\n") := by
  refine ⟨?_, Or.inr (Or.inr ⟨'#', str " comment\n", rfl, by decide⟩), ⟨str "# comment", by decide, by decide⟩⟩
  have e : textSource (str "2023-05-01 x\n A  1\n B\n\n; c\n") =
      ([some (str "2023-05-01 x\n"), some (str " A  1\n"), some (str " B\n")] ++ [some (str "\n")]) ++ [some (str "; c\n")] := by
    decide
  rw [e]
  refine .line (.fin _ endLine_nl) ?_
  rintro ⟨c, rest, e, hd⟩
  have : c = ';' := by injection e with e _; exact e.symm
  subst this
  revert hd; decide

/-! ### C45 -/

/-- C45 is violated: of two comment lines after a posting only the second is kept, and a comment line under the header
replaces the note of the header. -/
theorem C45_notes_violated :
    (∃ j, parsed "2023-05-01 x  ; head\n ; own\n A  1\n ; first\n ; second\n B\n" = .ok j ∧
      j.xacts.map (·.note) = [some (str "own")] ∧
      j.allPosts.map (·.note) = [some (str "second"), none]) := ok_and (by decide +kernel)

/-- A transaction of the text: comment lines under the header, then postings each followed by comment lines; the comment
lines with their texts. -/
structure BodyText where
  lead : List (Str × Str)
  groups : List (Str × List (Str × Str))

/-- The lines. -/
def BodyText.lines (b : BodyText) : List Str :=
  b.lead.map (·.1) ++ b.groups.flatMap (fun g => g.1 :: g.2.map (·.1))

/-- The lines are comments with those texts, and postings. -/
def BodyText.Proper (b : BodyText) : Prop :=
  (∀ c ∈ b.lead, CommentLine c.1 c.2) ∧ ∀ g ∈ b.groups, PostingLine g.1 ∧ ∀ c ∈ g.2, CommentLine c.1 c.2

/-- C45: of the comment lines under the header the last is kept as note of the transaction (if there is none, the note
of the header); of the comment lines after a posting the last is kept as note of that posting.  Missing: the other
comment lines, which are lost. -/
theorem C45_notes_partial (line : Str) (b : BodyText) (hb : b.Proper) (tail r : Source) (j j' : Journal)
    (ht : tail = [] ∨ ∃ l rest, tail = some l :: rest ∧ EndLine l)
    (h : xactDirective line (b.lines.map some ++ tail) j = .ok (j', r)) :
    ∃ d a p n x, Scanner.tokenizeXactHeader line = .ok (d, a, p, n) ∧ j'.xacts = j.xacts ++ [x] ∧
      x.note = (lastText (b.lead.map (·.2))).or (if n = [] then none else some n) ∧
      x.posts.map (·.note) = b.groups.map (fun g => lastText (g.2.map (·.2))) := by
  unfold xactDirective createXact at h
  cases h1 : Scanner.tokenizeXactHeader line with
  | error e => rw [h1] at h; simp [bind, Except.bind] at h
  | ok q =>
    obtain ⟨d, a, p, n⟩ := q
    rw [h1] at h
    simp only [bind, Except.bind] at h
    cases h2 : Xact.create d a p n with
    | error e => rw [h2] at h; simp at h
    | ok x0 =>
      rw [h2] at h
      simp only [Journal.addXact] at h
      obtain ⟨_, _, _, hp0, hn0⟩ := create_ok h2
      cases h3 : readBody j.xacts.length (b.lines.map some ++ tail) { j with xacts := j.xacts ++ [x0] } with
      | error e => rw [h3] at h; simp at h
      | ok q =>
        obtain ⟨j2, rest2⟩ := q
        rw [h3] at h
        simp only at h
        let items : List (Str × BodyItem) := b.lead.map (fun c => (c.1, BodyItem.comment c.2)) ++
          b.groups.flatMap (fun g => (g.1, BodyItem.posting) :: g.2.map (fun c => (c.1, BodyItem.comment c.2)))
        have hlines : b.lines.map some = items.map (fun x => some x.1) := by
          simp only [items, BodyText.lines, List.map_append, List.map_map, List.map_flatMap, List.map_cons]
          rfl
        have hitems : ∀ x ∈ items, x.2.Is x.1 := by
          intro x hx
          rcases List.mem_append.mp hx with hx | hx
          · obtain ⟨c, hc, rfl⟩ := List.mem_map.mp hx
            exact hb.1 c hc
          · obtain ⟨g, hg, hx⟩ := List.mem_flatMap.mp hx
            rcases List.mem_cons.mp hx with rfl | hx
            · exact (hb.2 g hg).1
            · obtain ⟨c, hc, rfl⟩ := List.mem_map.mp hx
              exact (hb.2 g hg).2 c hc
        rw [hlines] at h3
        obtain ⟨x1, e1, e2⟩ := readBody_notes hitems rfl ht h3
        have hfold : (items.map (·.2)).foldl noteStep (x0.note, x0.posts.map (·.note)) =
            ((lastText (b.lead.map (·.2))).or x0.note, b.groups.map (fun g => lastText (g.2.map (·.2)))) := by
          have hi2 : items.map (·.2) = (b.lead.map (·.2)).map BodyItem.comment ++
              (b.groups.map (fun g => g.2.map (·.2))).flatMap (fun ts => BodyItem.posting :: ts.map BodyItem.comment) := by
            simp only [items, List.map_append, List.map_map, List.map_flatMap, List.map_cons, List.flatMap_map]
            rfl
          rw [hi2, List.foldl_append, hp0, List.map_nil, foldl_lead, foldl_groups]
          simp [Function.comp_def]
        rw [hfold] at e2
        injection e2 with e2 e3
        unfold finalizeXact at h
        rw [e1] at h
        simp only [List.getElem?_append_right (Nat.le_refl _), Nat.sub_self, List.getElem?_cons_zero] at h
        cases h5 : Finalize.finalize x1 j2.pool with
        | error e => rw [h5] at h; simp [bind, Except.bind] at h
        | ok q =>
          obtain ⟨x2, pool2⟩ := q
          rw [h5] at h
          simp only [bind, Except.bind, Except.ok.injEq, Prod.mk.injEq] at h
          obtain ⟨rfl, rfl⟩ := h
          obtain ⟨_, _, _, k4, k5⟩ := C34_nothing_altered_partial _ _ _ _ h5
          have hset : (j.xacts ++ [x1]).set j.xacts.length x2 = j.xacts ++ [x2] := by
            rw [List.set_append_right _ _ (Nat.le_refl _)]; simp
          have hnotes : x2.posts.map (·.note) = x1.posts.map (·.note) := by
            have : ∀ ps ps' : List Post, List.Forall₂ (fun p p' => p'.note = p.note) ps ps' →
                ps'.map (·.note) = ps.map (·.note) := by
              intro ps ps' hF
              induction hF with
              | nil => rfl
              | cons h _ ih => rw [List.map_cons, List.map_cons, h, ih]
            exact this _ _ (k5.imp fun p p' h => h.2.1)
          exact ⟨d, a, p, n, x2, rfl, hset, by rw [k4, e2, hn0], by rw [hnotes, e3]⟩

/-- C45: if there is at most one comment line in each place and none under a header that has a note, no note is lost. -/
theorem C45_single_notes_partial (line : Str) (b : BodyText) (hb : b.Proper) (tail r : Source) (j j' : Journal)
    (ht : tail = [] ∨ ∃ l rest, tail = some l :: rest ∧ EndLine l)
    (h : xactDirective line (b.lines.map some ++ tail) j = .ok (j', r))
    (h1 : b.lead.length ≤ 1) (h2 : ∀ g ∈ b.groups, g.2.length ≤ 1)
    (h3 : ∀ d a p n, Scanner.tokenizeXactHeader line = .ok (d, a, p, n) → n ≠ [] → b.lead = []) :
    ∃ d a p n x, Scanner.tokenizeXactHeader line = .ok (d, a, p, n) ∧ j'.xacts = j.xacts ++ [x] ∧
      (n ≠ [] → x.note = some n) ∧ (∀ c ∈ b.lead, c.2 ≠ [] → x.note = some c.2) ∧
      List.Forall₂ (fun g q => ∀ c ∈ g.2, c.2 ≠ [] → q.note = some c.2) b.groups x.posts := by
  obtain ⟨d, a, p, n, x, e1, e2, e3, e4⟩ := C45_notes_partial line b hb tail r j j' ht h
  have last1 : ∀ cs : List (Str × Str), cs.length ≤ 1 → ∀ c ∈ cs, c.2 ≠ [] → lastText (cs.map (·.2)) = some c.2 := by
    intro cs hcs c hc hne
    match cs, hcs, hc with
    | [c'], _, hc =>
      have : c = c' := by simpa using hc
      subst this
      simp [lastText, hne]
  refine ⟨d, a, p, n, x, e1, e2, ?_, ?_, ?_⟩
  · intro hn
    rw [e3, h3 d a p n e1 hn, if_neg hn]; rfl
  · intro c hc hne
    rw [e3, last1 _ h1 c hc hne]; rfl
  · have : ∀ (gs : List (Str × List (Str × Str))) (ps : List Post), (∀ g ∈ gs, g.2.length ≤ 1) →
        ps.map (·.note) = gs.map (fun g => lastText (g.2.map (·.2))) →
        List.Forall₂ (fun g q => ∀ c ∈ g.2, c.2 ≠ [] → q.note = some c.2) gs ps := by
      intro gs
      induction gs with
      | nil =>
        intro ps _ he
        rw [List.map_nil, List.map_eq_nil_iff] at he
        rw [he]; exact List.Forall₂.nil
      | cons g gs ih =>
        intro ps hl he
        cases ps with
        | nil => simp at he
        | cons q ps =>
          simp only [List.map_cons, List.cons.injEq] at he
          refine List.Forall₂.cons ?_ (ih ps (fun g hg => hl g (List.mem_cons_of_mem _ hg)) he.2)
          intro c hc hne
          rw [he.1]; exact last1 _ (hl g List.mem_cons_self) c hc hne
    exact this _ _ h2 e4

/-- A body that meets the conditions. -/
def exampleBody : BodyText :=
  ⟨[(str " ; own\n", str "own")], [(str " A  1\n", [(str "   ; first\n", str "first")]), (str " B\n", [])]⟩

theorem exampleBody_proper : exampleBody.Proper := by
  refine ⟨?_, ?_⟩
  · intro c hc
    simp only [exampleBody, List.mem_singleton] at hc
    subst hc
    exact ⟨[], str " own\n", by decide, by simp, by decide⟩
  · intro g hg
    simp only [exampleBody, List.mem_cons, List.not_mem_nil, or_false] at hg
    rcases hg with rfl | rfl
    · refine ⟨⟨[], 'A', str "  1\n", by decide, by simp, by decide, by decide⟩, ?_⟩
      intro c hc
      simp only [List.mem_singleton] at hc
      subst hc
      exact ⟨str "  ", str " first\n", by decide, by decide, by decide⟩
    · exact ⟨⟨[], 'B', str "\n", by decide, by simp, by decide, by decide⟩, by simp⟩

example : ∃ r, xactDirective (str "2023-05-01 x\n") (exampleBody.lines.map some ++ []) Journal.new = .ok r ∧
    r.1.xacts.map (·.note) = [some (str "own")] ∧ r.1.allPosts.map (·.note) = [some (str "first"), none] :=
  ok_and (by decide +kernel)

/-! ### C56 -/

/-- C56 is violated for every price line: a text with a line that starts with `P` outside a transaction is refused. -/
theorem C56_price_lines_violated (files : Files) (depth : Nat) (s t : Source) (rest : Str) (j j1 : Journal) (hs : Text s)
    (ht : AtTop s) (h1 : parse files depth s j = .ok j1) :
    parse files depth (s ++ some ('P' :: rest) :: t) j = .error .unsupportedDirective := by
  have hl : topLine ('P' :: rest) = .fails .unsupportedDirective := by
    have h0 : topLine ('P' :: rest) = generalDirective ('P' :: rest) := by
      unfold topLine
      rw [if_neg (by simp)]
      simp [isDig]
    rw [h0]
    have hw : (nextWord ('P' :: rest)).1 = 'P' :: (rest.takeWhile (fun c => !isWs c)) := by
      have : trimStart ('P' :: rest) = 'P' :: rest := by
        unfold trimStart; rw [List.dropWhile_cons, if_neg (by decide)]
      unfold nextWord splitAtFirst
      rw [this, List.takeWhile_cons, if_pos (by decide)]
    unfold generalDirective
    simp only [hw]
    rfl
  rw [parse_append files depth s _ j hs ht, h1]
  cases depth with
  | zero => simp only [parse, bind, Except.bind, parseWith_cons, hl]
  | succ d => simp only [parse, bind, Except.bind, parseWith_cons, hl]

example : parsed "P 2023-05-01 EUR 1.2 USD\n" = .error .unsupportedDirective := by decide +kernel

/-- C56: only lines whose first word starts with `i` are given to the price parser; these record what
`parse_price_directive` records (C55).  Missing: the lines starting with `P`, for which the claim is false. -/
theorem C56_price_reached_partial (files : Files) (depth : Nat) (s t : Source) (line : Str) (j : Journal) (hs : Text s)
    (ht : AtTop s) (hl : topLine line = .price) :
    parse files depth (s ++ some line :: t) j = (do
      let j1 ← parse files depth s j
      let pool ← j1.pool.parsePriceDirective line
      parse files depth t { j1 with pool := pool }) := by
  rw [parse_append files depth s _ j hs ht]
  cases depth with
  | zero => simp only [parse, parseWith_cons, hl]
  | succ d => simp only [parse, parseWith_cons, hl]

example : topLine (str "i 2023-05-01 EUR 1.2 USD\n") = .price ∧
    ∃ j, parsed "i 2023-05-01 EUR 1.2 USD\n" = .ok j ∧ j.pool.history.getDirectPrice 0 1 =
      some (⟨⟨2023, 5, 1⟩, ⟨0, 0, 0⟩⟩, ⟨false, 12, 1⟩) := ⟨by decide, ok_and (by decide +kernel)⟩

/-! ### C57 -/

theorem topLine_word {line f : Str} (h : IncludeWord line f) : topLine line = includePath f := by
  obtain ⟨sp, rest, rfl, hsp, hws, hf, hfw, hr⟩ := h
  have h0 : topLine (str "include" ++ sp ++ f ++ rest) = generalDirective (str "include" ++ sp ++ f ++ rest) := by
    show topLine ('i' :: _) = _
    unfold topLine
    rw [if_neg (by simp)]
    simp [isDig]; rfl
  rw [h0]
  have take : ∀ (a b : Str), (∀ c ∈ a, isWs c = false) → (∀ c, b.head? = some c → isWs c = true) →
      splitAtFirst isWs (a ++ b) = (a, b) := by
    intro a b ha hb
    unfold splitAtFirst
    induction a with
    | nil =>
      cases b with
      | nil => rfl
      | cons c b => simp [hb c rfl]
    | cons c a ih =>
      have := ih (fun c hc => ha c (List.mem_cons_of_mem _ hc))
      simp only [Prod.mk.injEq] at this
      simp [ha c List.mem_cons_self, this.1, this.2]
  have w1 : nextWord (str "include" ++ sp ++ f ++ rest) = (str "include", sp ++ f ++ rest) := by
    unfold nextWord
    have : trimStart (str "include" ++ sp ++ f ++ rest) = str "include" ++ (sp ++ f ++ rest) := by
      have hi : str "include" = 'i' :: str "nclude" := by decide
      have hw : isWs 'i' = false := by decide
      rw [hi]
      simp only [trimStart, List.cons_append, List.dropWhile_cons, hw, List.append_assoc, Bool.false_eq_true, if_false]
    rw [this]
    refine take _ _ (by decide) ?_
    intro c hc
    cases sp with
    | nil => exact absurd rfl hsp
    | cons d sp =>
      simp only [List.cons_append, List.head?_cons, Option.some.injEq] at hc
      subst hc; exact hws d List.mem_cons_self
  have w2 : nextWord (sp ++ f ++ rest) = (f, rest) := by
    unfold nextWord
    cases f with
    | nil => exact absurd rfl hf
    | cons c f =>
      rw [List.append_assoc, List.cons_append, trimStart_skip sp c _ hws (hfw c List.mem_cons_self)]
      exact take (c :: f) rest hfw hr
  unfold generalDirective
  rw [w1]
  simp only [w2]
  cases f with
  | nil => exact absurd rfl hf
  | cons c f => rfl

theorem rootRest_false {cs : Str} {c : Char} (hc : c ∈ cs) (h1 : c ≠ '/') (h2 : c ≠ '.') : rootRest cs = false := by
  induction cs using rootRest.induct with
  | case1 => simp at hc
  | case2 => simp at hc; exact absurd hc h2
  | case3 cs ih => simp only [List.mem_cons, h1, h2, false_or] at hc; rw [rootRest]; exact ih hc
  | case4 cs ih => simp only [List.mem_cons, h1, false_or] at hc; rw [rootRest]; exact ih hc
  | case5 cs _ _ _ _ => rw [rootRest] <;> assumption

theorem includePath_name {f : Str} (h : IncludeName f) : includePath f = .includeFile f := by
  obtain ⟨h1, c, hc, h2, h3⟩ := h
  unfold includePath
  split
  · rename_i cs
    rw [rootRest_false (by simpa [h2] using hc) h2 h3]; simp
  · rename_i cs
    rw [if_pos]; simpa using h1 (by simp)
  · rename_i cs
    rw [if_pos]; simpa using h1 (by simp)
  · rfl

theorem topLine_include {line f : Str} (h : IncludeLine line f) : topLine line = .includeFile f := by
  rw [topLine_word h.1, includePath_name h.2]

/-- **C57** is false for names that start with a tilde or backslash and have no slash: the include is skipped although
the file exists. -/
theorem C57_tilde_violated (files : Files) (d : Nat) (s t : Source) (line f : Str) (j : Journal) (hs : Text s)
    (ht : AtTop s) (hl : IncludeWord line f) (h : f.head? = some '~' ∨ f.head? = some '\\') (hf : '/' ∉ f) :
    parse files d (s ++ some line :: t) j = parse files d (s ++ t) j := by
  have hi : topLine line = .skipped := by
    rw [topLine_word hl]
    cases f with
    | nil => simp at h
    | cons c f =>
      simp only [List.mem_cons, not_or] at hf
      rcases h with h | h <;> obtain rfl : c = _ := by simpa using h
      · simp [includePath, hf.2]
      · simp [includePath, hf.2]
  rw [parse_append files _ s _ j hs ht, parse_append files _ s _ j hs ht]
  cases hp : parse files d s j with
  | error e => rfl
  | ok j' =>
    show parse files d (some line :: t) j' = parse files d t j'
    exact parse_skipped files d line hi t j'

/-- C57: so the transaction in the file `~b` is not read. -/
theorem C57_include_in_place_violated :
    let files : Files := fun f => if f = str "~b" then some (textSource (str "2023-05-02 two\n A  1\n B\n")) else none
    ∃ j j', IncludeWord (str "include ~b\n") (str "~b") ∧
      parse files 1 (textSource (str "include ~b\n")) Journal.new = .ok j ∧ j.xacts.length = 0 ∧
      parse files 1 (textSource (str "2023-05-02 two\n A  1\n B\n")) Journal.new = .ok j' ∧ j'.xacts.length = 1 := by
  obtain ⟨j, h1, h2⟩ : ∃ j, parse (fun f => if f = str "~b" then some (textSource (str "2023-05-02 two\n A  1\n B\n")) else none) 1
    (textSource (str "include ~b\n")) Journal.new = .ok j ∧ j.xacts.length = 0 := ok_and (by decide +kernel)
  obtain ⟨j', h3, h4⟩ : ∃ j, parse (fun f => if f = str "~b" then some (textSource (str "2023-05-02 two\n A  1\n B\n")) else none) 1
    (textSource (str "2023-05-02 two\n A  1\n B\n")) Journal.new = .ok j ∧ j.xacts.length = 1 := ok_and (by decide +kernel)
  exact ⟨j, j', ⟨str " ", str "\n", by decide, by decide, by decide, by decide, by decide, by decide⟩, h1, h2, h3, h4⟩

/-- C57: including the root directory panics, although there is no such file. -/
theorem C57_missing_file_violated : ∃ line f, IncludeWord line f ∧ ∀ (files : Files) (d : Nat) (j : Journal),
    parse files d [some line] j = .error .includeRoot := by
  refine ⟨str "include /\n", str "/", ⟨str " ", str "\n", by decide, by decide, by decide, by decide, by decide, by decide⟩, ?_⟩
  intro files d j
  have h : topLine (str "include /\n") = .fails .includeRoot := by decide
  cases d <;> simp [parse, parseWith, parseGo, h]

/-- **C57** An include line outside a transaction gives the same journal, or the same failure, as the lines of the file
at that place (closed by an empty line); `d` is any depth of nesting that suffices for the file. -/
theorem C57_include_in_place_partial (files : Files) (d : Nat) (s t u : Source) (line f : Str) (j : Journal) (hs : Text s)
    (ht : AtTop s) (hl : IncludeLine line f) (hf : files f = some u) (hu : Text u)
    (hd : ∀ j', parse files (d + 1) s j = .ok j' → parse files d u j' ≠ .error .stackOverflow) :
    parse files (d + 1) (s ++ some line :: t) j = parse files (d + 1) (s ++ (u ++ some ['\n'] :: t)) j := by
  rw [parse_append files _ s _ j hs ht, parse_append files _ s _ j hs ht]
  cases hp : parse files (d + 1) s j with
  | error e => rfl
  | ok j' =>
    show parse files (d + 1) (some line :: t) j' = parse files (d + 1) (u ++ some ['\n'] :: t) j'
    rw [parse_include files (d + 1) line f (topLine_include hl), hf, parse_two files (d + 1) u t j' hu,
      parse_depth files d u j' (hd j' hp)]

/-- C57 for texts given to `parse_text`: an include line in the text gives the same as the text with the lines of the file in
its place. -/
theorem C57_text_partial (files : Files) (d : Nat) (text text' : Str) (s t u : Source) (line f : Str) (j : Journal)
    (h1 : textSource text = s ++ some line :: t) (h2 : textSource text' = s ++ (u ++ some ['\n'] :: t)) (hs : Text s)
    (ht : AtTop s) (hl : IncludeLine line f) (hf : files f = some u) (hu : Text u)
    (hd : ∀ j', parse files (d + 1) s j = .ok j' → parse files d u j' ≠ .error .stackOverflow) :
    parseText files (d + 1) text j = parseText files (d + 1) text' j := by
  unfold parseText
  rw [h1, h2]
  exact C57_include_in_place_partial files d s t u line f j hs ht hl hf hu hd

/-- A text with an include line, and the text with the file in its place. -/
example : textSource (str "include b\nx") = [] ++ some (str "include b\n") :: [some (str "x")] ∧
    textSource (str "; y\n\nx") = [] ++ ([some (str "; y\n")] ++ some ['\n'] :: [some (str "x")]) ∧
    (parseText (fun g => if g = str "b" then some [some (str "2023-01-01 x\n"), some (str " A  1\n"), some (str " B  -1\n")] else none) 1
      (str "include b\n") Journal.new).toOption.map (fun j => j.xacts.length) = some 1 := by decide +kernel

/-- C57: an include line for a file that does not exist changes nothing. -/
theorem C57_missing_file_partial (files : Files) (d : Nat) (s t : Source) (line f : Str) (j : Journal) (hs : Text s)
    (ht : AtTop s) (hl : IncludeLine line f) (hf : files f = none) :
    parse files d (s ++ some line :: t) j = parse files d (s ++ t) j := by
  rw [parse_append files _ s _ j hs ht, parse_append files _ s _ j hs ht]
  cases hp : parse files d s j with
  | error e => rfl
  | ok j' =>
    show parse files d (some line :: t) j' = parse files d t j'
    rw [parse_include files d line f (topLine_include hl), hf]

/-- C57: the depth of nesting that suffices: a result other than running out of stack does not depend on it. -/
theorem C57_depth (files : Files) (d e : Nat) (hd : d ≤ e) (s : Source) (j : Journal)
    (h : parse files d s j ≠ .error .stackOverflow) : parse files e s j = parse files d s j :=
  parse_depth_le files d e hd s j h

/-- C57: including a file in itself never ends: at every depth the stack overflows. -/
theorem C57_cycle_overflows (files : Files) (line f : Str) (t : Source) (hl : IncludeLine line f)
    (hf : files f = some (some line :: t)) (d : Nat) (j : Journal) :
    parseFile files d f j = .error .stackOverflow := by
  unfold parseFile
  rw [hf]
  simp only
  induction d generalizing j with
  | zero => rw [parse_include files 0 line f (topLine_include hl), hf]
  | succ d ih =>
    rw [parse_include files (d + 1) line f (topLine_include hl), hf]
    simp only [ih, bind, Except.bind]

example : IncludeLine (str "include  sub/b.journal \n") (str "sub/b.journal") :=
  ⟨⟨str "  ", str " \n", by decide, by decide, by decide, by decide, by decide, by decide⟩, by decide, 's', by decide⟩

example : ∃ j, parse (fun f => if f = str "b" then some (textSource (str "2023-05-02 two\n A  1\n B\n")) else none) 1
    (textSource (str "2023-05-01 one\n A  1\n B\n\ninclude b\n")) Journal.new = .ok j ∧
    j.xacts.map (·.payee) = [str "one", str "two"] := ok_and (by decide +kernel)

end Ledger
