import Verif.Lemmas.LastLine
/-
C41: files whose last line is not terminated.
-/
namespace Ledger
open Ledger.Parser Ledger.Scanner

/-- A text with its last line terminated. -/
def closed (a : Str) : Str := if a = [] ∨ a.getLast? = some '\n' then a else a ++ ['\n']

/-- The last line of the text is terminated or one that says the same with a line feed at its end. -/
def EndsPlain (a : Str) : Prop :=
  LineTerminated a ∨ ∃ b l, a = b ++ l ∧ LineTerminated b ∧ l ≠ [] ∧ '\n' ∉ l ∧ Plain l

theorem terminated_iff (a : Str) : LineTerminated a ↔ a = [] ∨ a.getLast? = some '\n' := by
  unfold LineTerminated
  rcases List.eq_nil_or_concat' a with rfl | ⟨b, c, rfl⟩
  · simp
  · constructor
    · rintro (h | ⟨x, h⟩)
      · exact .inl h
      · exact .inr (by rw [h]; simp)
    · rintro (h | h)
      · exact .inl h
      · simp at h
        exact .inr ⟨b, by rw [h]⟩

theorem closed_terminated (a : Str) : LineTerminated (closed a) := by
  unfold closed
  split
  · rename_i h; exact (terminated_iff a).mpr h
  · exact .inr ⟨a, rfl⟩

/-- **C41** A last line that is not terminated is read as if it were, whatever precedes it, unless it is a header line
without a space, a price line or a lone carriage return: the text is accepted with the line feed if and only if it is
without, and with the same result. -/
theorem C41_last_line {b l : Str} (hb : LineTerminated b) (hne : l ≠ []) (hl : '\n' ∉ l) (h : Plain l) (files : Files)
    (depth : Nat) (j j' : Journal) :
    parseText files depth (b ++ l) j = .ok j' ↔ parseText files depth (b ++ l ++ ['\n']) j = .ok j' := by
  have e1 : textSource (b ++ l) = textSource b ++ [some l] := by
    rw [textSource_append hb]; simp [textSource, (readLines_one hne hl).1]
  have e2 : textSource (b ++ l ++ ['\n']) = textSource b ++ [some (l ++ ['\n'])] := by
    rw [List.append_assoc, textSource_append hb]; simp [textSource, (readLines_one hne hl).2]
  unfold parseText
  rw [e1, e2]
  exact parse_last (alike_nl hne hl h) files depth _ j j'

theorem plain_of_head {c : Char} {cs : Str} (h1 : c ≠ '\r') (h2 : isDig c = false) (h3 : topLine (c :: cs) ≠ .price) :
    Plain (c :: cs) := by
  refine ⟨by simp [h1], ?_, fun h => h3 ((topPart_iff _ _).mp h)⟩
  rintro ⟨d, ds, e, hd⟩
  cases e
  rw [h2] at hd
  cases hd

/-- A posting, a comment, an include and a header with a payee as the last line. -/
example : Plain (str "  Assets:Cash  -20 EUR") ∧ Plain (str "; end") ∧ Plain (str "include b.journal") ∧
    Plain (str "2023-05-01 Shop") :=
  ⟨plain_of_head (by decide) (by decide) (by decide +kernel), plain_of_head (by decide) (by decide) (by decide +kernel),
    plain_of_head (by decide) (by decide) (by decide +kernel),
    by decide, fun _ => by decide, fun h => absurd ((topPart_iff _ _).mp h) (by decide +kernel)⟩

theorem parse_closed {a : Str} (h : EndsPlain a) (files : Files) (depth : Nat) (j j' : Journal) :
    parse files depth (textSource a) j = .ok j' ↔ parse files depth (textSource (closed a)) j = .ok j' := by
  by_cases ht : LineTerminated a
  · rw [closed, if_pos ((terminated_iff a).mp ht)]
  · rw [closed, if_neg (fun h => ht ((terminated_iff a).mpr h))]
    rcases h with h | ⟨b, l, rfl, hb, hne, hl, hp⟩
    · exact absurd h ht
    · exact C41_last_line hb hne hl hp files depth j j'

/-- **C41** Reading files one after the other comes to the same as reading one text made of theirs, each with its last line
terminated and with empty lines in between.  Missing: files that end, without a line feed, in a header line without a
space, a price line or a lone carriage return, for which the claim is false; and which panic a refused text gives. -/
theorem C41_closed_partial (files : Files) (depth : Nat) (fs : List Str) (content : Str → Str)
    (hc : ∀ f ∈ fs, files f = some (textSource (content f)) ∧ EndsPlain (content f)) (j j' : Journal) :
    Cli.readFiles files depth fs j = .ok j' ↔
      parseText files depth (joinTexts (fs.map (fun f => closed (content f)))) j = .ok j' := by
  unfold parseText
  rw [textSource_joinTexts (by
    intro t ht
    obtain ⟨f, _, rfl⟩ := List.mem_map.mp ht
    exact closed_terminated _), List.map_map]
  induction fs generalizing j with
  | nil => cases depth <;> exact Iff.rfl
  | cons f fs ih =>
    obtain ⟨h1, h2⟩ := hc f List.mem_cons_self
    have ih' := fun j => ih (fun g hg => hc g (List.mem_cons_of_mem _ hg)) j
    have key := parse_closed h2 files depth j
    rw [Cli.readFiles]
    simp only [parseFile, h1, bind, Except.bind]
    cases fs with
    | nil =>
      simp only [List.map_cons, List.map_nil, joinSources, Cli.readFiles, Function.comp]
      rw [← key j']
      cases parse files depth (textSource (content f)) j <;> exact Iff.rfl
    | cons g fs =>
      simp only [List.map_cons, joinSources, Function.comp_apply] at ih' ⊢
      rw [parse_two files depth _ _ j (text_textSource _)]
      simp only [bind, Except.bind]
      cases hp : parse files depth (textSource (content f)) j with
      | ok j1 =>
        rw [(key j1).mp hp]
        exact ih' j1
      | error k =>
        cases hq : parse files depth (textSource (closed (content f))) j with
        | ok j1 => rw [(key j1).mpr hq] at hp; cases hp
        | error k' => exact ⟨fun h => (by cases h), fun h => (by cases h)⟩

example : EndsPlain (str "2023-05-01 x\n A  1\n B") ∧ closed (str "2023-05-01 x\n A  1\n B") = str "2023-05-01 x\n A  1\n B\n" ∧
    ¬ LineTerminated (str "2023-05-01 x\n A  1\n B") :=
  ⟨.inr ⟨str "2023-05-01 x\n A  1\n", str " B", by decide, .inr ⟨str "2023-05-01 x\n A  1", by decide⟩, by decide, by decide,
    plain_of_head (by decide) (by decide) (by decide +kernel)⟩, by decide,
    fun h => absurd ((terminated_iff _).mp h) (by decide)⟩

/-- The claim is false for every header line without a space at the end of a file: whatever precedes and follows it, with
the line feed of the concatenation it is refused. -/
theorem C41_header_violated {b l : Str} (hb : LineTerminated b) (ht : AtTop (textSource b)) (hl : '\n' ∉ l)
    (hh : HeaderLine l) (hs : ' ' ∉ l) (x : Str) (files : Files) (depth : Nat) (j j' : Journal) :
    parseText files depth (b ++ l ++ '\n' :: x) j ≠ .ok j' := by
  have hne : l ≠ [] := by rintro rfl; obtain ⟨_, _, e, _⟩ := hh; cases e
  have e : textSource (b ++ l ++ '\n' :: x) = textSource b ++ (some (l ++ ['\n']) :: textSource x) := by
    have : b ++ l ++ '\n' :: x = b ++ ((l ++ ['\n']) ++ x) := by simp
    rw [this, textSource_append hb, textSource_append (.inr ⟨l, rfl⟩)]
    simp [textSource, (readLines_one hne hl).2]
  have top : topLine (l ++ ['\n']) = .xact := by
    obtain ⟨c, cs, rfl, hc⟩ := hh
    exact (topLine_xact _).mpr (⟨c, cs ++ ['\n'], rfl, hc⟩)
  have bad : ∀ j, parse files depth (some (l ++ ['\n']) :: textSource x) j = .error .dateParse := by
    intro j
    cases depth <;> simp [parse, parseWith, parseGo, top, xactDirective, createXact_short hs, bind, Except.bind]
  unfold parseText
  rw [e, parse_append files depth _ _ j (text_textSource _) ht]
  simp only [bind, Except.bind]
  cases parse files depth (textSource b) j with
  | error k => simp
  | ok j1 => simp [bad]

/-- A file with a second transaction of which only the date has been written so far. -/
example : AtTop (textSource (str "2023-05-01 x\n A  1\n B\n\n")) ∧ HeaderLine (str "2023-05-02") ∧ ' ' ∉ str "2023-05-02" ∧
    (∃ j, parsed "2023-05-01 x\n A  1\n B\n\n2023-05-02" = .ok j ∧ j.xacts.length = 2) := by
  refine ⟨AtTop.fin [some (str "2023-05-01 x\n"), some (str " A  1\n"), some (str " B\n")] (line := str "\n") ?_,
    ⟨'2', _, rfl, by decide⟩, by decide, ok_and (by decide +kernel)⟩
  exact .inl ⟨'\n', [], rfl, .inl rfl⟩

/-- A lone carriage return at the end of a file, outside a transaction, is refused; with the line feed it is an empty
line. -/
theorem C41_return_violated {b : Str} (hb : LineTerminated b) (ht : AtTop (textSource b)) (files : Files) (depth : Nat)
    (j j' : Journal) : parseText files depth (b ++ ['\r']) j ≠ .ok j' ∧
      (parseText files depth (b ++ ['\r', '\n']) j = parseText files depth b j) := by
  have e1 : textSource (b ++ ['\r']) = textSource b ++ [some ['\r']] := by rw [textSource_append hb]; rfl
  have e2 : textSource (b ++ ['\r', '\n']) = textSource b ++ [some ['\r', '\n']] := by rw [textSource_append hb]; rfl
  have t1 : topLine ['\r'] = .fails .noDirective := by decide +kernel
  have t2 : topLine ['\r', '\n'] = .ignored := by decide +kernel
  unfold parseText
  rw [e1, e2, parse_append files depth _ _ j (text_textSource _) ht, parse_append files depth _ _ j (text_textSource _) ht]
  simp only [bind, Except.bind]
  cases parse files depth (textSource b) j with
  | error k => simp
  | ok j1 => cases depth <;> simp [parse, parseWith, parseGo, t1, t2]

end Ledger
