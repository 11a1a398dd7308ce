import Verif.Lemmas.Circle
import Verif.Props.AnyFiles
import Verif.Props.Failures
/-
C109: includes without end.
-/
namespace Ledger
open Ledger.Parser Ledger.Cli Relation

/-- C109: files are nested too deep for every depth exactly if reading them runs in circles. -/
theorem C109_endless (files : Files) {L : List Str} (hL : Only files L) (fs : List Str) :
    (∀ d, ∃ is, FilesSay files d fs is (.stop .stackOverflow)) ↔ RunsInCircles files fs := by
  refine ⟨fun h => ?_, fun h d => filesSay_circle files h d⟩
  obtain ⟨is, h⟩ := h L.length
  obtain ⟨a, f, b, src, i1, i2, rfl, h1, h2, h3⟩ := filesSay_tooDeep files h rfl
  obtain ⟨g, h4, h5⟩ := tooDeep_circle_of files hL (by omega) h2 h3
  exact ⟨a, f, b, g, rfl, ⟨_, _, h1⟩, h4, h5⟩

/-- C109: among `n` files a nesting deeper than `n` is a circle: what is nested too deep for a depth of `n - 1` is so for every
depth, and otherwise the depth does not matter. -/
theorem C109_depth (files : Files) {L : List Str} (hL : Only files L) {d : Nat} (hd : L.length ≤ d + 1) {fs : List Str} {is : List Item}
    {e : Ending} (h : FilesSay files d fs is e) :
    (e = .stop .stackOverflow ↔ RunsInCircles files fs) ∧ (e ≠ .stop .stackOverflow → ∀ d', d ≤ d' → FilesSay files d' fs is e) := by
  refine ⟨⟨?_, fun h' => ?_⟩, fun he d' hd' => filesSay_le files hd' h he⟩
  · rintro rfl
    obtain ⟨a, f, b, src, i1, i2, rfl, h1, h2, h3⟩ := filesSay_tooDeep files h rfl
    obtain ⟨g, h4, h5⟩ := tooDeep_circle_of files hL hd h2 h3
    exact ⟨a, f, b, g, rfl, ⟨_, _, h1⟩, h4, h5⟩
  · obtain ⟨is', h''⟩ := filesSay_circle files h' d
    exact (filesSay_unique files d h h'').2

/-- C109: the program runs out of stack, at every depth that is not smaller than the number of files, exactly if reading runs in
circles and no transaction that is read is faulty. -/
theorem C109_run (files : Files) {L : List Str} (hL : Only files L) {d : Nat} (hd : L.length ≤ d + 1) {fs : List Str} {is : List Item}
    {e : Ending} (hf : FilesSay files d fs is e) (he : ∀ w ∈ touched is e, Everyday w)
    {args rest : List Str} {verb : Str}
    (ha : Options.processArguments args = .ok (verb :: rest, fs)) (hv : BalanceVerb verb ∨ AccountsVerb verb) :
    run files d args = .error .stackOverflow ↔ RunsInCircles files fs ∧ ∀ w ∈ writings is, ¬ Faulty w := by
  rw [← (C109_depth files hL hd hf).1]
  constructor
  · intro h
    have h' : FirstCause (writings is) .stackOverflow ∨ (∀ w ∈ writings is, ¬ Faulty w) ∧ e.panic = some .stackOverflow := by
      rcases hv with hv | hv
      · rcases (C92_run_any_sums files d hf he ha hv .stackOverflow).2 h with h | h | ⟨h, _⟩
        · exact Or.inl h
        · exact Or.inr h
        · cases h
      · exact (C92_accounts_panic files d hf he ha hv .stackOverflow).mp h
    rcases h' with ⟨l, w, r, _, _, h⟩ | ⟨h1, h2⟩
    · exact absurd rfl (cause_calm h)
    · exact ⟨filesSay_panic files d hf h2, h1⟩
  · rintro ⟨rfl, h1⟩
    exact run_reading_error files d ha hv
      ((decidesItems_error (readFiles_items files d hf he) readable_new _).mpr (Or.inr ⟨h1, rfl⟩))

/-- C109: without a circle of include lines that can be reached from the files on the command line, the program does not run out
of stack, whatever else is in the files, and its result does not depend on the depth. -/
theorem C109_no_circle (files : Files) {L : List Str} (hL : Only files L) {d : Nat} (hd : L.length ≤ d + 1) {args commands fs : List Str}
    (ha : Options.processArguments args = .ok (commands, fs))
    (hc : ∀ f ∈ fs, ∀ g, ReflTransGen (Cites files) f g → ¬ TransGen (Cites files) g g) :
    run files d args ≠ .error .stackOverflow ∧ ∀ d', d ≤ d' → run files d' args = run files d args := by
  have key : ∀ fs : List Str, (∀ f ∈ fs, ∀ g, ReflTransGen (Cites files) f g → ¬ TransGen (Cites files) g g) → ∀ j : Journal, j.Reachable →
      readFiles files d fs j ≠ .error .stackOverflow ∧ ∀ d', d ≤ d' → readFiles files d' fs j = readFiles files d fs j := by
    intro fs
    induction fs with
    | nil => exact fun _ j _ => ⟨by simp [readFiles], fun _ _ => rfl⟩
    | cons f fs ih =>
      intro hc j hj
      have hp : parseFile files d f j ≠ .error .stackOverflow ∧ ∀ d', d ≤ d' → parseFile files d' f j = parseFile files d f j := by
        unfold parseFile
        cases hf : files f with
        | none => exact ⟨by simp, fun _ _ => rfl⟩
        | some src =>
          have hn : parse files d src j ≠ .error .stackOverflow := by
            intro h
            obtain ⟨g, h1, h2⟩ := overflow_circle files hL hd hf hj.inOrder h
            exact hc f List.mem_cons_self g h1 h2
          exact ⟨hn, fun d' hd' => parse_depth_le files d d' hd' src j hn⟩
      simp only [readFiles, bind, Except.bind]
      cases h1 : parseFile files d f j with
      | error k =>
        rw [h1] at hp
        exact ⟨hp.1, fun d' hd' => by rw [hp.2 d' hd']⟩
      | ok j' =>
        rw [h1] at hp
        have := ih (fun f hf => hc f (List.mem_cons_of_mem _ hf)) j' (parseFile_stays hj h1)
        exact ⟨this.1, fun d' hd' => by rw [hp.2 d' hd']; exact this.2 d' hd'⟩
  have hk := key fs hc Journal.new .new
  have hrun : ∀ d, run files d args = executeCommand files d commands fs := by
    intro d
    rw [run, ha]
    rfl
  cases commands with
  | nil => exact ⟨by rw [hrun]; simp [executeCommand], fun d' _ => by rw [hrun, hrun]; rfl⟩
  | cons verb rest =>
    refine ⟨fun h => ?_, fun d' hd' => by rw [hrun, hrun, executeCommand, executeCommand, hk.2 d' hd']⟩
    rw [hrun, executeCommand] at h
    cases hj : readFiles files d fs Journal.new with
    | error k => rw [hj] at h; injection h with h; exact hk.1 (hj.trans (by rw [h]))
    | ok j =>
      rw [hj] at h
      simp only [bind, Except.bind] at h
      split at h
      · cases h
      · split at h
        · cases h
        · split at h
          · split at h
            · have := (C87_reports j (readFiles_stays .new hj)).1 _ h
              cases this
            · cases h
          · cases h

namespace CircleExample
open FoundExample LinesExample FaultsExample CausesExample

/-- A file with a transaction and an include of a second file, which includes the first one again. -/
def ring : Files := fun f =>
  if f = str "a" then some [some (str "2023-05-01 Shop  ; food\n"), some (str "    Expenses:Food  20.50 EUR\n"),
    some (str "    Assets:Cash\n"), some (str "\n"), some (str "include b\n")]
  else if f = str "b" then some [some (str "i 2023-05-02 VEUR 26 EUR \n"), some (str "include a\n")] else none

theorem ring_only : Only ring [str "a", str "b"] := by
  intro f hf
  unfold ring at hf
  split at hf
  · simp [*]
  · split at hf
    · simp [*]
    · exact absurd rfl hf

theorem blank_end {rest : Source} : AfterXact (some (str "\n") :: rest) rest := Or.inr (Or.inl ⟨str "\n", rfl, Or.inl ⟨'\n', [], rfl, Or.inl rfl⟩⟩)

theorem a_to_b : Leads ring (str "a") (str "b") :=
  ⟨by decide, _, rfl, .xact (w := first) shopHeader (.posting (e := bread) foodLine (.posting cashLine (.stop (Or.inl ⟨_, blank_end⟩)))) blank_end
    (.here ((topPart_iff _ _).mpr (by decide +kernel)))⟩

theorem b_to_a : Leads ring (str "b") (str "a") :=
  ⟨by decide, _, rfl, .price ((topPart_iff _ _).mpr (by decide +kernel)) priceLine (.here ((topPart_iff _ _).mpr (by decide +kernel)))⟩

theorem ring_circle : RunsInCircles ring [str "a"] :=
  ⟨[], str "a", [], str "a", rfl, ⟨0, [], .nil⟩, .refl, .tail (.single a_to_b) b_to_a⟩

/-- The program never ends. -/
example (d : Nat) : ∃ is, FilesSay ring d [str "a"] is (.stop .stackOverflow) :=
  (C109_endless ring ring_only _).mpr ring_circle d

theorem ringSays : FilesSay ring 1 [str "a"] [.xact first, .price price] (.stop .stackOverflow) :=
  .stop (src := [some (str "2023-05-01 Shop  ; food\n"), some (str "    Expenses:Food  20.50 EUR\n"),
      some (str "    Assets:Cash\n"), some (str "\n"), some (str "include b\n")]) (by decide +kernel)
    (.xact (w := first) (rest := [some (str "include b\n")]) shopHeader (.posting (e := bread) foodLine (.posting cashLine (.stop (Or.inl ⟨_, blank_end⟩)))) blank_end
      (.includedStop (f := str "b") ((topPart_iff _ _).mpr (by decide +kernel)) (Or.inr ⟨[some (str "i 2023-05-02 VEUR 26 EUR \n"), some (str "include a\n")],
        by decide +kernel, .price ((topPart_iff _ _).mpr (by decide +kernel)) priceLine
          (.includedStop (f := str "a") ((topPart_iff _ _).mpr (by decide +kernel)) ⟨rfl, Or.inr ⟨by decide, rfl⟩⟩ (by decide))⟩) (by decide))) (by decide)

example : run ring 1 [str "bal", str "-f", str "a"] = .error .stackOverflow := by
  refine (C109_run ring ring_only (by decide) ringSays ?_ (rest := []) (verb := str "bal") (by decide)
    (Or.inl (by unfold BalanceVerb; decide))).mpr ⟨ring_circle, ?_⟩
  · intro w hw
    exact CausesExample.everyday w (by simp [touched, writings] at hw; simp [hw])
  · intro w hw
    rw [show w = first by simpa [writings] using hw]
    exact firstSound

/-- A file that includes itself, but only after a line that is refused: this is no circle. -/
def loop : Files := fun f => if f = str "a" then some [some (str "account x\n"), some (str "include a\n")] else none

theorem loopSays : FilesSay loop 0 [str "a"] [] (.stop .unsupportedDirective) :=
  .stop (src := [some (str "account x\n"), some (str "include a\n")]) (by decide +kernel) (.refused ((topPart_iff _ _).mpr (by decide +kernel))) (by decide)

example : Cites loop (str "a") (str "a") ∧ ¬ RunsInCircles loop [str "a"] ∧
    run loop 0 [str "bal", str "-f", str "a"] = .error .unsupportedDirective := by
  have hL : Only loop [str "a"] := by
    intro f hf
    unfold loop at hf
    split at hf
    · simp [*]
    · exact absurd rfl hf
  refine ⟨⟨by decide, _, str "include a\n", rfl, by simp, (topPart_iff _ _).mpr (by decide +kernel)⟩, fun h => ?_, by decide +kernel⟩
  have := (C109_depth loop hL (by decide) loopSays).1.mpr h
  cases this

/-- A file that includes another one, at any depth. -/
def pair : Files := fun f =>
  if f = str "a" then some [some (str "include b\n")] else if f = str "b" then some (refused.take 4) else none

example : run pair 1 [str "bal", str "-f", str "a"] ≠ .error .stackOverflow ∧
    ∀ d, 1 ≤ d → run pair d [str "bal", str "-f", str "a"] = run pair 1 [str "bal", str "-f", str "a"] := by
  have hL : Only pair [str "a", str "b"] := by
    intro f hf
    unfold pair at hf
    split at hf
    · simp [*]
    · split at hf
      · simp [*]
      · exact absurd rfl hf
  have hc : ∀ f g, Cites pair f g → f = str "a" ∧ g = str "b" := by
    rintro f g ⟨_, src, line, h1, h2, h3⟩
    have h3 := (topPart_iff _ _).mp h3
    unfold pair at h1
    split at h1
    · rename_i hf
      injection h1 with h1
      subst h1
      have : line = str "include b\n" := by simpa using h2
      subst this
      have h4 : topLine (str "include b\n") = .includeFile (str "b") := by decide +kernel
      rw [h4] at h3
      injection h3 with h3
      exact ⟨hf, h3.symm⟩
    · split at h1
      · injection h1 with h1
        subst h1
        have : ∀ l ∈ refused.take 4, ∀ x, l = some x → ∀ f, topLine x ≠ .includeFile f := by
          intro l hl x hx f
          subst hx
          have : x = str "i 2023-05-02 VEUR 26 EUR \n" ∨ x = str "2023-05-01 Shop  ; food\n" ∨ x = str "    Expenses:Food  20.50 EUR\n" ∨
              x = str "    Assets:Cash\n" := by simpa [refused] using hl
          have h1 : topLine (str "i 2023-05-02 VEUR 26 EUR \n") = .price := by decide +kernel
          have h2 : topLine (str "2023-05-01 Shop  ; food\n") = .xact := by decide +kernel
          have h3 : topLine (str "    Expenses:Food  20.50 EUR\n") = .indented := by decide +kernel
          have h4 : topLine (str "    Assets:Cash\n") = .indented := by decide +kernel
          rcases this with rfl | rfl | rfl | rfl
          · rw [h1]; simp
          · rw [h2]; simp
          · rw [h3]; simp
          · rw [h4]; simp
        exact absurd h3 (this _ h2 _ rfl _)
      · cases h1
  refine C109_no_circle pair hL (by decide) (args := [str "bal", str "-f", str "a"]) (commands := [str "bal"]) (fs := [str "a"]) (by decide) ?_
  intro f _ g _ h
  obtain ⟨m, h1, h2⟩ := TransGen.head'_iff.mp h
  obtain ⟨rfl, rfl⟩ := hc _ _ h1
  obtain ⟨m, h1, h2⟩ := TransGen.head'_iff.mp (reflTransGen_iff_eq_or_transGen.mp h2 |>.resolve_left (by decide))
  exact absurd (hc _ _ h1).1 (by decide)

end CircleExample

end Ledger
