import Verif.Lemmas.Output
import Verif.Lemmas.Events
import Verif.Props.Cli
/-
C84: what the program writes to standard output.
-/
namespace Ledger
open Ledger.Output Ledger.Parser

/-- C84: `{:?}` of a list of texts is a list of Rust string literals for exactly these texts, without a line feed,
whatever characters the table calls printable. -/
theorem C84_literals (plain : Char → Bool) (xs : List Str) :
    LiteralList (debugList plain xs) xs ∧ '\n' ∉ debugList plain xs :=
  ⟨debugList_literal plain xs, debugList_no_lf plain xs⟩

/-- C84: a text begins with at most one list of literals, and it denotes only one list. -/
theorem C84_literals_unique {t t' r r' : Str} {xs ys : List Str} (h : LiteralList t xs) (h' : LiteralList t' ys)
    (e : t ++ r = t' ++ r') : xs = ys ∧ t = t' ∧ r = r' := by
  obtain ⟨a, rfl⟩ := h.unique h' e
  exact ⟨a, List.append_cancel_right e, rfl⟩

/-- The lines written for the lines that could not be read. -/
def errorText (ms : List Str) : Str := ms.flatMap (fun m => str "Error: " ++ m ++ ['\n'])

theorem errorText_cons (m : Str) (ms : List Str) : errorText (m :: ms) = str "Error: " ++ m ++ ['\n'] ++ errorText ms := by
  rw [errorText, errorText, List.flatMap_cons]

theorem errorLines_text (errs : Nat → Str) (n : Nat) : errorLines errs n = errorText ((List.range n).map errs) := by
  rw [errorLines, errorText, List.flatMap_map]

theorem line_unique {a b r s : Str} (ha : '\n' ∉ a) (hb : '\n' ∉ b) (e : a ++ '\n' :: r = b ++ '\n' :: s) :
    a = b ∧ r = s := by
  induction a generalizing b with
  | nil =>
    cases b with
    | nil => simpa using e
    | cons c b => simp only [List.nil_append, List.cons_append, List.cons.injEq] at e; exact absurd e.1 (by simp at hb; exact fun h => hb.1 h)
  | cons c a ih =>
    cases b with
    | nil => simp only [List.nil_append, List.cons_append, List.cons.injEq] at e; exact absurd e.1.symm (by simp at ha; exact fun h => ha.1 h)
    | cons d b =>
      simp only [List.cons_append, List.cons.injEq] at e
      obtain ⟨h1, h2⟩ := ih (fun h => ha (List.mem_cons_of_mem _ h)) (fun h => hb (List.mem_cons_of_mem _ h)) e.2
      exact ⟨by rw [e.1, h1], h2⟩

theorem errorText_unique {ms ns : List Str} {r s : Str} (hm : ∀ m ∈ ms, '\n' ∉ m) (hn : ∀ n ∈ ns, '\n' ∉ n)
    (hr : r.head? ≠ some 'E') (hs : s.head? ≠ some 'E') (e : errorText ms ++ r = errorText ns ++ s) : ms = ns ∧ r = s := by
  induction ms generalizing ns with
  | nil =>
    cases ns with
    | nil => exact ⟨rfl, e⟩
    | cons n ns => exact absurd (by rw [show r = errorText (n :: ns) ++ s from e]; rfl) hr
  | cons m ms ih =>
    cases ns with
    | nil => exact absurd (by rw [show s = errorText (m :: ms) ++ r from e.symm]; rfl) hs
    | cons n ns =>
      simp only [errorText_cons, List.append_assoc, List.append_cancel_left_eq, List.cons_append, List.nil_append] at e
      obtain ⟨rfl, e1⟩ := line_unique (hm m (by simp)) (hn n (by simp)) e
      obtain ⟨rfl, h⟩ := ih (fun x h => hm x (List.mem_cons_of_mem _ h)) (fun x h => hn x (List.mem_cons_of_mem _ h)) e1
      exact ⟨rfl, h⟩

/-- C84: a run that ends without a panic has written a greeting, the arguments, a line for each line of the files that
could not be read, and the lines of the report.  A run that panics has written the same without the report. -/
theorem C84_lines (plain : Char → Bool) (errs : Nat → Str) (he : ∀ k, '\n' ∉ errs k) (files : Files) (depth : Nat)
    (argv : List Str) :
    ∃ args, LiteralList args argv ∧ '\n' ∉ args ∧ ∃ ms : List Str, (∀ m ∈ ms, '\n' ∉ m) ∧
      (argv ≠ [] → ms.length = (Trace.run files depth argv).events.count .readError) ∧
      ((∀ f src, files f = some src → none ∉ src) → ms = []) ∧
      ((∃ out text, argv ≠ [] ∧ Cli.run files depth argv = .ok out ∧ LiteralList text out ∧ '\n' ∉ text ∧
          program plain errs files depth argv =
            ⟨str "Hello, Ledger-rs!\n" ++ str "You requested " ++ args ++ ['\n'] ++ errorText ms ++ text ++ ['\n'], none⟩) ∨
       (∃ e, (argv = [] ∧ ms = [] ∧ e = .noArguments ∨ argv ≠ [] ∧ Cli.run files depth argv = .error e) ∧
          program plain errs files depth argv =
            ⟨str "Hello, Ledger-rs!\n" ++ str "You requested " ++ args ++ ['\n'] ++ errorText ms, some e⟩)) := by
  refine ⟨_, debugList_literal plain argv, debugList_no_lf plain argv, ?_⟩
  have e0 : str "Hello, Ledger-rs!\nYou requested " = str "Hello, Ledger-rs!\n" ++ str "You requested " := by decide
  by_cases h : argv = []
  · refine ⟨[], by simp, fun h' => absurd h h', fun _ => rfl, .inr ⟨_, Or.inl ⟨h, rfl, rfl⟩, ?_⟩⟩
    unfold program
    rw [e0, if_pos h]; simp [errorText]
  · refine ⟨(List.range ((Trace.run files depth argv).events.count .readError)).map errs, ?_, ?_, ?_, ?_⟩
    · intro m hm
      obtain ⟨i, _, rfl⟩ := List.mem_map.mp hm
      exact he _
    · intro _; simp
    · intro hf
      have h0 : (Trace.run files depth argv).events.count .readError = 0 := by
        rw [List.count_eq_zero]
        intro hm
        unfold Trace.run at hm
        simp only [Trace.mem_bind, Trace.events_lift, List.not_mem_nil, false_or] at hm
        obtain ⟨o, _, hm⟩ := hm
        unfold Trace.executeCommand at hm
        split at hm
        · simp at hm
        · simp only [Trace.mem_bind, Trace.events_lift, List.not_mem_nil, and_false, exists_false, or_false] at hm
          exact Trace.readFiles_readError files hf _ _ _ hm
      rw [h0]; rfl
    · have hres := Trace.run_res files depth argv
      unfold program
      rw [e0, if_neg h]
      simp only [errorLines_text]
      rw [hres]
      cases hr : Cli.run files depth argv with
      | error e => right; exact ⟨e, Or.inr ⟨h, rfl⟩, rfl⟩
      | ok out => left; exact ⟨out, _, h, rfl, debugList_literal plain out, debugList_no_lf plain out, rfl⟩

theorem LiteralList.head {t : Str} {xs : List Str} (h : LiteralList t xs) (r : Str) : (t ++ r).head? ≠ Option.some 'E' := by
  cases h <;> simp

/-- C84: what is written tells the arguments, how many lines could not be read, whether the run ended without a panic, and
then the report. -/
theorem C84_determined (plain plain' : Char → Bool) (errs errs' : Nat → Str) (he : ∀ k, '\n' ∉ errs k)
    (he' : ∀ k, '\n' ∉ errs' k) (files files' : Files) (depth depth' : Nat) (argv argv' : List Str)
    (h : (program plain errs files depth argv).stdout = (program plain' errs' files' depth' argv').stdout) :
    argv = argv' ∧
      (argv ≠ [] → (Trace.run files depth argv).events.count .readError =
        (Trace.run files' depth' argv').events.count .readError) ∧
      ((program plain errs files depth argv).panic = none ↔ (program plain' errs' files' depth' argv').panic = none) ∧
      ((program plain errs files depth argv).panic = none → Cli.run files depth argv = Cli.run files' depth' argv') := by
  obtain ⟨a, h1, _, ms, hm, hl, _, h2⟩ := C84_lines plain errs he files depth argv
  obtain ⟨a', h1', _, ns, hn, hl', _, h2'⟩ := C84_lines plain' errs' he' files' depth' argv'
  rcases h2 with ⟨out, t, _, r1, r2, _, r4⟩ | ⟨e, _, r4⟩ <;> rcases h2' with ⟨out', t', _, s1, s2, _, s4⟩ | ⟨e', _, s4⟩ <;>
    rw [r4, s4] at h ⊢ <;> simp only [List.append_assoc, List.append_cancel_left_eq] at h <;>
    obtain ⟨rfl, b⟩ := h1.unique h1' h <;>
    simp only [List.cons_append, List.nil_append, List.cons.injEq, true_and] at b
  · obtain ⟨rfl, b1⟩ := errorText_unique hm hn (r2.head _) (s2.head _) b
    obtain ⟨rfl, _⟩ := r2.unique s2 b1
    exact ⟨rfl, fun h => (hl h).symm.trans (hl' h), by simp, fun _ => r1.trans s1.symm⟩
  · exfalso
    rw [← List.append_nil (errorText ns)] at b
    obtain ⟨rfl, b⟩ := errorText_unique hm hn (r2.head _) (by simp) b
    simp at b
  · exfalso
    rw [← List.append_nil (errorText ms)] at b
    obtain ⟨rfl, b⟩ := errorText_unique hm hn (by simp) (s2.head _) b
    simp at b
  · rw [← List.append_nil (errorText ms), ← List.append_nil (errorText ns)] at b
    obtain ⟨rfl, b⟩ := errorText_unique hm hn (by simp) (by simp) b
    exact ⟨rfl, fun h => (hl h).symm.trans (hl' h), by simp, fun h => by simp at h⟩

/-- A report of an account with a quotation mark in its name, as a program called b prints it. -/
example : program (fun c => 32 ≤ c.toNat && c.toNat < 127) (fun _ => str "E")
    (fun f => if f = str "x" then some (textSource (str "2023-05-01 x\n A\"́  1 EUR\n B\n")) else none) 0
      [str "b", str "-f", str "x"] =
    ⟨str "Hello, Ledger-rs!\nYou requested [\"b\", \"-f\", \"x\"]\n[\"Account  has balance 0 EUR\", \"Account A\\\"\\u{301} has balance 1 EUR\", \"Account B has balance -1 EUR\"]\n",
      none⟩ := by decide +kernel

/-- A file whose last line is not valid UTF-8: the error is written before the report. -/
example : program (fun _ => true) (fun _ => str "Error { kind: InvalidData }")
    (fun f => if f = str "x" then some (textSource (str "2023-05-01 x\n A  1 EUR\n B\n") ++ [none]) else none) 0
      [str "b", str "-f", str "x"] =
    ⟨str "Hello, Ledger-rs!\nYou requested [\"b\", \"-f\", \"x\"]\nError: Error { kind: InvalidData }\n[\"Account  has balance 0 EUR\", \"Account A has balance 1 EUR\", \"Account B has balance -1 EUR\"]\n",
      none⟩ := by decide +kernel

end Ledger
