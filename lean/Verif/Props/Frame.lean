import Verif.Lemmas.Frame
import Verif.Model.Output
import Verif.Model.Bytes
/-
C110: other files do not matter.
-/
namespace Ledger
open Ledger.Parser Ledger.Cli

/-- C110: what is made of a text depends on no other files than those that it includes, that these include, and so on. -/
theorem C110_text (files files' : Files) (depth : Nat) (text : Str) (j : Journal)
    (h : ∀ line g, some line ∈ textSource text → TopPart line (.includeFile g) → ∀ f, Sought files [g] f → files f = files' f) :
    parseText files depth text j = parseText files' depth text j := by
  refine parse_agree (A := fun f => ∃ line g, some line ∈ textSource text ∧ TopPart line (.includeFile g) ∧ Sought files [g] f)
    ?_ ?_ depth _ j ?_
  · rintro f ⟨line, g, h1, h2, h3⟩
    exact h line g h1 h2 f h3
  · rintro f src ⟨line, g, h1, h2, h3⟩ hs line' g' hl hi
    exact ⟨line, g, h1, h2, .included h3 hs hl hi⟩
  · exact fun line g hl hi => ⟨line, g, hl, hi, .given (by simp)⟩

/-- C110: a run depends on no other files than those on the command line, those that these include, and so on; neither does
what it does beside its result, nor the run with its pointers. -/
theorem C110_run (files files' : Files) (depth : Nat) (args : List Str)
    (h : ∀ commands fs, Options.processArguments args = .ok (commands, fs) → ∀ f, Sought files fs f → files f = files' f) :
    run files depth args = run files' depth args ∧ Trace.run files depth args = Trace.run files' depth args ∧
    ∀ stays, Machine.run stays files depth args = Machine.run stays files' depth args := by
  cases hp : Options.processArguments args with
  | error e =>
    refine ⟨?_, ?_, fun stays => ?_⟩
    · unfold run; rw [hp]; rfl
    · unfold Trace.run; rw [hp]; rfl
    · unfold Machine.run; rw [hp]; rfl
  | ok o =>
    obtain ⟨commands, fs⟩ := o
    have ha := h commands fs hp
    have hc : ∀ f src, Sought files fs f → files f = some src → Includes (Sought files fs) src := fun f src => Sought.includes
    have r1 : ∀ l : List Str, (∀ f ∈ l, f ∈ fs) → ∀ j : Journal, readFiles files depth l j = readFiles files' depth l j := by
      intro l
      induction l with
      | nil => exact fun _ _ => rfl
      | cons f l ih =>
        intro hl j
        have hf : Sought files fs f := .given (hl f (by simp))
        have e : parseFile files depth f j = parseFile files' depth f j := by
          unfold parseFile
          rw [← ha f hf]
          cases hs : files f with
          | none => rfl
          | some src => exact parse_agree ha hc depth src j (hc f src hf hs)
        rw [readFiles, readFiles, e]
        cases parseFile files' depth f j with
        | error k => rfl
        | ok k => exact ih (fun g hg => hl g (List.mem_cons_of_mem _ hg)) k
    have r2 : ∀ l : List Str, (∀ f ∈ l, f ∈ fs) → ∀ j : Journal, Trace.readFiles files depth l j = Trace.readFiles files' depth l j := by
      intro l
      induction l with
      | nil => exact fun _ _ => rfl
      | cons f l ih =>
        intro hl j
        have hf : Sought files fs f := .given (hl f (by simp))
        have e : Trace.parseFile files depth f j = Trace.parseFile files' depth f j := by
          unfold Trace.parseFile
          rw [← ha f hf]
          cases hs : files f with
          | none => rfl
          | some src => exact Trace.parse_agree ha hc depth src j (hc f src hf hs)
        rw [Trace.readFiles, Trace.readFiles, e]
        exact Trace.bind_congr fun k _ => ih (fun g hg => hl g (List.mem_cons_of_mem _ hg)) k
    have r3 : ∀ l : List Str, (∀ f ∈ l, f ∈ fs) → ∀ j : Machine.Jrn, Machine.readFiles files depth l j = Machine.readFiles files' depth l j := by
      intro l
      induction l with
      | nil => exact fun _ _ => rfl
      | cons f l ih =>
        intro hl j
        have hf : Sought files fs f := .given (hl f (by simp))
        have e : Machine.parseFile files depth f j = Machine.parseFile files' depth f j := by
          unfold Machine.parseFile
          rw [← ha f hf]
          cases hs : files f with
          | none => rfl
          | some src => exact Machine.parse_agree ha hc depth src j (hc f src hf hs)
        rw [Machine.readFiles, Machine.readFiles, e]
        cases Machine.parseFile files' depth f j with
        | error k => rfl
        | ok k => exact ih (fun g hg => hl g (List.mem_cons_of_mem _ hg)) k
    refine ⟨?_, ?_, fun stays => ?_⟩
    · unfold run
      rw [hp]
      show executeCommand files depth commands fs = executeCommand files' depth commands fs
      unfold executeCommand
      rw [r1 fs (fun _ h => h)]
    · unfold Trace.run
      refine Trace.bind_congr fun o ho => ?_
      rw [hp] at ho
      obtain rfl := Except.ok.inj ho
      show Trace.executeCommand files depth commands fs = Trace.executeCommand files' depth commands fs
      unfold Trace.executeCommand
      rw [r2 fs (fun _ h => h)]
    · unfold Machine.run
      rw [hp]
      show Machine.executeCommand stays files depth commands fs = Machine.executeCommand stays files' depth commands fs
      unfold Machine.executeCommand
      rw [r3 fs (fun _ h => h)]

/-- C110: all that the program writes, and the panic that it ends with, depends on no other files on the disk. -/
theorem C110_program (plain : Char → Bool) (errs : Nat → Str) (disk disk' : Bytes.Disk) (depth : Nat) (argv : List Str)
    (h : ∀ commands fs, Options.processArguments argv = .ok (commands, fs) → ∀ f, Sought disk.files fs f → disk f = disk' f) :
    Output.program plain errs disk.files depth argv = Output.program plain errs disk'.files depth argv := by
  unfold Output.program
  rw [(C110_run disk.files disk'.files depth argv fun c fs hp f hf => by simp only [Bytes.Disk.files, h c fs hp f hf]).2.1]

namespace FrameExample

/-- Two files; what else there is, is anything. -/
def desk (other : Str → Option Source) : Files := fun f =>
  if f = str "a" then some [some (str "2023-05-01 Shop\n"), some (str "  Food  20 EUR\n"), some (str "  Cash\n"), some (str "\n"), some (str "include b\n")]
  else if f = str "b" then some [some (str "2023-05-02 Shop\n"), some (str "  Food  5 EUR\n"), some (str "  Cash\n")]
  else other f

/-- Only these two are named. -/
theorem desk_named {other : Str → Option Source} {f : Str} (h : Sought (desk other) [str "a"] f) : f = str "a" ∨ f = str "b" := by
  induction h with
  | given h => exact Or.inl (by simpa using h)
  | @included f g line src _ hf hl hi ih =>
    rw [topPart_iff] at hi
    rcases ih with rfl | rfl
    · rw [desk, if_pos rfl] at hf
      obtain rfl := Option.some.inj hf
      simp only [List.mem_cons, Option.some.injEq, List.not_mem_nil, or_false] at hl
      rcases hl with rfl | rfl | rfl | rfl | rfl
      · exact nomatch (show topLine (str "2023-05-01 Shop\n") = .xact by decide +kernel).symm.trans hi
      · exact nomatch (show topLine (str "  Food  20 EUR\n") = .indented by decide +kernel).symm.trans hi
      · exact nomatch (show topLine (str "  Cash\n") = .indented by decide +kernel).symm.trans hi
      · exact nomatch (show topLine (str "\n") = .ignored by decide +kernel).symm.trans hi
      · rw [show topLine (str "include b\n") = .includeFile (str "b") by decide +kernel] at hi
        exact Or.inr (TopLine.includeFile.inj hi).symm
    · rw [desk, if_neg (by decide), if_pos rfl] at hf
      obtain rfl := Option.some.inj hf
      simp only [List.mem_cons, Option.some.injEq, List.not_mem_nil, or_false] at hl
      rcases hl with rfl | rfl | rfl
      · exact nomatch (show topLine (str "2023-05-02 Shop\n") = .xact by decide +kernel).symm.trans hi
      · exact nomatch (show topLine (str "  Food  5 EUR\n") = .indented by decide +kernel).symm.trans hi
      · exact nomatch (show topLine (str "  Cash\n") = .indented by decide +kernel).symm.trans hi

/-- The report is the same whatever other files there are. -/
example (other : Str → Option Source) : run (desk other) 1 [str "bal", str "-f", str "a"] =
    .ok [str "Account  has balance 0 EUR", str "Account Cash has balance -25 EUR", str "Account Food has balance 25 EUR"] := by
  rw [(C110_run (desk other) (desk fun _ => none) 1 [str "bal", str "-f", str "a"] (by
    intro c fs hp f hf
    have e : Options.processArguments [str "bal", str "-f", str "a"] = .ok ([str "bal"], [str "a"]) := by decide +kernel
    rw [e] at hp
    obtain ⟨rfl, rfl⟩ := Prod.mk.inj (Except.ok.inj hp)
    rcases desk_named hf with rfl | rfl <;> rfl)).1]
  decide +kernel

end FrameExample

end Ledger
