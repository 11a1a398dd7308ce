import Verif.Lemmas.Told
import Verif.Props.Found
import Verif.Props.Output
/-
C94: which command lines are refused.  C95: what the program does, from its arguments and files to its output.
-/
namespace Ledger
open Ledger.Parser Ledger.Options Ledger.Cli Ledger.Output

/-! ### C94 -/

/-- The words of groups. -/
def groupWords (gs : List ArgGroup) : List Str := gs.flatMap (fun | .word w => [w] | .options _ _ => [])

/-- The option letters of groups, each with its value. -/
def groupOptions (gs : List ArgGroup) : List (Char × Str) :=
  gs.flatMap (fun | .word _ => [] | .options ls vs => ls.zip vs)

theorem takeValues_zip (ls : List Char) (vs rest : List Str) (h : ls.length = vs.length) :
    takeValues ls (vs ++ rest) = .ok ((ls.zip vs).flatMap (fun o => [['-', o.1], o.2]), rest) := by
  induction ls generalizing vs with
  | nil =>
    cases vs with
    | nil => rfl
    | cons v vs => cases h
  | cons c ls ih =>
    cases vs with
    | nil => cases h
    | cons v vs =>
      simp only [List.cons_append, takeValues, ih vs (by simpa using h), bind, Except.bind, List.zip_cons_cons,
        List.flatMap_cons, List.nil_append]

theorem takeValues_short (ls : List Char) (vs : List Str) (h : vs.length < ls.length) :
    takeValues ls vs = .error .missingOptionArgument := by
  induction ls generalizing vs with
  | nil => simp at h
  | cons c ls ih =>
    cases vs with
    | nil => rfl
    | cons v vs => simp only [takeValues, ih vs (by simpa using h), bind, Except.bind]

theorem splitGo_plain (n : Nat) {w : Str} (h : w.head? ≠ some '-') (args : List Str) :
    splitGo (n + 1) (w :: args) = (splitGo n args).map (fun r => (w :: r.1, r.2)) := by
  simp only [splitGo]
  split
  · simp at h
  · simp at h
  · cases splitGo n args <;> rfl

theorem splitGo_letters (n : Nat) {ls : List Char} (h : ls.head? ≠ some '-') (args : List Str) :
    splitGo (n + 1) (('-' :: ls) :: args) =
      (takeValues ls args).bind (fun o => (splitGo n o.2).map (fun r => (r.1, o.1 ++ r.2))) := by
  cases ls with
  | nil =>
    simp only [splitGo, takeValues, bind, Except.bind]
    cases splitGo n args <;> rfl
  | cons c ls =>
    have hc : c ≠ '-' := by simpa using h
    simp only [splitGo]
    split
    · rename_i e; injection e with _ e; injection e with e _; exact absurd e hc
    · rename_i e
      injection e with _ e
      subst e
      simp only [bind, Except.bind]
      cases takeValues (c :: ls) args with
      | error k => rfl
      | ok o => cases h : splitGo n o.2 <;> simp [h, Except.map]
    · rename_i h1 h2; exact absurd rfl (h2 _)

/-- The options as they are handed on. -/
def optionArgs (os : List (Char × Str)) : List Str := os.flatMap (fun o => [['-', o.1], o.2])

theorem splitGo_groups (gs : List ArgGroup) (hp : ∀ g ∈ gs, g.Proper) (rest : List Str) (n : Nat)
    (hn : (gs.flatMap ArgGroup.args ++ rest).length < n) : ∃ m, rest.length < m ∧
      splitGo n (gs.flatMap ArgGroup.args ++ rest) =
        (splitGo m rest).map (fun r => (groupWords gs ++ r.1, optionArgs (groupOptions gs) ++ r.2)) := by
  induction gs generalizing n with
  | nil =>
    refine ⟨n, by simpa using hn, ?_⟩
    show splitGo n rest = _
    cases splitGo n rest <;> rfl
  | cons g gs ih =>
    obtain ⟨n, rfl⟩ : ∃ k, n = k + 1 := ⟨n - 1, by omega⟩
    have hg := hp g List.mem_cons_self
    have ih := fun k hk => ih (fun g h => hp g (List.mem_cons_of_mem _ h)) k hk
    cases g with
    | word w =>
      obtain ⟨m, h1, h2⟩ := ih n (by simp [ArgGroup.args] at hn ⊢; omega)
      refine ⟨m, h1, ?_⟩
      rw [List.flatMap_cons, show ArgGroup.args (.word w) = [w] from rfl, List.append_assoc, List.singleton_append,
        splitGo_plain n hg, h2]
      cases splitGo m rest <;> rfl
    | options ls vs =>
      obtain ⟨m, h1, h2⟩ := ih n (by simp [ArgGroup.args] at hn ⊢; omega)
      refine ⟨m, h1, ?_⟩
      rw [List.flatMap_cons, show ArgGroup.args (.options ls vs) = ('-' :: ls) :: vs from rfl, List.append_assoc,
        List.cons_append, splitGo_letters n hg.1, takeValues_zip ls vs _ hg.2]
      simp only [Except.bind]
      rw [h2]
      have e1 : optionArgs (groupOptions (.options ls vs :: gs)) =
          (ls.zip vs).flatMap (fun o => [['-', o.1], o.2]) ++ optionArgs (groupOptions gs) := by
        simp [optionArgs, groupOptions]
      rw [e1]
      cases splitGo m rest with
      | error e => rfl
      | ok r => simp [Except.map, groupWords]

theorem inputOptions_args (os : List (Char × Str)) :
    inputOptions (optionArgs os) =
      if ∀ o ∈ os, o.1 = 'f' then .ok (os.map (·.2)) else .error .unrecognizedArgument := by
  induction os with
  | nil => rfl
  | cons o os ih =>
    rw [show optionArgs (o :: os) = ['-', o.1] :: o.2 :: optionArgs os from rfl, inputOptions]
    by_cases ho : o.1 = 'f'
    · rw [if_pos (by rw [ho]; rfl), ih]
      by_cases h : ∀ o ∈ os, o.1 = 'f'
      · rw [if_pos h, if_pos (by simpa [ho] using h)]
        rfl
      · rw [if_neg h, if_neg (by simpa [ho] using h)]
        rfl
    · rw [if_neg (by intro h; injection h with _ h; injection h with h _; exact ho h), if_neg (by simp [ho])]

/-- Every command line is a list of words and groups, perhaps with something after them that is refused. -/
theorem groups_total (args : List Str) : (∃ gs : List ArgGroup, (∀ g ∈ gs, g.Proper) ∧ args = gs.flatMap ArgGroup.args) ∨
    ∃ k, ArgsRefused args k := by
  generalize hn : args.length = n
  induction n using Nat.strongRecOn generalizing args with
  | _ n ih =>
    have step : ∀ (g : ArgGroup) (rest : List Str), g.Proper → args = g.args ++ rest → rest.length < n →
        (∃ gs : List ArgGroup, (∀ g ∈ gs, g.Proper) ∧ args = gs.flatMap ArgGroup.args) ∨ ∃ k, ArgsRefused args k := by
      intro g rest hg he hr
      have hp : ∀ {gs : List ArgGroup}, (∀ g ∈ gs, g.Proper) → ∀ x ∈ g :: gs, x.Proper := by
        intro gs h x hx
        rcases List.mem_cons.mp hx with rfl | hx
        · exact hg
        · exact h x hx
      rcases ih _ hr rest rfl with ⟨gs, h1, rfl⟩ | ⟨k, h⟩
      · exact Or.inl ⟨g :: gs, hp h1, by rw [he, List.flatMap_cons]⟩
      · right
        cases h with
        | @long gs h name rest =>
          have := ArgsRefused.long (hp h) (name := name) (rest := rest)
          rw [List.flatMap_cons, List.append_assoc] at this
          exact ⟨_, he ▸ this⟩
        | short h h1 h2 =>
          have := ArgsRefused.short (hp h) h1 h2
          rw [List.flatMap_cons, List.append_assoc] at this
          exact ⟨_, he ▸ this⟩
        | letter h h1 h2 h3 =>
          have := ArgsRefused.letter (hp h) (List.mem_cons_of_mem _ h1) h2 h3
          rw [List.flatMap_cons] at this
          exact ⟨_, he ▸ this⟩
    cases args with
    | nil => exact Or.inl ⟨[], by simp, rfl⟩
    | cons a args =>
      by_cases ha : a.head? = some '-'
      · obtain ⟨ls, rfl⟩ : ∃ ls, a = '-' :: ls := by
          cases a with
          | nil => cases ha
          | cons c ls => exact ⟨ls, by simp at ha; rw [ha]⟩
        by_cases hl : ls.head? = some '-'
        · obtain ⟨name, rfl⟩ : ∃ name, ls = '-' :: name := by
            cases ls with
            | nil => cases hl
            | cons c ls => exact ⟨ls, by simp at hl; rw [hl]⟩
          exact Or.inr ⟨_, ArgsRefused.long (gs := []) (by simp)⟩
        · by_cases hs : args.length < ls.length
          · exact Or.inr ⟨_, ArgsRefused.short (gs := []) (by simp) hl hs⟩
          · refine step (.options ls (args.take ls.length)) (args.drop ls.length) ⟨hl, by simp; omega⟩ ?_ ?_
            · simp [ArgGroup.args]
            · simp at hn ⊢; omega
      · exact step (.word a) args ha rfl (by simp at hn; omega)

theorem argsRefused_run {args : List Str} {k : Panic} (h : ArgsRefused args k) : processArguments args = .error k := by
  unfold processArguments
  cases h with
  | @long gs hp name rest =>
    obtain ⟨m, h1, h2⟩ := splitGo_groups gs hp (('-' :: '-' :: name) :: rest) _ (Nat.lt_succ_self _)
    obtain ⟨m, rfl⟩ : ∃ k, m = k + 1 := ⟨m - 1, by omega⟩
    rw [Nat.succ_eq_add_one] at h2
    rw [h2]
    rfl
  | @short gs hp ls rest hl hr =>
    obtain ⟨m, h1, h2⟩ := splitGo_groups gs hp (('-' :: ls) :: rest) _ (Nat.lt_succ_self _)
    obtain ⟨m, rfl⟩ : ∃ k, m = k + 1 := ⟨m - 1, by omega⟩
    rw [Nat.succ_eq_add_one] at h2
    rw [h2, splitGo_letters m hl, takeValues_short ls rest hr]
    rfl
  | @letter gs hp ls vs c hg hc hf =>
    obtain ⟨m, h1, h2⟩ := splitGo_groups gs hp [] _ (Nat.lt_succ_self _)
    obtain ⟨m, rfl⟩ : ∃ k, m = k + 1 := ⟨m - 1, by omega⟩
    rw [Nat.succ_eq_add_one, List.append_nil] at h2
    rw [h2]
    simp only [splitGo, Except.map, bind, Except.bind, List.append_nil]
    have : ¬ ∀ o ∈ groupOptions gs, o.1 = 'f' := by
      intro h
      obtain ⟨i, hi, rfl⟩ := List.mem_iff_getElem.mp hc
      have hv : i < vs.length := by rw [← (hp _ hg).2]; exact hi
      have hz : (ls[i], vs[i]) ∈ ls.zip vs := by
        rw [List.mem_iff_getElem]
        exact ⟨i, by simp; omega, by simp⟩
      exact hf (h (ls[i], vs[i]) (List.mem_flatMap.mpr ⟨_, hg, hz⟩))
    rw [inputOptions_args, if_neg this]

/-- C94: exactly which command lines are refused, and with which panic. -/
theorem C94_refused (args : List Str) (k : Panic) : processArguments args = .error k ↔ ArgsRefused args k := by
  refine ⟨fun h => ?_, argsRefused_run⟩
  rcases groups_total args with ⟨gs, hp, rfl⟩ | ⟨k', hk⟩
  · obtain ⟨m, h1, h2⟩ := splitGo_groups gs hp [] _ (Nat.lt_succ_self _)
    obtain ⟨m, rfl⟩ : ∃ k, m = k + 1 := ⟨m - 1, by omega⟩
    rw [Nat.succ_eq_add_one, List.append_nil] at h2
    unfold processArguments at h
    rw [h2] at h
    simp only [splitGo, Except.map, bind, Except.bind, List.append_nil, inputOptions_args] at h
    by_cases hf : ∀ o ∈ groupOptions gs, o.1 = 'f'
    · rw [if_pos hf] at h; cases h
    · rw [if_neg hf] at h
      injection h with h
      subst h
      push Not at hf
      obtain ⟨⟨c, v⟩, ho, hc⟩ := hf
      obtain ⟨g, hg, ho⟩ := List.mem_flatMap.mp ho
      cases g with
      | word w => cases ho
      | options ls vs => exact .letter hp hg (List.of_mem_zip ho).1 hc
  · rw [argsRefused_run hk] at h
    injection h with h
    exact h ▸ hk

/-- C94: a command line is either words and files (C58, C59) or refused for exactly one reason. -/
theorem C94_one (args : List Str) :
    ((∃ items : List ArgItem, (∀ i ∈ items, i.Proper) ∧ args = argsOf items) ∧ ∀ k, ¬ ArgsRefused args k) ∨
      ∃! k, ArgsRefused args k := by
  cases h : processArguments args with
  | error k =>
    exact Or.inr ⟨k, (C94_refused _ _).mp h, fun k' hk => by
      have := argsRefused_run hk; rw [h] at this; injection this with this; exact this.symm⟩
  | ok r =>
    obtain ⟨items, h1, h2, _⟩ := (C59_refused_partial args r.1 r.2).mp h
    exact Or.inl ⟨⟨items, h1, h2⟩, fun k hk => by rw [argsRefused_run hk] at h; cases h⟩

example : ArgsRefused [str "b", str "-f", str "x", str "--file", str "y"] .longOption ∧
    ArgsRefused [str "b", str "-ff", str "x"] .missingOptionArgument ∧
    ArgsRefused [str "b", str "-f", str "--x", str "-fv", str "y", str "z"] .unrecognizedArgument :=
  ⟨ArgsRefused.long (gs := [.word (str "b"), .options ['f'] [str "x"]]) (by simp [ArgGroup.Proper]; decide),
    ArgsRefused.short (gs := [.word (str "b")]) (by simp [ArgGroup.Proper]; decide) (by decide) (by decide),
    ArgsRefused.letter (gs := [.word (str "b"), .options ['f'] [str "--x"], .options ['f', 'v'] [str "y", str "z"]])
      (by simp [ArgGroup.Proper]; decide) (letters := ['f', 'v']) (values := [str "y", str "z"]) (c := 'v') (by simp)
      (by simp) (by decide)⟩

/-! ### C95 -/

/-- A command line that is accepted: a verb, further words, and files. -/
def Asks (argv : List Str) (words fs : List Str) : Prop :=
  ∃ items : List ArgItem, (∀ i ∈ items, i.Proper) ∧ argv = argsOf items ∧ words = wordsOf items ∧ fs = filesOf items

/-- What the program does with its arguments: how many unreadable lines it reports, and the lines of its report or the panic
with which it ends. -/
inductive Does (files : Files) (depth : Nat) (argv : List Str) : (gaps : Nat) → Res (List Str) → Prop
  /-- without arguments -/
  | nothing (h : argv = []) : Does files depth argv 0 (.error .noArguments)
  /-- the command line is refused -/
  | refused {k : Panic} (h : ArgsRefused argv k) : Does files depth argv 0 (.error k)
  /-- there is no verb -/
  | noVerb {fs : List Str} (h : argv ≠ []) (ha : Asks argv [] fs) : Does files depth argv 0 (.error .noVerb)
  /-- a transaction is faulty, and nothing before it -/
  | faulty {verb : Str} {rest fs : List Str} {is : List Item} {e : Ending} {n : Nat} {k : Panic}
      (ha : Asks argv (verb :: rest) fs) (hf : FilesSay files depth fs is e) (hg : GapsMet is n)
      (hk : FirstCause (writings is) k) : Does files depth argv n (.error k)
  /-- a line is refused or a file is missing, and nothing before it is faulty -/
  | unread {verb : Str} {rest fs : List Str} {is : List Item} {e : Ending} {k : Panic}
      (ha : Asks argv (verb :: rest) fs) (hf : FilesSay files depth fs is e) (hn : ∀ w ∈ writings is, ¬ Faulty w)
      (hk : e.panic = some k) : Does files depth argv (is.count .gap) (.error k)
  /-- the files are read, but the verb is empty -/
  | emptyVerb {rest fs : List Str} {is : List Item} (ha : Asks argv ([] :: rest) fs) (hf : FilesSay files depth fs is .done)
      (hn : ∀ w ∈ writings is, ¬ Faulty w) : Does files depth argv (is.count .gap) (.error .noVerb)
  /-- the files are read, but the verb is not known -/
  | unknownVerb {verb : Str} {rest fs : List Str} {is : List Item} (ha : Asks argv (verb :: rest) fs)
      (hf : FilesSay files depth fs is .done) (hn : ∀ w ∈ writings is, ¬ Faulty w) (h0 : verb ≠ []) (hb : ¬ BalanceVerb verb)
      (hv : ¬ AccountsVerb verb) : Does files depth argv (is.count .gap) (.error .unsupportedVerb)
  /-- the balance report -/
  | balance {verb : Str} {rest fs : List Str} {is : List Item} (ha : Asks argv (verb :: rest) fs)
      (hf : FilesSay files depth fs is .done) (hn : ∀ w ∈ writings is, ¬ Faulty w) (hv : BalanceVerb verb) :
      Does files depth argv (is.count .gap) (.ok (writtenBookings (writings is)).report)
  /-- the list of accounts -/
  | accounts {verb : Str} {rest fs : List Str} {is : List Item} {out : List Str} {paths : List Path}
      (ha : Asks argv (verb :: rest) fs) (hf : FilesSay files depth fs is .done) (hn : ∀ w ∈ writings is, ¬ Faulty w)
      (hv : AccountsVerb verb) (hp : paths.Nodup)
      (hm : ∀ p, p ∈ paths ↔ p = [] ∨ ∃ e ∈ allEntries (writings is), p <+: pathOf e.account)
      (ho : out.Pairwise (fun a b => StrBefore a b ∨ a = b)) (hl : out.Perm (paths.map lastPart)) :
      Does files depth argv (is.count .gap) (.ok out)

/-- The numbers in the files that are asked for are of everyday size. -/
def EverydayFiles (files : Files) (depth : Nat) (argv : List Str) : Prop :=
  ∀ words fs is e, Asks argv words fs → FilesSay files depth fs is e →
    (∀ w ∈ touched is e, Everyday w) ∧ Roomy (allEntries (writings is))

theorem asks_iff {argv words fs : List Str} : Asks argv words fs ↔ processArguments argv = .ok (words, fs) :=
  (C59_refused_partial argv words fs).symm

theorem gapsMet_all {is : List Item} (h : ∀ w ∈ writings is, ¬ Faulty w) : GapsMet is (is.count .gap) := by
  induction is with
  | nil => exact .nil
  | cons i is ih =>
    cases i with
    | gap => rw [List.count_cons_self]; exact .gap (ih h)
    | price r => rw [List.count_cons_of_ne (by simp)]; exact .price (ih h)
    | xact w =>
      rw [List.count_cons_of_ne (by simp)]
      exact .fine (h w (by simp [writings_xact])) (ih (fun v hv => h v (by simp [writings_xact, hv])))

theorem run_reported {files : Files} {depth : Nat} {argv : List Str} {verb : Str} {rest fs : List Str}
    (ha : processArguments argv = .ok (verb :: rest, fs)) :
    reported (Trace.run files depth argv) = reported (Trace.readFiles files depth fs Journal.new) := by
  unfold Trace.run
  rw [reported_bind, reported_lift, Nat.zero_add, Trace.res_lift, ha]
  simp only [Trace.executeCommand, reported_bind, reported_lift]
  cases (Trace.readFiles files depth fs Journal.new).res <;> rfl

theorem run_reading {files : Files} {depth : Nat} {argv : List Str} {verb : Str} {rest fs : List Str} {k : Panic}
    (ha : processArguments argv = .ok (verb :: rest, fs)) (hk : readFiles files depth fs Journal.new = .error k) :
    run files depth argv = .error k := by
  simp only [run, ha, bind, Except.bind, executeCommand, hk]

theorem does_run {files : Files} {depth : Nat} {argv : List Str} (hd : EverydayFiles files depth argv) {n : Nat}
    {r : Res (List Str)} (h : Does files depth argv n r) (h0 : argv ≠ []) :
    run files depth argv = r ∧ reported (Trace.run files depth argv) = n := by
  have rep : ∀ {verb : Str} {rest fs : List Str} {is : List Item} {e : Ending} {n : Nat} (_ : Asks argv (verb :: rest) fs)
      (_ : FilesSay files depth fs is e) (_ : GapsMet is n), reported (Trace.run files depth argv) = n := by
    intro verb rest fs is e n ha hf hg
    rw [run_reported (asks_iff.mp ha)]
    exact ((readFiles_tells files depth hf (hd _ _ _ _ ha hf).1).2 _ readable_new).unique hg
  have err : ∀ {verb : Str} {rest fs : List Str} {is : List Item} {e : Ending} {k : Panic} (_ : Asks argv (verb :: rest) fs)
      (_ : FilesSay files depth fs is e)
      (_ : FirstCause (writings is) k ∨ ((∀ w ∈ writings is, ¬ Faulty w) ∧ e.panic = some k)),
      run files depth argv = .error k := by
    intro verb rest fs is e k ha hf hk
    exact run_reading (asks_iff.mp ha)
      ((decidesItems_error (readFiles_items files depth hf (hd _ _ _ _ ha hf).1) readable_new k).mpr hk)
  have read : ∀ {verb : Str} {rest fs : List Str} {is : List Item} (_ : Asks argv (verb :: rest) fs)
      (_ : FilesSay files depth fs is .done) (_ : ∀ w ∈ writings is, ¬ Faulty w),
      ∃ j, readFiles files depth fs Journal.new = .ok j := by
    intro verb rest fs is ha hf hn
    rcases readFiles_items files depth hf (hd _ _ _ _ ha hf).1 Journal.new readable_new with ⟨j, _, _, _, h, _⟩ | ⟨k, _, h⟩
    · exact ⟨j, h⟩
    · rcases h with h | ⟨_, h⟩
      · obtain ⟨w, hw, hf⟩ := h.faulty
        exact absurd hf (hn w hw)
      · cases h
  cases h with
  | nothing h => exact absurd h h0
  | refused h =>
    have := argsRefused_run h
    refine ⟨by simp only [run, this, bind, Except.bind], ?_⟩
    unfold Trace.run
    rw [reported_bind, reported_lift, Trace.res_lift, this]
    rfl
  | noVerb _ ha =>
    have := asks_iff.mp ha
    refine ⟨by simp only [run, this, bind, Except.bind, executeCommand], ?_⟩
    unfold Trace.run
    rw [reported_bind, reported_lift, Trace.res_lift, this]
    rfl
  | faulty ha hf hg hk => exact ⟨err ha hf (Or.inl hk), rep ha hf hg⟩
  | unread ha hf hn hk => exact ⟨err ha hf (Or.inr ⟨hn, hk⟩), rep ha hf (gapsMet_all hn)⟩
  | emptyVerb ha hf hn =>
    obtain ⟨j, hj⟩ := read ha hf hn
    exact ⟨by simp only [run, asks_iff.mp ha, bind, Except.bind, executeCommand, hj], rep ha hf (gapsMet_all hn)⟩
  | @unknownVerb verb rest fs is ha hf hn h0 hb hv =>
    obtain ⟨j, hj⟩ := read ha hf hn
    refine ⟨?_, rep ha hf (gapsMet_all hn)⟩
    simp only [run, asks_iff.mp ha, bind, Except.bind, executeCommand, hj]
    cases verb with
    | nil => exact absurd rfl h0
    | cons c cs =>
      have hc : c ≠ 'a' := fun h => hv (by simp [AccountsVerb, h])
      simp only
      rw [if_neg hc]
      split
      · exact if_neg hb
      · rfl
  | balance ha hf hn hv =>
    exact ⟨C92_report files depth hf (hd _ _ _ _ ha hf).1 (hd _ _ _ _ ha hf).2 (asks_iff.mp ha) hv hn,
      rep ha hf (gapsMet_all hn)⟩
  | @accounts verb rest fs is out paths ha hf hn hv hp hm ho hl =>
    refine ⟨?_, rep ha hf (gapsMet_all hn)⟩
    obtain ⟨out', h1, h2, paths', h3, h4, h5⟩ := C92_accounts files depth hf (hd _ _ _ _ ha hf).1 (asks_iff.mp ha) hv hn
    have e1 : paths.Perm paths' := (List.perm_ext_iff_of_nodup hp h3).mpr (fun p => (hm p).trans (h4 p).symm)
    have e2 : out = out' := (hl.trans ((e1.map lastPart).trans h5.symm)).eq_of_pairwise (fun a b _ _ hab hba => by
        rcases hab with hab | rfl
        · rcases hba with hba | rfl
          · exact absurd (strBefore_trans hab hba) (strBefore_irrefl _)
          · rfl
        · rfl) ho h2
    rw [h1, e2]

/-- C95: whatever the arguments and the files, if the numbers are of everyday size, the program does exactly one thing. -/
theorem C95_one {files : Files} {depth : Nat} {argv : List Str} (hd : EverydayFiles files depth argv) :
    ∃! d : Nat × Res (List Str), Does files depth argv d.1 d.2 := by
  have unique : ∀ {n m : Nat} {r s : Res (List Str)}, Does files depth argv n r → Does files depth argv m s → n = m ∧ r = s := by
    intro n m r s h h'
    by_cases h0 : argv = []
    · subst h0
      have key : ∀ {n : Nat} {r : Res (List Str)}, Does files depth [] n r → n = 0 ∧ r = .error .noArguments := by
        intro n r h
        have no : ∀ {verb : Str} {rest fs : List Str}, ¬ Asks [] (verb :: rest) fs := by
          intro verb rest fs h
          rw [asks_iff, show processArguments [] = .ok ([], []) from by decide] at h
          cases h
        cases h with
        | nothing => exact ⟨rfl, rfl⟩
        | refused h => have := argsRefused_run h; cases this
        | noVerb h => exact absurd rfl h
        | faulty ha | unread ha | emptyVerb ha | unknownVerb ha | balance ha | accounts ha => exact absurd ha no
      exact ⟨(key h).1.trans (key h').1.symm, (key h).2.trans (key h').2.symm⟩
    · obtain ⟨a1, a2⟩ := does_run hd h h0
      obtain ⟨b1, b2⟩ := does_run hd h' h0
      exact ⟨a2.symm.trans b2, a1.symm.trans b1⟩
  suffices ∃ n r, Does files depth argv n r by
    obtain ⟨n, r, h⟩ := this
    exact ⟨(n, r), h, fun d h' => Prod.ext (unique h' h).1 (unique h' h).2⟩
  by_cases h0 : argv = []
  · exact ⟨_, _, .nothing h0⟩
  cases hp : processArguments argv with
  | error k => exact ⟨_, _, .refused ((C94_refused _ _).mp hp)⟩
  | ok r =>
    obtain ⟨words, fs⟩ := r
    have ha := asks_iff.mpr hp
    cases words with
    | nil => exact ⟨_, _, .noVerb h0 ha⟩
    | cons verb rest =>
      obtain ⟨is, e, hf⟩ := filesSay_total files depth fs
      obtain ⟨h1, h2⟩ := hd _ _ _ _ ha hf
      obtain ⟨n, hg⟩ := gapsMet_total is
      rcases readFiles_items files depth hf h1 Journal.new readable_new with ⟨j, _, _, rfl, _, _, _, hn⟩ | ⟨k, _, h | ⟨hn, hk⟩⟩
      · by_cases hb : BalanceVerb verb
        · exact ⟨_, _, .balance ha hf hn hb⟩
        · by_cases hv : AccountsVerb verb
          · obtain ⟨out, _, h2, paths, h3, h4, h5⟩ := C92_accounts files depth hf h1 hp hv hn
            exact ⟨_, _, .accounts ha hf hn hv h3 h4 h2 h5⟩
          · by_cases hv0 : verb = []
            · subst hv0
              exact ⟨_, _, .emptyVerb ha hf hn⟩
            · exact ⟨_, _, .unknownVerb ha hf hn hv0 hb hv⟩
      · exact ⟨_, _, .faulty ha hf hg h⟩
      · exact ⟨_, _, .unread ha hf hn hk⟩

/-- C95: what the program writes and how it ends: a greeting, the arguments, one line for each unreadable line that is met,
and the report; or, if it ends with a panic, the same without the report. -/
theorem C95_program (plain : Char → Bool) (errs : Nat → Str) (he : ∀ k, '\n' ∉ errs k) {files : Files} {depth : Nat}
    {argv : List Str} (hd : EverydayFiles files depth argv) {n : Nat} {r : Res (List Str)} (h : Does files depth argv n r) :
    ∃ list, LiteralList list argv ∧ ∃ ms : List Str, ms.length = n ∧ (∀ m ∈ ms, '\n' ∉ m) ∧
      match r with
      | .ok out => ∃ text, LiteralList text out ∧ '\n' ∉ text ∧ program plain errs files depth argv =
          ⟨str "Hello, Ledger-rs!\n" ++ str "You requested " ++ list ++ ['\n'] ++ errorText ms ++ text ++ ['\n'], none⟩
      | .error k => program plain errs files depth argv =
          ⟨str "Hello, Ledger-rs!\n" ++ str "You requested " ++ list ++ ['\n'] ++ errorText ms, some k⟩ := by
  obtain ⟨list, h1, _, ms, h2, h3, _, h5⟩ := C84_lines plain errs he files depth argv
  refine ⟨list, h1, ms, ?_, h2, ?_⟩
  · by_cases h0 : argv = []
    · rcases h5 with ⟨_, _, h, _⟩ | ⟨k, ⟨_, rfl, _⟩ | ⟨h, _⟩, _⟩
      · exact absurd h0 h
      · obtain ⟨d, _, hu⟩ := C95_one hd
        have e1 := hu (0, .error .noArguments) (.nothing h0)
        have e2 := hu (n, r) h
        rw [e1.symm] at e2
        exact (Prod.ext_iff.mp e2).1.symm
      · exact absurd h0 h
    · rw [h3 h0]
      exact (does_run hd h h0).2
  · rcases h5 with ⟨out, text, h0, a1, a2, a3, a4⟩ | ⟨k, ⟨h0, _, rfl⟩ | ⟨h0, a1⟩, a4⟩
    · rw [(does_run hd h h0).1] at a1
      subst a1
      exact ⟨text, a2, a3, a4⟩
    · obtain ⟨d, _, hu⟩ := C95_one hd
      have e1 := hu (0, .error .noArguments) (.nothing h0)
      have e2 := hu (n, r) h
      rw [e1.symm] at e2
      obtain rfl : r = .error .noArguments := (Prod.ext_iff.mp e2).2
      exact a4
    · rw [(does_run hd h h0).1] at a1
      subst a1
      exact a4

/-! ### examples -/

namespace WholeExample
open LinesExample FaultsExample CausesExample FoundExample

/-- The first file has a line that cannot be read after its transaction, and then a line that is refused. -/
def desk : Files := fun f => if f = str "a" then some refused else if f = str "b" then some (refused.take 5) else none

theorem asks (f : Str) : Asks [str "bal", str "-f", f] [str "bal"] [f] :=
  ⟨[.word (str "bal"), .files [f]], by simp [ArgItem.Proper]; decide, rfl, rfl, rfl⟩

theorem deskSays : FilesSay desk 0 [str "a"] [.price price, .gap, .xact first] (.stop .unsupportedDirective) := by
  refine .stop (src := refused) (by decide) ?_ (by decide)
  refine .price ((topPart_iff _ _).mpr (by decide +kernel)) priceLine (.xact (w := first) (tail := none :: _) shopHeader
    (.posting (e := bread) foodLine (.posting cashLine (.stop (Or.inl ⟨_, Or.inr (Or.inr rfl)⟩)))) (Or.inr (Or.inr rfl)) ?_)
  exact .refused ((topPart_iff _ _).mpr (by decide +kernel))

theorem deskSays' : FilesSay desk 0 [str "b"] [.price price, .gap, .xact first] .done := by
  refine FilesSay.read (src := refused.take 5) (is := [.price price, .gap, .xact first]) (is' := []) (by decide +kernel) ?_ .nil
  exact .price ((topPart_iff _ _).mpr (by decide +kernel)) priceLine (.xact (w := first) (tail := none :: _) shopHeader
    (.posting (e := bread) foodLine (.posting cashLine (.stop (Or.inl ⟨_, Or.inr (Or.inr rfl)⟩)))) (Or.inr (Or.inr rfl)) .nil)

theorem everydayDesk (f : Str) (e : Ending) (h : FilesSay desk 0 [f] [.price price, .gap, .xact first] e)
    (ht : touched [.price price, .gap, .xact first] e = [first]) : EverydayFiles desk 0 [str "bal", str "-f", f] := by
  intro words fs is e' ha hf
  have := asks_iff.mp (asks f)
  rw [asks_iff.mp ha] at this
  injection this with this
  injection this with h1 h2
  subst h1 h2
  obtain ⟨rfl, rfl⟩ := filesSay_unique desk 0 h hf
  refine ⟨fun w hw => CausesExample.everyday w (by rw [ht] at hw; simp at hw; simp [hw]), ?_⟩
  refine roomy_of (show ∀ e ∈ [bread, cash], (∀ a ∈ e.amount, a.qty.scale ≤ 9) ∧ e.worthDecimals ≤ 9 by decide) ?_
  change (List.map (·.size) [bread, cash]).sum ≤ _
  simp only [List.map_cons, List.map_nil, List.sum_cons, List.sum_nil, size_bread, size_cash]
  norm_num

/-- The program reports the unreadable line and then panics, or prints the report. -/
example : (∃ list m, program (fun _ => true) (fun _ => str "e") desk 0 [str "bal", str "-f", str "a"] =
      ⟨str "Hello, Ledger-rs!\n" ++ str "You requested " ++ list ++ ['\n'] ++ errorText [m], some .unsupportedDirective⟩) ∧
    ∃ list m text, LiteralList text [str "Account  has balance 0.00 EUR", str "Account Assets has balance -20.50 EUR",
        str "Account Assets:Cash has balance -20.50 EUR", str "Account Expenses has balance 20.50 EUR",
        str "Account Expenses:Food has balance 20.50 EUR"] ∧
      program (fun _ => true) (fun _ => str "e") desk 0 [str "bal", str "-f", str "b"] =
        ⟨str "Hello, Ledger-rs!\n" ++ str "You requested " ++ list ++ ['\n'] ++ errorText [m] ++ text ++ ['\n'], none⟩ := by
  have hn : ∀ w ∈ writings [.price price, .gap, .xact first], ¬ Faulty w := by
    intro w hw; simp [writings] at hw; rw [hw]; exact firstSound
  constructor
  · obtain ⟨list, _, ms, h1, _, h2⟩ := C95_program (fun _ => true) (fun _ => str "e") (fun _ => by decide)
      (everydayDesk _ _ deskSays rfl) (.unread (asks _) deskSays hn rfl)
    obtain ⟨m, rfl⟩ := List.length_eq_one_iff.mp (h1.trans (by decide))
    exact ⟨list, m, h2⟩
  · obtain ⟨list, _, ms, h1, _, text, h2, _, h3⟩ := C95_program (fun _ => true) (fun _ => str "e") (fun _ => by decide)
      (everydayDesk _ _ deskSays' rfl) (.balance (asks _) deskSays' hn (Or.inr (Or.inl rfl)))
    obtain ⟨m, rfl⟩ := List.length_eq_one_iff.mp (h1.trans (by decide))
    refine ⟨list, m, text, ?_, h3⟩
    have e : (writtenBookings (writings [.price price, .gap, .xact first])).report =
        [str "Account  has balance 0.00 EUR", str "Account Assets has balance -20.50 EUR",
        str "Account Assets:Cash has balance -20.50 EUR", str "Account Expenses has balance 20.50 EUR",
        str "Account Expenses:Food has balance 20.50 EUR"] := by decide +kernel
    exact e ▸ h2

end WholeExample

end Ledger
