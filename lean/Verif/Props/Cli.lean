import Verif.Spec.Arguments
import Verif.Props.Journal
import Verif.Model.Report
/-
C58 to C61: the command line.  C65, C66: the two iterators.
-/
namespace Ledger
open Ledger.Parser Ledger.Options Ledger.Cli

/-! ### lemmas -/

theorem takeValues_f (vs rest : List Str) :
    takeValues (List.replicate vs.length 'f') (vs ++ rest) = .ok (vs.flatMap (fun v => [str "-f", v]), rest) := by
  induction vs with
  | nil => rfl
  | cons v vs ih =>
    simp only [List.length_cons, List.replicate_succ, List.cons_append, takeValues, ih, bind, Except.bind, List.flatMap_cons]
    rfl

theorem splitGo_items (items : List ArgItem) (hp : ∀ i ∈ items, i.Proper) (n : Nat) (hn : (argsOf items).length < n) :
    splitGo n (argsOf items) = .ok (wordsOf items, (filesOf items).flatMap (fun v => [str "-f", v])) := by
  induction items generalizing n with
  | nil => cases n with
    | zero => omega
    | succ n => rfl
  | cons i items ih =>
    cases n with
    | zero => omega
    | succ n =>
      have ih' := fun m h => ih (fun x hx => hp x (by simp [hx])) m h
      have hi := hp i (by simp)
      cases i with
      | word w =>
        have hl : (argsOf items).length < n := by simp [argsOf, ArgItem.args] at hn ⊢; omega
        have e : argsOf (.word w :: items) = w :: argsOf items := rfl
        rw [e]
        simp only [ArgItem.Proper] at hi
        have hw : splitGo (n + 1) (w :: argsOf items) = (do
            let (cs, os) ← splitGo n (argsOf items)
            .ok (w :: cs, os)) := by
          simp only [splitGo]
          split
          · simp at hi
          · simp at hi
          · rfl
        rw [hw, ih' n hl]
        rfl
      | files vs =>
        have hl : (argsOf items).length < n := by simp [argsOf, ArgItem.args] at hn ⊢; omega
        have e : argsOf (.files vs :: items) = ('-' :: List.replicate vs.length 'f') :: (vs ++ argsOf items) := rfl
        rw [e]
        have hw : splitGo (n + 1) (('-' :: List.replicate vs.length 'f') :: (vs ++ argsOf items)) = (do
            let (opts, rest) ← takeValues (List.replicate vs.length 'f') (vs ++ argsOf items)
            let (cs, os) ← splitGo n rest
            .ok (cs, opts ++ os)) := by
          cases vs with
          | nil => rfl
          | cons v vs => rfl
        rw [hw, takeValues_f]
        simp only [bind, Except.bind]
        rw [ih' n hl]
        simp [wordsOf, filesOf]

theorem inputOptions_f (fs : List Str) : inputOptions (fs.flatMap (fun v => [str "-f", v])) = .ok fs := by
  induction fs with
  | nil => rfl
  | cons f fs ih =>
    simp only [List.flatMap_cons, List.cons_append, List.nil_append, inputOptions, if_true, ih, bind, Except.bind]

theorem takeValues_ok {cs : List Char} {args opts rest : List Str} (h : takeValues cs args = .ok (opts, rest))
    {os fs : List Str} (hi : inputOptions (opts ++ os) = .ok fs) :
    ∃ vs fs', cs = List.replicate vs.length 'f' ∧ args = vs ++ rest ∧ fs = vs ++ fs' ∧ inputOptions os = .ok fs' := by
  induction cs generalizing args opts fs with
  | nil =>
    simp only [takeValues, Except.ok.injEq, Prod.mk.injEq] at h
    obtain ⟨rfl, rfl⟩ := h
    exact ⟨[], fs, rfl, rfl, rfl, hi⟩
  | cons c cs ih =>
    cases args with
    | nil => simp [takeValues] at h
    | cons v args =>
      simp only [takeValues] at h
      cases h1 : takeValues cs args with
      | error e => rw [h1] at h; cases h
      | ok w =>
        obtain ⟨o, r⟩ := w
        rw [h1] at h
        simp only [bind, Except.bind, Except.ok.injEq, Prod.mk.injEq] at h
        obtain ⟨rfl, rfl⟩ := h
        simp only [List.cons_append, inputOptions] at hi
        split at hi
        · rename_i hf
          have hc : c = 'f' := by
            have : ['-', c] = ['-', 'f'] := hf
            simpa using this
          subst hc
          cases h2 : inputOptions (o ++ os) with
          | error e => rw [h2] at hi; cases hi
          | ok g =>
            rw [h2] at hi
            simp only [bind, Except.bind, Except.ok.injEq] at hi
            obtain ⟨vs, fs', e1, e2, e3, e4⟩ := ih h1 h2
            refine ⟨v :: vs, fs', ?_, ?_, ?_, e4⟩
            · rw [e1]; rfl
            · rw [e2]; rfl
            · rw [← hi, e3]; rfl
        · cases hi

theorem splitGo_ok {n : Nat} {args cs os fs : List Str} (h : splitGo n args = .ok (cs, os)) (hi : inputOptions os = .ok fs) :
    ∃ items : List ArgItem, (∀ i ∈ items, i.Proper) ∧ args = argsOf items ∧ cs = wordsOf items ∧ fs = filesOf items := by
  induction n generalizing args cs os fs with
  | zero => simp [splitGo] at h
  | succ n ih =>
    cases args with
    | nil =>
      simp only [splitGo, Except.ok.injEq, Prod.mk.injEq] at h
      obtain ⟨rfl, rfl⟩ := h
      simp only [inputOptions, Except.ok.injEq] at hi
      exact ⟨[], by simp, rfl, rfl, hi.symm⟩
    | cons arg args =>
      simp only [splitGo] at h
      split at h
      · cases h
      · rename_i letters hl
        cases h1 : takeValues letters args with
        | error e => rw [h1] at h; cases h
        | ok w =>
          obtain ⟨o, r⟩ := w
          rw [h1] at h
          simp only [bind, Except.bind] at h
          cases h2 : splitGo n r with
          | error e => rw [h2] at h; cases h
          | ok w =>
            obtain ⟨cs', os'⟩ := w
            rw [h2] at h
            simp only [Except.ok.injEq, Prod.mk.injEq] at h
            obtain ⟨rfl, rfl⟩ := h
            obtain ⟨vs, fs', e1, e2, e3, e4⟩ := takeValues_ok h1 hi
            obtain ⟨items, p1, p2, p3, p4⟩ := ih h2 e4
            refine ⟨.files vs :: items, ?_, ?_, ?_, ?_⟩
            · intro i hi
              rcases List.mem_cons.mp hi with rfl | hi
              · trivial
              · exact p1 i hi
            · rw [e1, e2, p2]; rfl
            · rw [p3]; rfl
            · rw [e3, p4]; rfl
      · rename_i hw
        cases h2 : splitGo n args with
        | error e => rw [h2] at h; cases h
        | ok w =>
          obtain ⟨cs', os'⟩ := w
          rw [h2] at h
          simp only [bind, Except.bind, Except.ok.injEq, Prod.mk.injEq] at h
          obtain ⟨rfl, rfl⟩ := h
          obtain ⟨items, p1, p2, p3, p4⟩ := ih h2 hi
          refine ⟨.word arg :: items, ?_, ?_, ?_, ?_⟩
          · intro i hi
            rcases List.mem_cons.mp hi with rfl | hi
            · simp only [ArgItem.Proper]
              intro hh
              cases arg with
              | nil => simp at hh
              | cons c l => simp at hh; subst hh; exact hw l rfl
            · exact p1 i hi
          · rw [p2]; rfl
          · rw [p3]; rfl
          · rw [p4]; rfl

/-! ### C58 -/

/-- C58: the words of a command line are the commands, in order, and the values of `-f` are the file names, in order. -/
theorem C58_split (items : List ArgItem) (hp : ∀ i ∈ items, i.Proper) :
    processArguments (argsOf items) = .ok (wordsOf items, filesOf items) := by
  simp only [processArguments, splitGo_items items hp _ (Nat.lt_succ_self _), bind, Except.bind, inputOptions_f]

example : processArguments [str "-f", str "-x", str "accounts", str "-f", str "b", str "b"] =
    .ok ([str "accounts", str "b"], [str "-x", str "b"]) :=
  C58_split [.files [str "-x"], .word (str "accounts"), .files [str "b"], .word (str "b")] (by simp [ArgItem.Proper]; decide)

/-! ### C59 -/

/-- C59 is violated: an option without a letter is ignored. -/
theorem C59_dash_violated : processArguments [str "b", str "-", str "-f", str "x"] = .ok ([str "b"], [str "x"]) := by decide

/-- C59: whatever is accepted consists of words and of `-f` options with their values, several letters `f` taking several
values, and nothing else: any other option is refused.  Missing: an option without a letter is accepted and ignored (the
group without values), for which the claim is false. -/
theorem C59_refused_partial (args cs fs : List Str) :
    processArguments args = .ok (cs, fs) ↔
      ∃ items : List ArgItem, (∀ i ∈ items, i.Proper) ∧ args = argsOf items ∧ cs = wordsOf items ∧ fs = filesOf items := by
  constructor
  · intro h
    unfold processArguments at h
    cases h1 : splitGo (args.length + 1) args with
    | error e => rw [h1] at h; cases h
    | ok w =>
      obtain ⟨c, o⟩ := w
      rw [h1] at h
      simp only [bind, Except.bind] at h
      cases h2 : inputOptions o with
      | error e => rw [h2] at h; cases h
      | ok f =>
        rw [h2] at h
        simp only [Except.ok.injEq, Prod.mk.injEq] at h
        obtain ⟨rfl, rfl⟩ := h
        exact splitGo_ok h1 h2
  · rintro ⟨items, hp, rfl, rfl, rfl⟩
    exact C58_split items hp

example : processArguments [str "b", str "-x", str "y"] = .error .unrecognizedArgument ∧
    processArguments [str "b", str "--file", str "y"] = .error .longOption ∧
    processArguments [str "b", str "-f"] = .error .missingOptionArgument ∧
    processArguments [str "b", str "-fx", str "y", str "z"] = .error .unrecognizedArgument := by decide

/-! ### C60 -/

/-- The verbs of the balance report. -/
def BalanceVerb (v : Str) : Prop := v = str "b" ∨ v = str "bal" ∨ v = str "balance"

/-- A verb of the account list. -/
def AccountsVerb (v : Str) : Prop := v.head? = some 'a'

/-- C60: a verb starting with `a` gives the account list of the journal read from the files, sorted. -/
theorem C60_accounts (files : Files) (depth : Nat) (args rest fs : List Str) (verb : Str)
    (ha : processArguments args = .ok (verb :: rest, fs)) (hv : AccountsVerb verb) (out : List Str) :
    run files depth args = .ok out ↔ ∃ j, readFiles files depth fs Journal.new = .ok j ∧
      out.Perm (Report.reportAccounts j) ∧ out.Pairwise (fun a b => StrBefore a b ∨ a = b) := by
  obtain ⟨c, cs, rfl⟩ : ∃ c cs, verb = c :: cs := by
    cases verb with
    | nil => simp [AccountsVerb] at hv
    | cons c cs => exact ⟨c, cs, rfl⟩
  have hc : c = 'a' := by simpa [AccountsVerb] using hv
  subst hc
  have key : ∀ l : List Str, ((sortByKey (l.map (fun s => (s, ())))).map (·.1)).Perm l ∧
      ((sortByKey (l.map (fun s => (s, ())))).map (·.1)).Pairwise (fun a b => StrBefore a b ∨ a = b) := by
    intro l
    refine ⟨?_, ?_⟩
    · have := (sortByKey_perm (l.map (fun s => (s, ())))).map (·.1)
      simpa [List.map_map, Function.comp_def] using this
    · rw [List.pairwise_map]
      exact (sortByKey_sorted _).imp (fun h => (strLe_iff _ _).mp h)
  simp only [run, ha, bind, Except.bind, executeCommand]
  cases hj : readFiles files depth fs Journal.new with
  | error e => simp
  | ok j =>
    simp only [if_true, Except.ok.injEq]
    constructor
    · rintro rfl
      exact ⟨j, rfl, key _⟩
    · rintro ⟨j', rfl, h1, h2⟩
      obtain ⟨k1, k2⟩ := key (Report.reportAccounts j)
      exact (k1.trans h1.symm).eq_of_pairwise (fun a b _ _ hab hba => by
        rcases hab with hab | rfl
        · rcases hba with hba | rfl
          · exact absurd (strBefore_trans hab hba) (strBefore_irrefl _)
          · rfl
        · rfl) k2 h2

/-- C60: the verbs b, bal and balance give the balance report of the journal read from the files. -/
theorem C60_balance (files : Files) (depth : Nat) (args rest fs : List Str) (verb : Str)
    (ha : processArguments args = .ok (verb :: rest, fs)) (hv : BalanceVerb verb) :
    run files depth args = (readFiles files depth fs Journal.new).bind Report.balanceReport := by
  simp only [run, ha, bind, Except.bind, executeCommand]
  cases hj : readFiles files depth fs Journal.new with
  | error e => rfl
  | ok j => rcases hv with rfl | rfl | rfl <;> rfl

/-- C60: every other verb is refused, and so is a command line without a verb. -/
theorem C60_refused (files : Files) (depth : Nat) (args words fs : List Str)
    (ha : processArguments args = .ok (words, fs)) (h : ∀ v, words.head? = some v → ¬ AccountsVerb v ∧ ¬ BalanceVerb v) :
    ∃ e, run files depth args = .error e := by
  simp only [run, ha, bind, Except.bind, executeCommand]
  cases words with
  | nil => exact ⟨_, rfl⟩
  | cons v rest =>
    obtain ⟨h1, h2⟩ := h v rfl
    simp only
    cases hj : readFiles files depth fs Journal.new with
    | error e => exact ⟨_, rfl⟩
    | ok j =>
      cases v with
      | nil => exact ⟨_, rfl⟩
      | cons c cs =>
        have hc : c ≠ 'a' := fun e => h1 (by simp [AccountsVerb, e])
        have hb : ¬ (c :: cs = str "b" ∨ c :: cs = str "bal" ∨ c :: cs = str "balance") := h2
        simp only [hc, if_false, hb]
        split
        · exact ⟨_, rfl⟩
        · exact ⟨_, rfl⟩

/-- C60: the words after the verb are ignored. -/
theorem C60_words_ignored (files : Files) (depth : Nat) (args args' rest rest' fs : List Str) (verb : Str)
    (ha : processArguments args = .ok (verb :: rest, fs)) (ha' : processArguments args' = .ok (verb :: rest', fs)) :
    run files depth args = run files depth args' := by
  simp only [run, ha, ha', bind, Except.bind, executeCommand]

example : ∃ out, run (fun f => if f = str "x" then some (textSource (str "2023-05-01 s\n B  1 EUR\n A\n")) else none) 0
    [str "acc", str "whatever", str "-f", str "x"] = .ok out ∧ out = [str "", str "A", str "B"] := ok_and (by decide +kernel)

example : ∃ out, run (fun f => if f = str "x" then some (textSource (str "2023-05-01 s\n B  1 EUR\n A\n")) else none) 0
    [str "bal", str "-f", str "x"] = .ok out ∧ out.length = 3 := ok_and (by decide +kernel)

example : run (fun _ => none) 0 [str "budget"] = .error .unsupportedVerb := by decide +kernel

/-! ### C61 -/

/-- C61 is violated: the program takes its own name as the verb; unless the name starts with `a` or `b` (or `-`) it
refuses everything it is asked. -/
theorem C61_program_violated (files : Files) (depth : Nat) (argv0 : Str) (args : List Str)
    (h : ∀ c, argv0.head? = some c → c ≠ 'a' ∧ c ≠ 'b' ∧ c ≠ '-') :
    ∃ e, main files depth (argv0 :: args) = .error e := by
  cases hp : processArguments (argv0 :: args) with
  | error e => exact ⟨e, by simp only [main, run, hp]; rfl⟩
  | ok w =>
    obtain ⟨cs, fs⟩ := w
    obtain ⟨items, hi, e1, e2, e3⟩ := (C59_refused_partial _ _ _).mp hp
    have hne : argv0.head? ≠ some '-' := fun hh => (h _ hh).2.2 rfl
    have : cs.head? = some argv0 := by
      cases items with
      | nil => simp [argsOf] at e1
      | cons i items =>
        cases i with
        | word w =>
          have : argv0 = w := by
            have : argv0 :: args = w :: argsOf items := e1
            simp at this; exact this.1
          rw [e2, this]; rfl
        | files vs =>
          have : argv0 :: args = ('-' :: List.replicate vs.length 'f') :: (vs ++ argsOf items) := e1
          simp at this
          rw [this.1] at hne
          simp at hne
    refine C60_refused files depth _ cs fs hp ?_
    intro v hv
    rw [this] at hv
    simp at hv; subst hv
    refine ⟨fun hh => (h _ hh).1 rfl, ?_⟩
    rintro (rfl | rfl | rfl)
    · exact (h 'b' (by decide)).2.1 rfl
    · exact (h 'b' (by decide)).2.1 rfl
    · exact (h 'b' (by decide)).2.1 rfl

example : ∃ e, main (fun _ => some []) 0 [str "/usr/bin/ledger", str "b", str "-f", str "x"] = .error e :=
  C61_program_violated _ _ _ _ (by intro c hc; have : c = '/' := by revert c; decide
                                   subst this; decide)

/-- C61: a program called b, bal or balance does print the balance report of the file.  Missing: any other program path,
for which the claim is false. -/
theorem C61_program_partial (files : Files) (depth : Nat) (argv0 file : Str) (h : BalanceVerb argv0) :
    main files depth [argv0, str "b", str "-f", file] =
      (parseFile files depth file Journal.new).bind Report.balanceReport := by
  have hp : processArguments [argv0, str "b", str "-f", file] = .ok ([argv0, str "b"], [file]) := by
    refine C58_split [.word argv0, .word (str "b"), .files [file]] ?_
    intro i hi
    simp at hi
    rcases hi with rfl | rfl | rfl
    · rcases h with rfl | rfl | rfl <;> (unfold ArgItem.Proper; decide)
    · unfold ArgItem.Proper; decide
    · trivial
  rw [main, C60_balance files depth _ _ _ _ hp h]
  simp only [readFiles, bind, Except.bind]
  cases parseFile files depth file Journal.new <;> rfl

/-! ### C65 -/

open Iterators

/-- What successive calls of `next` return. -/
def DirectiveIter.calls : Nat → DirectiveIter → Res (List (Option Directive))
  | 0, _ => .ok []
  | n + 1, it => do
    let (r, it') ← it.next
    let rs ← DirectiveIter.calls n it'
    .ok (r :: rs)

/-- The number of lines of a text: its line feeds, and one more if something follows the last of them. -/
def lineCount (t : Str) : Nat := t.count '\n' + if t.getLast?.getD '\n' = '\n' then 0 else 1

theorem readLines_length (t : Str) : (readLines t).length = lineCount t := by
  induction t with
  | nil => rfl
  | cons c cs ih =>
    simp only [readLines]
    by_cases hc : c = '\n'
    · subst hc
      rw [if_pos rfl, List.length_cons, ih]
      unfold lineCount
      cases cs with
      | nil => rfl
      | cons d ds => simp [List.getLast?_cons_cons]; omega
    · rw [if_neg hc]
      cases hr : readLines cs with
      | nil =>
        have : cs = [] := by
          cases cs with
          | nil => rfl
          | cons d ds =>
            simp only [readLines] at hr
            split at hr
            · cases hr
            · split at hr <;> cases hr
        subst this
        simp [lineCount, hc]
      | cons l ls =>
        have hne : cs ≠ [] := by rintro rfl; simp [readLines] at hr
        rw [hr] at ih
        simp only [List.length_cons] at ih ⊢
        rw [ih]
        unfold lineCount
        obtain ⟨d, ds, rfl⟩ := List.exists_cons_of_ne_nil hne
        simp [List.getLast?_cons_cons, List.count_cons, hc]

/-- C65: a directive iterator over a text yields one directive for each line and then `None`, however often it is
called. -/
theorem C65_one_per_line (t : Str) (buffer : Str) (n : Nat) :
    DirectiveIter.calls n ⟨textSource t, buffer⟩ =
      .ok (List.replicate (min n (lineCount t)) (some .comment) ++ List.replicate (n - lineCount t) none) := by
  have key : ∀ (ls : List Str) (buffer : Str) (n : Nat), DirectiveIter.calls n ⟨ls.map some, buffer⟩ =
      .ok (List.replicate (min n ls.length) (some .comment) ++ List.replicate (n - ls.length) none) := by
    intro ls
    induction ls with
    | nil =>
      intro buffer n
      induction n with
      | zero => rfl
      | succ n ih =>
        simp only [List.map_nil, DirectiveIter.calls, DirectiveIter.next, bind, Except.bind] at ih ⊢
        rw [ih]
        simp [List.replicate_succ]
    | cons l ls ih =>
      intro buffer n
      cases n with
      | zero => simp [DirectiveIter.calls]
      | succ n =>
        simp only [List.map_cons, DirectiveIter.calls, DirectiveIter.next, bind, Except.bind]
        rw [ih]
        simp [List.replicate_succ, Nat.succ_min_succ]
  rw [← readLines_length]
  exact key _ _ _

example : lineCount (str "a\n\nb") = 3 ∧ lineCount (str "a\n") = 1 ∧ lineCount [] = 0 := by decide

/-! ### C66 -/

/-- What successive calls of `next` of the sample iterator return, from a counter on. -/
def simpleCalls (checked : Bool) : Nat → Nat → Res (List (Option Directive))
  | 0, _ => .ok []
  | n + 1, c => do
    let (r, c') ← simpleNext checked c
    let rs ← simpleCalls checked n c'
    .ok (r :: rs)

/-- C66 is violated in a release build: after 155 times `None` the counter wraps around and items come again. -/
theorem C66_ends_violated :
    ∃ l, simpleCalls false 256 0 = .ok l ∧ l[254]? = some none ∧ l[255]? = some (some .xact) := ok_and (by decide +kernel)

/-- C66 is violated in a debug build: call number 256 panics. -/
theorem C66_debug_violated : simpleCalls true 256 0 = .error .counterOverflow := by decide +kernel

/-- What call number `k` returns in a release build: items come again in every round of 256 calls. -/
theorem C66_release_violated (n c : Nat) (hc : c < 256) : ∃ l, simpleCalls false n c = .ok l ∧ l.length = n ∧
    ∀ k, k < n → l[k]? = some (if (c + k + 1) % 256 > 100 then none else some .xact) := by
  induction n generalizing c with
  | zero => exact ⟨[], rfl, rfl, fun k hk => absurd hk (by omega)⟩
  | succ n ih =>
    obtain ⟨l, h1, h2, h3⟩ := ih ((c + 1) % 256) (Nat.mod_lt _ (by omega))
    refine ⟨(if (c + 1) % 256 > 100 then none else some .xact) :: l, ?_, by simp [h2], ?_⟩
    · simp only [simpleCalls, simpleNext, Bool.false_eq_true, and_false, if_false, bind, Except.bind, h1]
    · intro k hk
      cases k with
      | zero => rfl
      | succ k =>
        rw [List.getElem?_cons_succ, h3 k (by omega)]
        have : ((c + 1) % 256 + k + 1) % 256 = (c + (k + 1) + 1) % 256 := by omega
        rw [this]

/-- C66 for the first 255 calls: a hundred items and then `None`, in both builds.  Missing: further calls, for which the
claim is false. -/
theorem C66_ends_partial (checked : Bool) (n : Nat) (hn : n ≤ 255) :
    simpleCalls checked n 0 = .ok (List.replicate (min n 100) (some .xact) ++ List.replicate (n - 100) none) := by
  have key : ∀ n c, n + c ≤ 255 → simpleCalls checked n c =
      .ok (List.replicate (min n (100 - c)) (some .xact) ++ List.replicate (n - (100 - c)) none) := by
    intro n
    induction n with
    | zero => intro c _; simp [simpleCalls]
    | succ n ih =>
      intro c hc
      have h1 : ¬ (c + 1 ≥ 256 ∧ checked = true) := by omega
      have h2 : (c + 1) % 256 = c + 1 := Nat.mod_eq_of_lt (by omega)
      simp only [simpleCalls, simpleNext]
      rw [if_neg h1]
      simp only [bind, Except.bind, h2, ih (c + 1) (by omega)]
      by_cases hgt : c + 1 > 100
      · have e1 : 100 - (c + 1) = 0 := by omega
        have e2 : 100 - c = 0 := by omega
        simp [hgt, e1, e2, List.replicate_succ]
      · have e1 : 100 - c = (100 - (c + 1)) + 1 := by omega
        rw [if_neg hgt, e1, Nat.add_min_add_right, List.replicate_succ]
        simp
  exact key n 0 (by omega)

end Ledger
