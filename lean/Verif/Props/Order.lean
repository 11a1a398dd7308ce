import Verif.Props.Books
/-
When the order of the transactions changes nothing at all in the report.
-/
namespace Ledger
open Ledger.Parser Ledger.Cli

/-- The figure with `s` decimals in commodity `c` that is written with these digits. -/
def figureOf (c : Option Str) (s : Nat) (n : Int) : Amount := ⟨⟨decide (n < 0), n.natAbs, s⟩, c⟩

/-- An amount in `c` with `s` decimals; a zero has no minus sign. -/
def Uniform (c : Option Str) (s : Nat) (a : Amount) : Prop :=
  a.comm = c ∧ a.qty.scale = s ∧ (a.qty.mant = 0 → a.qty.neg = false)

theorem uniform_iff {c : Option Str} {s : Nat} {a : Amount} : Uniform c s a ↔ ∃ n, a = figureOf c s n := by
  constructor
  · rintro ⟨rfl, rfl, h3⟩
    refine ⟨a.qty.signed, ?_⟩
    obtain ⟨⟨n, m, sc⟩, cm⟩ := a
    simp only [figureOf, Dec.signed, Amount.mk.injEq, Dec.mk.injEq, and_true]
    cases n
    · refine ⟨?_, by simp⟩
      simp
    · have : m ≠ 0 := fun h => by cases h3 h
      refine ⟨?_, by simp⟩
      simp
      omega
  · rintro ⟨n, rfl⟩
    refine ⟨rfl, rfl, ?_⟩
    simp only [figureOf]
    intro h
    have : n = 0 := Int.natAbs_eq_zero.mp h
    subst this
    rfl

theorem figureOf_plus (c : Option Str) (s : Nat) (n m : Int) :
    (figureOf c s n).qty.plus (figureOf c s m).qty = (figureOf c s (n + m)).qty := by
  have hd : ∀ k : Int, (figureOf c s k).qty.digitsAt s = k := by
    intro k
    simp only [figureOf, Dec.digitsAt, Dec.signed, Nat.sub_self, pow_zero, mul_one]
    rcases lt_or_ge k 0 with h | h
    · simp only [h, decide_true, if_true]; omega
    · simp only [not_lt.mpr h, decide_false, Bool.false_eq_true, if_false]; omega
  unfold Dec.plus
  by_cases hm : m = 0
  · subst hm
    rw [if_pos (show (figureOf c s 0).qty.mant = 0 from rfl), Int.add_zero]
  · rw [if_neg (by simpa [figureOf] using hm)]
    by_cases hn : n = 0
    · subst hn
      rw [if_pos (show (figureOf c s 0).qty.mant = 0 from rfl), Int.zero_add]
    · rw [if_neg (by simpa [figureOf] using hn)]
      have hs : max (figureOf c s n).qty.scale (figureOf c s m).qty.scale = s := Nat.max_self s
      simp only [hs, hd]
      rfl

theorem tally_figures (c : Option Str) (s : Nat) (n : Int) (ns : List Int) :
    tally ((n :: ns).map (figureOf c s)) = [figureOf c s (n :: ns).sum] := by
  have key : ∀ n : Int, (ns.map (figureOf c s)).foldl enter [figureOf c s n] = [figureOf c s (n + ns.sum)] := by
    induction ns with
    | nil => intro n; simp
    | cons m ns ih =>
      intro n
      have he : enter [figureOf c s n] (figureOf c s m) = [figureOf c s (n + m)] := by
        simp only [enter]
        rw [if_pos (show (figureOf c s n).comm = (figureOf c s m).comm from rfl), figureOf_plus]
        rfl
      rw [List.map_cons, List.foldl_cons, he, ih, List.sum_cons, Int.add_assoc]
  unfold tally
  rw [List.map_cons, List.foldl_cons, show enter [] (figureOf c s n) = [figureOf c s n] from rfl, key, List.sum_cons]

theorem uniform_list {c : Option Str} {s : Nat} {l : List Amount} (h : ∀ a ∈ l, Uniform c s a) :
    ∃ ns : List Int, l = ns.map (figureOf c s) := by
  induction l with
  | nil => exact ⟨[], rfl⟩
  | cons a l ih =>
    obtain ⟨n, rfl⟩ := uniform_iff.mp (h a List.mem_cons_self)
    obtain ⟨ns, rfl⟩ := ih fun x hx => h x (List.mem_cons_of_mem _ hx)
    exact ⟨n :: ns, rfl⟩

theorem figureOf_inj {c : Option Str} {s : Nat} {n m : Int} (h : figureOf c s n = figureOf c s m) : n = m := by
  simp only [figureOf, Amount.mk.injEq, Dec.mk.injEq, and_true, decide_eq_decide] at h
  omega

/-- The sum of amounts with the same decimals in one commodity does not depend on their order. -/
theorem tally_perm {c : Option Str} {s : Nat} {l l' : List Amount} (h : ∀ a ∈ l, Uniform c s a) (hp : l.Perm l') :
    tally l = tally l' := by
  obtain ⟨ns, rfl⟩ := uniform_list h
  obtain ⟨ms, rfl⟩ := uniform_list fun a ha => h a (hp.mem_iff.mpr ha)
  have hp' : ns.Perm ms := (List.map_perm_map_iff fun _ _ => figureOf_inj).mp hp
  cases ns with
  | nil => rw [List.nil_perm.mp hp']
  | cons n ns =>
    cases ms with
    | nil => exact absurd hp' (by simp)
    | cons m ms => rw [tally_figures, tally_figures, hp'.sum_eq]

/-- C97: bookings in one commodity with the same decimals give the same report in any order. -/
theorem C97_bookings {c : Option Str} {s : Nat} {b b' : Bookings} (h : ∀ x ∈ b, Uniform c s x.2) (hp : b.Perm b') :
    b.report = b'.report := by
  have hm : ∀ x, x ∈ b ↔ x ∈ b' := fun x => hp.mem_iff
  have hnames : ∀ p, b.names p = b'.names p := by
    intro p
    refine sorted_unique (r := StrBefore) strBefore_irrefl (fun a b c => strBefore_trans) _ _ (foldr_sortIn_sorted _)
      (foldr_sortIn_sorted _) ?_
    intro n
    show n ∈ b.names p ↔ n ∈ b'.names p
    rw [mem_names, mem_names]
    exact ⟨fun ⟨x, h1, h2⟩ => ⟨x, (hm x).mp h1, h2⟩, fun ⟨x, h1, h2⟩ => ⟨x, (hm x).mpr h1, h2⟩⟩
  have hdepth : ∀ b b' : Bookings, (∀ x, x ∈ b → x ∈ b') → b.depth ≤ b'.depth := by
    intro b b' hm
    unfold Bookings.depth
    induction b with
    | nil => exact Nat.zero_le _
    | cons x b ih =>
      rw [List.map_cons, List.foldr_cons]
      exact Nat.max_le.mpr ⟨depth_le b' (hm x List.mem_cons_self), ih (fun y hy => hm y (List.mem_cons_of_mem _ hy))⟩
  have hown : ∀ p, tally (b.own p) = tally (b'.own p) := by
    intro p
    refine tally_perm (c := c) (s := s) ?_ ((hp.filter _).map _)
    intro a ha
    obtain ⟨x, hx, rfl⟩ := List.mem_map.mp ha
    exact h x (List.mem_filter.mp hx).1
  have htotal : ∀ d p, b.total d p = b'.total d p := by
    intro d
    induction d with
    | zero => intro p; rfl
    | succ d ih => intro p; rw [Bookings.total, Bookings.total, hnames, hown]; simp only [ih]
  have hlines : ∀ d p, b.lines d p = b'.lines d p := by
    intro d
    induction d with
    | zero => intro p; rfl
    | succ d ih => intro p; rw [Bookings.lines, Bookings.lines, hnames, htotal]; simp only [ih]
  unfold Bookings.report
  rw [Nat.le_antisymm (hdepth b b' (fun x => (hm x).mp)) (hdepth b' b (fun x => (hm x).mpr)), hlines]

/-- C97: where also the text is the same.  If everything is booked in one commodity with the same number of decimals, two lots
of files with the same transactions in any order are both refused or give the same report, character by character.
Missing: other figures, for which the text can change (`C97_text_violated`). -/
theorem C97_text_partial (files files' : Files) (depth depth' : Nat) {fs fs' : List Str} {is is' : List Item}
    (hf : FilesSay files depth fs is .done) (hf' : FilesSay files' depth' fs' is' .done)
    (hw : (writings is).Perm (writings is')) (hd : ∀ w ∈ writings is, Everyday w)
    (ht : Roomy (allEntries (writings is))) {args args' rest rest' : List Str} {verb verb' : Str}
    (ha : Options.processArguments args = .ok (verb :: rest, fs)) (hv : BalanceVerb verb)
    (ha' : Options.processArguments args' = .ok (verb' :: rest', fs')) (hv' : BalanceVerb verb')
    {c : Option Str} {s : Nat} (hu : ∀ x ∈ writtenBookings (writings is), Uniform c s x.2) :
    ((∃ k, run files depth args = .error k) ∧ ∃ k, run files' depth' args' = .error k) ∨
    ∃ out, run files depth args = .ok out ∧ run files' depth' args' = .ok out := by
  have hd' : ∀ w ∈ writings is', Everyday w := fun w h => hd w (hw.mem_iff.mpr h)
  have ht' : Roomy (allEntries (writings is')) := by
    have hp : (allEntries (writings is)).Perm (allEntries (writings is')) := hw.flatMap_right _
    exact ht.mono (fun e he => hp.mem_iff.mpr he) (le_of_eq (hp.map _).sum_eq.symm)
  by_cases hn : ∃ w ∈ writings is, Faulty w
  · left
    obtain ⟨w, h1, h2⟩ := hn
    obtain ⟨k, hk⟩ := firstCause_of_faulty ⟨w, h1, h2⟩
    obtain ⟨k', hk'⟩ := firstCause_of_faulty ⟨w, hw.mem_iff.mp h1, h2⟩
    exact ⟨⟨k, (C92_run_panic files depth hf hd ht ha (Or.inl hv) k).mpr (Or.inl hk)⟩,
      ⟨k', (C92_run_panic files' depth' hf' hd' ht' ha' (Or.inl hv') k').mpr (Or.inl hk')⟩⟩
  · right
    have hn1 : ∀ w ∈ writings is, ¬ Faulty w := fun w h1 h2 => hn ⟨w, h1, h2⟩
    have hn2 : ∀ w ∈ writings is', ¬ Faulty w := fun w h1 h2 => hn ⟨w, hw.mem_iff.mpr h1, h2⟩
    have hb : (writtenBookings (writings is)).Perm (writtenBookings (writings is')) := hw.flatMap_right _
    refine ⟨(writtenBookings (writings is)).report, C92_report files depth hf hd ht ha hv hn1, ?_⟩
    rw [C92_report files' depth' hf' hd' ht' ha' hv' hn2, C97_bookings hu hb]

/-- Two days of shopping in either order. -/
example : (∀ x ∈ ([([str "A"], ⟨⟨false, 1050, 2⟩, some (str "EUR")⟩), ([str "B"], ⟨⟨true, 1050, 2⟩, some (str "EUR")⟩),
      ([str "A"], ⟨⟨false, 200, 2⟩, some (str "EUR")⟩), ([str "B"], ⟨⟨true, 200, 2⟩, some (str "EUR")⟩)] : Bookings),
      Uniform (some (str "EUR")) 2 x.2) ∧
    Bookings.report [([str "A"], ⟨⟨false, 200, 2⟩, some (str "EUR")⟩), ([str "B"], ⟨⟨true, 200, 2⟩, some (str "EUR")⟩),
      ([str "A"], ⟨⟨false, 1050, 2⟩, some (str "EUR")⟩), ([str "B"], ⟨⟨true, 1050, 2⟩, some (str "EUR")⟩)] =
      [str "Account  has balance 0.00 EUR", str "Account A has balance 12.50 EUR", str "Account B has balance -12.50 EUR"] :=
  ⟨by unfold Uniform; decide, by decide +kernel⟩

end Ledger
