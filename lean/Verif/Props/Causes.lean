import Verif.Props.Faults
/-
C88: the first faulty transaction decides with which panic reading ends.
-/
namespace Ledger
open Ledger.Parser Ledger.Finalize Ledger.Cli

/-- C88: a transaction is faulty exactly if it has a cause, and it has only one. -/
theorem C88_one_cause (w : Writing) :
    (Faulty w ↔ ∃ k, Cause w k) ∧ ∀ k k', Cause w k → Cause w k' → k = k' :=
  ⟨⟨fun h => h.cause, fun ⟨_, h⟩ => h.faulty⟩, fun _ _ h h' => h.unique h'⟩

theorem FirstCause.unique {ws : List Writing} {k k' : Panic} (h : FirstCause ws k) (h' : FirstCause ws k') : k = k' := by
  obtain ⟨l, w, r, e, h2, h3⟩ := h
  obtain ⟨l', w', r', e', h2', h3'⟩ := h'
  obtain ⟨_, rfl, _⟩ := first_unique (P := Faulty) (e.symm.trans e') h2 h2' h3.faulty h3'.faulty
  exact h3.unique h3'

theorem decides_cause {ws : List Writing} {run : Journal → Res Journal} (h : Decides ws run) {j : Journal} (hj : Readable j)
    (k : Panic) : run j = .error k ↔ FirstCause ws k := by
  rcases h j hj with ⟨j', _, _, h1, _, _, h4⟩ | ⟨e, he, hf⟩
  · constructor
    · intro h; rw [h1] at h; cases h
    · intro h
      obtain ⟨w, hw, hf⟩ := h.faulty
      exact absurd hf (h4 w hw)
  · rw [he]
    exact ⟨fun h => by injection h with h; subst h; exact hf, fun h => by rw [hf.unique h]⟩

/-- C88: reading a text ends with a panic exactly if a transaction is faulty, and it is the panic of the first one. -/
theorem C88_first_fault (files : Files) (depth : Nat) {text : Str} {lines : List Str} {ws : List Writing}
    (ht : LinesOf text lines) (hs : Says files depth lines ws) (hd : ∀ w ∈ ws, Everyday w) {j : Journal}
    (hj : j.Reachable) (hl : j.pool.OrdinaryLots) (k : Panic) :
    parseText files depth text j = .error k ↔ FirstCause ws k :=
  decides_cause (parseText_decides files depth ht hs hd) ⟨hj.booked.wf, hj.pools, hl⟩ k

theorem readable_new : Readable Journal.new :=
  ⟨Journal.Reachable.new.booked.wf, Journal.Reachable.new.pools, by intro s ann pr h; cases h⟩

/-- C88: likewise a command on several files: the first faulty transaction in the order of the files decides. -/
theorem C88_run (files : Files) (depth : Nat) {fs : List Str} {wss : List (List Writing)}
    (hf : List.Forall₂ (FileSays files depth) fs wss) (hd : ∀ w ∈ wss.flatten, Everyday w)
    (ht : Roomy (allEntries wss.flatten)) {args rest : List Str} {verb : Str}
    (ha : Options.processArguments args = .ok (verb :: rest, fs)) (hv : BalanceVerb verb ∨ AccountsVerb verb) (k : Panic) :
    run files depth args = .error k ↔ FirstCause wss.flatten k := by
  have hread := decides_cause (readFiles_decides files depth hf hd) readable_new
  constructor
  · intro hk
    by_cases hfl : ∃ w ∈ wss.flatten, Faulty w
    · obtain ⟨l, w, r, e, h2, h3⟩ := first_exists hfl
      obtain ⟨k', h4⟩ := h3.cause
      have hk' := (hread k').mpr ⟨l, w, r, e, h2, h4⟩
      suffices run files depth args = .error k' by
        rw [this] at hk
        injection hk with hk
        subst hk
        exact ⟨l, w, r, e, h2, h4⟩
      rcases hv with hv | hv
      · rw [C60_balance files depth args rest fs verb ha hv, hk']
        rfl
      · obtain ⟨c, cs, rfl⟩ : ∃ c cs, verb = c :: cs := by
          cases verb with
          | nil => simp [AccountsVerb] at hv
          | cons c cs => exact ⟨c, cs, rfl⟩
        have hc : c = 'a' := by simpa [AccountsVerb] using hv
        subst hc
        simp only [run, ha, bind, Except.bind]
        rw [C28_accounts_command, hk']
        rfl
    · have hn : ∀ w ∈ wss.flatten, ¬ Faulty w := fun w hw h => hfl ⟨w, hw, h⟩
      exfalso
      rcases hv with hv | hv
      · obtain ⟨_, out, _, h, _⟩ := (C81_report files depth hf hd ht ha hv).2 hn
        rw [h] at hk; cases hk
      · obtain ⟨out, h, _⟩ := (C81_accounts files depth hf hd ha hv).2 hn
        rw [h] at hk; cases hk
  · intro hk
    have hk' := (hread k).mpr hk
    rcases hv with hv | hv
    · rw [C60_balance files depth args rest fs verb ha hv, hk']
      rfl
    · obtain ⟨c, cs, rfl⟩ : ∃ c cs, verb = c :: cs := by
        cases verb with
        | nil => simp [AccountsVerb] at hv
        | cons c cs => exact ⟨c, cs, rfl⟩
      have hc : c = 'a' := by simpa [AccountsVerb] using hv
      subst hc
      simp only [run, ha, bind, Except.bind]
      rw [C28_accounts_command, hk']
      rfl

/-! ### examples -/

namespace CausesExample
open LinesExample FaultsExample

/-- A journal in which the second and the third transaction are faulty. -/
def text : List Str :=
  [str "2023-05-01 Shop  ; food\n", str "    Expenses:Food  20.50 EUR\n", str "    Assets:Cash\n", str "\n",
   str "2023-05-01 Shop  ; food\n", str "    Assets:Cash\n", str "    Assets:Cash\n", str "\n",
   str "2023-05-01 Shop  ; food\n", str "    Expenses:Food  20.50 EUR\n"]

def bread : Entry := { food with comments := [] }
def first : Writing := { shop with entries := [bread, cash] }
def second : Writing := { shop with entries := [cash, cash] }
def third : Writing := { shop with entries := [bread] }

theorem lines : Says (fun _ => none) 0 text [first, second, third] := by
  have h1 : XactLines [str "2023-05-01 Shop  ; food\n", str "    Expenses:Food  20.50 EUR\n", str "    Assets:Cash\n"] first :=
    ⟨_, [], [[_], [_]], rfl, shopHeader, .nil, .cons ⟨_, [], rfl, foodLine, .nil⟩ (.cons ⟨_, [], rfl, cashLine, .nil⟩ .nil)⟩
  have h2 : XactLines [str "2023-05-01 Shop  ; food\n", str "    Assets:Cash\n", str "    Assets:Cash\n"] second :=
    ⟨_, [], [[_], [_]], rfl, shopHeader, .nil, .cons ⟨_, [], rfl, cashLine, .nil⟩ (.cons ⟨_, [], rfl, cashLine, .nil⟩ .nil)⟩
  have h3 : XactLines [str "2023-05-01 Shop  ; food\n", str "    Expenses:Food  20.50 EUR\n"] third :=
    ⟨_, [], [[_]], rfl, shopHeader, .nil, .cons ⟨_, [], rfl, foodLine, .nil⟩ .nil⟩
  exact .xact h1 (line := str "\n") (Or.inl ⟨'\n', [], rfl, Or.inl rfl⟩)
    (.xact h2 (line := str "\n") (Or.inl ⟨'\n', [], rfl, Or.inl rfl⟩) (.last h3))

theorem size_bread : bread.size = 41 / 2 := size_food

theorem everyday : ∀ w ∈ [first, second, third], Everyday w := by
  have key : ∀ w, (∀ e ∈ w.entries, e = bread ∨ e = cash) → w.entries.length ≤ 2 → Everyday w := by
    intro w h hl
    refine .of_billion ?_ ?_ (by omega) ?_
    · intro e he
      have : ∀ e ∈ [bread, cash], (∀ a ∈ e.amount, a.qty.scale ≤ 9) ∧ e.worthDecimals ≤ 9 := by decide
      exact this e (by simpa using h e he)
    · have hb : ∀ es : List Entry, (∀ e ∈ es, e = bread ∨ e = cash) → (es.map (·.size)).sum ≤ es.length * 21 := by
        intro es
        induction es with
        | nil => intro _; simp
        | cons e es ih =>
          intro h
          have := ih (fun e he => h e (List.mem_cons_of_mem _ he))
          rw [List.map_cons, List.sum_cons, List.length_cons]
          have : e.size ≤ 21 := by
            rcases h e List.mem_cons_self with rfl | rfl
            · rw [size_bread]; norm_num
            · rw [size_cash]; norm_num
          push_cast
          linarith
      refine le_trans (hb _ h) ?_
      have : (w.entries.length : ℚ) ≤ 2 := by exact_mod_cast hl
      norm_num
      linarith
    · intro e he pr hp
      have : ∀ e ∈ [bread, cash], e.lot.price = none := by decide
      rw [this e (by simpa using h e he)] at hp; cases hp
  intro w hw
  simp only [List.mem_cons, List.not_mem_nil, or_false] at hw
  rcases hw with rfl | rfl | rfl <;> refine key _ ?_ (by decide) <;> intro e he <;>
    simp only [first, second, third, List.mem_cons, List.not_mem_nil, or_false] at he <;> tauto

/-- It is the second transaction whose fault is reported. -/
example : FirstCause [first, second, third] .secondNullPost ∧
    parseText (fun _ => none) 0 text.flatten Journal.new = .error .secondNullPost := by
  have h : parseText (fun _ => none) 0 text.flatten Journal.new = .error .secondNullPost := by decide +kernel
  exact ⟨(C88_first_fault (fun _ => none) 0 (linesOf_of (by decide)) lines everyday .new
    (by intro s ann pr h; cases h) _).mp h, h⟩

/-- A cost in the commodity of the amount, before a blank posting beside two commodities. -/
example : Cause { shop with entries := [bread, { stocks with cost := none }, { bread with cost := some (true, eur false 2 0) }, cash] }
    .costSameCommodity := by
  have h0 : ∀ e : Entry, e ∈ [bread, { stocks with cost := none }] → e.cost = none := by decide
  refine .cost [bread, { stocks with cost := none }] [cash] _ _ ?_ (by decide) rfl ?_ ?_
  · rintro ⟨l, m, r, e, f, h, he, hf⟩
    have h1 := congrArg (List.countP (fun e : Entry => e.amount.isNone)) h
    simp only [List.countP_append, List.countP_cons, he, hf, Option.isNone_none, if_true] at h1
    have h2 : List.countP (fun e : Entry => e.amount.isNone)
      [bread, { stocks with cost := none }, { bread with cost := some (true, eur false 2 0) }, cash] = 1 := by decide
    simp only [List.countP_cons] at h2
    omega
  · intro f hf k' hk
    have hi : ∀ A B, ¬ ImpliedBy { shop with entries := [bread, { stocks with cost := none }, { bread with cost := some (true, eur false 2 0) }, cash] } A B :=
      fun A B h => h.1 cash (by simp) rfl
    cases hk with
    | same a ha hc => exact hc (h0 f hf)
    | bare a ha hc => exact hc (h0 f hf)
    | number a ha hc => exact hc (h0 f hf)
    | rateBare a B ha h hi' => exact hi _ _ hi'
    | rateSame a ha h hi' => exact hi _ _ hi'
  · exact .same (eur false 2050 2) rfl (by simp) (fun B h => h.1 cash (by simp) rfl) rfl

/-- The panics of the other causes, from texts. -/
example : parsed "2023-05-01 x\n A  1 EUR\n" = .error .singlePosting ∧
    parsed "2023-05-01 x\n A  1 EUR\n B  1 USD\n C\n" = .error .nullPostCommodities ∧
    parsed "2023-05-01 x\n A  1 EUR\n B  1 USD\n C  2 EUR @ 3 EUR\n D\n" = .error .costSameCommodity ∧
    parsed "2023-05-01 x\n A  2 @ 3 EUR\n D\n" = .error .amountWithoutCommodity ∧
    parsed "2023-05-01 x\n A  2 EUR @@ 3\n D\n" = .error .priceWithoutCommodity ∧
    parsed "2023-05-01 x\n A  2\n B  -3 EUR\n" = .error .amountWithoutCommodity ∧
    parsed "2023-05-01 x\n A  2 EUR\n B  -3\n" = .error .costSameCommodity := by decide +kernel

end CausesExample

end Ledger
