import Verif.Lemmas.MachineFault
import Verif.Props.SafeReport
/-
C108: which panic the program ends with, with its pointers, when a line is refused or a transaction is faulty.
-/
namespace Ledger
open Ledger.Parser Ledger.Cli Ledger.Heap Ledger.Memory

/-- C108: a refused line ends the program with its own panic exactly if what was read before needed no stale pointer; otherwise
the program follows a stale pointer first.  This holds whatever is to be done with the journal. -/
theorem C108_refused (stays : Nat → Bool) (files : Files) (depth : Nat) {fs : List Str} {is : List Item} {e : Ending}
    (hf : FilesSay files depth fs is e) (hd : ∀ w ∈ touched is e, Everyday w) {args commands : List Str}
    (ha : Options.processArguments args = .ok (commands, fs)) (hc : commands ≠ [])
    (hs : ∀ w ∈ writings is, ¬ Faulty w) {k : Panic} (hk : e.panic = some k) :
    (FreshReading is → Machine.run stays files depth args = .error k) ∧
      (¬ FreshReading is → Machine.run stays files depth args = .error .danglingPointer) := by
  obtain ⟨h1, h2⟩ := (Machine.stride_files files depth hf hd [] Journal.new Machine.Jrn.new readable_new Machine.jrnR_new timed_new).1 k hs hk
  rw [Machine.freshReading_from]
  exact ⟨fun h => run_reading_fails stays ha hc (h1 h), fun h => run_reading_fails stays ha hc (h2 h)⟩

/-- C108: and so with the first faulty transaction: the program ends with the panic of its fault exactly if what comes before
needs no stale pointer and the transaction makes the program follow none until its fault is found; otherwise the program follows a
stale pointer first. -/
theorem C108_fault (stays : Nat → Bool) (files : Files) (depth : Nat) {fs : List Str} {is₁ is₂ : List Item} {w : Writing} {e : Ending}
    (hf : FilesSay files depth fs (is₁ ++ .xact w :: is₂) e) (hd : ∀ v ∈ touched (is₁ ++ .xact w :: is₂) e, Everyday v)
    {args commands : List Str} (ha : Options.processArguments args = .ok (commands, fs)) (hc : commands ≠ [])
    (hs : ∀ v ∈ writings is₁, ¬ Faulty v) {k : Panic} (hk : Cause w k) :
    (FreshReading is₁ ∧ ¬ Trips (mentions is₁) w → Machine.run stays files depth args = .error k) ∧
      (¬ (FreshReading is₁ ∧ ¬ Trips (mentions is₁) w) → Machine.run stays files depth args = .error .danglingPointer) := by
  obtain ⟨h1, h2⟩ := (Machine.stride_files files depth hf hd [] Journal.new Machine.Jrn.new readable_new Machine.jrnR_new timed_new).2
    is₁ w is₂ k rfl hs hk
  rw [Machine.freshReading_from]
  exact ⟨fun h => run_reading_fails stays ha hc (h1 h), fun h => run_reading_fails stays ha hc (h2 h)⟩

/-- C108: a transaction makes the program follow no stale pointer if the table does not move between any amount or cost of it and its
end, nor between the first mention of a commodity with a cost and its end. -/
theorem C108_steady {M : List Str} {w : Writing} (h : XactFresh M w) : ¬ Trips M w := by
  have hamt : ∀ l e r, w.entries = l ++ e :: r → ¬ StaleAmount M w l e := by
    rintro l e r hw ⟨s, hs, hm⟩
    exact h.1.1 l e r s hw hs hm
  have hbook : ∀ l e r, w.entries = l ++ e :: r → ¬ StaleBooked M w l e := by
    rintro l e r hw ⟨hn, hm⟩
    unfold Entry.bookedAfter at hm
    by_cases hk : e.cost.bind (·.2.comm) = none
    · rw [if_pos hk] at hm
      have hc : e.worthIn = e.commodity := by
        unfold Entry.worthIn Entry.commodity at *
        rcases e with ⟨_, amount, _, cost, _, _⟩
        rcases amount with _ | a
        · exact absurd rfl hn
        · rcases cost with _ | ⟨_ | _, c⟩
          · rfl
          · exact absurd hk hn
          · have hk : c.comm = none := hk
            change c.comm.or a.comm = a.comm
            rw [hk]; rfl
      obtain ⟨s, hs⟩ := Option.ne_none_iff_exists'.mp (hc ▸ hn)
      have : e.holder = some s := by unfold Entry.holder; rw [hs]; rfl
      rw [this] at hm
      exact h.1.1 l e r s hw hs hm
    · rw [if_neg hk] at hm
      rcases hs : e.commodity with _ | s
      · exact h.2 l e r hw hs (fun h0 => hk (by rw [h0]; rfl)) hm
      · have h1 := h.1.1 l e r s hw hs
        have hh : e.holder = some s := by unfold Entry.holder; rw [hs]; rfl
        have hp := Machine.holder_prefix (M ++ entryMentions l) e
        rw [hh] at hp
        have hp2 := Machine.mentions_split M hw
        refine (Machine.moves_place ?_ hp2).mpr ?_ hm
        · intro h0
          rw [h0] at hp
          have := List.prefix_nil.mp hp
          simp at this
        · exact Machine.place_between ((Machine.moves_place (by simp) (hp.trans hp2)).mp h1) hp hp2
  rintro (⟨t, l, r, e, ⟨u, hu⟩, _, _, ht, hs⟩ | ⟨A, B, l, r, e, _, hw, hs⟩ | ⟨l, r, e, _, _, hw, _, _, hs⟩ | ⟨l, r, e, _, _, hw, _, _, hc, hs⟩)
  · refine hbook l e (r ++ u) ?_ hs
    rw [← hu, ht]; simp
  · exact hamt l e r hw hs
  · rcases hs with hs | hs
    · exact hamt l e r hw hs
    · exact hbook l e r hw hs
  · obtain ⟨s, pre, h1, h2, h3, h4⟩ := hs
    exact h.1.2 e (by rw [hw]; simp) s h1 hc pre h2 h3 h4

namespace StoppedExample
open StaleExample FoundExample FreshExample LinesExample FaultsExample CausesExample FollowsExample

/-- The first file makes no pointer stale, so that the line that is refused in the second one is what stops the program. -/
example (stays : Nat → Bool) : Machine.run stays shelf 0 [str "bal", str "-f", str "a", str "-f", str "b"] = .error .badXactLine := by
  refine (C108_refused stays shelf 0 (fs := [str "a", str "b"]) (is := [.price price, .xact first]) (e := .inside third .badXactLine)
    (.read (is' := []) (by decide) fileSays (.stop (src := broken) (by decide) otherSays (by decide))) ?_ (commands := [str "bal"])
    (by decide) (by simp) ?_ rfl).1 ?_
  · intro w hw
    have : w = first ∨ w = third := by simpa [touched, writings] using hw
    exact CausesExample.everyday w (by rcases this with rfl | rfl <;> simp)
  · intro w hw
    rw [show w = first by simpa [writings] using hw]
    exact firstSound
  · rw [Machine.freshReading_from]
    exact ⟨not_moves ⟨[str "EUR"], rfl⟩ (by simp) (by decide +kernel), first_fresh _, trivial⟩

/-- Two prices of four commodities, and a directive that is not supported. -/
def stop : Source :=
  [some (str "i 2023-05-02 VEUR 26 EUR \n"), some (str "i 2023-05-02 GOLD 26 USD \n"), some (str "account Assets\n")]

def stopped : Files := fun f => if f = str "a" then some stop else none

theorem stoppedSays : FilesSay stopped 0 [str "a"] [.price price, .price gold] (.stop .unsupportedDirective) :=
  .stop (src := stop) (by decide +kernel) (.price ((topPart_iff _ _).mpr (by decide +kernel)) priceLine
    (.price ((topPart_iff _ _).mpr (by decide +kernel)) goldLine (.refused ((topPart_iff _ _).mpr (by decide +kernel))))) (by decide)

/-- The program does not come as far as the directive, although without its pointers it would. -/
example (stays : Nat → Bool) : Machine.run stays stopped 0 [str "bal", str "-f", str "a"] = .error .danglingPointer ∧
    run stopped 0 [str "bal", str "-f", str "a"] = .error .unsupportedDirective := by
  refine ⟨(C108_refused stays stopped 0 stoppedSays (by intro w hw; simp [touched, writings] at hw) (commands := [str "bal"])
    (by decide) (by simp) (by intro w hw; simp [writings] at hw) rfl).2 ?_, ?_⟩
  · intro h
    exact h [.price price] (.price gold) [] rfl (overfills_of (Or.inl rfl) [str "VEUR", str "EUR", str "GOLD"]
      [str "VEUR", str "EUR", str "GOLD", str "USD"] (fun c hc => hc) (by decide) (by decide) (by decide +kernel) (by decide))
  · exact (C92_run_panic stopped 0 stoppedSays (by intro w hw; simp [touched, writings] at hw) (roomy_of (fun e he => (by cases he)) (by simp [writings, allEntries]))
      (rest := []) (verb := str "bal") (by decide) (Or.inl (by unfold BalanceVerb; decide)) _).mpr
      (Or.inr ⟨by intro w hw; simp [writings] at hw, rfl⟩)

/-- A price, and a transaction with two postings without an amount. -/
def blanks : Files := fun f => if f = str "a" then
  some [some (str "i 2023-05-02 VEUR 26 EUR \n"), some (str "2023-05-01 Shop  ; food\n"), some (str "    Assets:Cash\n"),
    some (str "    Assets:Cash\n")] else none

theorem blanksSays : FilesSay blanks 0 [str "a"] [.price price, .xact second] .done :=
  .read (is := [.price price, .xact second]) (is' := []) (by decide +kernel) (.price ((topPart_iff _ _).mpr (by decide +kernel)) priceLine
    (.xact (w := second) (tail := []) shopHeader (.posting cashLine (.posting cashLine (.stop (Or.inl ⟨_, Or.inl ⟨rfl, rfl⟩⟩))))
      (Or.inl ⟨rfl, rfl⟩) .nil)) .nil

example (stays : Nat → Bool) : Machine.run stays blanks 0 [str "accounts", str "-f", str "a"] = .error .secondNullPost := by
  refine (C108_fault stays blanks 0 (is₁ := [.price price]) (w := second) (is₂ := []) blanksSays ?_ (commands := [str "accounts"])
    (by decide) (by simp) (by intro w hw; simp [writings] at hw) (.blanks ⟨[], [], [], cash, cash, rfl, rfl, rfl⟩)).1 ⟨?_, C108_steady ?_⟩
  · intro w hw
    rw [show w = second by simpa [touched, writings] using hw]
    exact CausesExample.everyday _ (by simp)
  · rw [Machine.freshReading_from]
    exact ⟨not_moves ⟨[str "EUR"], rfl⟩ (by simp) (by decide +kernel), trivial⟩
  · have h0 : ∀ e ∈ second.entries, e.commodity = none ∧ e.cost = none := by decide
    refine ⟨⟨?_, ?_⟩, ?_⟩
    · intro l e r s hl hs
      rw [(h0 e (by rw [hl]; simp)).1] at hs
      cases hs
    · intro e he s hs
      rw [(h0 e he).1] at hs
      cases hs
    · intro l e r hl _ hc
      exact absurd (h0 e (by rw [hl]; simp)).2 hc

/-- Bread, shares, and two postings without an amount. -/
def basket : Writing := { shop with entries := [bread, stocks, cash, cash] }

def basketLines : Source :=
  [some (str "2023-05-01 Shop  ; food\n"), some (str "    Expenses:Food  20.50 EUR\n"),
    some (str "    Assets:Stocks  10 VEUR {20 EUR} [2023-04-01] @ 25 EUR\n"), some (str "    Assets:Cash\n"), some (str "    Assets:Cash\n")]

/-- Alone, and after a price in dollars. -/
def plain : Files := fun f => if f = str "a" then some basketLines else none

@[inherit_doc plain]
def priced : Files := fun f => if f = str "a" then some (some (str "i 2023-05-02 GOLD 26 USD \n") :: basketLines) else none

theorem plainSays : FilesSay plain 0 [str "a"] ([] ++ .xact basket :: []) .done :=
  .read (is := [.xact basket]) (is' := []) (by decide +kernel)
    (.xact (w := basket) (tail := []) shopHeader (.posting (e := bread) foodLine (.posting (e := stocks) stocksLine (.posting cashLine (.posting cashLine
      (.stop (Or.inl ⟨_, Or.inl ⟨rfl, rfl⟩⟩)))))) (Or.inl ⟨rfl, rfl⟩) .nil) .nil

theorem pricedSays : FilesSay priced 0 [str "a"] ([.price gold] ++ .xact basket :: []) .done :=
  .read (is := [.price gold, .xact basket]) (is' := []) (by decide +kernel) (.price ((topPart_iff _ _).mpr (by decide +kernel)) goldLine
    (.xact (w := basket) (tail := []) shopHeader (.posting (e := bread) foodLine (.posting (e := stocks) stocksLine (.posting cashLine (.posting cashLine
      (.stop (Or.inl ⟨_, Or.inl ⟨rfl, rfl⟩⟩)))))) (Or.inl ⟨rfl, rfl⟩) .nil)) .nil

theorem basketEveryday : Everyday basket := by
  refine .of_billion ?_ ?_ (by decide) ?_
  · have : ∀ e ∈ [bread, stocks, cash, cash], (∀ a ∈ e.amount, a.qty.scale ≤ 9) ∧ e.worthDecimals ≤ 9 := by decide
    exact this
  · change (List.map (·.size) [bread, stocks, cash, cash]).sum ≤ _
    simp only [List.map_cons, List.map_nil, List.sum_cons, List.sum_nil, size_bread, size_stocks, size_cash]
    norm_num
  · intro e he pr hp
    have : ∀ e ∈ [bread, stocks, cash, cash], ∀ pr ∈ e.lot.price, pr = eur false 20 0 := by decide
    rw [this e he pr hp]
    change |Dec.val ⟨false, 20, 0⟩| ≤ _
    simp only [Dec.val_mk, Dec.sgn]; norm_num

theorem basketBlanks : Cause basket .secondNullPost := .blanks ⟨[bread, stocks], [], [], cash, cash, rfl, rfl, rfl⟩

theorem basketMentions : entryMentions basket.entries = [str "EUR", str "VEUR", str "EUR", str "EUR"] := by decide +kernel

/-- Alone it makes the program end with its own panic; after the price the shares are the fourth commodity, the table moves, and the
amount of the bread is added up through a stale pointer before the second blank posting is found. -/
example (stays : Nat → Bool) : Machine.run stays plain 0 [str "bal", str "-f", str "a"] = .error .secondNullPost ∧
    Machine.run stays priced 0 [str "bal", str "-f", str "a"] = .error .danglingPointer := by
  refine ⟨(C108_fault stays plain 0 plainSays ?_ (commands := [str "bal"]) (by decide) (by simp) (by intro w hw; simp [writings] at hw)
    basketBlanks).1 ⟨?_, ?_⟩, (C108_fault stays priced 0 pricedSays ?_ (commands := [str "bal"]) (by decide) (by simp)
    (by intro w hw; simp [writings] at hw) basketBlanks).2 ?_⟩
  · intro w hw
    rw [show w = basket by simpa [touched, writings] using hw]
    exact basketEveryday
  · rw [Machine.freshReading_from]
    trivial
  · have few : ∀ pre, ¬ Moves pre ([] ++ entryMentions basket.entries) := by
      rintro pre ⟨k, hk, _, h⟩
      rw [basketMentions] at h
      refine h (atMost_of_list [str "EUR", str "VEUR"] (fun c hc => ?_) ?_)
      · have : c = str "EUR" ∨ c = str "VEUR" ∨ c = str "EUR" := by simpa using hc
        rcases this with rfl | rfl | rfl <;> simp
      · have : 3 ≤ k := by
          rcases hk with rfl | ⟨n, rfl⟩
          · exact Nat.le_refl _
          · have := Nat.one_le_two_pow (n := n)
            omega
        exact Nat.le_trans (by decide) this
    exact C108_steady ⟨⟨fun l e r s _ _ => few _, fun e _ s _ _ pre _ _ => few _⟩, fun l e r _ _ _ => few _⟩
  · intro w hw
    rw [show w = basket by simpa [touched, writings] using hw]
    exact basketEveryday
  · rintro ⟨_, h⟩
    refine h (.sum [bread, stocks] [] [stocks] bread ⟨[cash, cash], rfl⟩ (by decide) (by decide) rfl ⟨by decide, ?_⟩)
    rw [basketMentions]
    exact overfills_of (Or.inl rfl) [str "GOLD", str "USD", str "EUR"] [str "GOLD", str "USD", str "EUR", str "VEUR"]
      (fun c hc => by
        have : c ∈ mentions [.price gold] ++ entryMentions [] ++ bread.bookedAfter := hc
        rw [show mentions [.price gold] ++ entryMentions [] ++ bread.bookedAfter = [str "GOLD", str "USD", str "EUR"] by decide +kernel] at this
        exact this)
      (by decide) (by decide) (by decide +kernel) (by decide)

end StoppedExample

end Ledger
