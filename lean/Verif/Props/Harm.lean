import Verif.Lemmas.Harm
import Verif.Props.Found
/-
C99: when a run turns a null pointer into a reference.
-/
namespace Ledger
open Ledger.Parser Ledger.Cli

/-- C99: reading any lines turns a null pointer into a reference exactly if they have a transaction without commodities
with a blank posting, and neither it nor one before it is faulty; whatever is faulty or refused after it. -/
theorem C99_reading (files : Files) (depth : Nat) {src : Source} {is : List Item} {e : Ending}
    (hs : SaysUpTo files depth src is e) (hd : ∀ w ∈ touched is e, Everyday w) {j : Journal} (hj : j.Reachable)
    (hl : j.pool.OrdinaryLots) :
    .nullReference ∈ (Trace.parse files depth src j).events ↔ BareMet (writings is) :=
  (parse_exposes files depth hs hd).2 j ⟨hj.booked.wf, hj.pools, hl⟩

/-- C99: so does a run of a command, whatever its verb, if it has one. -/
theorem C99_run (files : Files) (depth : Nat) {fs : List Str} {is : List Item} {e : Ending}
    (hf : FilesSay files depth fs is e) (hd : ∀ w ∈ touched is e, Everyday w) {args rest : List Str} {verb : Str}
    (ha : Options.processArguments args = .ok (verb :: rest, fs)) :
    .nullReference ∈ (Trace.run files depth args).events ↔ BareMet (writings is) := by
  rw [← (readFiles_exposes files depth hf hd).2 Journal.new ⟨Journal.Reachable.new.booked.wf, Journal.Reachable.new.pools,
    by intro s ann pr h; cases h⟩]
  show Harms _ ↔ _
  unfold Trace.run
  rw [harms_bind, or_iff_right (not_harms_lift _), Trace.res_lift, ha]
  simp only [Except.ok.injEq, exists_eq_left', Trace.executeCommand, harms_bind, not_harms_lift, and_false, exists_false,
    or_false]

/-- C99: if the command line is refused or has no verb, no file is read and none is made. -/
theorem C99_refused (files : Files) (depth : Nat) {args : List Str}
    (ha : ∀ verb rest fs, Options.processArguments args ≠ .ok (verb :: rest, fs)) :
    .nullReference ∉ (Trace.run files depth args).events := by
  show ¬ Harms _
  unfold Trace.run
  rw [harms_bind, or_iff_right (not_harms_lift _), Trace.res_lift]
  rintro ⟨⟨cs, fs⟩, h, hx⟩
  cases cs with
  | nil => exact not_harms_lift _ hx
  | cons v r => exact ha v r fs h

namespace HarmExample
open LinesExample FaultsExample CausesExample FoundExample

/-- The purchase of the example for C92 without its commodity. -/
def five : Entry := { food with amount := some ⟨⟨false, 5, 0⟩, none⟩, comments := [] }
def bareShop : Writing := { shop with entries := [five, cash] }

def bareText : Source :=
  [some (str "2023-05-01 Shop  ; food\n"), some (str "    Expenses:Food  5\n"), some (str "    Assets:Cash\n"), some (str "\n"),
   some (str "account Assets\n")]

theorem fiveLine : EntryLine (str "    Expenses:Food  5\n") five := by
  refine ⟨str "   Expenses:Food  5\n", rfl, ?_⟩
  have e : str "   Expenses:Food  5\n" =
      str "   " ++ str "Expenses:Food" ++ ' ' :: ' ' :: [] ++ str "5" ++ [] ++ [] ++ str "\n" := by
    decide
  rw [e]
  exact EntryText.full b3 (accountText_of ⟨⟨'E', by decide, by decide, by decide⟩, by decide, by decide⟩) b0
    ⟨str "5", [], .plain (quantityText_of (by decide)), (C02_parse_exact _ _).mp (by decide), by decide⟩
    noLot noCost (.blank nl) (fun _ => rfl) (by intro h; cases h)

theorem bareSays : SaysUpTo (fun _ => none) 0 bareText [.xact bareShop] (.stop .unsupportedDirective) := by
  refine .xact (w := bareShop) (tail := some (str "\n") :: _) shopHeader
    (.posting (e := five) fiveLine (.posting cashLine (.stop (Or.inl ⟨_, Or.inr (Or.inl ⟨_, rfl, ?_⟩)⟩)))) (Or.inr (Or.inl ⟨_, rfl, ?_⟩)) ?_
  · exact Or.inl ⟨'\n', [], rfl, Or.inl rfl⟩
  · exact Or.inl ⟨'\n', [], rfl, Or.inl rfl⟩
  · exact .refused ((topPart_iff _ _).mpr (by decide +kernel))

theorem bareEveryday : Everyday bareShop := by
  refine .of_billion ?_ ?_ (by decide) ?_
  · have : ∀ e ∈ [five, cash], (∀ a ∈ e.amount, a.qty.scale ≤ 9) ∧ e.worthDecimals ≤ 9 := by decide
    exact this
  · have : five.size = 5 := by
      show |(Dec.mk false 5 0).val| = 5
      simp only [Dec.val_mk, Dec.sgn]; norm_num
    change (List.map (·.size) [five, cash]).sum ≤ _
    simp only [List.map_cons, List.map_nil, List.sum_cons, List.sum_nil, this, size_cash]
    norm_num
  · intro e he pr hp
    have : ∀ e ∈ [five, cash], e.lot.price = none := by decide
    rw [this e he] at hp; cases hp

theorem bareSound : ¬ Faulty bareShop := by
  intro h
  obtain ⟨k, hk⟩ := h.cause
  have h1 := (C92_panic _ _ bareSays (by intro w hw; obtain rfl : w = bareShop := (by simpa [touched, writings] using hw); exact bareEveryday) .new
    (by intro s ann pr h; cases h) k).mpr (Or.inl ⟨[], bareShop, [], rfl, by simp, hk⟩)
  have h2 : parse (fun _ => none) 0 bareText Journal.new = .error .unsupportedDirective := by decide +kernel
  rw [h2] at h1
  injection h1 with h1
  subst h1
  cases hk with
  | cost l r e k hb hs h hl he => cases he

/-- The purchase without a commodity makes one, the one in `EUR` does not, though both are refused at a later line. -/
example : .nullReference ∈ (Trace.parse (fun _ => none) 0 bareText Journal.new).events ∧
    .nullReference ∉ (Trace.parse (fun _ => none) 0 refused Journal.new).events := by
  constructor
  · refine (C99_reading _ _ bareSays (by intro w hw; obtain rfl : w = bareShop := (by simpa [touched, writings] using hw); exact bareEveryday) .new
      (by intro s ann pr h; cases h)).mpr ⟨[], bareShop, [], rfl, by simp, bareSound, ⟨cash, by simp [bareShop], rfl⟩, ?_⟩
    have : ∀ e ∈ [five, cash], e.amount ≠ none → e.worthIn = none := by decide
    exact this
  · rw [C99_reading _ _ refusedSays (by
      intro w hw
      exact CausesExample.everyday w (by simp [touched, writings] at hw; simp [hw])) .new (by intro s ann pr h; cases h)]
    rintro ⟨l, w, r, h, _, _, hb⟩
    have hw : w ∈ writings [.price price, .gap, .xact first] := by rw [h]; simp
    obtain rfl : w = first := by simpa [writings] using hw
    exact absurd (hb.bare bread (by simp [first]) (by decide)) (by decide)

/-- The same in a run. -/
example : .nullReference ∈ (Trace.run (fun f => if f = str "a" then some bareText else none) 0
    [str "accounts", str "-f", str "a"]).events := by
  decide +kernel

end HarmExample

end Ledger
