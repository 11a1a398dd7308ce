import Verif.Props.Finalize
import Verif.Lemmas.Classify2
import Verif.Props.Totals
/-
Costs: exactly which written costs are replaced and which have the sign of their amount.  Also, which balance lines cannot be
read back.
-/
namespace Ledger
open Finalize

/-! ### C34 -/

theorem forall₂_refl {R : Post → Post → Prop} (h : ∀ p, R p p) (ps : List Post) : List.Forall₂ R ps ps :=
  List.forall₂_same.mpr fun p _ => h p

/-- **C34** Exactly which costs are replaced.  If no rate is implied every cost stays as written.  If a rate is implied
between `c1` and `c2`, the postings in `c1`, and only these, get the cost rate × amount, whatever cost is written there;
the rate is that of the sums, without its sign. -/
theorem C34_exactly (x x' : Xact) (pool pool' : Pool) (h : finalize x pool = .ok (x', pool'))
    (hr : InRange (bookedAmounts x.posts)) :
    ((∀ c1 c2, ¬ Implied x.posts c1 c2) → List.Forall₂ (fun p p' => p'.cost = p.cost) x.posts x'.posts) ∧
    ∀ c1 c2, Implied x.posts c1 c2 → ∃ u : Dec,
      PreciseTo u |sumIn c2 (bookedAmounts x.posts) / sumIn c1 (bookedAmounts x.posts)| ∧
      List.Forall₂ (fun p p' => ∃ a, p.amount = some a ∧ (a.comm ≠ c1 → p'.cost = p.cost) ∧
        (a.comm = c1 → ∃ c, p'.cost = some c ∧ c.comm = c2 ∧ PreciseTo c.qty (u.val * a.qty.val))) x.posts x'.posts := by
  constructor
  · intro hn
    by_cases hb : ∃ p ∈ x.posts, p.Blank
    · exact (C34_nothing_altered_partial _ _ _ _ h).2.2.2.2.imp fun p p' hp => hp.2.2.2.2 hb
    · simp only [not_exists, not_and] at hb
      obtain ⟨b, b1, g1, _, g3, g4, _⟩ := finalize_full _ _ _ _ h hb
      rcases impliedCosts_else _ _ hr hb g1 with e | ⟨c1, c2, e⟩
      · rw [g3] at e
        simp only [Except.ok.injEq, Prod.mk.injEq] at e
        rw [e.1]
        exact forall₂_refl (R := fun p p' => p'.cost = p.cost) (fun _ => rfl) _
      · exact absurd e (hn c1 c2)
  · intro c1 c2 hi
    have hb := hi.1
    obtain ⟨b, b1, g1, _, g3, g4, g5⟩ := finalize_full _ _ _ _ h hb
    obtain ⟨e1, e2, _, _, k1, k2, k3, k4, k5⟩ := impliedCosts_implied _ _ hr g1 c1 c2 hi
    rw [k5] at g3
    cases hd : e2.div e1 with
    | error e => rw [hd] at g3; simp [bind, Except.bind] at g3
    | ok u =>
      rw [hd] at g3
      simp only [bind, Except.bind] at g3
      have hf := assignCosts_ok _ _ _ _ _ _ g3
      obtain ⟨r1, r2⟩ := (C06_sound e2 e1 u).2 hd
      have hprices := (recordPrices_ok _ _ _ _ _ g5).2.1
      refine ⟨u.abs.qty, ?_, ?_⟩
      · rw [← k3, ← k4]
        exact Dec.precise_abs r1 (C04_abs u).1 (C04_abs u).2.2
      · have hmem : List.Forall₂ (fun p p' => p' ∈ x'.posts ∧ CostAssigned c1 u.abs p p') x.posts x'.posts :=
          List.forall₂_iff_zip.mpr ⟨hf.length_eq, fun {p p'} hp =>
            ⟨(List.of_mem_zip hp).2, (List.forall₂_iff_zip.mp hf).2 hp⟩⟩
        refine hmem.imp ?_
        rintro p p' ⟨hp', amt, ha, ⟨m1, c, m2, m3⟩ | ⟨m1, m2⟩⟩
        · refine ⟨amt, ha, fun hn => absurd m1 hn, fun _ => ⟨c, by rw [m3], ?_, ((C06_sound u.abs amt c).1 m2).1⟩⟩
          obtain ⟨a', ha', hne', _⟩ := hprices p' hp' c (by rw [m3])
          rw [m3] at ha'
          simp only [ha] at ha'
          injection ha' with ha'
          subst ha'
          have hcc := ((C06_sound u.abs amt c).1 m2).2
          have huc : u.abs.comm = u.comm := rfl
          rw [hcc] at hne' ⊢
          unfold resultComm at r2 hne' ⊢
          rw [huc, r2, k1, k2, m1] at hne' ⊢
          revert hne'
          cases c1 <;> cases c2 <;> simp
        · exact ⟨amt, ha, fun _ => by rw [m2], fun hn => absurd hn m1⟩

/-- Ten euros that cost eleven dollars, five euros and six dollars back: a rate is implied, and the written cost is replaced. -/
def replaced : Xact :=
  { date := some ⟨2023, 5, 1⟩, auxDate := none, payee := str "p", note := none,
    posts := [⟨[str "A"], some ⟨⟨false, 10, 0⟩, some (str "EUR")⟩, some ⟨⟨false, 11, 0⟩, some (str "USD")⟩, none⟩,
      ⟨[str "B"], some ⟨⟨true, 5, 0⟩, some (str "EUR")⟩, none, none⟩,
      ⟨[str "C"], some ⟨⟨true, 6, 0⟩, some (str "USD")⟩, none, none⟩] }

example : Implied replaced.posts (some (str "EUR")) (some (str "USD")) ∧
    ∃ x' pool', finalize replaced ((Pool.empty.findOrCreate (str "EUR") none).1.findOrCreate (str "USD") none).1 = .ok (x', pool') ∧
      x'.posts.map (·.cost) = [some ⟨⟨false, 10, 0⟩, some (str "USD")⟩, some ⟨⟨true, 5, 0⟩, some (str "USD")⟩, none] := by
  have hne : str "USD" ≠ str "EUR" := by decide
  have hb : bookedAmounts replaced.posts =
      [⟨⟨false, 11, 0⟩, some (str "USD")⟩, ⟨⟨true, 5, 0⟩, some (str "EUR")⟩, ⟨⟨true, 6, 0⟩, some (str "USD")⟩] := rfl
  constructor
  · refine ⟨?_, by decide, ?_, ?_, ?_, _, _, rfl, rfl, by decide⟩
    · intro p hp; revert p; decide
    · rw [hb]; decide
    · rw [hb]; simp [sumIn, Amount.valIn, Dec.val_mk, Dec.sgn, hne]
    · rw [hb]; simp [sumIn, Amount.valIn, Dec.val_mk, Dec.sgn, Ne.symm hne]; norm_num
  · have h : (match finalize replaced ((Pool.empty.findOrCreate (str "EUR") none).1.findOrCreate (str "USD") none).1 with
        | .ok (x', _) => decide (x'.posts.map (·.cost) =
            [some ⟨⟨false, 10, 0⟩, some (str "USD")⟩, some ⟨⟨true, 5, 0⟩, some (str "USD")⟩, none])
        | .error _ => false) = true := by decide +kernel
    split at h
    · rename_i x' pool' e; exact ⟨x', pool', e, of_decide_eq_true h⟩
    · cases h

/-! ### C37 -/

theorem forall₂_pair {R : Post → Post → Prop} {l l' : List Post} (h : List.Forall₂ R l l') {p : Post} (hp : p ∈ l) :
    ∃ p' ∈ l', R p p' := by
  induction h with
  | nil => cases hp
  | cons h1 _ ih =>
    rcases List.mem_cons.mp hp with rfl | hp
    · exact ⟨_, List.mem_cons_self, h1⟩
    · obtain ⟨p', h2, h3⟩ := ih hp
      exact ⟨p', List.mem_cons_of_mem _ h2, h3⟩

/-- **C37** The only way in which a posting with a cost in its own commodity is accepted: a rate from this commodity to another
is implied, and the cost is replaced. -/
theorem C37_exactly (x x' : Xact) (pool pool' : Pool) (h : finalize x pool = .ok (x', pool'))
    (hr : InRange (bookedAmounts x.posts)) {p : Post} {a c : Amount} (hp : p ∈ x.posts) (ha : p.amount = some a)
    (hc : p.cost = some c) (hsame : a.comm = c.comm) : ∃ c2, Implied x.posts a.comm c2 := by
  by_cases hb : ∃ q ∈ x.posts, q.Blank
  · obtain ⟨e, he⟩ := C37_same_commodity_partial x pool p a c hp ha hc hsame hr (Or.inl hb)
    rw [h] at he; cases he
  · simp only [not_exists, not_and] at hb
    obtain ⟨_, _, _, _, _, _, g5⟩ := finalize_full _ _ _ _ h hb
    have hprices := (recordPrices_ok _ _ _ _ _ g5).2.1
    have kept : ∀ p' ∈ x'.posts, p'.cost = p.cost → p'.amount = p.amount → False := by
      intro p' hp' h1 h2
      obtain ⟨a', k1, k2, _⟩ := hprices p' hp' c (h1.trans hc)
      rw [h2, ha] at k1
      injection k1 with k1
      subst k1
      exact k2 hsame
    have halt := (C34_nothing_altered_partial _ _ _ _ h).2.2.2.2
    have both {R : Post → Post → Prop} (hR : List.Forall₂ R x.posts x'.posts) :
        ∃ p' ∈ x'.posts, R p p' ∧ p'.amount = p.amount := by
      have : List.Forall₂ (fun p p' => R p p' ∧ (p.amount ≠ none → p'.amount = p.amount)) x.posts x'.posts :=
        List.forall₂_iff_zip.mpr ⟨hR.length_eq, fun {q q'} hq =>
          ⟨(List.forall₂_iff_zip.mp hR).2 hq, ((List.forall₂_iff_zip.mp halt).2 hq).2.2.1⟩⟩
      obtain ⟨p', h1, h2, h3⟩ := forall₂_pair this hp
      exact ⟨p', h1, h2, h3 (by rw [ha]; simp)⟩
    by_cases hi : ∃ c1 c2, Implied x.posts c1 c2
    · obtain ⟨c1, c2, hi⟩ := hi
      obtain ⟨u, _, hf⟩ := (C34_exactly x x' pool pool' h hr).2 c1 c2 hi
      obtain ⟨p', h1, ⟨a', h2, h3, _⟩, h4⟩ := both hf
      rw [ha] at h2
      injection h2 with h2
      subst h2
      by_cases he : a.comm = c1
      · exact ⟨c2, he ▸ hi⟩
      · exact (kept p' h1 (h3 he) h4).elim
    · simp only [not_exists] at hi
      obtain ⟨p', h1, h2, h4⟩ := both ((C34_exactly x x' pool pool' h hr).1 hi)
      exact (kept p' h1 h2 h4).elim

/-- Ten euros that cost five euros, and three dollars back. -/
def ownCost : Xact :=
  { date := some ⟨2023, 5, 1⟩, auxDate := none, payee := str "p", note := none,
    posts := [⟨[str "A"], some ⟨⟨false, 10, 0⟩, some (str "EUR")⟩, some ⟨⟨false, 5, 0⟩, some (str "EUR")⟩, none⟩,
      ⟨[str "B"], some ⟨⟨true, 3, 0⟩, some (str "USD")⟩, none, none⟩] }

example : (match finalize ownCost ((Pool.empty.findOrCreate (str "EUR") none).1.findOrCreate (str "USD") none).1 with
    | .ok (x', _) => decide (x'.posts.map (·.cost) = [some ⟨⟨false, 60, 1⟩, some (str "USD")⟩, none])
    | .error _ => false) = true := by decide +kernel

/-! ### C38 -/

/-- **C38** Exactly which costs have the sign of the amount, for all costs that are not negative: per-unit costs, and total
costs of a positive amount or of nothing. -/
theorem C38_exactly (t : Scanner.PostTokens) (a c : Amount) (q : Dec) (pool pool' : Pool)
    (h : Parser.parseCost t (some a) pool = .ok (pool', some c)) (hq : Dec.fromStr t.costQuantity = some q) (h0 : 0 ≤ q.val) :
    ((0 ≤ a.qty.val → 0 ≤ c.qty.val) ∧ (a.qty.val ≤ 0 → c.qty.val ≤ 0)) ↔ t.isPerUnit = true ∨ 0 < a.qty.val ∨ q.val = 0 := by
  obtain ⟨h1, h2⟩ := C38_cost_sign_partial t a c q pool pool' h hq
  cases hp : t.isPerUnit with
  | true => exact ⟨fun _ => Or.inl rfl, fun _ => ⟨(h1 hp h0).1, (h1 hp h0).2.1⟩⟩
  | false =>
    rw [h2 hp]
    constructor
    · rintro ⟨_, h4⟩
      rcases lt_or_ge 0 a.qty.val with hlt | hge
      · exact Or.inr (Or.inl hlt)
      · exact Or.inr (Or.inr (le_antisymm (h4 hge) h0))
    · rintro (h3 | h3 | h3)
      · cases h3
      · exact ⟨fun _ => h0, fun h4 => absurd h4 (not_le.mpr h3)⟩
      · exact ⟨fun _ => h0, fun _ => le_of_eq h3⟩

/-! ### C27 -/

theorem digitsAux_fuel (f g n : Nat) (acc : Str) (hf : n < f) (hg : n < g) : Dec.digitsAux f n acc = Dec.digitsAux g n acc := by
  induction n using Nat.strong_induction_on generalizing f g acc with
  | _ n ih =>
    cases f with
    | zero => omega
    | succ f =>
      cases g with
      | zero => omega
      | succ g =>
        simp only [Dec.digitsAux]
        split
        · rfl
        · exact ih _ (by omega) _ _ _ (by omega) (by omega)

theorem digitsAux_acc (f n : Nat) (acc : Str) : Dec.digitsAux f n acc = Dec.digitsAux f n [] ++ acc := by
  induction f generalizing n acc with
  | zero => rfl
  | succ f ih =>
    simp only [Dec.digitsAux]
    split
    · rfl
    · rw [ih, ih _ [_]]; simp

theorem natDigits_small {n : Nat} (h : n < 10) : Dec.natDigits n = [Dec.digitChar n] := by
  unfold Dec.natDigits
  simp only [Dec.digitsAux]
  rw [if_pos (by omega), Nat.mod_eq_of_lt h]

theorem natDigits_step {n r : Nat} (hn : 0 < n) (hr : r < 10) : Dec.natDigits (10 * n + r) = Dec.natDigits n ++ [Dec.digitChar r] := by
  unfold Dec.natDigits
  rw [Dec.digitsAux, if_neg (by omega), digitsAux_acc, show (10 * n + r) / 10 = n by omega, show (10 * n + r) % 10 = r by omega,
    digitsAux_fuel (10 * n + r) (n + 1) n [] (by omega) (by omega)]

/-- Digits after digits are the digits of one number. -/
theorem natDigits_append {n : Nat} (hn : 0 < n) (m : Nat) :
    Dec.natDigits (n * 10 ^ (Dec.natDigits m).length + m) = Dec.natDigits n ++ Dec.natDigits m := by
  induction m using Nat.strong_induction_on with
  | _ m ih =>
    by_cases h : m < 10
    · rw [natDigits_small h, List.length_singleton, pow_one, Nat.mul_comm, natDigits_step hn h]
    · have hm : m = 10 * (m / 10) + m % 10 := by omega
      have hd : Dec.natDigits m = Dec.natDigits (m / 10) ++ [Dec.digitChar (m % 10)] := by
        conv_lhs => rw [hm]
        exact natDigits_step (by omega) (by omega)
      have := ih (m / 10) (by omega)
      rw [hd, List.length_append, List.length_singleton, pow_succ, ← List.append_assoc, ← this,
        ← natDigits_step (by positivity) (show m % 10 < 10 by omega)]
      congr 1
      rw [Nat.mul_add]
      nlinarith [Nat.div_add_mod m 10]

/-- **C27** is violated for every whole number without commodity that is followed by a whole number that is not negative: the line
is the same as that of the number written with the digits of both. -/
theorem C27_whole_violated (n : Str) (l r : List Amount) (d e : Nat) (hd : 0 < d) (c : Option Str) :
    ∃ k, Report.balanceLine n ⟨l ++ ⟨⟨false, d, 0⟩, none⟩ :: ⟨⟨false, e, 0⟩, c⟩ :: r⟩ =
        Report.balanceLine n ⟨l ++ ⟨⟨false, d * 10 ^ k + e, 0⟩, c⟩ :: r⟩ ∧ e < 10 ^ k := by
  refine ⟨(Dec.natDigits e).length, ?_, ?_⟩
  · have hx : ∀ m : Nat, Dec.display ⟨false, m, 0⟩ = Dec.natDigits m := fun m => rfl
    rw [balanceLine_eq, balanceLine_eq]
    unfold lineText
    simp only [List.map_append, List.map_cons, List.flatten_append, List.flatten_cons]
    cases c <;> simp [entryText, hx, natDigits_append hd]
  · induction e using Nat.strong_induction_on with
    | _ e ih =>
      by_cases h : e < 10
      · rw [natDigits_small h]; simpa using h
      · have hm : e = 10 * (e / 10) + e % 10 := by omega
        have hdg : Dec.natDigits e = Dec.natDigits (e / 10) ++ [Dec.digitChar (e % 10)] := by
          conv_lhs => rw [hm]
          exact natDigits_step (by omega) (by omega)
        have := ih (e / 10) (by omega)
        rw [hdg, List.length_append, List.length_singleton, pow_succ]
        omega

example : Report.balanceLine (str "A") ⟨[⟨⟨false, 20, 0⟩, none⟩, ⟨⟨false, 5, 0⟩, some (str "EUR")⟩]⟩ =
    str "Account A has balance 205 EUR" := by decide +kernel

end Ledger
