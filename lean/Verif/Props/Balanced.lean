import Verif.Props.Faults
import Verif.Spec.Balanced
/-
C30: exactly which accepted transactions balance.
-/
namespace Ledger
open Ledger.Parser Ledger.Scanner Ledger.Cli Ledger.Finalize

/-- A quantity that can be represented is what it is rounded to. -/
theorem precise_exact {r : Dec} {x : ℚ} (h : PreciseTo r x) (hx : Representable x) : r.val = x := by
  obtain ⟨S, h1, h2, h3, h4⟩ := h
  obtain ⟨d, ⟨hd1, hd2⟩, rfl⟩ := hx
  rcases h4 with h4 | h4
  · exact h4
  have hs : d.scale ≤ S ∨ d.mant = 0 := by
    by_contra hn
    push Not at hn
    obtain ⟨hn, _⟩ := hn
    rcases h4 with rfl | h4
    · omega
    · apply h4
      unfold Moderate
      have h5 : |d.val * 10 ^ (S + 1)| ≤ d.mant := by
        rw [abs_mul, Dec.abs_val, abs_of_nonneg (by positivity : (0 : ℚ) ≤ 10 ^ (S + 1)), div_mul_eq_mul_div, div_le_iff₀ (by positivity)]
        have : (10 : ℚ) ^ (S + 1) ≤ 10 ^ d.scale := pow_le_pow_right₀ (by norm_num) (by omega)
        exact mul_le_mul_of_nonneg_left this (by positivity)
      have h6 : (d.mant : ℚ) ≤ 2 ^ 96 - 1 := by
        have : d.mant + 1 ≤ 2 ^ 96 := hd1
        have : ((d.mant + 1 : Nat) : ℚ) ≤ ((2 ^ 96 : Nat) : ℚ) := by exact_mod_cast this
        push_cast at this
        linarith
      linarith
  have hint : ∀ q : Dec, q.scale ≤ S ∨ q.mant = 0 → ∃ n : ℤ, q.val * 10 ^ S = n := by
    intro q hq
    rcases hq with hq | hq
    · refine ⟨(if q.neg then -1 else 1) * q.mant * 10 ^ (S - q.scale), ?_⟩
      have e : (10 : ℚ) ^ S = 10 ^ q.scale * 10 ^ (S - q.scale) := by rw [← pow_add]; congr 1; omega
      have e0 : (10 : ℚ) ^ q.scale ≠ 0 := by positivity
      rw [Dec.val_eq, e, ← mul_assoc, div_mul_cancel₀ _ e0]
      unfold Dec.sgn
      push_cast
      rfl
    · refine ⟨0, ?_⟩
      have : |q.val| = 0 := by rw [Dec.abs_val, hq]; simp
      rw [abs_eq_zero.mp this]; simp
  obtain ⟨n, hn⟩ := hint r (Or.inl h1)
  obtain ⟨m, hm⟩ := hint d hs
  have h5 : |(n : ℚ) - m| ≤ 1 / 2 := by
    rw [← hn, ← hm, ← sub_mul, abs_mul, abs_of_nonneg (by positivity : (0 : ℚ) ≤ 10 ^ S)]
    rw [le_div_iff₀ (by positivity)] at h3
    exact h3
  have h6 : n = m := by
    have h7 : |n - m| < 1 := by
      have : ((|n - m| : ℤ) : ℚ) < 1 := by push_cast; linarith
      exact_mod_cast this
    have := Int.abs_lt_one_iff.mp h7
    omega
  rw [h6, ← hm] at hn
  exact mul_right_cancel₀ (by positivity : (10 : ℚ) ^ S ≠ 0) hn

theorem entriesSum_other {es : List Entry} {c : Option Str} (h : ∀ e ∈ es, e.worthIn ≠ c) : entriesSum es c = 0 := by
  unfold entriesSum
  apply List.sum_eq_zero
  intro y hy
  obtain ⟨e, he, rfl⟩ := List.mem_map.mp hy
  rw [if_neg (h e he)]

theorem worth_blank {e : Entry} (h : e.amount = none) : e.worth = 0 := by unfold Entry.worth; rw [h]

/-- Without an implied rate. -/
theorem settles_plain {w w' : Writing} (h : Settles w w') (hp : ∀ e ∈ w.entries, e.amount = none → e.cost = none)
    (hn : ∀ A B, ¬ ImpliedBy w A B) : EntriesBalance w'.entries ↔ LeavesNothing w := by
  unfold LeavesNothing
  cases h with
  | kept ha _ =>
    constructor
    · exact fun h => Or.inl ⟨ha, h⟩
    · rintro (⟨_, h⟩ | ⟨⟨e, he, h⟩, _⟩)
      · exact h
      · exact absurd h (ha e he)
  | rated A B u es h _ _ => exact absurd h (hn A B)
  | filled l r e a h he hq ha hd hx =>
    have hs : ∀ c, entriesSum w.entries c = entriesSum (l ++ r) c := by
      intro c
      rw [h, entriesSum_append, entriesSum_cons, entriesSum_append, worth_blank he, ite_self, zero_add]
    have hc := hp e (by rw [h]; simp) he
    have hs' : ∀ c, entriesSum (l ++ { e with amount := some a } :: r) c =
        (if a.comm = c then a.qty.val else 0) + entriesSum (l ++ r) c := by
      intro c
      rw [entriesSum_append, entriesSum_cons, entriesSum_append]
      have h1 : Entry.worthIn { e with amount := some a } = a.comm := by unfold Entry.worthIn; simp only [hc]
      have h2 : Entry.worth { e with amount := some a } = a.qty.val := by unfold Entry.worth; simp only [hc]
      rw [h1, h2]
      ring
    have h0 : ∀ c, c ≠ a.comm → entriesSum (l ++ r) c = 0 := fun c hne =>
      entriesSum_other (fun q hq' => by rw [(hq q hq').2]; exact fun h => hne h.symm)
    have hbl : ∃ q ∈ w.entries, q.amount = none := ⟨e, by rw [h]; simp, he⟩
    constructor
    · intro hb
      refine Or.inr ⟨hbl, fun c => ?_⟩
      rw [hs]
      by_cases hca : c = a.comm
      · have := hb a.comm
        rw [hs', if_pos rfl, ha] at this
        rw [hca]
        have := abs_nonneg (entriesSum (l ++ r) a.comm)
        linarith
      · rw [h0 c hca]
    · rintro (⟨h1, _⟩ | ⟨_, h1⟩)
      · exact absurd he (h1 e (by rw [h]; simp))
      · intro c
        change entriesSum (l ++ { e with amount := some a } :: r) c = 0
        rw [hs']
        by_cases hca : c = a.comm
        · have := h1 a.comm
          rw [hs] at this
          rw [hca, if_pos rfl, ha, abs_of_nonneg this]
          ring
        · rw [if_neg (fun h => hca h.symm), h0 c hca, add_zero]

/-- With an implied rate. -/
theorem settles_rate {w w' : Writing} (h : Settles w w') {A B : Option Str} (hi : ImpliedBy w A B) (hc : ∀ e ∈ w.entries, e.cost = none)
    (hx : ExactRate w A B) : EntriesBalance w'.entries ↔ entriesSum w.entries A * entriesSum w.entries B < 0 := by
  have hin : ∀ e ∈ w.entries, e.worthIn = e.commodity ∧ ∃ a, e.amount = some a ∧ e.worth = a.qty.val := by
    intro e he
    obtain ⟨a, ha⟩ := Option.ne_none_iff_exists'.mp (hi.1 e he)
    refine ⟨?_, a, ha, ?_⟩
    · unfold Entry.worthIn Entry.commodity; rw [ha, hc e he]; rfl
    · unfold Entry.worth; rw [ha, hc e he]
  have hAB : ∀ {A' B' : Option Str}, ImpliedBy w A' B' → A' = A ∧ B' = B := by
    intro A' B' h'
    obtain ⟨_, hne, hall, hA, hB, e, he, hh⟩ := hi
    obtain ⟨_, hne', hall', hA', hB', e', he', hh'⟩ := h'
    rw [he] at he'
    injection he' with he'
    subst he'
    have hw := (hin e (List.mem_of_mem_head? (by rw [he]; rfl))).1
    have h1 := hh.mpr hw.symm
    have h2 := hh'.mpr hw.symm
    have h3 : A' = A := by rw [← h1, ← h2]
    refine ⟨h3, ?_⟩
    obtain ⟨f, hf, hfw⟩ := entriesSum_ne hB
    rcases hall' f hf with h4 | h4
    · exact absurd (by rw [← hfw, h4, h3]) hne
    · rw [← hfw, h4]
  cases h with
  | kept _ hn => exact absurd hi (hn A B)
  | filled l r e a h he hq ha hd hx => exact absurd he (hi.1 e (by rw [h]; simp))
  | rated A' B' u es h hu hes =>
    obtain ⟨rfl, rfl⟩ := hAB h
    have hu' := precise_exact hu hx.1
    have hne := hi.2.1
    have key : ∀ es₀ es, List.Forall₂ (CostedEntry A' B' |u.val|) es₀ es → (∀ e ∈ es₀, e ∈ w.entries) →
        (∀ e ∈ es, e.worthIn = B') ∧ entriesSum es B' = |u.val| * entriesSum es₀ A' + entriesSum es₀ B' := by
      intro es₀ es h
      induction h with
      | nil => intro _; simp [entriesSum]
      | @cons e e' es₀ es h1 _ ih =>
        intro hm
        obtain ⟨i1, i2⟩ := ih (fun e he => hm e (List.mem_cons_of_mem _ he))
        have he := hm e List.mem_cons_self
        obtain ⟨hw, a, ha, hv⟩ := hin e he
        rcases h1 with ⟨hA, a', k, ha', hk, hp, rfl⟩ | ⟨hA, rfl⟩
        · rw [ha] at ha'
          injection ha' with ha'
          subst ha'
          have hk' := precise_exact hp (by rw [hu']; exact hx.2 e he hA a ha)
          have w1 : Entry.worthIn { e with cost := some (false, k) } = B' := by unfold Entry.worthIn; simp only [ha]; exact hk
          have w2 : Entry.worth { e with cost := some (false, k) } = |u.val| * a.qty.val := by unfold Entry.worth; simp only [ha]; exact hk'
          refine ⟨?_, ?_⟩
          · intro f hf
            rcases List.mem_cons.mp hf with rfl | hf
            · exact w1
            · exact i1 f hf
          · rw [entriesSum_cons, entriesSum_cons, entriesSum_cons, w1, w2, i2, if_pos rfl, hw, hA, if_pos rfl, if_neg hne, hv]
            ring
        · have hB : e'.worthIn = B' := by
            rcases hi.2.2.1 e' he with h | h
            · exact absurd (hw.symm.trans h) hA
            · exact h
          refine ⟨?_, ?_⟩
          · intro f hf
            rcases List.mem_cons.mp hf with rfl | hf
            · exact hB
            · exact i1 f hf
          · rw [entriesSum_cons, entriesSum_cons, entriesSum_cons, i2, hB, if_pos rfl, if_neg (fun h => hne h.symm)]
            ring
    obtain ⟨k1, k2⟩ := key _ _ hes (fun e he => he)
    have hbal : EntriesBalance es ↔ |u.val| * entriesSum w.entries A' + entriesSum w.entries B' = 0 := by
      constructor
      · intro h; rw [← k2]; exact h B'
      · intro h c
        by_cases hcB : c = B'
        · rw [hcB, k2, h]
        · exact entriesSum_other (fun e he => by rw [k1 e he]; exact fun h => hcB h.symm)
    change EntriesBalance es ↔ _
    rw [hbal, hu']
    have hA := hi.2.2.2.1
    have hB := hi.2.2.2.2.1
    generalize entriesSum w.entries A' = SA at *
    generalize entriesSum w.entries B' = SB at *
    rw [abs_div]
    rcases lt_or_gt_of_ne hA with h1 | h1 <;> rcases lt_or_gt_of_ne hB with h2 | h2
    · rw [abs_of_neg h1, abs_of_neg h2, neg_div_neg_eq, div_mul_cancel₀ _ hA]
      have := mul_pos_of_neg_of_neg h1 h2
      constructor <;> intro h <;> linarith
    · rw [abs_of_neg h1, abs_of_pos h2, div_neg, neg_mul, div_mul_cancel₀ _ hA]
      have := mul_neg_of_neg_of_pos h1 h2
      exact ⟨fun _ => this, fun _ => by ring⟩
    · rw [abs_of_pos h1, abs_of_neg h2, neg_div, neg_mul, div_mul_cancel₀ _ hA]
      have := mul_neg_of_pos_of_neg h1 h2
      exact ⟨fun _ => this, fun _ => by ring⟩
    · rw [abs_of_pos h1, abs_of_pos h2, div_mul_cancel₀ _ hA]
      have := mul_pos h1 h2
      constructor <;> intro h <;> linarith

theorem settles_amounts {w w' : Writing} (h : Settles w w') : ∀ e ∈ w'.entries, e.amount ≠ none := by
  cases h with
  | kept ha _ => exact ha
  | filled l r e a h he hq ha hd hx =>
    intro q hq'
    have hq' : q = { e with amount := some a } ∨ q ∈ l ++ r := by
      simp only [List.mem_append, List.mem_cons] at hq' ⊢; tauto
    rcases hq' with rfl | hq'
    · simp
    · exact (hq q hq').1
  | rated A B u es h hu hes =>
    intro q hq
    obtain ⟨e, he, hr⟩ := forall₂_mem_right hes hq
    rcases hr with ⟨_, a, k, ha, _, _, rfl⟩ | ⟨_, rfl⟩
    · simp only [ha]; simp
    · exact h.1 _ he

/-- C30: exactly which accepted transactions balance.  Where no rate is implied: those that are written to sum to zero, and those
with a blank posting beside others that do not sum to less than zero.  Where a rate is implied between two commodities, there are no
written costs and nothing is rounded: those with sums of opposite signs. -/
theorem C30_exactly (files : Files) (depth : Nat) {text : Str} {lines : List Str} {ws : List Writing}
    (ht : LinesOf text lines) (hs : Says files depth lines ws) (hd : ∀ w ∈ ws, Everyday w) {j j' : Journal}
    (hj : j.Reachable) (hl : j.pool.OrdinaryLots) (h : parseText files depth text j = .ok j') :
    ∃ new, j'.xacts = j.xacts ++ new ∧ List.Forall₂ (fun w x =>
      ((∀ A B, ¬ ImpliedBy w A B) → (Balances x.posts ↔ LeavesNothing w)) ∧
      ∀ A B, ImpliedBy w A B → (∀ e ∈ w.entries, e.cost = none) → ExactRate w A B →
        (Balances x.posts ↔ entriesSum w.entries A * entriesSum w.entries B < 0)) ws new := by
  obtain ⟨ws', rs, ho⟩ := C81_outcome files depth ht hs hd hj hl h
  obtain ⟨new, h1, h2⟩ := ho.xacts
  refine ⟨new, h1, ?_⟩
  have hp : ∀ w ∈ ws, ∀ e ∈ w.entries, e.amount = none → e.cost = none := says_plain files depth hs
  have hset := ho.settled
  clear ho h1 hs hd
  induction hset generalizing new with
  | nil => cases h2; exact .nil
  | @cons w w' ws ws' hw _ ih =>
    cases h2 with
    | @cons _ x _ new hx h2 =>
      refine .cons ?_ (ih new h2 (fun w hw => hp w (List.mem_cons_of_mem _ hw)))
      have hb : Balances x.posts ↔ EntriesBalance w'.entries :=
        forall_congr' fun c => by rw [postsOf_sum hx.posts (settles_amounts hw)]
      rw [hb]
      exact ⟨settles_plain hw (hp w List.mem_cons_self), fun A B hi hc hx => settles_rate hw hi hc hx⟩

namespace BalancedExample
open LinesExample FaultsExample

theorem shopNothing : LeavesNothing shop := by
  refine Or.inr ⟨⟨cash, List.mem_cons_of_mem _ List.mem_cons_self, rfl⟩, fun c => ?_⟩
  change 0 ≤ entriesSum [food, cash] c
  rw [entriesSum_cons, entriesSum_cons, worth_blank (e := cash) rfl, ite_self]
  have : food.worth = 41 / 2 := by
    change Dec.val ⟨false, 2050, 2⟩ = _
    simp only [Dec.val_mk, Dec.sgn]; norm_num
  rw [this]
  split <;> norm_num [entriesSum]

theorem brokerNothing : LeavesNothing broker := by
  have h := brokerSound
  exact Or.inl ⟨h.amounts, h.balance⟩

/-- Both transactions of the example for C72 balance. -/
example : ∃ j', parseText files 1 text.flatten Journal.new = .ok j' ∧ ∀ x ∈ j'.xacts, Balances x.posts := by
  obtain ⟨j', h⟩ := (C81_read_iff files 1 textLines lines everyday .new (by intro s ann pr h; cases h)).mpr notFaulty
  obtain ⟨new, h1, h2⟩ := C30_exactly files 1 textLines lines everyday .new (by intro s ann pr h; cases h) h
  refine ⟨j', h, fun x hx => ?_⟩
  rw [h1] at hx
  obtain ⟨w, hw, hwx⟩ := forall₂_mem_right h2 (show x ∈ new from hx)
  rcases List.mem_cons.mp hw with rfl | hw
  · exact (hwx.1 (fun A B hi => hi.1 cash (List.mem_cons_of_mem _ List.mem_cons_self) rfl)).mpr shopNothing
  · rw [List.mem_singleton.mp hw] at hwx
    exact (hwx.1 (fun A B hi => hi.2.2.2.1 (brokerSound.balance A))).mpr brokerNothing

/-- Ten dollars for nine euros: the rate is exact, and the sums have opposite signs. -/
example : ImpliedBy exchange (some (str "USD")) (some (str "EUR")) ∧ ExactRate exchange (some (str "USD")) (some (str "EUR")) ∧
    entriesSum exchange.entries (some (str "USD")) * entriesSum exchange.entries (some (str "EUR")) < 0 := by
  have sA : entriesSum exchange.entries (some (str "USD")) = 10 := by
    change entriesSum [usd, spent] _ = _
    rw [entriesSum_cons, entriesSum_cons, usdWorth.1, usdWorth.2, spentWorth.2, if_pos rfl, if_neg (by decide)]
    simp [entriesSum]
  have sB : entriesSum exchange.entries (some (str "EUR")) = -9 := by
    change entriesSum [usd, spent] _ = _
    rw [entriesSum_cons, entriesSum_cons, usdWorth.2, spentWorth.1, spentWorth.2, if_pos rfl, if_neg (by decide)]
    simp [entriesSum]
  refine ⟨⟨by decide, by decide, by decide, by rw [sA]; norm_num, by rw [sB]; norm_num, usd, rfl, by decide⟩, ⟨?_, ?_⟩, ?_⟩
  · rw [sA, sB]
    exact ⟨⟨true, 9, 1⟩, by decide, by simp only [Dec.val_mk, Dec.sgn]; norm_num⟩
  · intro e he hc a ha
    have : e = usd ∨ e = spent := by simpa [exchange] using he
    rcases this with rfl | rfl
    · injection ha with ha
      subst ha
      rw [sA, sB]
      exact ⟨⟨false, 9, 0⟩, by decide, by simp only [Dec.val_mk, Dec.sgn]; norm_num⟩
    · exact absurd hc (by decide)
  · rw [sA, sB]; norm_num

end BalancedExample

end Ledger
