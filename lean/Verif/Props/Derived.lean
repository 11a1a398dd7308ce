import Verif.Lemmas.Rounding
import Verif.Props.Finalize
import Verif.Props.Balanced
import Verif.Spec.Derived
import Verif.Lemmas.Causes
/-
C113: how far a transaction with a derived rate is from balancing.
-/
namespace Ledger
open Ledger.Parser Ledger.Finalize

theorem precise_close {d : Dec} {x : ℚ} (h : PreciseTo d x) : |d.val - x| ≤ 1 / 2 / 10 ^ 28 + |x| * (1 / 10 ^ 28) := by
  have h0 : 0 ≤ |x| := abs_nonneg x
  rcases Dec.precise_error h with h | h
  · have : 0 ≤ |x| * (1 / 10 ^ 28) := by positivity
    linarith
  · have : |x| * (10 / (2 ^ 97 - 1)) ≤ |x| * (1 / 10 ^ 28) := mul_le_mul_of_nonneg_left (by norm_num) h0
    have h1 : (0 : ℚ) ≤ 1 / 2 / 10 ^ 28 := by norm_num
    linarith

/-- A cost at a rounded rate. -/
theorem cost_close {u : ℚ} {c : Dec} {r a : ℚ} (hr : 0 ≤ r) (h1 : |u - r| ≤ 1 / 2 / 10 ^ 28 + r * (1 / 10 ^ 28))
    (hc : PreciseTo c (u * a)) : |c.val - r * a| ≤ (1 + (1 + 3 * r) * |a|) / 10 ^ 28 := by
  have h2 := precise_close hc
  rw [abs_mul] at h2
  have h3 : |u| ≤ r + (1 / 2 / 10 ^ 28 + r * (1 / 10 ^ 28)) := by
    have : u = (u - r) + r := by ring
    rw [this]
    refine (abs_add_le _ _).trans ?_
    rw [abs_of_nonneg hr]; linarith
  have ha := abs_nonneg a
  have e : c.val - r * a = (c.val - u * a) + (u - r) * a := by ring
  rw [e]
  refine (abs_add_le _ _).trans ?_
  rw [abs_mul (u - r)]
  have k1 : |u| * |a| ≤ (r + (1 / 2 / 10 ^ 28 + r * (1 / 10 ^ 28))) * |a| := mul_le_mul_of_nonneg_right h3 ha
  have k2 : |u - r| * |a| ≤ (1 / 2 / 10 ^ 28 + r * (1 / 10 ^ 28)) * |a| := mul_le_mul_of_nonneg_right h1 ha
  have k3 : 0 ≤ r * |a| := mul_nonneg hr ha
  generalize |a| = A at *
  have k4 : (r + (1 / 2 / 10 ^ 28 + r * (1 / 10 ^ 28))) * A * (1 / 10 ^ 28) + (1 / 2 / 10 ^ 28 + r * (1 / 10 ^ 28)) * A
      = A * ((1 / 2 / 10 ^ 28) * (1 + 1 / 10 ^ 28)) + (r * A) * (2 / 10 ^ 28 + 1 / 10 ^ 28 * (1 / 10 ^ 28)) := by ring
  have k5 : |u| * A * (1 / 10 ^ 28) ≤ (r + (1 / 2 / 10 ^ 28 + r * (1 / 10 ^ 28))) * A * (1 / 10 ^ 28) :=
    mul_le_mul_of_nonneg_right k1 (by norm_num)
  have k6 : A * ((1 / 2 / 10 ^ 28) * (1 + 1 / 10 ^ 28)) ≤ A * (1 / 10 ^ 28) := mul_le_mul_of_nonneg_left (by norm_num) ha
  have k7 : (r * A) * (2 / 10 ^ 28 + 1 / 10 ^ 28 * (1 / 10 ^ 28)) ≤ (r * A) * (3 / 10 ^ 28) := mul_le_mul_of_nonneg_left (by norm_num) k3
  have k8 : (1 + (1 + 3 * r) * A) / 10 ^ 28 = 1 / 10 ^ 28 + A * (1 / 10 ^ 28) + (r * A) * (3 / 10 ^ 28) := by ring
  have k9 : (1 / 2 / 10 ^ 28 : ℚ) ≤ 1 / 10 ^ 28 := by norm_num
  rw [k8]
  linarith

/-- All postings together. -/
theorem derived_close {u : Dec} {r : ℚ} (hr : 0 ≤ r) (hu : PreciseTo u r) {c1 c2 : Option Str} (hne : c1 ≠ c2) {ps ps' : List Post}
    (hn : ∀ p ∈ ps, p.cost = none)
    (h : List.Forall₂ (fun p p' => ∃ a, p.amount = some a ∧
        ((a.comm = c1 ∧ ∃ c, p' = { p with cost := some c } ∧ c.comm = c2 ∧ PreciseTo c.qty (u.val * a.qty.val) ∧
            (Representable (u.val * a.qty.val) → c.qty.val = u.val * a.qty.val)) ∨
         (a.comm ≠ c1 ∧ p' = p))) ps ps') :
    |sumIn c2 (bookedAmounts ps') - (sumIn c2 (bookedAmounts ps) + r * sumIn c1 (bookedAmounts ps))| ≤
      (ps.length + (1 + 3 * r) * sizeIn c1 (bookedAmounts ps)) / 10 ^ 28 ∧
    ∀ c, c ≠ c2 → sumIn c (bookedAmounts ps') = if c = c1 then 0 else sumIn c (bookedAmounts ps) := by
  induction h with
  | nil => simp [bookedAmounts, sumIn, sizeIn]
  | @cons p p' ps ps' hp _ ih =>
    obtain ⟨i1, i2⟩ := ih (fun q hq => hn q (List.mem_cons_of_mem _ hq))
    obtain ⟨a, ha, hcase⟩ := hp
    have hb : p.booked = some a := by unfold Post.booked; rw [hn p List.mem_cons_self, ha]
    have hbk : bookedAmounts (p :: ps) = a :: bookedAmounts ps := by
      unfold bookedAmounts; rw [List.filterMap_cons_some hb]
    rw [hbk]
    simp only [sumIn_cons, sizeIn_cons, List.length_cons, Nat.cast_add, Nat.cast_one]
    rcases hcase with ⟨hac, c, rfl, hcc, hpr, _⟩ | ⟨hac, rfl⟩
    · have hb' : bookedAmounts ({ p with cost := some c } :: ps') = c :: bookedAmounts ps' := by
        unfold bookedAmounts; rw [List.filterMap_cons_some (b := c)]; rfl
      rw [hb']
      refine ⟨?_, ?_⟩
      · have k := cost_close hr (by have := precise_close hu; rwa [abs_of_nonneg hr] at this) hpr
        have e2 : a.valIn c2 = 0 := by unfold Amount.valIn; rw [if_neg (by rw [hac]; exact hne)]
        have e1 : a.valIn c1 = a.qty.val := by unfold Amount.valIn; rw [if_pos hac]
        have e3 : c.valIn c2 = c.qty.val := by unfold Amount.valIn; rw [if_pos hcc]
        rw [sumIn_cons, e1, e2, e3]
        have e : c.qty.val + sumIn c2 (bookedAmounts ps') - (0 + sumIn c2 (bookedAmounts ps) + r * (a.qty.val + sumIn c1 (bookedAmounts ps)))
            = (c.qty.val - r * a.qty.val) +
              (sumIn c2 (bookedAmounts ps') - (sumIn c2 (bookedAmounts ps) + r * sumIn c1 (bookedAmounts ps))) := by ring
        rw [e]
        refine (abs_add_le _ _).trans ((add_le_add k i1).trans (le_of_eq ?_))
        ring
      · intro d hd
        rw [sumIn_cons, i2 d hd]
        have : c.valIn d = 0 := by unfold Amount.valIn; rw [if_neg (by rw [hcc]; exact Ne.symm hd)]
        rw [this, zero_add]
        by_cases h1 : d = c1
        · rw [if_pos h1, if_pos h1]
        · rw [if_neg h1, if_neg h1]
          have : a.valIn d = 0 := by unfold Amount.valIn; rw [if_neg (by rw [hac]; exact Ne.symm h1)]
          rw [this, zero_add]
    · have hb' : bookedAmounts (p' :: ps') = a :: bookedAmounts ps' := by
        unfold bookedAmounts; rw [List.filterMap_cons_some hb]
      rw [hb']
      have e1 : a.valIn c1 = 0 := by unfold Amount.valIn; rw [if_neg hac]
      refine ⟨?_, ?_⟩
      · rw [sumIn_cons, e1, abs_zero]
        have e : a.valIn c2 + sumIn c2 (bookedAmounts ps') - (a.valIn c2 + sumIn c2 (bookedAmounts ps) + r * (0 + sumIn c1 (bookedAmounts ps)))
            = sumIn c2 (bookedAmounts ps') - (sumIn c2 (bookedAmounts ps) + r * sumIn c1 (bookedAmounts ps)) := by ring
        rw [e]
        refine i1.trans ?_
        rw [div_le_div_iff_of_pos_right (by norm_num)]
        linarith
      · intro d hd
        rw [sumIn_cons, i2 d hd]
        by_cases h1 : d = c1
        · rw [if_pos h1, if_pos h1, h1, e1, zero_add]
        · rw [if_neg h1, if_neg h1]

/-- C113: an accepted transaction without blank posting and written costs, with totals in two commodities, at the derived rate:
it sums to nothing in every other commodity, and in the second one to nothing if the totals have opposite signs, and to twice
its total if they have the same sign, up to rounding. -/
theorem C113_derived (x x' : Xact) (pool pool' : Pool) (h : finalize x pool = .ok (x', pool'))
    (hnc : ∀ p ∈ x.posts, p.cost = none ∧ p.amount ≠ none) (hr : InRange (bookedAmounts x.posts))
    (c1 c2 : Option Str) (hne : c1 ≠ c2) (hfst : ∃ p a, x.posts.head? = some p ∧ p.amount = some a ∧ a.comm = c1)
    (hc : ∀ a ∈ bookedAmounts x.posts, a.comm = c1 ∨ a.comm = c2)
    (h1 : sumIn c1 (bookedAmounts x.posts) ≠ 0) (h2 : sumIn c2 (bookedAmounts x.posts) ≠ 0) :
    (∀ c, c ≠ c2 → sumIn c (bookedAmounts x'.posts) = 0) ∧
    |sumIn c2 (bookedAmounts x'.posts) -
        (if sumIn c1 (bookedAmounts x.posts) * sumIn c2 (bookedAmounts x.posts) < 0 then 0 else 2 * sumIn c2 (bookedAmounts x.posts))| ≤
      (x.posts.length + (1 + 3 * |sumIn c2 (bookedAmounts x.posts) / sumIn c1 (bookedAmounts x.posts)|) *
        sizeIn c1 (bookedAmounts x.posts)) / 10 ^ 28 := by
  obtain ⟨u, hu, _, hf, _⟩ := C35_implied_rate_partial x x' pool pool' h hnc hr c1 c2 hne hfst hc h1 h2
  obtain ⟨k1, k2⟩ := derived_close (abs_nonneg _) hu hne (fun p hp => (hnc p hp).1) hf
  refine ⟨?_, ?_⟩
  · intro c hcc
    rw [k2 c hcc]
    split
    · rfl
    · rename_i hc1
      refine sumIn_absent _ _ ?_
      intro hm
      obtain ⟨a, ha, rfl⟩ := List.mem_map.mp hm
      rcases hc a ha with e | e
      · exact hc1 e
      · exact hcc e
  · generalize sumIn c1 (bookedAmounts x.posts) = X at *
    generalize sumIn c2 (bookedAmounts x.posts) = Y at *
    have e : Y + |Y / X| * X = if X * Y < 0 then 0 else 2 * Y := by
      rw [abs_div]
      rcases lt_or_gt_of_ne h1 with hx | hx <;> rcases lt_or_gt_of_ne h2 with hy | hy
      · rw [if_neg (not_lt.mpr (le_of_lt (mul_pos_of_neg_of_neg hx hy))), abs_of_neg hx, abs_of_neg hy]
        field_simp; ring
      · rw [if_pos (mul_neg_of_neg_of_pos hx hy), abs_of_neg hx, abs_of_pos hy]
        field_simp; ring
      · rw [if_pos (mul_neg_of_pos_of_neg hx hy), abs_of_pos hx, abs_of_neg hy]
        field_simp; ring
      · rw [if_neg (not_lt.mpr (le_of_lt (mul_pos hx hy))), abs_of_pos hx, abs_of_pos hy]
        field_simp; ring
    rw [← e]
    exact k1

/-! ### the transactions of a text -/

/-- The postings of one transaction. -/
theorem rated_close {A B : Option Str} {u r : ℚ} (hr : 0 ≤ r) (hu : |u - r| ≤ 1 / 2 / 10 ^ 28 + r * (1 / 10 ^ 28))
    {es₀ es : List Entry} (h : List.Forall₂ (CostedEntry A B u) es₀ es) (c : Option Str) :
    |entriesSum es c - (restSum es₀ A c + if c = B then r * heldSum es₀ A else 0)| ≤
      if c = B then (es₀.length + (1 + 3 * r) * heldSize es₀ A) / 10 ^ 28 else 0 := by
  induction h with
  | nil => simp [entriesSum, restSum, heldSum, heldSize]
  | @cons e e' es₀ es h1 _ ih =>
    have hs : restSum (e :: es₀) A c = (if e.commodity ≠ A ∧ e.worthIn = c then e.worth else 0) + restSum es₀ A c := by
      unfold restSum; rw [List.map_cons, List.sum_cons]
    have hh : heldSum (e :: es₀) A = (if e.commodity = A then (e.amount.map (·.qty.val)).getD 0 else 0) + heldSum es₀ A := by
      unfold heldSum; rw [List.map_cons, List.sum_cons]
    have hz : heldSize (e :: es₀) A = (if e.commodity = A then |(e.amount.map (·.qty.val)).getD 0| else 0) + heldSize es₀ A := by
      unfold heldSize; rw [List.map_cons, List.sum_cons]
    rw [hs, hh, hz, entriesSum_cons, List.length_cons, Nat.cast_add, Nat.cast_one]
    rcases h1 with ⟨hA, a, k, ha, hk, hp, rfl⟩ | ⟨hA, rfl⟩
    · have w1 : Entry.worthIn { e with cost := some (false, k) } = B := by unfold Entry.worthIn; simp only [ha]; exact hk
      have w2 : Entry.worth { e with cost := some (false, k) } = k.qty.val := by unfold Entry.worth; simp only [ha]
      rw [w1, w2, if_neg (show ¬ (e.commodity ≠ A ∧ e.worthIn = c) from fun h => h.1 hA), if_pos hA, if_pos hA, ha, zero_add]
      by_cases hc : c = B
      · subst hc
        simp only [if_true] at ih ⊢
        have kc := cost_close hr hu hp
        have e1 : k.qty.val + entriesSum es c - (restSum es₀ A c + r * (((some a).map (·.qty.val)).getD 0 + heldSum es₀ A)) =
            (k.qty.val - r * a.qty.val) + (entriesSum es c - (restSum es₀ A c + r * heldSum es₀ A)) := by
          simp only [Option.map_some, Option.getD_some]; ring
        rw [e1]
        refine (abs_add_le _ _).trans ((add_le_add kc ih).trans (le_of_eq ?_))
        simp only [Option.map_some, Option.getD_some]; ring
      · rw [if_neg (fun h : B = c => hc h.symm), if_neg hc, if_neg hc, zero_add]
        rw [if_neg hc, if_neg hc] at ih
        exact ih
    · rw [if_neg hA, if_neg hA, zero_add, zero_add]
      have e1 : (if e'.commodity ≠ A ∧ e'.worthIn = c then e'.worth else 0) = if e'.worthIn = c then e'.worth else 0 := by
        simp only [ne_eq, hA, not_false_eq_true, true_and]
      rw [e1]
      generalize (if e'.worthIn = c then e'.worth else 0) = W
      generalize (if c = B then r * heldSum es₀ A else 0) = Z at *
      have e2 : W + entriesSum es c - (W + restSum es₀ A c + Z) = entriesSum es c - (restSum es₀ A c + Z) := by ring
      rw [e2]
      refine ih.trans ?_
      split
      · rw [div_le_div_iff_of_pos_right (by norm_num)]
        linarith
      · exact le_rfl

/-- C113: the transactions of a text with an implied rate, with or without written costs.  What is held in the first commodity
counts in the second, at the quotient of the sums without its sign, up to rounding; everything else counts as written. -/
theorem C113_text (files : Files) (depth : Nat) {text : Str} {lines : List Str} {ws : List Writing}
    (ht : LinesOf text lines) (hs : Says files depth lines ws) (hd : ∀ w ∈ ws, Everyday w) {j j' : Journal}
    (hj : j.Reachable) (hl : j.pool.OrdinaryLots) (h : parseText files depth text j = .ok j') :
    ∃ new, j'.xacts = j.xacts ++ new ∧ List.Forall₂ (fun w x => ∀ A B, ImpliedBy w A B → ∀ c,
      |sumIn c (bookedAmounts x.posts) - (restSum w.entries A c +
          if c = B then |entriesSum w.entries B / entriesSum w.entries A| * heldSum w.entries A else 0)| ≤
        if c = B then (w.entries.length + (1 + 3 * |entriesSum w.entries B / entriesSum w.entries A|) * heldSize w.entries A) / 10 ^ 28
        else 0) ws new := by
  obtain ⟨ws', rs, ho⟩ := C81_outcome files depth ht hs hd hj hl h
  obtain ⟨new, h1, h2⟩ := ho.xacts
  refine ⟨new, h1, ?_⟩
  have hset := ho.settled
  clear ho h1 hs hd
  induction hset generalizing new with
  | nil => cases h2; exact .nil
  | @cons w w' ws ws' hw _ ih =>
    cases h2 with
    | @cons _ x _ new hx h2 =>
      refine .cons ?_ (ih new h2)
      intro A B hi c
      rw [postsOf_sum hx.posts (settles_amounts hw)]
      cases hw with
      | kept _ hn => exact absurd hi (hn A B)
      | filled l r e a h he hq ha hd hx => exact absurd he (hi.1 e (by rw [h]; simp))
      | rated A' B' u es h hu hes =>
        obtain ⟨rfl, rfl⟩ := impliedBy_unique hi h
        refine rated_close (abs_nonneg _) ?_ hes c
        have := precise_close hu
        exact (abs_abs_sub_abs_le _ _).trans this

namespace DerivedExample

/-- Seven dollars for three euros. -/
def sevenths : Xact :=
  { date := some ⟨2023, 5, 1⟩, auxDate := none, payee := str "p", note := none,
    posts := [⟨[str "A"], some ⟨⟨false, 7, 0⟩, some (str "USD")⟩, none, none⟩,
      ⟨[str "B"], some ⟨⟨true, 3, 0⟩, some (str "EUR")⟩, none, none⟩] }

def pool : Pool := ((Pool.empty.findOrCreate (str "USD") none).1.findOrCreate (str "EUR") none).1

theorem booked : bookedAmounts sevenths.posts = [⟨⟨false, 7, 0⟩, some (str "USD")⟩, ⟨⟨true, 3, 0⟩, some (str "EUR")⟩] := rfl

/-- The postings that `sevenths` comes to. -/
def settled : List Amount := [⟨⟨false, 30000000000000000000000000002, 28⟩, some (str "EUR")⟩, ⟨⟨true, 3, 0⟩, some (str "EUR")⟩]

/-- What it comes to is not zero: the rate is rounded. -/
theorem result : ∃ x' pool', finalize sevenths pool = .ok (x', pool') ∧ bookedAmounts x'.posts = settled := by
  have h : (match finalize sevenths pool with
      | .ok (x', _) => decide (bookedAmounts x'.posts = settled)
      | .error _ => false) = true := by decide +kernel
  split at h
  · rename_i x' pool' e; exact ⟨x', pool', e, of_decide_eq_true h⟩
  · cases h

/-- The hypotheses of `C113_derived` hold, and the sum in euros is not zero but within the bound. -/
example : ∃ x' pool', finalize sevenths pool = .ok (x', pool') ∧
    sumIn (some (str "EUR")) (bookedAmounts x'.posts) = 2 / 10 ^ 28 ∧
    |sumIn (some (str "EUR")) (bookedAmounts x'.posts)| ≤ 18 / 10 ^ 28 := by
  obtain ⟨x', pool', h, hb⟩ := result
  have hne : str "USD" ≠ str "EUR" := by decide
  have s1 : sumIn (some (str "USD")) (bookedAmounts sevenths.posts) = 7 := by
    rw [booked]; simp [sumIn, Amount.valIn, Dec.val_mk, Dec.sgn, Ne.symm hne]
  have s2 : sumIn (some (str "EUR")) (bookedAmounts sevenths.posts) = -3 := by
    rw [booked]; simp [sumIn, Amount.valIn, Dec.val_mk, Dec.sgn, hne]
  have s3 : sizeIn (some (str "USD")) (bookedAmounts sevenths.posts) = 7 := by
    rw [booked]; simp [sizeIn, Amount.valIn, Dec.val_mk, Dec.sgn, Ne.symm hne]
  have k := (C113_derived sevenths x' _ pool' h (by
      intro p hp
      rcases List.mem_cons.mp hp with rfl | hp
      · exact ⟨rfl, by simp⟩
      · rw [List.mem_singleton.mp hp]; exact ⟨rfl, by simp⟩)
    (by
      rw [booked]
      refine ⟨0, by omega, by decide, ?_⟩
      simp [mass, Dec.val_mk, Dec.sgn]; norm_num) (some (str "USD")) (some (str "EUR")) (by decide) ⟨_, _, rfl, rfl, rfl⟩
    (by
      rw [booked]
      intro a ha
      rcases List.mem_cons.mp ha with rfl | ha
      · exact Or.inl rfl
      · rw [List.mem_singleton.mp ha]; exact Or.inr rfl)
    (by rw [s1]; norm_num) (by rw [s2]; norm_num)).2
  rw [s1, s2, s3, if_pos (by norm_num), sub_zero] at k
  refine ⟨x', pool', h, ?_, k.trans ?_⟩
  · rw [hb]; unfold settled
    simp only [sumIn, Amount.valIn, if_pos, Dec.val_mk, Dec.sgn]; norm_num
  · rw [abs_div]
    have : sevenths.posts.length = 2 := rfl
    rw [this]; norm_num

/-- Ten euros that cost eleven dollars, five euros and six dollars back. -/
def trade : List Entry :=
  [⟨str "A", some ⟨⟨false, 10, 0⟩, some (str "EUR")⟩, ⟨none, none⟩, some (false, ⟨⟨false, 11, 0⟩, some (str "USD")⟩), [], {}⟩,
   ⟨str "B", some ⟨⟨true, 5, 0⟩, some (str "EUR")⟩, ⟨none, none⟩, none, [], {}⟩,
   ⟨str "C", some ⟨⟨true, 6, 0⟩, some (str "USD")⟩, ⟨none, none⟩, none, [], {}⟩]

/-- The rate is one dollar for a euro, and by `C113_text` the transaction comes to minus one dollar, as `C35_implied_rate_violated`
shows: the written cost is lost. -/
example : ImpliedBy ⟨⟨2023, 5, 1⟩, none, str "p", [], [], trade⟩ (some (str "EUR")) (some (str "USD")) ∧
    restSum trade (some (str "EUR")) (some (str "USD")) +
      |entriesSum trade (some (str "USD")) / entriesSum trade (some (str "EUR"))| * heldSum trade (some (str "EUR")) = -1 := by
  have hne : str "USD" ≠ str "EUR" := by decide
  have sE : entriesSum trade (some (str "EUR")) = -5 := by
    simp [entriesSum, trade, Entry.worth, Entry.worthIn, hne, Dec.val_mk, Dec.sgn]
  have sU : entriesSum trade (some (str "USD")) = 5 := by
    simp [entriesSum, trade, Entry.worth, Entry.worthIn, Ne.symm hne, Dec.val_mk, Dec.sgn]; norm_num
  refine ⟨⟨by decide, by decide, by decide, by rw [sE]; norm_num, by rw [sU]; norm_num, _, rfl, by decide⟩, ?_⟩
  rw [sE, sU]
  simp [restSum, heldSum, trade, Entry.worth, Entry.worthIn, Entry.commodity, hne, Dec.val_mk, Dec.sgn]
  norm_num

end DerivedExample

end Ledger
