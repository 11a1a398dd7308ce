import Verif.Lemmas.Price
import Verif.Lemmas.Annot
import Verif.Props.Quantity
/-
Properties C11-C19: commodity pool, price history, exchange and annotations.
-/
namespace Ledger

/-- A few commodities with prices, used in the examples. -/
def exampleOps : List PoolOp :=
  [ .findOrCreate (str "EUR") none, .findOrCreate (str "USD") none, .findOrCreate (str "AUD") none,
    .addPrice (str "EUR") ⟨⟨2023, 5, 2⟩, ⟨0, 0, 0⟩⟩ ⟨⟨false, 12, 1⟩, some (str "USD")⟩,
    .addPrice (str "EUR") ⟨⟨2023, 5, 1⟩, ⟨13, 0, 0⟩⟩ ⟨⟨false, 11, 1⟩, some (str "USD")⟩,
    .addPrice (str "USD") ⟨⟨2023, 4, 1⟩, ⟨0, 0, 0⟩⟩ ⟨⟨false, 15, 1⟩, some (str "AUD")⟩ ]

/-- The pool of the examples. -/
def examplePool : Pool := (runOps Pool.empty exampleOps).toOption.getD Pool.empty

theorem examplePool_ok : runOps Pool.empty exampleOps = .ok examplePool := by decide +kernel

/-- **C11** `find_or_create` of a non-empty symbol after any history returns the commodity of that symbol; every
commodity known before is still the same, also after any further calls; an empty symbol gives no commodity and
changes nothing. -/
theorem C11_find_or_create (ops : List PoolOp) (p : Pool) (h : runOps Pool.empty ops = .ok p) (s : Str)
    (ann : Option Annotation) :
    (s = [] → p.findOrCreate s ann = (p, none)) ∧
    (s ≠ [] → (p.findOrCreate s ann).2 = some s ∧
      ∃ c, (p.findOrCreate s ann).1.find s = some c ∧ c.symbol = s ∧
        (∀ c', p.find s = some c' → c' = c) ∧
        (∀ s' c', p.find s' = some c' → (p.findOrCreate s ann).1.find s' = some c') ∧
        ∀ later p', runOps (p.findOrCreate s ann).1 later = .ok p' →
          p'.find s = some c ∧ ∀ ann', (p'.findOrCreate s ann').2 = some s ∧
            (p'.findOrCreate s ann').1.find s = some c ∧ (p'.findOrCreate s ann').1.commodities = p'.commodities) := by
  have hinv := Pool.inv_runOps Pool.inv_empty ops h
  refine ⟨?_, ?_⟩
  · rintro rfl; exact Pool.findOrCreate_empty p ann
  · intro hs
    have hinv' := Pool.inv_findOrCreate hinv s ann
    have hc : ∃ c, (p.findOrCreate s ann).1.find s = some c := by
      cases hf : p.find s with
      | some c0 => exact ⟨c0, Pool.find_findOrCreate ann hf⟩
      | none =>
        obtain ⟨_, e2, _, _⟩ := Pool.findOrCreate_new hs hf ann
        unfold Pool.find at hf ⊢
        rw [e2, assocGet_append, hf]
        exact ⟨⟨s, p.history.nodes.length, ann.isSome⟩, by simp [assocGet]⟩
    have h2 : ∀ (q : Pool) (a : Option Annotation), (q.findOrCreate s a).2 = some s := by
      intro q a
      cases hf : q.find s with
      | some c0 => exact (Pool.findOrCreate_old hs hf a).1
      | none => exact (Pool.findOrCreate_new hs hf a).1
    obtain ⟨c, hc⟩ := hc
    refine ⟨h2 p ann, c, hc, (hinv'.find hc).1, ?_, fun s' c' hf => Pool.find_findOrCreate ann hf, ?_⟩
    · intro c' hf
      have := Pool.find_findOrCreate (s := s) ann hf
      rw [hc] at this; injection this with this; exact this.symm
    · intro later p' hl
      have hf := Pool.find_runOps later hl hc
      exact ⟨hf, fun ann' => ⟨h2 p' ann', Pool.find_findOrCreate ann' hf, (Pool.findOrCreate_old hs hf ann').2.1⟩⟩

/-- **C11** Different symbols are different commodities. -/
theorem C11_distinct (ops : List PoolOp) (p : Pool) (h : runOps Pool.empty ops = .ok p) (s s' : Str)
    (c c' : Commodity) (h1 : p.find s = some c) (h2 : p.find s' = some c') (hne : s ≠ s') :
    c ≠ c' ∧ c.graphIndex ≠ c'.graphIndex := by
  have hinv := Pool.inv_runOps Pool.inv_empty ops h
  have : c.graphIndex ≠ c'.graphIndex := fun e => hne (hinv.index_inj h1 h2 e)
  exact ⟨fun e => this (by rw [e]), this⟩

example : examplePool.find (str "USD") = some ⟨str "USD", 1, false⟩ ∧
    (examplePool.findOrCreate (str "GBP") none).2 = some (str "GBP") ∧
    (examplePool.findOrCreate (str "EUR") none).1 = examplePool := by decide +kernel

/-- **C12** Commodities and nodes of the price graph correspond: the index of a commodity leads back to it, indices
of different commodities differ, every node is a commodity, and the counts agree. -/
theorem C12_nodes (ops : List PoolOp) (p : Pool) (h : runOps Pool.empty ops = .ok p) :
    (∀ s c, p.find s = some c → p.findIndex s = .ok c.graphIndex ∧ p.getByIndex c.graphIndex = .ok s) ∧
    (∀ i, i < p.history.nodes.length → ∃ s c, p.find s = some c ∧ c.graphIndex = i ∧ p.getByIndex i = .ok s) ∧
    p.history.nodes.length = p.len := by
  have hinv := Pool.inv_runOps Pool.inv_empty ops h
  have hget : ∀ i s, p.history.nodes[i]? = some s → p.getByIndex i = .ok s := by
    intro i s hi; unfold Pool.getByIndex History.getCommodity; rw [hi]
  refine ⟨?_, ?_, ?_⟩
  · intro s c hf
    refine ⟨?_, hget _ _ (hinv.find hf).2⟩
    unfold Pool.findIndex; rw [hf]
  · intro i hi
    have hi' : p.history.nodes[i]? = some p.history.nodes[i] := List.getElem?_eq_getElem hi
    obtain ⟨c, hc, e⟩ := hinv.index hi'
    exact ⟨_, c, hc, e, hget _ _ hi'⟩
  · unfold Pool.len; rw [← hinv.keys, List.length_map]

example : examplePool.len = 3 ∧ examplePool.getByIndex 2 = .ok (str "AUD") ∧
    examplePool.findIndex (str "AUD") = .ok 2 := by decide +kernel

/-- **C13** The direct price of `A` in `B` is the latest recording of that ordered pair, the last made among equal
dates; there is none exactly if the pair was never recorded. -/
theorem C13_direct_price (ops : List PoolOp) (p : Pool) (h : runOps Pool.empty ops = .ok p)
    (hwf : ∀ r ∈ recordings ops, r.time.WF) (A B : Str) (i j : Nat)
    (hA : p.findIndex A = .ok i) (hB : p.findIndex B = .ok j) :
    (∀ t q, p.history.getDirectPrice i j = some (t, q) ↔ IsLatest (recordings ops) A B t q) ∧
    (p.history.getDirectPrice i j = none ↔ ¬ Priced (recordings ops) A B) := by
  have hinv := Pool.inv_runOps Pool.inv_empty ops h
  have hidx : ∀ X k, p.findIndex X = .ok k → p.history.nodes[k]? = some X := by
    intro X k hX
    unfold Pool.findIndex at hX
    cases hf : p.find X with
    | none => rw [hf] at hX; cases hX
    | some c => rw [hf] at hX; injection hX with hX; subst hX; exact (hinv.find hf).2
  obtain ⟨d1, d2⟩ := direct_price h hwf (hidx A i hA) (hidx B j hB)
  refine ⟨fun t q => ⟨d1 t q, ?_⟩, d2⟩
  intro hl
  cases hd : p.history.getDirectPrice i j with
  | none =>
    exfalso
    apply d2.mp hd
    obtain ⟨pre, post, e, _⟩ := hl
    exact ⟨⟨A, B, t, q⟩, by rw [e]; simp, rfl, rfl⟩
  | some tq =>
    obtain ⟨t', q'⟩ := tq
    obtain ⟨e1, e2⟩ := isLatest_unique (d1 t' q' hd) hl
    rw [e1, e2]

example : examplePool.history.getDirectPrice 0 1 = some (⟨⟨2023, 5, 2⟩, ⟨0, 0, 0⟩⟩, ⟨false, 12, 1⟩) ∧
    examplePool.history.getDirectPrice 1 0 = none ∧ (∀ r ∈ recordings exampleOps, r.time.WF) := by decide +kernel

/-- **C14** `find_price` answers "no price" exactly if no chain of recorded prices leads from `A` to `B`. -/
theorem C14_none_iff (search : History.Search) (hs : History.IsShortest search) (ops : List PoolOp) (p : Pool)
    (h : runOps Pool.empty ops = .ok p) (hwf : ∀ r ∈ recordings ops, r.time.WF) (now m o : DateTime) (A B : Str)
    (hne : A ≠ B) (hA : (p.find A).isSome) (hB : (p.find B).isSome) :
    p.findPrice search now A B m o = .ok none ↔ ¬ ∃ cs, ChainFrom (recordings ops) A B cs := by
  have hinv := Pool.inv_runOps Pool.inv_empty ops h
  have mem : ∀ X, (p.find X).isSome → X ∈ p.history.nodes := by
    intro X hX
    by_contra hn
    rw [hinv.find_none.mpr hn] at hX; cases hX
  rcases findPrice_spec search hs h hwf now m o hne (mem A hA) (mem B hB) with ⟨h1, h2⟩ | ⟨cs, legs, h1, h2, h3⟩
  · exact ⟨fun _ ⟨cs, hc⟩ => h2 cs hc, fun _ => h1⟩
  · refine ⟨fun hn => ?_, fun hn => absurd ⟨cs, h1.1⟩ hn⟩
    exfalso
    rcases h3 with ⟨t, q, _, e⟩ | ⟨_, e⟩
    · rw [e] at hn; cases hn
    · rw [e] at hn
      cases hr : rateOf legs now Dec.one with
      | error e => rw [hr] at hn; simp [bind, Except.bind] at hn
      | ok x => rw [hr] at hn; simp [bind, Except.bind] at hn

/-- **C14** If a chain exists the call returns a price in `B`, namely the product of the latest prices along a chain
than which none is shorter; for a single step the latest direct price itself.  The product is exact when no partial
product has to be rounded. -/
theorem C14_price (search : History.Search) (hs : History.IsShortest search) (ops : List PoolOp) (p : Pool)
    (h : runOps Pool.empty ops = .ok p) (hwf : ∀ r ∈ recordings ops, r.time.WF) (now m o : DateTime) (A B : Str)
    (hne : A ≠ B) (hA : (p.find A).isSome) (hB : (p.find B).isSome)
    (hc : ∃ cs, ChainFrom (recordings ops) A B cs) :
    ∃ cs legs, ShortestChain (recordings ops) A B cs ∧ Legs (recordings ops) cs legs ∧
      (∀ t q, legs = [(t, q)] → p.findPrice search now A B m o = .ok (some ⟨t, ⟨q, some B⟩⟩)) ∧
      (StepsExact 1 legs → ∃ pp, p.findPrice search now A B m o = .ok (some pp) ∧ pp.price.comm = some B ∧
        pp.price.qty.val = legsProduct legs) ∧
      (∀ e, p.findPrice search now A B m o = .error e → e = .decimalOverflow) := by
  have hinv := Pool.inv_runOps Pool.inv_empty ops h
  have mem : ∀ X, (p.find X).isSome → X ∈ p.history.nodes := by
    intro X hX
    by_contra hn
    rw [hinv.find_none.mpr hn] at hX; cases hX
  rcases findPrice_spec search hs h hwf now m o hne (mem A hA) (mem B hB) with ⟨h1, h2⟩ | ⟨cs, legs, h1, h2, h3⟩
  · obtain ⟨cs, hc⟩ := hc
    exact absurd hc (h2 cs)
  · refine ⟨cs, legs, h1, h2, ?_, ?_, ?_⟩
    · intro t q e
      rcases h3 with ⟨t', q', e', e2⟩ | ⟨hlen, _⟩
      · rw [e] at e'; simp at e'; rw [e2, e'.1, e'.2]
      · rw [e] at hlen; simp at hlen
    · intro hex
      rcases h3 with ⟨t, q, e, e2⟩ | ⟨_, e⟩
      · exact ⟨_, e2, rfl, by rw [e]; simp [legsProduct]⟩
      · rw [← Dec.val_one] at hex
        obtain ⟨t, r, g1, g2⟩ := rateOf_exact legs now Dec.one hex
        rw [e, g1]
        exact ⟨_, rfl, rfl, by rw [g2, Dec.val_one, one_mul]⟩
    · intro e he
      rcases h3 with ⟨t, q, _, e2⟩ | ⟨_, e2⟩
      · rw [e2] at he; cases he
      · rw [e2] at he
        cases hr : rateOf legs now Dec.one with
        | error e' =>
          rw [hr] at he; simp only [bind, Except.bind] at he; injection he with he; subst he
          exact rateOf_error _ _ _ _ hr
        | ok x => rw [hr] at he; simp [bind, Except.bind] at he

/-- **C14** What comes out in every case: for a single step the latest direct price itself; for more, the latest prices
multiplied one after the other from `A` on, each product rounded only where it has to be, or a panic for overflow exactly where
the next product is too large. -/
theorem C14_outcome (search : History.Search) (hs : History.IsShortest search) (ops : List PoolOp) (p : Pool)
    (h : runOps Pool.empty ops = .ok p) (hwf : ∀ r ∈ recordings ops, r.time.WF) (now m o : DateTime) (A B : Str)
    (hne : A ≠ B) (hA : (p.find A).isSome) (hB : (p.find B).isSome)
    (hc : ∃ cs, ChainFrom (recordings ops) A B cs) :
    ∃ cs legs, ShortestChain (recordings ops) A B cs ∧ Legs (recordings ops) cs legs ∧
      RateResult B legs (p.findPrice search now A B m o) := by
  have hinv := Pool.inv_runOps Pool.inv_empty ops h
  have mem : ∀ X, (p.find X).isSome → X ∈ p.history.nodes := by
    intro X hX
    by_contra hn
    rw [hinv.find_none.mpr hn] at hX; cases hX
  rcases findPrice_spec search hs h hwf now m o hne (mem A hA) (mem B hB) with ⟨h1, h2⟩ | ⟨cs, legs, h1, h2, h3⟩
  · obtain ⟨cs, hc⟩ := hc
    exact absurd hc (h2 cs)
  · refine ⟨cs, legs, h1, h2, ?_⟩
    rcases h3 with h3 | ⟨hlen, e⟩
    · exact Or.inl h3
    · refine Or.inr ⟨hlen, ?_⟩
      have hr := rateOf_rounded legs now Dec.one
      rw [Dec.val_one] at hr
      rcases hr with ⟨t, r, g1, g2⟩ | ⟨g1, g2⟩
      · exact Or.inl ⟨t, r, by rw [e, g1]; rfl, g2⟩
      · exact Or.inr ⟨by rw [e, g1]; rfl, g2⟩

/-- The contract of the search is met by `shortestSearch`. -/
example : History.IsShortest shortestSearch := shortestSearch_isShortest

example : examplePool.findPrice shortestSearch ⟨⟨2026, 1, 1⟩, Time.midnight⟩ (str "EUR") (str "AUD")
      ⟨⟨2026, 1, 1⟩, Time.midnight⟩ ⟨⟨2000, 1, 1⟩, Time.midnight⟩
    = .ok (some ⟨⟨⟨2023, 4, 1⟩, Time.midnight⟩, ⟨⟨false, 180, 2⟩, some (str "AUD")⟩⟩) ∧
    examplePool.findPrice shortestSearch ⟨⟨2026, 1, 1⟩, Time.midnight⟩ (str "AUD") (str "EUR")
      ⟨⟨2026, 1, 1⟩, Time.midnight⟩ ⟨⟨2000, 1, 1⟩, Time.midnight⟩ = .ok none := by decide +kernel

/-- **C15** (violated) A price recorded after the requested moment is returned: the price of 2 May is the answer to
a request for 1 May. -/
theorem C15_moment_violated :
    ∃ (ops : List PoolOp) (p : Pool) (A B : Str) (now m o : DateTime) (pp : PricePoint),
      runOps Pool.empty ops = .ok p ∧
      p.findPrice shortestSearch now A B m o = .ok (some pp) ∧ m.Before pp.datetime :=
  ⟨exampleOps, examplePool, str "EUR", str "USD", ⟨⟨2026, 1, 1⟩, Time.midnight⟩, ⟨⟨2023, 5, 1⟩, Time.midnight⟩,
    ⟨⟨2023, 1, 1⟩, Time.midnight⟩, ⟨⟨⟨2023, 5, 2⟩, Time.midnight⟩, ⟨⟨false, 12, 1⟩, some (str "USD")⟩⟩,
    by decide +kernel, by decide +kernel, by decide⟩

/-- **C15** (violated) in general: the moments given have no influence at all. -/
theorem C15_moment_ignored_violated (search : History.Search) (now : DateTime) (p : Pool) (A B : Str)
    (m o m' o' : DateTime) : p.findPrice search now A B m o = p.findPrice search now A B m' o' := rfl

/-- **C15** (partial) If no recorded price is after the moment or before the oldest date asked for, neither is the
answer.  Missing: histories with prices outside the window, for which the claim is false. -/
theorem C15_moment_partial (search : History.Search) (hs : History.IsShortest search) (ops : List PoolOp) (p : Pool)
    (h : runOps Pool.empty ops = .ok p) (hwf : ∀ r ∈ recordings ops, r.time.WF) (now m o : DateTime) (A B : Str)
    (hm : m.WF) (ho : o.WF) (hnow : now.WF)
    (hall : ∀ r ∈ recordings ops, ¬ m.Before r.time ∧ ¬ r.time.Before o) (hno : ¬ now.Before o)
    (pp : PricePoint) (hf : p.findPrice search now A B m o = .ok (some pp)) :
    ¬ m.Before pp.datetime ∧ ¬ pp.datetime.Before o := by
  have hinv := Pool.inv_runOps Pool.inv_empty ops h
  have legs_ok : ∀ cs legs, Legs (recordings ops) cs legs → ∀ x ∈ legs, x.1.WF ∧ x.1.key ≤ m.key ∧ o.key ≤ x.1.key := by
    intro cs legs hl
    induction hl with
    | nil => simp
    | @cons X Y rest t q ls hlat _ ih =>
      intro x hx
      rcases List.mem_cons.mp hx with rfl | hx
      · obtain ⟨pre, post, e, _⟩ := hlat
        have hmem : (⟨X, Y, t, q⟩ : Recording) ∈ recordings ops := by rw [e]; simp
        have w := hwf _ hmem
        obtain ⟨a1, a2⟩ := hall _ hmem
        rw [← DateTime.key_lt_iff _ _ hm w] at a1
        rw [← DateTime.key_lt_iff _ _ w ho] at a2
        exact ⟨w, by simp only at *; omega, by simp only at *; omega⟩
      · exact ih x hx
  have hne : A ≠ B := by
    intro e; unfold Pool.findPrice at hf; rw [if_pos e] at hf; cases hf
  have hAB : A ∈ p.history.nodes ∧ B ∈ p.history.nodes := by
    unfold Pool.findPrice at hf
    rw [if_neg hne] at hf
    constructor
    · by_contra hn
      simp [Pool.deref, hinv.find_none.mpr hn, bind, Except.bind] at hf
    · by_contra hn
      cases hA : p.find A <;> simp [Pool.deref, hinv.find_none.mpr hn, hA, bind, Except.bind] at hf
  rcases findPrice_spec search hs h hwf now m o hne hAB.1 hAB.2 with ⟨h1, _⟩ | ⟨cs, legs, _, h2, h3⟩
  · rw [h1] at hf; cases hf
  · rcases h3 with ⟨t, q, e, e2⟩ | ⟨hlen, e⟩
    · rw [e2] at hf; injection hf with hf; injection hf with hf; subst hf
      have := legs_ok cs legs h2 (t, q) (by rw [e]; simp)
      rw [← DateTime.key_lt_iff _ _ hm this.1, ← DateTime.key_lt_iff _ _ this.1 ho]
      simp only at *
      omega
    · rw [e] at hf
      cases hr : rateOf legs now Dec.one with
      | error e => rw [hr] at hf; simp [bind, Except.bind] at hf
      | ok x =>
        obtain ⟨t, q⟩ := x
        rw [hr] at hf; simp only [bind, Except.bind] at hf
        injection hf with hf; injection hf with hf; subst hf
        obtain ⟨d1, d2, d3⟩ := rateOf_date _ _ _ _ _ hr
        rw [← DateTime.key_lt_iff _ _ hnow ho] at hno
        have hw : t.WF ∧ o.key ≤ t.key := by
          rcases d1 with rfl | d1
          · exact ⟨hnow, by omega⟩
          · obtain ⟨x, hx, rfl⟩ := List.mem_map.mp d1
            exact ⟨(legs_ok _ _ h2 x hx).1, (legs_ok _ _ h2 x hx).2.2⟩
        rw [← DateTime.key_lt_iff _ _ hm hw.1, ← DateTime.key_lt_iff _ _ hw.1 ho]
        cases legs with
        | nil => simp at hlen
        | cons x xs =>
          have a := legs_ok _ _ h2 x List.mem_cons_self
          have b := d3 x List.mem_cons_self
          omega

example : ∀ r ∈ recordings exampleOps, ¬ DateTime.Before ⟨⟨2024, 1, 1⟩, Time.midnight⟩ r.time ∧
    ¬ r.time.Before ⟨⟨2023, 1, 1⟩, Time.midnight⟩ := by decide +kernel

/-- **C16** (violated) With prices dated in the future of the clock, the date of a two-leg rate is the clock, not a
date of any leg. -/
theorem C16_oldest_leg_violated :
    ∃ (ops : List PoolOp) (p : Pool) (A B : Str) (now m o : DateTime) (pp : PricePoint),
      runOps Pool.empty ops = .ok p ∧ now.WF ∧ (∀ r ∈ recordings ops, r.time.WF) ∧
      p.findPrice shortestSearch now A B m o = .ok (some pp) ∧
      ∀ r ∈ recordings ops, pp.datetime.Before r.time :=
  ⟨exampleOps, examplePool, str "EUR", str "AUD", ⟨⟨2020, 1, 1⟩, Time.midnight⟩, ⟨⟨2026, 1, 1⟩, Time.midnight⟩,
    ⟨⟨2000, 1, 1⟩, Time.midnight⟩, ⟨⟨⟨2020, 1, 1⟩, Time.midnight⟩, ⟨⟨false, 180, 2⟩, some (str "AUD")⟩⟩,
    by decide +kernel, by decide, by decide +kernel, by decide +kernel, by decide +kernel⟩

/-- **C16** (partial) The date of a price is the oldest of the dates of the legs it is the product of, provided some
leg is not after the clock.  Missing: rates all of whose legs are dated after the clock, where the clock is returned
(`C16_oldest_leg_violated`). -/
theorem C16_oldest_leg_partial (search : History.Search) (hs : History.IsShortest search) (ops : List PoolOp) (p : Pool)
    (h : runOps Pool.empty ops = .ok p) (hwf : ∀ r ∈ recordings ops, r.time.WF) (now m o : DateTime) (A B : Str)
    (hnow : now.WF) (hne : A ≠ B) (hA : (p.find A).isSome) (hB : (p.find B).isSome) (pp : PricePoint)
    (hf : p.findPrice search now A B m o = .ok (some pp)) :
    ∃ cs legs, ShortestChain (recordings ops) A B cs ∧ Legs (recordings ops) cs legs ∧
      (StepsExact 1 legs → pp.price.qty.val = legsProduct legs) ∧
      ((∃ x ∈ legs, ¬ now.Before x.1) ∨ legs.length = 1 →
        pp.datetime ∈ legs.map (·.1) ∧ ∀ x ∈ legs, ¬ x.1.Before pp.datetime) := by
  have hinv := Pool.inv_runOps Pool.inv_empty ops h
  have mem : ∀ X, (p.find X).isSome → X ∈ p.history.nodes := by
    intro X hX
    by_contra hn
    rw [hinv.find_none.mpr hn] at hX; cases hX
  have legs_wf : ∀ cs legs, Legs (recordings ops) cs legs → ∀ x ∈ legs, x.1.WF := by
    intro cs legs hl
    induction hl with
    | nil => simp
    | @cons X Y rest t q ls hlat _ ih =>
      intro x hx
      rcases List.mem_cons.mp hx with rfl | hx
      · obtain ⟨pre, post, e, _⟩ := hlat
        exact hwf ⟨X, Y, t, q⟩ (by rw [e]; simp)
      · exact ih x hx
  rcases findPrice_spec search hs h hwf now m o hne (mem A hA) (mem B hB) with ⟨h1, h2⟩ | ⟨cs, legs, h1, h2, h3⟩
  · rw [h1] at hf; cases hf
  · refine ⟨cs, legs, h1, h2, ?_⟩
    have hw := legs_wf cs legs h2
    rcases h3 with ⟨t, q, e, e2⟩ | ⟨hlen, e⟩
    · rw [e2] at hf; injection hf with hf; injection hf with hf; subst hf
      subst e
      refine ⟨by intro _; simp [legsProduct], fun _ => ⟨by simp, ?_⟩⟩
      intro x hx; simp at hx; subst hx
      have := hw (t, q) (by simp)
      rw [← DateTime.key_lt_iff _ _ this this]; omega
    · rw [e] at hf
      cases hr : rateOf legs now Dec.one with
      | error e => rw [hr] at hf; simp [bind, Except.bind] at hf
      | ok x =>
        obtain ⟨t, q⟩ := x
        rw [hr] at hf; simp only [bind, Except.bind] at hf
        injection hf with hf; injection hf with hf; subst hf
        refine ⟨?_, ?_⟩
        · intro hex
          rw [← Dec.val_one] at hex
          obtain ⟨t', r, g1, g2⟩ := rateOf_exact legs now Dec.one hex
          rw [hr] at g1; injection g1 with g1; injection g1 with g1 g3; subst g3
          rw [g2, Dec.val_one, one_mul]
        · intro hor
          obtain ⟨d1, d2, d3⟩ := rateOf_date _ _ _ _ _ hr
          rcases hor with ⟨x, hx, hb⟩ | hl
          · have hxw := hw x hx
            rw [← DateTime.key_lt_iff _ _ hnow hxw] at hb
            have hmem : t ∈ legs.map (·.1) := by
              rcases d1 with d1 | d1
              · have hk : t.key = x.1.key := by
                  have a := d3 x hx
                  have b : t.key = now.key := by rw [d1]
                  omega
                have := DateTime.key_inj _ _ (by rw [d1]; exact hnow) hxw hk
                rw [this]; exact List.mem_map_of_mem hx
              · exact d1
            refine ⟨hmem, ?_⟩
            intro y hy
            obtain ⟨z, hz, e⟩ := List.mem_map.mp hmem
            have htw : t.WF := by rw [← e]; exact hw z hz
            rw [← DateTime.key_lt_iff _ _ (hw y hy) htw]
            have := d3 y hy
            omega
          · omega

/-- **C16** (partial) Exactly which date a price bears: that of the leg if there is only one, and for more the oldest among the
dates of the legs and the clock.  The legs are those the price is the product of.  Missing: that the clock does not count. -/
theorem C16_date_exact_partial (search : History.Search) (hs : History.IsShortest search) (ops : List PoolOp) (p : Pool)
    (h : runOps Pool.empty ops = .ok p) (hwf : ∀ r ∈ recordings ops, r.time.WF) (now m o : DateTime) (A B : Str)
    (hnow : now.WF) (hne : A ≠ B) (hA : (p.find A).isSome) (hB : (p.find B).isSome) (pp : PricePoint)
    (hf : p.findPrice search now A B m o = .ok (some pp)) :
    ∃ cs legs, ShortestChain (recordings ops) A B cs ∧ Legs (recordings ops) cs legs ∧ RateResult B legs (.ok (some pp)) ∧
      (legs.length = 1 → legs.map (·.1) = [pp.datetime]) ∧
      (legs.length ≠ 1 → pp.datetime ∈ now :: legs.map (·.1) ∧ ∀ t ∈ now :: legs.map (·.1), ¬ t.Before pp.datetime) := by
  have hinv := Pool.inv_runOps Pool.inv_empty ops h
  have mem : ∀ X, (p.find X).isSome → X ∈ p.history.nodes := by
    intro X hX
    by_contra hn
    rw [hinv.find_none.mpr hn] at hX; cases hX
  have legs_wf : ∀ cs legs, Legs (recordings ops) cs legs → ∀ x ∈ legs, x.1.WF := by
    intro cs legs hl
    induction hl with
    | nil => simp
    | @cons X Y rest t q ls hlat _ ih =>
      intro x hx
      rcases List.mem_cons.mp hx with rfl | hx
      · obtain ⟨pre, post, e, _⟩ := hlat
        exact hwf ⟨X, Y, t, q⟩ (by rw [e]; simp)
      · exact ih x hx
  rcases findPrice_spec search hs h hwf now m o hne (mem A hA) (mem B hB) with ⟨h1, h2⟩ | ⟨cs, legs, h1, h2, h3⟩
  · rw [h1] at hf; cases hf
  · refine ⟨cs, legs, h1, h2, ?_⟩
    have hw := legs_wf cs legs h2
    rcases h3 with ⟨t, q, e, e2⟩ | ⟨hlen, e⟩
    · rw [e2] at hf; injection hf with hf; injection hf with hf; subst hf
      subst e
      exact ⟨Or.inl ⟨t, q, rfl, rfl⟩, fun _ => by simp, fun hl => absurd rfl hl⟩
    · rw [e] at hf
      have hr := rateOf_rounded legs now Dec.one
      rw [Dec.val_one] at hr
      rcases hr with ⟨t, r, g1, g2⟩ | ⟨g1, g2⟩
      · rw [g1] at hf
        injection hf with hf; injection hf with hf; subst hf
        refine ⟨Or.inr ⟨hlen, Or.inl ⟨t, r, rfl, g2⟩⟩, fun hl => by omega, fun _ => ?_⟩
        obtain ⟨d1, d2, d3⟩ := rateOf_date _ _ _ _ _ g1
        have hmem : t ∈ now :: legs.map (·.1) := List.mem_cons.mpr d1
        have hall : ∀ s ∈ now :: legs.map (·.1), s.WF := by
          intro s hs
          rcases List.mem_cons.mp hs with rfl | hs
          · exact hnow
          · obtain ⟨z, hz, rfl⟩ := List.mem_map.mp hs
            exact hw z hz
        refine ⟨hmem, fun s hs => ?_⟩
        rw [← DateTime.key_lt_iff _ _ (hall s hs) (hall t hmem)]
        rcases List.mem_cons.mp hs with rfl | hs
        · omega
        · obtain ⟨z, hz, rfl⟩ := List.mem_map.mp hs
          have := d3 z hz
          omega
      · rw [g1] at hf; cases hf

/-- **C15** (partial) Exactly when an answer is after the moment or before the oldest date asked for.  A direct price: if it is
itself.  A computed one: after the moment if all its legs and the clock are, and before the oldest date if one of its legs or
the clock is.  Missing: that neither happens. -/
theorem C15_window_exact_partial (search : History.Search) (hs : History.IsShortest search) (ops : List PoolOp) (p : Pool)
    (h : runOps Pool.empty ops = .ok p) (hwf : ∀ r ∈ recordings ops, r.time.WF) (now m o : DateTime) (A B : Str)
    (hm : m.WF) (ho : o.WF) (hnow : now.WF) (hne : A ≠ B) (hA : (p.find A).isSome) (hB : (p.find B).isSome) (pp : PricePoint)
    (hf : p.findPrice search now A B m o = .ok (some pp)) :
    ∃ cs legs, ShortestChain (recordings ops) A B cs ∧ Legs (recordings ops) cs legs ∧ RateResult B legs (.ok (some pp)) ∧
      (m.Before pp.datetime ↔ (∀ x ∈ legs, m.Before x.1) ∧ (legs.length ≠ 1 → m.Before now)) ∧
      (pp.datetime.Before o ↔ (∃ x ∈ legs, x.1.Before o) ∨ legs.length ≠ 1 ∧ now.Before o) := by
  obtain ⟨cs, legs, h1, h2, h3, h4, h5⟩ := C16_date_exact_partial search hs ops p h hwf now m o A B hnow hne hA hB pp hf
  have legs_wf : ∀ cs legs, Legs (recordings ops) cs legs → ∀ x ∈ legs, x.1.WF := by
    intro cs legs hl
    induction hl with
    | nil => simp
    | @cons X Y rest t q ls hlat _ ih =>
      intro x hx
      rcases List.mem_cons.mp hx with rfl | hx
      · obtain ⟨pre, post, e, _⟩ := hlat
        exact hwf ⟨X, Y, t, q⟩ (by rw [e]; simp)
      · exact ih x hx
  have hw := legs_wf cs legs h2
  refine ⟨cs, legs, h1, h2, h3, ?_⟩
  by_cases hl : legs.length = 1
  · have h4 := h4 hl
    obtain ⟨x, rfl⟩ := List.length_eq_one_iff.mp hl
    simp only [List.map_cons, List.map_nil, List.cons.injEq, and_true] at h4
    simp [h4]
  · obtain ⟨h6, h7⟩ := h5 hl
    have hall : ∀ s ∈ now :: legs.map (·.1), s.WF := by
      intro s hs
      rcases List.mem_cons.mp hs with rfl | hs
      · exact hnow
      · obtain ⟨z, hz, rfl⟩ := List.mem_map.mp hs
        exact hw z hz
    have hpw := hall _ h6
    have hle : ∀ s ∈ now :: legs.map (·.1), pp.datetime.key ≤ s.key := by
      intro s hs
      have := h7 s hs
      rw [← DateTime.key_lt_iff _ _ (hall s hs) hpw] at this
      omega
    have hin : ∀ x ∈ legs, x.1 ∈ now :: legs.map (·.1) := fun x hx => List.mem_cons_of_mem _ (List.mem_map_of_mem hx)
    refine ⟨⟨fun hb => ⟨fun x hx => ?_, fun _ => ?_⟩, fun hb => ?_⟩, fun hb => ?_, fun hb => ?_⟩
    · rw [← DateTime.key_lt_iff _ _ hm hpw] at hb
      rw [← DateTime.key_lt_iff _ _ hm (hw x hx)]
      exact lt_of_lt_of_le hb (hle _ (hin x hx))
    · rw [← DateTime.key_lt_iff _ _ hm hpw] at hb
      rw [← DateTime.key_lt_iff _ _ hm hnow]
      exact lt_of_lt_of_le hb (hle _ (by simp))
    · rcases List.mem_cons.mp h6 with e | e
      · rw [e]; exact hb.2 hl
      · obtain ⟨x, hx, e⟩ := List.mem_map.mp e
        rw [← e]; exact hb.1 x hx
    · rcases List.mem_cons.mp h6 with e | e
      · exact Or.inr ⟨hl, e ▸ hb⟩
      · obtain ⟨x, hx, e⟩ := List.mem_map.mp e
        exact Or.inl ⟨x, hx, e ▸ hb⟩
    · rw [← DateTime.key_lt_iff _ _ hpw ho]
      rcases hb with ⟨x, hx, hb⟩ | ⟨_, hb⟩
      · rw [← DateTime.key_lt_iff _ _ (hw x hx) ho] at hb
        exact lt_of_le_of_lt (hle _ (hin x hx)) hb
      · rw [← DateTime.key_lt_iff _ _ hnow ho] at hb
        exact lt_of_le_of_lt (hle _ (by simp)) hb

example : examplePool.findPrice shortestSearch ⟨⟨2026, 1, 1⟩, Time.midnight⟩ (str "EUR") (str "AUD")
      ⟨⟨2026, 1, 1⟩, Time.midnight⟩ ⟨⟨2000, 1, 1⟩, Time.midnight⟩
    = .ok (some ⟨⟨⟨2023, 4, 1⟩, Time.midnight⟩, ⟨⟨false, 180, 2⟩, some (str "AUD")⟩⟩) := by decide +kernel

/-- The per-unit cost of an exchange. -/
def unitCost (amount cost : Amount) (isPerUnit : Bool) : ℚ :=
  if isPerUnit ∨ amount.qty.val = 0 then |cost.qty.val| else |cost.qty.val / amount.qty.val|

/-- The total cost of an exchange. -/
def totalCost (amount cost : Amount) (isPerUnit : Bool) : ℚ :=
  if isPerUnit then cost.qty.val * |amount.qty.val| else cost.qty.val

/-- **C17** Exchange: the amount is unchanged, the final cost is the total cost, and the new price is the absolute
per-unit cost in the cost's commodity, proposed exactly if it is not zero and in another commodity than the
amount. -/
theorem C17_exchange (ops : List PoolOp) (p : Pool) (hr : runOps Pool.empty ops = .ok p) (amount cost : Amount)
    (isPerUnit : Bool) (moment : DateTime) (sym : Str) (hsym : amount.comm = some sym) (hknown : (p.find sym).isSome)
    (hq : isPerUnit = false → amount.qty.val ≠ 0 → Representable (cost.qty.val / amount.qty.val))
    (hm : isPerUnit = true → Representable (cost.qty.val * |amount.qty.val|))
    (hb : ∀ ann pr, assocGet sym p.annotated = some ann → ann.price = some pr →
      Representable (pr.qty.val * amount.qty.val)) :
    ∃ bd np, p.exchange amount cost isPerUnit moment = .ok (bd, np) ∧ bd.amount = amount ∧
      bd.finalCost.qty.val = totalCost amount cost isPerUnit ∧
      (cost.comm ≠ none → bd.finalCost.comm = cost.comm) ∧
      (unitCost amount cost isPerUnit ≠ 0 ∧ cost.comm ≠ amount.comm →
        ∃ pr, np = some pr ∧ pr.commodity = sym ∧ pr.datetime = moment ∧ pr.price.comm = cost.comm ∧
          pr.price.qty.val = unitCost amount cost isPerUnit) ∧
      (unitCost amount cost isPerUnit = 0 ∨ cost.comm = amount.comm → np = none) ∧
      (amount.qty.val ≠ 0 →
        unitCost amount cost isPerUnit * |amount.qty.val| = |totalCost amount cost isPerUnit|) := by
  have hinv := Pool.inv_runOps Pool.inv_empty ops hr
  obtain ⟨c, hc⟩ := Option.isSome_iff_exists.mp hknown
  have hd : p.deref (some sym) = .ok c := by unfold Pool.deref; simp only [hc]
  have hg : p.getByIndex c.graphIndex = .ok sym := by
    unfold Pool.getByIndex History.getCommodity; rw [(hinv.find hc).2]
  -- the per-unit amount
  have hper : ∃ u : Amount, Pool.perUnitCost amount cost isPerUnit = .ok u ∧
      u.qty.val = unitCost amount cost isPerUnit ∧ (cost.comm ≠ none → u.comm = cost.comm) := by
    have hz : amount.isZero = true ↔ amount.qty.val = 0 := Dec.isZero_iff _
    unfold Pool.perUnitCost
    by_cases hcond : (isPerUnit || amount.isZero) = true
    · rw [if_pos hcond]
      refine ⟨cost.abs, rfl, ?_, fun _ => rfl⟩
      rw [(C04_abs cost).1]
      unfold unitCost
      rw [if_pos]
      rw [Bool.or_eq_true, hz] at hcond
      exact hcond
    · rw [if_neg hcond]
      rw [Bool.or_eq_true, hz, not_or] at hcond
      obtain ⟨r, h1, h2, h3⟩ := C06_div cost amount hcond.2 (hq (by simpa using hcond.1) hcond.2)
      rw [h1]
      refine ⟨r.abs, rfl, ?_, ?_⟩
      · rw [(C04_abs r).1, h2]; unfold unitCost; rw [if_neg (by rw [not_or]; exact hcond)]
      · intro hn
        show r.comm = _
        rw [h3]; unfold resultComm
        cases hcc : cost.comm with
        | none => exact absurd hcc hn
        | some x => rfl
  obtain ⟨u, hu1, hu2, hu3⟩ := hper
  -- the final cost
  have hfin : ∃ f : Amount, Pool.finalCost amount cost isPerUnit = .ok f ∧
      f.qty.val = totalCost amount cost isPerUnit ∧ (cost.comm ≠ none → f.comm = cost.comm) := by
    unfold Pool.finalCost
    cases isPerUnit with
    | false => exact ⟨cost, rfl, rfl, fun _ => rfl⟩
    | true =>
      have e := (C04_abs amount).1
      obtain ⟨r, h1, _, h2, h3⟩ := C06_mul cost amount.abs (by rw [e]; exact hm rfl)
      refine ⟨r, by simpa using h1, by rw [h2, e]; rfl, ?_⟩
      intro hn
      rw [h3]; unfold resultComm
      cases hcc : cost.comm with
      | none => exact absurd hcc hn
      | some x => rfl
  obtain ⟨f, hf1, hf2, hf3⟩ := hfin
  have hbas : ∃ b : Amount, Pool.basisCost (assocGet sym p.annotated) amount f = .ok b := by
    unfold Pool.basisCost
    cases ha : assocGet sym p.annotated with
    | none => exact ⟨f, rfl⟩
    | some ann =>
      simp only
      cases hp : ann.price with
      | none => exact ⟨_, rfl⟩
      | some pr =>
        obtain ⟨r, h1, _⟩ := C06_mul pr amount (hb ann pr ha hp)
        exact ⟨r, h1⟩
  obtain ⟨b, hb1⟩ := hbas
  have hex : p.exchange amount cost isPerUnit moment = .ok (⟨amount, f, b⟩,
      if !(if cost.comm = none then u.removeCommodity else u).isZero ∧
        amount.comm ≠ (if cost.comm = none then u.removeCommodity else u).comm
      then some ⟨sym, moment, if cost.comm = none then u.removeCommodity else u⟩ else none) := by
    unfold Pool.exchange
    simp only [hsym, hd, hg, hu1, hf1, hb1, bind, Except.bind]
  have huc : (if cost.comm = none then u.removeCommodity else u).comm = cost.comm := by
    by_cases hn : cost.comm = none
    · rw [if_pos hn, hn]; rfl
    · rw [if_neg hn]; exact hu3 hn
  have huq : (if cost.comm = none then u.removeCommodity else u).qty = u.qty := by
    split <;> rfl
  have huz : (if cost.comm = none then u.removeCommodity else u).isZero = true ↔ unitCost amount cost isPerUnit = 0 := by
    unfold Amount.isZero
    rw [huq, Dec.isZero_iff, hu2]
  refine ⟨_, _, hex, rfl, hf2, hf3, ?_, ?_, ?_⟩
  · rintro ⟨h1, h2⟩
    rw [if_pos]
    · exact ⟨_, rfl, rfl, rfl, huc, by simp only; rw [huq, hu2]⟩
    · refine ⟨?_, by rw [huc]; exact Ne.symm h2⟩
      cases hz : (if cost.comm = none then u.removeCommodity else u).isZero with
      | true => exact absurd (huz.mp hz) h1
      | false => rfl
  · intro hor
    rw [if_neg]
    rintro ⟨h1, h2⟩
    rw [huc] at h2
    rcases hor with h0 | h0
    · rw [huz.mpr h0] at h1; simp at h1
    · exact h2 h0.symm
  · intro hne
    have ha : |amount.qty.val| ≠ 0 := by rwa [Ne, abs_eq_zero]
    unfold unitCost totalCost
    cases isPerUnit with
    | true => simp only [true_or, if_true]; rw [abs_mul, abs_abs]
    | false => simp only [Bool.false_eq_true, false_or, hne, if_false]; rw [abs_div, div_mul_cancel₀ _ ha]

example : examplePool.exchange ⟨⟨true, 10, 0⟩, some (str "EUR")⟩ ⟨⟨false, 125, 1⟩, some (str "USD")⟩ false
      ⟨⟨2023, 6, 1⟩, Time.midnight⟩
    = .ok (⟨⟨⟨true, 10, 0⟩, some (str "EUR")⟩, ⟨⟨false, 125, 1⟩, some (str "USD")⟩, ⟨⟨false, 125, 1⟩, some (str "USD")⟩⟩,
        some ⟨str "EUR", ⟨⟨2023, 6, 1⟩, Time.midnight⟩, ⟨⟨false, 125, 2⟩, some (str "USD")⟩⟩) := by decide +kernel

/-- **C17** Whenever an exchange succeeds, also where numbers have to be rounded: the amount is unchanged, the final cost is
the total cost and the new price the absolute per-unit cost, both rounded if need be; there is none exactly if the commodities
are the same or the price rounds to zero. -/
theorem C17_rounded (p : Pool) (amount cost : Amount) (isPerUnit : Bool) (moment : DateTime) (hv : cost.qty.Valid)
    (bd : CostBreakdown) (np : Option Price) (h : p.exchange amount cost isPerUnit moment = .ok (bd, np)) :
    ∃ sym u, amount.comm = some sym ∧ bd.amount = amount ∧ PreciseTo bd.finalCost.qty (totalCost amount cost isPerUnit) ∧
      (cost.comm ≠ none → bd.finalCost.comm = cost.comm) ∧ PreciseTo u (unitCost amount cost isPerUnit) ∧
      (np = none ↔ u.val = 0 ∨ cost.comm = amount.comm) ∧
      ∀ pr, np = some pr → pr = ⟨sym, moment, ⟨u, cost.comm⟩⟩ := by
  unfold Pool.exchange at h
  cases hsym : amount.comm with
  | none => rw [hsym] at h; cases h
  | some sym =>
    rw [hsym] at h
    simp only [bind, Except.bind] at h
    cases h1 : p.deref (some sym) with
    | error e => rw [h1] at h; cases h
    | ok c =>
      simp only [h1] at h
      cases h2 : p.getByIndex c.graphIndex with
      | error e => rw [h2] at h; cases h
      | ok s =>
        simp only [h2] at h
        cases h3 : Pool.perUnitCost amount cost isPerUnit with
        | error e => rw [h3] at h; cases h
        | ok u =>
          simp only [h3] at h
          cases h4 : Pool.finalCost amount cost isPerUnit with
          | error e => rw [h4] at h; cases h
          | ok f =>
            simp only [h4] at h
            cases h5 : Pool.basisCost (assocGet s p.annotated) amount f with
            | error e => rw [h5] at h; cases h
            | ok b =>
              simp only [h5, Except.ok.injEq, Prod.mk.injEq] at h
              obtain ⟨hbd, hnp⟩ := h
              have hz : amount.isZero = true ↔ amount.qty.val = 0 := Dec.isZero_iff _
              have keep : ∀ {r : Amount}, r.comm = resultComm cost amount → cost.comm ≠ none → r.comm = cost.comm := by
                intro r hr hn
                rw [hr]; unfold resultComm
                cases hcc : cost.comm with
                | none => exact absurd hcc hn
                | some x => rfl
              -- the price
              have hu : PreciseTo u.qty (unitCost amount cost isPerUnit) ∧ (cost.comm ≠ none → u.comm = cost.comm) := by
                unfold Pool.perUnitCost at h3
                by_cases hcond : (isPerUnit || amount.isZero) = true
                · rw [if_pos hcond, Except.ok.injEq] at h3
                  subst h3
                  rw [Bool.or_eq_true, hz] at hcond
                  refine ⟨?_, fun _ => rfl⟩
                  unfold unitCost
                  rw [if_pos hcond]
                  exact Dec.precise_abs (Dec.precise_self _ hv) (C04_abs cost).1 (C04_abs cost).2.2
                · rw [if_neg hcond] at h3
                  rw [Bool.or_eq_true, hz, not_or] at hcond
                  cases hd : cost.div amount with
                  | error e => rw [hd] at h3; cases h3
                  | ok r =>
                    rw [hd] at h3
                    simp only [bind, Except.bind, Except.ok.injEq] at h3
                    subst h3
                    obtain ⟨k1, k2⟩ := (C06_sound cost amount r).2 hd
                    refine ⟨?_, fun hn => keep (r := r) k2 hn⟩
                    unfold unitCost
                    rw [if_neg (by rw [not_or]; exact hcond)]
                    exact Dec.precise_abs k1 (C04_abs r).1 (C04_abs r).2.2
              -- the total
              have hf : PreciseTo f.qty (totalCost amount cost isPerUnit) ∧ (cost.comm ≠ none → f.comm = cost.comm) := by
                unfold Pool.finalCost at h4
                cases isPerUnit with
                | false =>
                  simp only [Bool.not_false, if_true, Except.ok.injEq] at h4
                  subst h4
                  exact ⟨Dec.precise_self _ hv, fun _ => rfl⟩
                | true =>
                  simp only [Bool.not_true, Bool.false_eq_true, if_false] at h4
                  obtain ⟨k1, k2⟩ := (C06_sound cost amount.abs f).1 h4
                  rw [(C04_abs amount).1] at k1
                  refine ⟨k1, fun hn => ?_⟩
                  rw [k2]; unfold resultComm
                  cases hcc : cost.comm with
                  | none => exact absurd hcc hn
                  | some x => rfl
              have huq : (if cost.comm = none then u.removeCommodity else u) = ⟨u.qty, cost.comm⟩ := by
                by_cases hn : cost.comm = none
                · rw [if_pos hn, hn]; rfl
                · rw [if_neg hn, ← hu.2 hn]
              rw [huq] at hnp
              have hiz : (Amount.mk u.qty cost.comm).isZero = true ↔ u.qty.val = 0 := Dec.isZero_iff _
              refine ⟨sym, u.qty, rfl, by rw [← hbd], by rw [← hbd]; exact hf.1, fun hn => by rw [← hbd]; exact hf.2 hn, hu.1, ?_, ?_⟩
              · rw [← hnp, ← hiz]
                by_cases hz0 : (Amount.mk u.qty cost.comm).isZero = true
                · simp [hz0]
                · by_cases hc : some sym = cost.comm
                  · simp [hc]
                  · have hc' : ¬ cost.comm = some sym := fun e => hc e.symm
                    simp [hz0, hc, hc']
              · intro pr hpr
                rw [← hnp] at hpr
                split at hpr
                · exact (Option.some.inj hpr).symm
                · cases hpr

/-- **C17** The basis cost of an exchange: the final cost if no lot is stored for the commodity; otherwise the price of
the stored lot times the amount, in the lot's commodity, or nothing if the lot has no price. -/
theorem C17_basis (ops : List PoolOp) (p : Pool) (hr : runOps Pool.empty ops = .ok p) (amount cost : Amount)
    (isPerUnit : Bool) (moment : DateTime) (bd : CostBreakdown) (np : Option Price)
    (h : p.exchange amount cost isPerUnit moment = .ok (bd, np)) :
    ∃ sym, amount.comm = some sym ∧
      (assocGet sym p.annotated = none → bd.basisCost = bd.finalCost) ∧
      (∀ ann, assocGet sym p.annotated = some ann → ann.price = none →
        bd.basisCost.qty.val = 0 ∧ bd.basisCost.comm = none) ∧
      (∀ ann pr, assocGet sym p.annotated = some ann → ann.price = some pr →
        PreciseTo bd.basisCost.qty (pr.qty.val * amount.qty.val) ∧ bd.basisCost.comm = resultComm pr amount ∧
        (Representable (pr.qty.val * amount.qty.val) → bd.basisCost.qty.val = pr.qty.val * amount.qty.val)) := by
  have hinv := Pool.inv_runOps Pool.inv_empty ops hr
  unfold Pool.exchange at h
  cases hc : amount.comm with
  | none => rw [hc] at h; simp at h
  | some sym =>
    rw [hc] at h
    simp only [bind, Except.bind] at h
    refine ⟨sym, rfl, ?_⟩
    cases hf : p.find sym with
    | none => simp [Pool.deref, hf] at h
    | some c =>
      have hg : p.getByIndex c.graphIndex = .ok sym := by
        unfold Pool.getByIndex History.getCommodity; rw [(hinv.find hf).2]
      simp only [Pool.deref, hf, hg] at h
      cases hu : Pool.perUnitCost amount cost isPerUnit with
      | error e => rw [hu] at h; simp at h
      | ok u =>
        rw [hu] at h
        simp only at h
        cases hfin : Pool.finalCost amount cost isPerUnit with
        | error e => rw [hfin] at h; simp at h
        | ok f =>
          rw [hfin] at h
          simp only at h
          cases hb : Pool.basisCost (assocGet sym p.annotated) amount f with
          | error e => rw [hb] at h; simp at h
          | ok b =>
            rw [hb] at h
            simp only [Except.ok.injEq, Prod.mk.injEq] at h
            obtain ⟨rfl, _⟩ := h
            refine ⟨?_, ?_, ?_⟩
            · intro hn
              simp only [Pool.basisCost, hn, Except.ok.injEq] at hb
              exact hb.symm
            · intro ann ha hp
              simp only [Pool.basisCost, ha, hp, Except.ok.injEq] at hb
              subst hb
              exact ⟨by simp [Amount.ofI32, Dec.ofI32, Dec.val, Dec.signed], rfl⟩
            · intro ann pr ha hp
              simp only [Pool.basisCost, ha, hp] at hb
              obtain ⟨h1, h2⟩ := (C06_sound pr amount b).1 hb
              refine ⟨h1, h2, fun hrep => ?_⟩
              obtain ⟨r, e1, _, e2, _⟩ := C06_mul pr amount hrep
              rw [e1] at hb
              injection hb with hb
              subst hb
              exact e2

example : (examplePool.findOrCreate (str "EUR") (some ⟨some ⟨⟨false, 11, 1⟩, some (str "USD")⟩, none⟩)).1.exchange
      ⟨⟨true, 10, 0⟩, some (str "EUR")⟩ ⟨⟨false, 125, 1⟩, some (str "USD")⟩ false ⟨⟨2023, 6, 1⟩, Time.midnight⟩
    = .ok (⟨⟨⟨true, 10, 0⟩, some (str "EUR")⟩, ⟨⟨false, 125, 1⟩, some (str "USD")⟩, ⟨⟨true, 110, 1⟩, some (str "USD")⟩⟩,
        some ⟨str "EUR", ⟨⟨2023, 6, 1⟩, Time.midnight⟩, ⟨⟨false, 125, 2⟩, some (str "USD")⟩⟩) := by decide +kernel

/-- **C18** (violated) The second lot of a commodity loses its annotation: the pool still reports the first. -/
theorem C18_lot_annotation_violated :
    ∃ (ops : List PoolOp) (p : Pool) (s : Str) (a : Annotation), runOps Pool.empty ops = .ok p ∧
      ops.getLast? = some (.findOrCreate s (some a)) ∧ assocGet s p.annotated ≠ some a := by
  refine ⟨[.findOrCreate (str "VEUR") (some ⟨some ⟨⟨false, 20, 0⟩, some (str "EUR")⟩, none⟩),
      .findOrCreate (str "VEUR") (some ⟨some ⟨⟨false, 30, 0⟩, some (str "EUR")⟩, none⟩)],
    (runOps Pool.empty [.findOrCreate (str "VEUR") (some ⟨some ⟨⟨false, 20, 0⟩, some (str "EUR")⟩, none⟩),
      .findOrCreate (str "VEUR") (some ⟨some ⟨⟨false, 30, 0⟩, some (str "EUR")⟩, none⟩)]).toOption.getD Pool.empty,
    str "VEUR", ⟨some ⟨⟨false, 30, 0⟩, some (str "EUR")⟩, none⟩, by decide +kernel, rfl, by decide +kernel⟩

/-- **C18** (violated) in general: whatever is stored for a symbol stays, any later annotation is dropped. -/
theorem C18_first_wins_violated (ops later : List PoolOp) (p p' : Pool) (h : runOps Pool.empty ops = .ok p)
    (h' : runOps p later = .ok p') (s : Str) (a : Annotation) (ha : assocGet s p.annotated = some a) :
    assocGet s p'.annotated = some a := by
  refine annot_stays p p' later h' (Pool.inv_runOps Pool.inv_empty ops h) ?_ s a ha
  have key : ∀ (q0 q : Pool) (l : List PoolOp), (∀ s, (assocGet s q0.annotated).isSome → (q0.find s).isSome) →
      runOps q0 l = .ok q → ∀ s, (assocGet s q.annotated).isSome → (q.find s).isSome := by
    intro q0 q l
    induction l generalizing q0 with
    | nil => intro h0 h1; injection h1 with h1; subst h1; exact h0
    | cons op l ih =>
      intro h0 h1
      obtain ⟨q1, e1, e2⟩ := Pool.runOps_cons _ _ _ _ h1
      refine ih q1 ?_ e2
      intro x hx
      cases op with
      | addPrice s' t pr =>
        obtain ⟨A, B, cA, cB, _, _, _, _, _, rfl⟩ := Pool.addPrice_ok e1
        exact h0 x hx
      | findOrCreate s' ann =>
        injection e1 with e1; subst e1
        by_cases hs' : s' = []
        · subst hs'; rw [Pool.findOrCreate_empty] at hx ⊢; exact h0 x hx
        by_cases hxs : x = s'
        · subst hxs
          cases hf : q0.find x with
          | some c => rw [Pool.find_findOrCreate ann hf]; rfl
          | none =>
            unfold Pool.find at hf ⊢
            rw [(Pool.findOrCreate_new hs' hf ann).2.1, assocGet_append, hf]; simp [assocGet]
        · have hold : (assocGet x q0.annotated).isSome := by
            cases hf : q0.find s' with
            | some c =>
              rw [(Pool.findOrCreate_old hs' hf ann).2.2.2] at hx
              cases ann with
              | none => exact hx
              | some a =>
                simp only at hx
                split at hx
                · rw [assocGet_insert_ne _ _ _ _ hxs] at hx; exact hx
                · exact hx
            | none =>
              rw [(Pool.findOrCreate_new hs' hf ann).2.2.2] at hx
              cases ann with
              | none => exact hx
              | some a => simp only at hx; rw [assocGet_insert_ne _ _ _ _ hxs] at hx; exact hx
          obtain ⟨c, hc⟩ := Option.isSome_iff_exists.mp (h0 x hold)
          rw [Pool.find_findOrCreate ann hc]; rfl
  exact key Pool.empty p ops (by simp [Pool.empty, assocGet]) h

/-- **C18** (partial) The first annotation given for a symbol is stored, and stays.  Missing: any further lot of the
same symbol (`C18_first_wins_violated`). -/
theorem C18_lot_annotation_partial (ops later : List PoolOp) (p p' : Pool) (h : runOps Pool.empty ops = .ok p)
    (s : Str) (hs : s ≠ []) (a : Annotation) (hnone : assocGet s p.annotated = none)
    (h' : runOps (p.findOrCreate s (some a)).1 later = .ok p') : assocGet s p'.annotated = some a := by
  have hop : runOps Pool.empty (ops ++ [.findOrCreate s (some a)]) = .ok (p.findOrCreate s (some a)).1 := by
    rw [Pool.runOps_append, h]; rfl
  refine C18_first_wins_violated (ops ++ [.findOrCreate s (some a)]) later _ p' hop h' s a ?_
  cases hf : p.find s with
  | some c =>
    rw [(Pool.findOrCreate_old hs hf (some a)).2.2.2]
    simp only [hnone, Option.isNone_none, if_true, assocGet_insert_self]
  | none =>
    rw [(Pool.findOrCreate_new hs hf (some a)).2.2.2]
    simp only [assocGet_insert_self]

example : assocGet (str "EUR") examplePool.annotated = none ∧
    assocGet (str "EUR") (examplePool.findOrCreate (str "EUR") (some ⟨none, some ⟨2023, 4, 1⟩⟩)).1.annotated
      = some ⟨none, some ⟨2023, 4, 1⟩⟩ := by decide +kernel

/-- **C18** (partial) Exactly what is stored for a symbol: the first annotation it was ever looked up with.  Missing: the
later ones. -/
theorem C18_stored_exact_partial (ops : List PoolOp) (p : Pool) (h : runOps Pool.empty ops = .ok p) (s : Str) (hs : s ≠ [])
    (a : Annotation) : assocGet s p.annotated = some a ↔
      ∃ pre post, ops = pre ++ .findOrCreate s (some a) :: post ∧ ∀ b, PoolOp.findOrCreate s (some b) ∉ pre := by
  have back : ∀ a pre post, ops = pre ++ .findOrCreate s (some a) :: post → (∀ b, PoolOp.findOrCreate s (some b) ∉ pre) →
      assocGet s p.annotated = some a := by
    intro a pre post e hn
    rw [e, Pool.runOps_append] at h
    cases h0 : runOps Pool.empty pre with
    | error e => rw [h0] at h; cases h
    | ok p0 =>
      rw [h0] at h
      refine C18_lot_annotation_partial pre post p0 p h0 s hs a ?_ h
      cases hx : assocGet s p0.annotated with
      | none => rfl
      | some b =>
        obtain ⟨b, hb⟩ := (annot_spec pre p0 h0 s hs).1.mp (by rw [hx]; rfl)
        exact absurd hb (hn b)
  refine ⟨fun hg => ?_, fun ⟨pre, post, e, hn⟩ => back a pre post e hn⟩
  obtain ⟨b, hb⟩ := (annot_spec ops p h s hs).1.mp (by rw [hg]; rfl)
  have first : ∀ l : List PoolOp, (∃ b, PoolOp.findOrCreate s (some b) ∈ l) →
      ∃ b pre post, l = pre ++ .findOrCreate s (some b) :: post ∧ ∀ c, PoolOp.findOrCreate s (some c) ∉ pre := by
    intro l
    induction l with
    | nil => rintro ⟨b, hb⟩; cases hb
    | cons op l ih =>
      rintro ⟨b, hb⟩
      by_cases ho : ∃ c, op = .findOrCreate s (some c)
      · obtain ⟨c, rfl⟩ := ho
        exact ⟨c, [], l, rfl, by simp⟩
      · rcases List.mem_cons.mp hb with hb | hb
        · exact absurd ⟨b, hb.symm⟩ ho
        · obtain ⟨c, pre, post, e, hn⟩ := ih ⟨b, hb⟩
          refine ⟨c, op :: pre, post, by rw [e]; rfl, fun d hd => ?_⟩
          rcases List.mem_cons.mp hd with hd | hd
          · exact ho ⟨d, hd.symm⟩
          · exact hn d hd
  obtain ⟨c, pre, post, e, hn⟩ := first ops ⟨b, hb⟩
  rw [back c pre post e hn] at hg
  injection hg with hg
  subst hg
  exact ⟨pre, post, e, hn⟩

/-- **C19** (violated) A commodity first seen without annotation keeps its flag unset when an annotation is stored
for it. -/
theorem C19_flag_violated :
    ∃ (ops : List PoolOp) (p : Pool) (s : Str) (c : Commodity), runOps Pool.empty ops = .ok p ∧ p.find s = some c ∧
      c.annotated = false ∧ (assocGet s p.annotated).isSome :=
  ⟨[.findOrCreate (str "VEUR") none, .findOrCreate (str "VEUR") (some ⟨none, some ⟨2023, 4, 1⟩⟩)],
    (runOps Pool.empty [.findOrCreate (str "VEUR") none,
      .findOrCreate (str "VEUR") (some ⟨none, some ⟨2023, 4, 1⟩⟩)]).toOption.getD Pool.empty,
    str "VEUR", ⟨str "VEUR", 0, false⟩, by decide +kernel, by decide +kernel, rfl, by decide +kernel⟩

/-- **C19** (partial) The flag implies that an annotation is stored; and the two agree for a symbol that is always or
never looked up with an annotation.  Missing: symbols looked up both ways (`C19_flag_violated`). -/
theorem C19_flag_partial (ops : List PoolOp) (p : Pool) (h : runOps Pool.empty ops = .ok p) (s : Str) (c : Commodity)
    (hc : p.find s = some c) :
    (c.annotated = true → (assocGet s p.annotated).isSome) ∧
    ((¬ (PoolOp.findOrCreate s none ∈ ops ∧ ∃ a, PoolOp.findOrCreate s (some a) ∈ ops)) →
      (c.annotated = true ↔ (assocGet s p.annotated).isSome)) := by
  have hinv := Pool.inv_runOps Pool.inv_empty ops h
  have hs : s ≠ [] := by
    rintro rfl
    exact hinv.nonempty (List.mem_of_getElem? (hinv.find hc).2)
  obtain ⟨h1, h2⟩ := annot_spec ops p h s hs
  obtain ⟨h3, h4⟩ := h2 c hc
  refine ⟨fun e => h1.mpr (h3 e), fun hn => ⟨fun e => h1.mpr (h3 e), fun e => ?_⟩⟩
  cases hca : c.annotated with
  | true => rfl
  | false => exact absurd ⟨h4 hca, h1.mp e⟩ hn

/-- **C19** Exactly when the flag is set and when an annotation is stored: the flag says whether the first lookup of the symbol
had an annotation, whereas one is stored as soon as any lookup had one.  Missing: that the two agree. -/
theorem C19_flag_exact_partial (ops : List PoolOp) (p : Pool) (h : runOps Pool.empty ops = .ok p) (s : Str) (c : Commodity)
    (hc : p.find s = some c) :
    (c.annotated = true ↔ ∃ pre a post, ops = pre ++ .findOrCreate s (some a) :: post ∧
      ∀ b, PoolOp.findOrCreate s b ∉ pre) ∧
    ((assocGet s p.annotated).isSome ↔ ∃ a, PoolOp.findOrCreate s (some a) ∈ ops) := by
  have hinv := Pool.inv_runOps Pool.inv_empty ops h
  have hs : s ≠ [] := by
    rintro rfl
    exact hinv.nonempty (List.mem_of_getElem? (hinv.find hc).2)
  refine ⟨?_, (annot_spec ops p h s hs).1⟩
  have hf := annot_first ops p h s hs
  rw [hc] at hf
  constructor
  · intro ht
    cases hx : ops.findSome? (lookupOf s) with
    | none => rw [hx] at hf; cases hf
    | some x =>
      rw [hx] at hf
      simp only [Option.map_some, Option.some.injEq] at hf
      obtain ⟨pre, op, post, e1, e2, e3⟩ := List.findSome?_eq_some_iff.mp hx
      rw [ht] at hf
      obtain ⟨a, rfl⟩ := Option.isSome_iff_exists.mp hf.symm
      cases op with
      | addPrice s' t pr => cases e2
      | findOrCreate s' a' =>
        simp only [lookupOf] at e2
        split at e2
        · rename_i hss
          subst hss
          injection e2 with e2
          subst e2
          refine ⟨pre, a, post, e1, fun b hb => ?_⟩
          have := e3 _ hb
          simp [lookupOf] at this
        · cases e2
  · rintro ⟨pre, a, post, rfl, hn⟩
    have hx : (pre ++ PoolOp.findOrCreate s (some a) :: post).findSome? (lookupOf s) = some (some a) := by
      refine List.findSome?_eq_some_iff.mpr ⟨pre, _, post, rfl, by simp [lookupOf], fun op hop => ?_⟩
      cases op with
      | addPrice s' t pr => rfl
      | findOrCreate s' a' =>
        simp only [lookupOf]
        split
        · rename_i hss; subst hss; exact absurd hop (hn a')
        · rfl
    rw [hx] at hf
    simpa using hf

example : let p := (Pool.empty.findOrCreate (str "VEUR") (some ⟨none, none⟩)).1
    p.find (str "VEUR") = some ⟨str "VEUR", 0, true⟩ ∧ assocGet (str "VEUR") p.annotated = some ⟨none, none⟩ := by
  decide +kernel

end Ledger
