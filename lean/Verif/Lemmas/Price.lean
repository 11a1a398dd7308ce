import Verif.Lemmas.DecRange
import Verif.Lemmas.Pool
import Verif.Lemmas.Search
import Verif.Lemmas.DecArith
import Verif.Spec.Rate
/-
Price lookup through the graph.
-/
namespace Ledger

theorem History.hasEdge_iff (h : History) (i j : Nat) : h.HasEdge i j ↔ (findEdge i j h.edges).isSome := by
  unfold HasEdge
  obtain ⟨n, es⟩ := h
  simp only
  induction es with
  | nil => simp [findEdge]
  | cons e es ih =>
    simp only [findEdge, List.mem_cons, exists_eq_or_imp, ih]
    by_cases he : e.src = i ∧ e.dst = j
    · simp [he]
    · simp [he]

/-- The nodes are the commodities. -/
def Names (p : Pool) : List Nat → List Str → Prop := List.Forall₂ (fun i s => p.history.nodes[i]? = some s)

variable {ops : List PoolOp} {p : Pool}

theorem edge_priced (h : runOps Pool.empty ops = .ok p) {i j : Nat} {A B : Str}
    (hi : p.history.nodes[i]? = some A) (hj : p.history.nodes[j]? = some B) :
    p.history.HasEdge i j ↔ Priced (recordings ops) A B := by
  have hinv := Pool.inv_runOps Pool.inv_empty ops h
  obtain ⟨g1, g2, g3⟩ := graph_spec ops p h
  obtain ⟨cA, hA, rfl⟩ := hinv.index hi
  obtain ⟨cB, hB, rfl⟩ := hinv.index hj
  rw [History.hasEdge_iff, g1 A B cA cB hA hB]
  have := pairMap_none_iff (recordings ops) A B
  cases hp : pairMap (recordings ops) A B with
  | none => simp [hp] at this ⊢; exact this
  | some m => simp [hp] at this ⊢; exact this

theorem edge_names (h : runOps Pool.empty ops = .ok p) {i j : Nat} (he : p.history.HasEdge i j) :
    ∃ A B, p.history.nodes[i]? = some A ∧ p.history.nodes[j]? = some B ∧ Priced (recordings ops) A B ∧ A ≠ B ∧ i ≠ j := by
  obtain ⟨g1, g2, g3⟩ := graph_spec ops p h
  obtain ⟨A, B, hA, hB⟩ := g2 i j ((History.hasEdge_iff _ _ _).mp he)
  have hp := (edge_priced h hA hB).mp he
  obtain ⟨r, hr, rfl, rfl⟩ := hp
  refine ⟨_, _, hA, hB, ⟨r, hr, rfl, rfl⟩, (g3 r hr).1, ?_⟩
  rintro rfl
  rw [hA] at hB; injection hB with hB
  exact (g3 r hr).1 hB

theorem priced_names (h : runOps Pool.empty ops = .ok p) {A B : Str} (hp : Priced (recordings ops) A B) :
    ∃ i j, p.history.nodes[i]? = some A ∧ p.history.nodes[j]? = some B ∧ p.history.HasEdge i j := by
  obtain ⟨g1, g2, g3⟩ := graph_spec ops p h
  obtain ⟨r, hr, rfl, rfl⟩ := hp
  obtain ⟨i, hi⟩ := List.mem_iff_getElem?.mp (g3 r hr).2.1
  obtain ⟨j, hj⟩ := List.mem_iff_getElem?.mp (g3 r hr).2.2
  exact ⟨i, j, hi, hj, (edge_priced h hi hj).mpr ⟨r, hr, rfl, rfl⟩⟩

theorem node_inj (h : runOps Pool.empty ops = .ok p) {i j : Nat} {A : Str}
    (hi : p.history.nodes[i]? = some A) (hj : p.history.nodes[j]? = some A) : i = j := by
  have hinv := Pool.inv_runOps Pool.inv_empty ops h
  obtain ⟨c, hc, e⟩ := hinv.index hi
  obtain ⟨c', hc', e'⟩ := hinv.index hj
  rw [hc] at hc'; injection hc' with hc'; subst hc'
  omega

/-- A walk in the graph is a chain of prices. -/
theorem walk_chain (h : runOps Pool.empty ops = .ok p) {i j : Nat} {l : List Nat} {A : Str}
    (hw : Walk p.history.HasEdge i j l) (hi : p.history.nodes[i]? = some A) :
    ∃ B cs, p.history.nodes[j]? = some B ∧ Names p l cs ∧ ChainFrom (recordings ops) A B cs := by
  induction hw generalizing A with
  | here i => exact ⟨A, [A], hi, List.Forall₂.cons hi List.Forall₂.nil, by simp [ChainFrom, PriceChain]⟩
  | @step i k j l he hw ih =>
    obtain ⟨A', C, hA, hC, hp, _⟩ := edge_names h he
    rw [hi] at hA; injection hA with hA; subst hA
    obtain ⟨B, cs, hB, hn, hc⟩ := ih hC
    refine ⟨B, A :: cs, hB, List.Forall₂.cons hi hn, ?_⟩
    obtain ⟨c1, c2, c3⟩ := hc
    cases cs with
    | nil => simp at c2
    | cons c cs =>
      simp at c2; subst c2
      exact ⟨⟨hp, c1⟩, rfl, by rw [List.getLast?_cons_cons]; exact c3⟩

/-- A chain of prices is a walk in the graph. -/
theorem chain_walk (h : runOps Pool.empty ops = .ok p) {A B : Str} {cs : List Str} {i : Nat}
    (hc : ChainFrom (recordings ops) A B cs) (hi : p.history.nodes[i]? = some A) :
    ∃ j l, p.history.nodes[j]? = some B ∧ Walk p.history.HasEdge i j l ∧ l.length = cs.length := by
  induction cs generalizing A i with
  | nil => exact absurd hc.1 (by simp [PriceChain])
  | cons c cs ih =>
    obtain ⟨c1, c2, c3⟩ := hc
    simp at c2; subst c2
    cases cs with
    | nil =>
      simp at c3; subst c3
      exact ⟨i, [i], hi, Walk.here i, rfl⟩
    | cons d ds =>
      obtain ⟨hp, c1⟩ := c1
      obtain ⟨i', k, hi', hk, he⟩ := priced_names h hp
      have := node_inj h hi hi'
      subst this
      rw [List.getLast?_cons_cons] at c3
      obtain ⟨j, l, hj, hw, hl⟩ := ih ⟨c1, rfl, c3⟩ hk
      exact ⟨j, i :: l, hj, Walk.step he hw, by simp [hl]⟩

/-- The direct price between two nodes is the latest recording. -/
theorem direct_price (h : runOps Pool.empty ops = .ok p) (hw : ∀ r ∈ recordings ops, r.time.WF) {i j : Nat} {A B : Str}
    (hi : p.history.nodes[i]? = some A) (hj : p.history.nodes[j]? = some B) :
    (∀ t q, p.history.getDirectPrice i j = some (t, q) → IsLatest (recordings ops) A B t q) ∧
    (p.history.getDirectPrice i j = none ↔ ¬ Priced (recordings ops) A B) := by
  have hinv := Pool.inv_runOps Pool.inv_empty ops h
  obtain ⟨g1, g2, g3⟩ := graph_spec ops p h
  obtain ⟨cA, hA, rfl⟩ := hinv.index hi
  obtain ⟨cB, hB, rfl⟩ := hinv.index hj
  unfold History.getDirectPrice
  rw [g1 A B cA cB hA hB, ← pairMap_none_iff]
  cases hp : pairMap (recordings ops) A B with
  | none => simp
  | some m =>
    obtain ⟨_, _, t, q, h1, h2⟩ := pairMap_latest _ hw A B m hp
    simp only [h1]
    refine ⟨?_, by simp⟩
    intro t' q' e
    injection e with e; injection e with e1 e2; subst e1; subst e2; exact h2

/-- The rate computed along legs. -/
def rateOf : List (DateTime × Dec) → DateTime → Dec → Res (DateTime × Dec)
  | [], least, q => .ok (least, q)
  | (t, x) :: ls, least, q => do
    let q' ← q.mul x
    rateOf ls (if t.lt least then t else least) q'

theorem walk_rate (h : runOps Pool.empty ops = .ok p) (hwf : ∀ r ∈ recordings ops, r.time.WF) {i j : Nat} {l : List Nat}
    (hw : Walk p.history.HasEdge i j l) {cs : List Str} (hn : Names p l cs) :
    ∃ legs, Legs (recordings ops) cs legs ∧
      ∀ least q, p.history.calculateRateGo l i least q = rateOf legs least q := by
  induction hw generalizing cs with
  | here i =>
    cases hn with
    | @cons _ B _ cs' hB hn =>
      cases hn
      exact ⟨[], Legs.nil _, by intro least q; simp [History.calculateRateGo, rateOf]⟩
  | @step i k j l he hw ih =>
    cases hn with
    | @cons _ A _ cs' hA hn =>
      obtain ⟨legs, h1, h2⟩ := ih hn
      obtain ⟨r, rfl⟩ := hw.head
      cases hn with
      | @cons _ B _ cs'' hB hn =>
        obtain ⟨d1, d2⟩ := direct_price h hwf hA hB
        have hp := (edge_priced h hA hB).mp he
        have hik : k ≠ i := by
          obtain ⟨_, _, _, _, _, _, hne⟩ := edge_names h he
          exact hne.symm
        cases hd : p.history.getDirectPrice i k with
        | none => exact absurd hp (d2.mp hd)
        | some tq =>
          obtain ⟨t, q⟩ := tq
          refine ⟨(t, q) :: legs, Legs.cons (d1 t q hd) h1, ?_⟩
          intro least x
          rw [History.calculateRateGo, if_pos rfl, History.calculateRateGo, if_neg hik, hd]
          simp only [rateOf]
          cases hm : x.mul q with
          | error e => rfl
          | ok y =>
            simp only [bind, Except.bind]
            have := h2 (if t.lt least then t else least) y
            rw [History.calculateRateGo, if_pos rfl] at this
            exact this

theorem rateOf_exact (legs : List (DateTime × Dec)) (least : DateTime) (q : Dec) (hs : StepsExact q.val legs) :
    ∃ t r, rateOf legs least q = .ok (t, r) ∧ r.val = q.val * legsProduct legs := by
  induction legs generalizing least q with
  | nil => exact ⟨least, q, rfl, by simp [legsProduct]⟩
  | cons x xs ih =>
    obtain ⟨t, d⟩ := x
    obtain ⟨h1, h2⟩ := hs
    obtain ⟨y, e1, e2, _⟩ := Dec.mul_exact q d h1
    rw [← e2] at h2
    obtain ⟨t', r, g1, g2⟩ := ih (if t.lt least then t else least) y h2
    refine ⟨t', r, ?_, ?_⟩
    · unfold rateOf; rw [e1]; exact g1
    · rw [g2, e2]; simp only [legsProduct]; ring

theorem mul_step {a b r : Dec} (h : a.mul b = .ok r) :
    PreciseTo r (a.val * b.val) ∧ (Representable (a.val * b.val) → r.val = a.val * b.val) := by
  refine ⟨Dec.mul_precise _ _ _ h, fun hr => ?_⟩
  obtain ⟨y, e1, e2, _⟩ := Dec.mul_exact a b hr
  rw [h] at e1
  injection e1 with e1
  rw [e1, e2]

theorem rateOf_rounded (legs : List (DateTime × Dec)) (least : DateTime) (q : Dec) :
    (∃ t r, rateOf legs least q = .ok (t, r) ∧ RoundedSteps q.val legs r.val) ∨
      (rateOf legs least q = .error .decimalOverflow ∧ ∃ pre t d post x, legs = pre ++ (t, d) :: post ∧
        RoundedSteps q.val pre x ∧ ¬ Moderate (x * d.val)) := by
  induction legs generalizing least q with
  | nil => exact Or.inl ⟨least, q, rfl, .nil _⟩
  | cons x xs ih =>
    obtain ⟨t, d⟩ := x
    cases hm : q.mul d with
    | error e =>
      right
      have he := Dec.mul_error _ _ _ hm
      refine ⟨?_, [], t, d, xs, q.val, rfl, .nil _, fun hmod => ?_⟩
      · unfold rateOf; rw [hm, he]; rfl
      · obtain ⟨r, hr⟩ := (Dec.mul_ok_iff q d).mpr hmod
        rw [hm] at hr; cases hr
    | ok y =>
      obtain ⟨k1, k2⟩ := mul_step hm
      rcases ih (if t.lt least then t else least) y with ⟨t', r, g1, g2⟩ | ⟨g1, pre, t', d', post, x, g2, g3, g4⟩
      · exact Or.inl ⟨t', r, by unfold rateOf; rw [hm]; exact g1, .cons k1 k2 g2⟩
      · refine Or.inr ⟨by unfold rateOf; rw [hm]; exact g1, (t, d) :: pre, t', d', post, x, by rw [g2]; rfl, .cons k1 k2 g3, g4⟩

theorem RoundedSteps.exact {x y : ℚ} {ls : List (DateTime × Dec)} (h : RoundedSteps x ls y) (hs : StepsExact x ls) :
    y = x * legsProduct ls := by
  induction h with
  | nil x => simp [legsProduct]
  | cons _ hd _ ih =>
    obtain ⟨h1, h2⟩ := hs
    rw [← hd h1] at h2
    rw [ih h2, hd h1]
    simp only [legsProduct]; ring

theorem RateResult.single {B : Str} {legs : List (DateTime × Dec)} {res : Res (Option PricePoint)} (h : RateResult B legs res)
    {t : DateTime} {q : Dec} (e : legs = [(t, q)]) : res = .ok (some ⟨t, ⟨q, some B⟩⟩) := by
  rcases h with ⟨t', q', e', h⟩ | ⟨hl, _⟩
  · rw [e] at e'; simp at e'; rw [h, e'.1, e'.2]
  · rw [e] at hl; simp at hl

theorem moderate_representable {x : ℚ} (h : Representable x) : Moderate x := by
  obtain ⟨d, hv, rfl⟩ := h
  have : ∃ r, Dec.one.mul d = .ok r := by
    obtain ⟨r, hr, _⟩ := Dec.mul_exact Dec.one d ⟨d, hv, by rw [Dec.val_one, one_mul]⟩
    exact ⟨r, hr⟩
  have := (Dec.mul_ok_iff _ _).mp this
  rwa [Dec.val_one, one_mul] at this

theorem StepsExact.split {x y : ℚ} {pre post : List (DateTime × Dec)} {t : DateTime} {q : Dec}
    (hs : StepsExact x (pre ++ (t, q) :: post)) (h : RoundedSteps x pre y) : Representable (y * q.val) := by
  induction h with
  | nil x => exact hs.1
  | cons _ hd _ ih =>
    obtain ⟨h1, h2⟩ := hs
    rw [← hd h1] at h2
    exact ih h2

theorem RateResult.exact {B : Str} {legs : List (DateTime × Dec)} {res : Res (Option PricePoint)} (h : RateResult B legs res)
    (hs : StepsExact 1 legs) : ∃ pp, res = .ok (some pp) ∧ pp.price.comm = some B ∧ pp.price.qty.val = legsProduct legs := by
  rcases h with ⟨t, q, rfl, h⟩ | ⟨_, ⟨t, r, h, h'⟩ | ⟨_, pre, t, q, post, x, rfl, h', hm⟩⟩
  · exact ⟨_, h, rfl, by simp [legsProduct]⟩
  · exact ⟨_, h, rfl, by rw [h'.exact hs, one_mul]⟩
  · exact absurd (moderate_representable (hs.split h')) hm

theorem rateOf_error (legs : List (DateTime × Dec)) (least : DateTime) (q : Dec) (e : Panic)
    (h : rateOf legs least q = .error e) : e = .decimalOverflow := by
  induction legs generalizing least q with
  | nil => cases h
  | cons x xs ih =>
    obtain ⟨t, d⟩ := x
    unfold rateOf at h
    cases hm : q.mul d with
    | error e' =>
      rw [hm] at h; simp only [bind, Except.bind] at h; injection h with h; subst h
      exact Dec.mul_error _ _ _ hm
    | ok y => rw [hm] at h; exact ih _ _ h

theorem rateOf_date (legs : List (DateTime × Dec)) (least t : DateTime) (q r : Dec)
    (h : rateOf legs least q = .ok (t, r)) :
    (t = least ∨ t ∈ legs.map (·.1)) ∧ t.key ≤ least.key ∧ ∀ x ∈ legs, t.key ≤ x.1.key := by
  induction legs generalizing least q with
  | nil => unfold rateOf at h; injection h with h; injection h with h _; subst h; simp
  | cons x xs ih =>
    obtain ⟨t', d⟩ := x
    unfold rateOf at h
    cases hm : q.mul d with
    | error e' => rw [hm] at h; simp [bind, Except.bind] at h
    | ok y =>
      rw [hm] at h
      simp only [bind, Except.bind] at h
      obtain ⟨h1, h2, h3⟩ := ih _ _ h
      have hl : DateTime.lt t' least = true ↔ t'.key < least.key := by unfold DateTime.lt; simp
      by_cases hlt : t'.lt least = true
      · rw [if_pos hlt] at h1 h2
        rw [hl] at hlt
        refine ⟨?_, by omega, ?_⟩
        · rcases h1 with h1 | h1
          · right; simp [h1]
          · right; simp only [List.map_cons, List.mem_cons]; exact Or.inr h1
        · intro x hx
          rcases List.mem_cons.mp hx with rfl | hx
          · exact h2
          · exact h3 x hx
      · rw [if_neg hlt] at h1 h2
        rw [hl] at hlt
        refine ⟨?_, h2, ?_⟩
        · rcases h1 with h1 | h1
          · exact Or.inl h1
          · right; simp only [List.map_cons, List.mem_cons]; exact Or.inr h1
        · intro x hx
          rcases List.mem_cons.mp hx with rfl | hx
          · show t.key ≤ t'.key; omega
          · exact h3 x hx

theorem names_length {l : List Nat} {cs : List Str} (h : Names p l cs) : l.length = cs.length := List.Forall₂.length_eq h

/-- What `findPrice` does, in terms of the recordings. -/
theorem findPrice_spec (search : History.Search) (hs : History.IsShortest search)
    (h : runOps Pool.empty ops = .ok p) (hwf : ∀ r ∈ recordings ops, r.time.WF) (now m o : DateTime)
    {A B : Str} (hne : A ≠ B) (hA : A ∈ p.history.nodes) (hB : B ∈ p.history.nodes) :
    (p.findPrice search now A B m o = .ok none ∧ ∀ cs, ¬ ChainFrom (recordings ops) A B cs) ∨
    (∃ cs legs, ShortestChain (recordings ops) A B cs ∧ Legs (recordings ops) cs legs ∧
      ((∃ t q, legs = [(t, q)] ∧ p.findPrice search now A B m o = .ok (some ⟨t, ⟨q, some B⟩⟩)) ∨
        (2 ≤ legs.length ∧ p.findPrice search now A B m o =
          (do let (t, q) ← rateOf legs now Dec.one; .ok (some ⟨t, ⟨q, some B⟩⟩))))) := by
  have hinv := Pool.inv_runOps Pool.inv_empty ops h
  obtain ⟨cA, fA⟩ := hinv.find_some hA
  obtain ⟨cB, fB⟩ := hinv.find_some hB
  have nA := (hinv.find fA).2
  have nB := (hinv.find fB).2
  have dA : p.deref (some A) = .ok cA := by unfold Pool.deref; simp only [fA]
  have dB : p.deref (some B) = .ok cB := by unfold Pool.deref; simp only [fB]
  unfold Pool.findPrice
  rw [if_neg hne, dA, dB]
  simp only [bind, Except.bind]
  obtain ⟨s1, s2⟩ := hs p.history cA.graphIndex cB.graphIndex
  cases hr : search p.history cA.graphIndex cB.graphIndex with
  | none =>
    left
    refine ⟨rfl, ?_⟩
    intro cs hc
    obtain ⟨j, l, hj, hw, _⟩ := chain_walk h hc nA
    have := node_inj h hj nB
    subst this
    exact s1 hr l hw
  | some nl =>
    obtain ⟨n, l⟩ := nl
    right
    obtain ⟨hw, hl, hmin⟩ := s2 n l hr
    obtain ⟨B', cs, hB', hn, hc⟩ := walk_chain h hw nA
    rw [nB] at hB'; injection hB' with hB'; subst hB'
    have hnl := names_length hn
    have hmin' : ∀ cs', ChainFrom (recordings ops) A B cs' → cs.length ≤ cs'.length := by
      intro cs' hc'
      obtain ⟨j, l', hj, hw', hl'⟩ := chain_walk h hc' nA
      have := node_inj h hj nB
      subst this
      have := hmin l' hw'
      omega
    by_cases h1 : n = 1
    · have hcs : cs = [A, B] := by
        obtain ⟨_, c2, c3⟩ := hc
        cases cs with
        | nil => simp at c2
        | cons x cs =>
          cases cs with
          | nil => simp at hnl; omega
          | cons y cs =>
            have : cs = [] := by
              have : cs.length = 0 := by simp at hnl; omega
              exact List.length_eq_zero_iff.mp this
            subst this
            simp at c2 c3
            rw [c2, c3]
      subst hcs
      obtain ⟨d1, d2⟩ := direct_price h hwf nA nB
      cases hd : p.history.getDirectPrice cA.graphIndex cB.graphIndex with
      | none => exact absurd hc.1.1 (d2.mp hd)
      | some tq =>
        obtain ⟨t, q⟩ := tq
        refine ⟨[A, B], [(t, q)], ⟨hc, hmin'⟩, Legs.cons (d1 t q hd) (Legs.nil _), Or.inl ⟨t, q, rfl, ?_⟩⟩
        simp only [if_pos h1]
    · obtain ⟨legs, hlegs, hrate⟩ := walk_rate h hwf hw hn
      have hlen : legs.length + 1 = cs.length := by
        clear hrate hn hc hmin' hnl
        induction hlegs with
        | nil => rfl
        | cons _ _ ih => simp only [List.length_cons] at ih ⊢; omega
      have hn0 : n ≠ 0 := by
        rintro rfl
        obtain ⟨_, c2, c3⟩ := hc
        cases cs with
        | nil => simp at c2
        | cons x cs =>
          cases cs with
          | nil => simp at c2 c3; exact hne (c2.symm.trans c3)
          | cons y cs => simp at hnl; omega
      refine ⟨cs, legs, ⟨hc, hmin'⟩, hlegs, Or.inr ⟨by omega, ?_⟩⟩
      simp only [if_neg h1]
      unfold History.calculateRate
      rw [hrate]

/-- The latest price of a pair is determined by the recordings. -/
theorem isLatest_unique {recs : List Recording} {A B : Str} {t t' : DateTime} {q q' : Dec}
    (h : IsLatest recs A B t q) (h' : IsLatest recs A B t' q') : t = t' ∧ q = q' := by
  obtain ⟨pre, post, e, a1, a2⟩ := h
  obtain ⟨pre', post', e', b1, b2⟩ := h'
  rw [e] at e'
  rcases List.append_eq_append_iff.mp e' with ⟨as, h1, h2⟩ | ⟨as, h1, h2⟩
  · cases as with
    | nil => simp at h2; exact ⟨h2.1.1, h2.1.2⟩
    | cons x xs =>
      simp only [List.cons_append, List.cons.injEq] at h2
      obtain ⟨rfl, h2⟩ := h2
      exact absurd (a2 ⟨A, B, t', q'⟩ (by rw [h2]; simp) rfl rfl) (b1 ⟨A, B, t, q⟩ (by rw [h1]; simp) rfl rfl)
  · cases as with
    | nil => simp at h2; exact ⟨h2.1.1.symm, h2.1.2.symm⟩
    | cons x xs =>
      simp only [List.cons_append, List.cons.injEq] at h2
      obtain ⟨rfl, h2⟩ := h2
      exact absurd (b2 ⟨A, B, t, q⟩ (by rw [h2]; simp) rfl rfl) (a1 ⟨A, B, t', q'⟩ (by rw [h1]; simp) rfl rfl)

end Ledger
