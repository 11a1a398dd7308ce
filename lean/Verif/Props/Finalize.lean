import Verif.Lemmas.Accept
import Verif.Model.Parser
/-
C30–C38: finalising transactions.
-/
namespace Ledger
open Finalize

/-- The journal read from a text (no includes). -/
def parsed (text : String) : Res Journal := Parser.parseText (fun _ => none) 0 (str text) Journal.new

/-- **C30** is violated: ten euros here and twenty there are accepted as a transaction. -/
theorem C30_balances_violated :
    ∃ j x, parsed "2023-05-01 Shop\n  A  10 EUR\n  B  20 EUR\n" = .ok j ∧ x ∈ j.xacts ∧ ¬ Balances x.posts := by
  have h : ∃ j x, parsed "2023-05-01 Shop\n  A  10 EUR\n  B  20 EUR\n" = .ok j ∧ j.xacts = [x] ∧
      bookedAmounts x.posts = [⟨⟨false, 10, 0⟩, some (str "EUR")⟩, ⟨⟨false, 20, 0⟩, some (str "EUR")⟩] := by
    refine ⟨_, _, rfl, rfl, ?_⟩
    decide +kernel
  obtain ⟨j, x, h1, h2, h3⟩ := h
  refine ⟨j, x, h1, by rw [h2]; simp, ?_⟩
  intro hb
  have := hb (some (str "EUR"))
  rw [h3] at this
  simp only [sumIn, Amount.valIn, if_pos, Dec.val_mk, Dec.sgn] at this
  norm_num at this

/-- **C30** is also violated with two commodities of the same sign, where a rate is derived: 10 EUR and 20 USD. -/
theorem C30_two_commodities_violated :
    ∃ j x, parsed "2023-05-01 Shop\n  A  10 EUR\n  B  20 USD\n" = .ok j ∧ x ∈ j.xacts ∧ ¬ Balances x.posts := by
  have h : ∃ j x, parsed "2023-05-01 Shop\n  A  10 EUR\n  B  20 USD\n" = .ok j ∧ j.xacts = [x] ∧
      bookedAmounts x.posts = [⟨⟨false, 20, 0⟩, some (str "USD")⟩, ⟨⟨false, 20, 0⟩, some (str "USD")⟩] := by
    refine ⟨_, _, rfl, rfl, ?_⟩
    decide +kernel
  obtain ⟨j, x, h1, h2, h3⟩ := h
  refine ⟨j, x, h1, by rw [h2]; simp, ?_⟩
  intro hb
  have := hb (some (str "USD"))
  rw [h3] at this
  simp only [sumIn, Amount.valIn, if_pos, Dec.val_mk, Dec.sgn] at this
  norm_num at this

/-- The blank posting of an accepted transaction: what it gets and what the others sum to. -/
theorem blank_gets (x x' : Xact) (pool pool' : Pool) (h : finalize x pool = .ok (x', pool'))
    (hr : InRange (bookedAmounts x.posts)) (hb : ∃ p ∈ x.posts, p.Blank) :
    ∃ l p r a, x.posts = l ++ p :: r ∧ p.Blank ∧ (∀ q ∈ l ++ r, ¬ q.Blank) ∧
      x' = { x with posts := l ++ { p with amount := some a } :: r } ∧
      (∀ q ∈ bookedAmounts x.posts, q.comm = a.comm) ∧ bookedAmounts x.posts ≠ [] ∧
      (0 ≤ sumIn a.comm (bookedAmounts x.posts) → a.qty.val = - sumIn a.comm (bookedAmounts x.posts)) ∧
      (sumIn a.comm (bookedAmounts x.posts) < 0 → a.qty.val = sumIn a.comm (bookedAmounts x.posts)) := by
  obtain ⟨l, p, r, a, h1, h2, h3, h4, h5, _⟩ := finalize_blank _ _ _ _ h hb
  rw [← bookedAmounts_blank l r p h2, ← h1] at h4
  obtain ⟨_, _, g3, g4⟩ := twoEntries _ _ hr h4
  have hv : a.qty.Valid := by
    obtain ⟨S, hS, k1, k2⟩ := hr
    obtain ⟨b', k3, k4, _⟩ := addAll_grid hS _ Balance.empty (by intro a ha; cases ha) k1
      (by simpa [Balance.empty, mass] using k2)
    rw [h4] at k3; injection k3 with k3; subst k3
    exact (k4 a (by simp)).1
  have hval : a.qty.val = sumIn a.comm (bookedAmounts x.posts) := g4 a (by simp)
  have hcomm : a.inverse.comm = a.comm := rfl
  refine ⟨l, p, r, a.inverse, h1, h2, h3, h5, ?_, ?_, ?_, ?_⟩
  · intro q hq
    have : q.comm ∈ (⟨[a]⟩ : Balance).amounts.map (·.comm) := (g3 _).mpr (List.mem_map_of_mem hq)
    rw [hcomm]
    simpa using this
  · intro e
    have : a.comm ∈ (bookedAmounts x.posts).map (·.comm) := (g3 _).mp (by simp)
    rw [e] at this; simp at this
  · rw [hcomm, ← hval]
    intro h0
    exact (C03_inverse_partial a hv h0).1
  · rw [hcomm, ← hval]
    intro h0
    have hn : a.qty.neg = true := by
      by_contra hn
      rw [Bool.not_eq_true] at hn
      have : 0 ≤ a.qty.val := by
        rw [Dec.val_eq, hn]; simp only [Dec.sgn, Bool.false_eq_true, if_false]; positivity
      linarith
    rw [C03_inverse_of_negative_unchanged a hn]

/-- **C30** (partial) An accepted transaction balances if the user wrote balancing postings, or left one posting
blank and the others sum to nothing negative.  Missing: the code never checks the sum of fully written transactions,
and a blank posting of a negative sum gets the wrong sign (C31).  For two commodities see C35. -/
theorem C30_balances_partial (x x' : Xact) (pool pool' : Pool) (h : finalize x pool = .ok (x', pool'))
    (hr : InRange (bookedAmounts x.posts))
    (hw : ((∀ p ∈ x.posts, ¬ p.Blank) ∧ Balances x.posts) ∨
      ((∃ p ∈ x.posts, p.Blank) ∧ ∀ c, 0 ≤ sumIn c (bookedAmounts x.posts))) :
    Balances x'.posts := by
  rcases hw with ⟨hnb, hbal⟩ | ⟨hb, hpos⟩
  · obtain ⟨b, b1, h1, _, h2, _, _⟩ := finalize_full _ _ _ _ h hnb
    obtain ⟨g1, _, _, g4⟩ := twoEntries _ _ hr h1
    rcases impliedCosts_ok _ _ _ _ _ h2 with ⟨e, _⟩ | ⟨_, a, y, top, ta, u, e1, _, _, e4, _⟩
    · rw [e]; exact hbal
    · have := g4 a (by rw [e1]; simp)
      rw [hbal] at this
      have hz : a.isZero = true := (Dec.isZero_iff _).mpr this
      rw [hz] at e4; cases e4
  · obtain ⟨l, p, r, a, h1, h2, h3, h4, h5, _, h7, _⟩ := blank_gets _ _ _ _ h hr hb
    intro c
    have hbk : ({ p with amount := some a } : Post).booked = some a := by
      unfold Post.booked; rw [(blank_fields h2).1]
    rw [h4]
    show sumIn c (bookedAmounts (l ++ { p with amount := some a } :: r)) = 0
    rw [bookedAmounts_some l r _ a hbk, sumIn_append, sumIn_cons]
    have e : sumIn c (bookedAmounts x.posts) = sumIn c (bookedAmounts l) + sumIn c (bookedAmounts r) := by
      rw [h1, bookedAmounts_blank l r p h2, bookedAmounts_append, sumIn_append]
    have h7' := h7 (hpos _)
    unfold Amount.valIn
    by_cases hc : a.comm = c
    · rw [if_pos hc, h7', hc, e]; ring
    · rw [if_neg hc]
      have : sumIn c (bookedAmounts x.posts) = 0 := by
        have hne : ∀ as : List Amount, (∀ q ∈ as, q.comm = a.comm) → sumIn c as = 0 := by
          intro as
          induction as with
          | nil => intro _; rfl
          | cons q as ih =>
            intro hq
            rw [sumIn_cons, ih fun z hz => hq z (by simp [hz])]
            unfold Amount.valIn
            rw [if_neg (by rw [hq q (by simp)]; exact hc)]; simp
        exact hne _ h5
      rw [this] at e
      linarith

/-- A purchase with a blank posting: 10 and 5 euros, the rest is left to the program. -/
def exampleXact : Xact :=
  ⟨some ⟨2023, 5, 1⟩, none, str "Shop",
    [⟨[str "A"], some ⟨⟨false, 10, 0⟩, some (str "EUR")⟩, none, none⟩, ⟨[str "B"], none, none, some (str "n")⟩,
     ⟨[str "C"], some ⟨⟨false, 525, 2⟩, some (str "EUR")⟩, none, none⟩], none⟩

example : (∃ p ∈ exampleXact.posts, p.Blank) ∧
    finalize exampleXact Pool.empty = .ok ({ exampleXact with posts :=
      [⟨[str "A"], some ⟨⟨false, 10, 0⟩, some (str "EUR")⟩, none, none⟩,
       ⟨[str "B"], some ⟨⟨true, 1525, 2⟩, some (str "EUR")⟩, none, some (str "n")⟩,
       ⟨[str "C"], some ⟨⟨false, 525, 2⟩, some (str "EUR")⟩, none, none⟩] }, Pool.empty) := by
  decide +kernel

/-- **C31** is violated for negative sums: beside a posting of -10 EUR the blank one gets -10 EUR as well. -/
theorem C31_blank_violated :
    ∃ j x a, parsed "2023-05-01 Shop\n  A  -10 EUR\n  B\n" = .ok j ∧ j.xacts = [x] ∧
      (x.posts.map (·.amount)) = [some a, some a] ∧ a.qty.val < 0 := by
  have h : ∃ j x, parsed "2023-05-01 Shop\n  A  -10 EUR\n  B\n" = .ok j ∧ j.xacts = [x] ∧
      x.posts.map (·.amount) = [some ⟨⟨true, 10, 0⟩, some (str "EUR")⟩, some ⟨⟨true, 10, 0⟩, some (str "EUR")⟩] := by
    refine ⟨_, _, rfl, rfl, ?_⟩
    decide +kernel
  obtain ⟨j, x, h1, h2, h3⟩ := h
  refine ⟨j, x, _, h1, h2, h3, ?_⟩
  simp only [Dec.val_mk, Dec.sgn]
  norm_num

/-- **C31** What a blank posting gets, for both signs: the negated sum of the others if that sum is not negative,
but the sum itself if it is negative. -/
theorem C31_blank_both_signs (x x' : Xact) (pool pool' : Pool) (h : finalize x pool = .ok (x', pool'))
    (hr : InRange (bookedAmounts x.posts)) (hb : ∃ p ∈ x.posts, p.Blank) :
    ∃ l p r a, x.posts = l ++ p :: r ∧ p.Blank ∧ x'.posts = l ++ { p with amount := some a } :: r ∧
      (∀ q ∈ bookedAmounts x.posts, q.comm = a.comm) ∧
      (0 ≤ sumIn a.comm (bookedAmounts x.posts) → a.qty.val = - sumIn a.comm (bookedAmounts x.posts)) ∧
      (sumIn a.comm (bookedAmounts x.posts) < 0 → a.qty.val = sumIn a.comm (bookedAmounts x.posts)) := by
  obtain ⟨l, p, r, a, h1, h2, _, h4, h5, _, h7, h8⟩ := blank_gets _ _ _ _ h hr hb
  exact ⟨l, p, r, a, h1, h2, by rw [h4], h5, h7, h8⟩

/-- A blank posting beside postings in one commodity with a sum that is not negative. -/
theorem blank_core (x : Xact) (pool pool' : Pool) (l r : List Post) (p : Post) (c : Option Str)
    (hx : x.posts = l ++ p :: r) (hp : p.Blank)
    (hbk : ∀ q ∈ l ++ r, ∃ a, q.booked = some a ∧ a.comm = c)
    (hne : l ++ r ≠ []) (hr : InRange (bookedAmounts (l ++ r)))
    (hs : 0 ≤ sumIn c (bookedAmounts (l ++ r)))
    (hrec : recordPrices x.date (l ++ p :: r) pool = .ok (l ++ p :: r, pool')) :
    ∃ a, finalize x pool = .ok ({ x with posts := l ++ { p with amount := some a } :: r }, pool') ∧
      a.comm = c ∧ a.qty.val = - sumIn c (bookedAmounts (l ++ r)) := by
  have hnb : ∀ q ∈ l ++ r, ¬ q.Blank := by
    intro q hq hb
    obtain ⟨a, h1, _⟩ := hbk q hq
    unfold Post.Blank at hb; rw [h1] at hb; cases hb
  obtain ⟨b, h1, h2, h3, h4⟩ := C07_balance_is_sum _ hr
  have hcs : ∀ a ∈ bookedAmounts (l ++ r), a.comm = c := by
    intro a ha
    unfold bookedAmounts at ha
    obtain ⟨q, hq, ha⟩ := List.mem_filterMap.mp ha
    obtain ⟨a', e1, e2⟩ := hbk q hq
    rw [e1] at ha; injection ha with ha; rw [← ha]; exact e2
  -- one entry
  have hone : ∃ a, b.amounts = [a] ∧ a.comm = c := by
    obtain ⟨am⟩ := b
    cases am with
    | nil =>
      exfalso
      cases hlr : l ++ r with
      | nil => exact hne hlr
      | cons q qs =>
        obtain ⟨a, e1, e2⟩ := hbk q (by rw [hlr]; simp)
        have : c ∈ (bookedAmounts (l ++ r)).map (·.comm) := by
          rw [hlr]; unfold bookedAmounts; rw [List.filterMap_cons_some e1]; simp [e2]
        have := (h4 c).mpr this
        simp at this
    | cons a am =>
      have hac : a.comm = c := by
        obtain ⟨a', ha', e⟩ := List.mem_map.mp ((h4 a.comm).mp (by simp))
        rw [← e]; exact hcs a' ha'
      cases am with
      | nil => exact ⟨a, rfl, hac⟩
      | cons a2 am =>
        exfalso
        have hac2 : a2.comm = c := by
          obtain ⟨a', ha', e⟩ := List.mem_map.mp ((h4 a2.comm).mp (by simp))
          rw [← e]; exact hcs a' ha'
        unfold Balance.OneEach at h3
        simp [hac, hac2] at h3
  obtain ⟨a, ha, hac⟩ := hone
  have hb : b = ⟨[a]⟩ := by cases b; simp only at ha; rw [ha]
  subst hb
  have hfin : finalize x pool = .ok ({ x with posts := l ++ { p with amount := some a.inverse } :: r }, pool') := by
    unfold finalize
    rw [hx, sumPosts_one l r p 0 Balance.empty ⟨[a]⟩ (by rw [bookedAmounts_blank l r p hp]; exact h1) hp hnb]
    simp only [bind, Except.bind]
    rw [if_neg]
    · unfold impliedCosts
      simp only
      rw [hrec]
      simp only [fillNull, Nat.zero_add]
      rw [modify_mid]
    · rw [List.length_append, List.length_cons]
      have : (l ++ r).length ≠ 0 := by rw [Ne, List.length_eq_zero_iff]; exact hne
      rw [List.length_append] at this
      omega
  refine ⟨a.inverse, hfin, hac, ?_⟩
  have hr' : InRange (bookedAmounts x.posts) := by rw [hx, bookedAmounts_blank l r p hp]; exact hr
  obtain ⟨l', p', r', a', e1, e2, e3, e4, e5, e6, e7, _⟩ := blank_gets _ _ _ _ hfin hr' ⟨p, by rw [hx]; simp, hp⟩
  have hval : a.qty.val = sumIn c (bookedAmounts (l ++ r)) := by
    rw [C07_entry_is_total _ h3 a (by simp), h2, hac]
  have hneg : a.inverse.qty.val = -a.qty.val := by
    have hv : a.qty.Valid := by
      obtain ⟨S, hS, k1, k2⟩ := hr
      obtain ⟨b', k3, k4, _⟩ := addAll_grid hS _ Balance.empty (by intro a ha; cases ha) k1
        (by simpa [Balance.empty, mass] using k2)
      rw [h1] at k3; injection k3 with k3; subst k3
      exact (k4 a (by simp)).1
    exact (C03_inverse_partial a hv (by rw [hval]; exact hs)).1
  rw [hneg, hval]

/-- **C31** (partial) A transaction with one blank posting and amounts in one commodity, without costs, is accepted,
and the blank posting gets the negated sum of the others if that sum is not negative.  Missing: negative sums, where
the code is wrong (`C31_blank_violated`). -/
theorem C31_blank_partial (x : Xact) (pool : Pool) (l r : List Post) (p : Post) (c : Option Str)
    (hx : x.posts = l ++ p :: r) (hp : p.Blank)
    (ho : ∀ q ∈ l ++ r, q.cost = none ∧ ∃ a, q.amount = some a ∧ a.comm = c)
    (hne : l ++ r ≠ []) (hr : InRange (bookedAmounts (l ++ r)))
    (hs : 0 ≤ sumIn c (bookedAmounts (l ++ r))) :
    ∃ a, finalize x pool = .ok ({ x with posts := l ++ { p with amount := some a } :: r }, pool) ∧
      a.comm = c ∧ a.qty.val = - sumIn c (bookedAmounts (l ++ r)) := by
  refine blank_core x pool pool l r p c hx hp ?_ hne hr hs (recordPrices_noCost _ _ _ ?_)
  · intro q hq
    obtain ⟨h1, a, h2, h3⟩ := ho q hq
    exact ⟨a, by unfold Post.booked; rw [h1]; exact h2, h3⟩
  · intro q hq
    rw [List.mem_append, List.mem_cons] at hq
    rcases hq with hq | rfl | hq
    · exact (ho q (by simp [hq])).1
    · exact (blank_fields hp).1
    · exact (ho q (by simp [hq])).1

/-- **C32** Ambiguous transactions are refused: a single posting, two blank postings, or a blank posting beside
amounts in two commodities. -/
theorem C32_ambiguous_refused (x : Xact) (pool : Pool)
    (h : x.posts.length = 1 ∨
      (∃ l p m q r, x.posts = l ++ p :: m ++ q :: r ∧ p.Blank ∧ q.Blank) ∨
      (∃ p ∈ x.posts, p.Blank ∧ ∃ a ∈ bookedAmounts x.posts, ∃ b ∈ bookedAmounts x.posts, a.comm ≠ b.comm)) :
    ∃ e, finalize x pool = .error e := by
  cases hf : finalize x pool with
  | error e => exact ⟨e, rfl⟩
  | ok r =>
    exfalso
    obtain ⟨x', pool'⟩ := r
    rcases h with h | ⟨l, p, m, q, r, h, hp, hq⟩ | ⟨p, hp, hb, a, ha, b, hb', hne⟩
    · exact finalize_cases _ _ _ _ hf h
    · obtain ⟨l', p', r', a, h1, h2, h3, _⟩ := finalize_blank _ _ _ _ hf ⟨p, by rw [h]; simp, hp⟩
      have hcount : (x.posts.countP (fun p => decide p.Blank)) = 1 := by
        rw [h1, List.countP_append, List.countP_cons]
        have e1 : l'.countP (fun p => decide p.Blank) = 0 :=
          List.countP_eq_zero.mpr fun z hz => by simpa using h3 z (by simp [hz])
        have e2 : r'.countP (fun p => decide p.Blank) = 0 :=
          List.countP_eq_zero.mpr fun z hz => by simpa using h3 z (by simp [hz])
        rw [e1, e2]; simp [h2]
      rw [h] at hcount
      simp only [List.countP_append, List.countP_cons, hp, hq, decide_true, if_true] at hcount
      omega
    · obtain ⟨l', p', r', e, h1, h2, h3, h4, _⟩ := finalize_blank _ _ _ _ hf ⟨p, hp, hb⟩
      rw [← bookedAmounts_blank l' r' p' h2, ← h1] at h4
      have := (C07_entries_always _ _ _ h4 (by simp [Balance.OneEach, Balance.empty])).2
      have k1 := (this a.comm).mpr (Or.inr (List.mem_map_of_mem ha))
      have k2 := (this b.comm).mpr (Or.inr (List.mem_map_of_mem hb'))
      simp only [List.map_cons, List.map_nil, List.mem_singleton] at k1 k2
      exact hne (by rw [k1, k2])

example : finalize { exampleXact with posts := exampleXact.posts.take 1 } Pool.empty = .error .singlePosting ∧
    finalize { exampleXact with posts := exampleXact.posts ++ [⟨[str "D"], none, none, none⟩] } Pool.empty =
      .error .secondNullPost ∧
    finalize { exampleXact with posts := exampleXact.posts ++
      [⟨[str "D"], some ⟨⟨false, 1, 0⟩, some (str "USD")⟩, none, none⟩] } Pool.empty = .error .nullPostCommodities := by
  decide +kernel

/-- **C34** is violated for costs: the user's cost of 11 USD for 10 EUR is replaced by 10 USD, because the sums are
in two commodities and a rate is derived. -/
theorem C34_written_cost_violated :
    ∃ x x' pool pool' p p', finalize x pool = .ok (x', pool') ∧ x.posts[0]? = some p ∧ x'.posts[0]? = some p' ∧
      p.cost = some ⟨⟨false, 11, 0⟩, some (str "USD")⟩ ∧ p'.cost = some ⟨⟨false, 10, 0⟩, some (str "USD")⟩ := by
  refine ⟨⟨some ⟨2023, 5, 1⟩, none, str "p",
    [⟨[str "A"], some ⟨⟨false, 10, 0⟩, some (str "EUR")⟩, some ⟨⟨false, 11, 0⟩, some (str "USD")⟩, none⟩,
     ⟨[str "B"], some ⟨⟨true, 5, 0⟩, some (str "EUR")⟩, none, none⟩,
     ⟨[str "C"], some ⟨⟨true, 6, 0⟩, some (str "USD")⟩, none, none⟩], none⟩, _,
    ((Pool.empty.findOrCreate (str "EUR") none).1.findOrCreate (str "USD") none).1, _, _, _, rfl, rfl, rfl, ?_, ?_⟩
  · decide +kernel
  · decide +kernel

/-- The same from a text. -/
theorem C34_text_violated :
    ∃ j x p, parsed "2023-05-01 p\n  A  10 EUR @@ 11 USD\n  B  -5 EUR\n  C  -6 USD\n" = .ok j ∧ j.xacts = [x] ∧
      x.posts[0]? = some p ∧ p.cost = some ⟨⟨false, 10, 0⟩, some (str "USD")⟩ := by
  refine ⟨_, _, _, rfl, rfl, rfl, ?_⟩
  decide +kernel

/-- **C34** (partial) Accepting a transaction changes neither its dates, payee and note nor the number, order,
accounts and notes of its postings, nor a written amount; costs are never removed, and a transaction with a blank
posting keeps its costs.  Missing: a written cost may be replaced (`C34_written_cost_violated`). -/
theorem C34_nothing_altered_partial (x x' : Xact) (pool pool' : Pool) (h : finalize x pool = .ok (x', pool')) :
    x'.date = x.date ∧ x'.auxDate = x.auxDate ∧ x'.payee = x.payee ∧ x'.note = x.note ∧
    List.Forall₂ (fun p p' => p'.account = p.account ∧ p'.note = p.note ∧ (p.amount ≠ none → p'.amount = p.amount) ∧
      (p'.cost = none → p.cost = none) ∧ ((∃ q ∈ x.posts, q.Blank) → p'.cost = p.cost)) x.posts x'.posts := by
  by_cases hb : ∃ p ∈ x.posts, p.Blank
  · obtain ⟨l, p, r, a, h1, h2, _, _, h5, _⟩ := finalize_blank _ _ _ _ h hb
    rw [h5]
    refine ⟨rfl, rfl, rfl, rfl, ?_⟩
    rw [h1]
    refine forall2_mid l r p _ (fun q => ⟨rfl, rfl, fun _ => rfl, id, fun _ => rfl⟩) ?_
    exact ⟨rfl, rfl, fun hn => absurd (blank_fields h2).2 hn, id, fun _ => rfl⟩
  · have hnb : ∀ p ∈ x.posts, ¬ p.Blank := fun p hp hbl => hb ⟨p, hp, hbl⟩
    obtain ⟨b, b1, _, _, h3, h4, _⟩ := finalize_full _ _ _ _ h hnb
    refine ⟨by rw [h4], by rw [h4], by rw [h4], by rw [h4], ?_⟩
    refine (impliedCosts_keep _ _ _ _ _ h3).imp ?_
    rintro p p' ⟨e1, e2, e3, e4⟩
    exact ⟨e1, e2, fun _ => e3, e4, fun hq => absurd hq hb⟩

/-- **C33** (one transaction) After acceptance every posting has an amount and there is not just one posting. -/
theorem C33_amounts_present (x x' : Xact) (pool pool' : Pool) (h : finalize x pool = .ok (x', pool')) :
    (∀ p ∈ x'.posts, p.amount ≠ none) ∧ x'.posts.length ≠ 1 := by
  obtain ⟨_, _, _, _, hk⟩ := C34_nothing_altered_partial _ _ _ _ h
  refine ⟨?_, by rw [← hk.length_eq]; exact finalize_cases _ _ _ _ h⟩
  by_cases hb : ∃ p ∈ x.posts, p.Blank
  · obtain ⟨l, p, r, a, h1, h2, h3, _, h5, h6⟩ := finalize_blank _ _ _ _ h hb
    have hc := (recordPrices_ok _ _ _ _ _ h6).2.1
    have hother : ∀ q ∈ l ++ r, q.amount ≠ none := by
      intro q hq hn
      cases hqc : q.cost with
      | some c =>
        obtain ⟨a, e, _⟩ := hc q (by rw [h1]; simp at hq ⊢; tauto) c hqc
        rw [hn] at e; cases e
      | none =>
        apply h3 q hq
        unfold Post.Blank Post.booked; rw [hqc]; exact hn
    rw [h5]
    intro q hq
    simp only [List.mem_append, List.mem_cons] at hq
    rcases hq with hq | rfl | hq
    · exact hother q (by simp [hq])
    · simp
    · exact hother q (by simp [hq])
  · have hnb : ∀ p ∈ x.posts, ¬ p.Blank := fun p hp hbl => hb ⟨p, hp, hbl⟩
    obtain ⟨b, b1, _, _, h3, h4, h6⟩ := finalize_full _ _ _ _ h hnb
    have hc := (recordPrices_ok _ _ _ _ _ h6).2.1
    intro q hq hn
    cases hqc : q.cost with
    | some c =>
      obtain ⟨a, e, _⟩ := hc q hq c hqc
      rw [hn] at e; cases e
    | none =>
      -- the posting before the assignment of costs is blank
      obtain ⟨i, hi, rfl⟩ := List.mem_iff_getElem.mp hq
      have hk' := impliedCosts_keep _ _ _ _ _ h3
      have hi' : i < x.posts.length := by rw [hk'.length_eq]; exact hi
      obtain ⟨_, _, e3, e4⟩ := hk'.get hi' hi
      simp only [List.get_eq_getElem] at e3 e4
      apply hnb _ (List.getElem_mem hi')
      unfold Post.Blank Post.booked
      rw [e4 hqc, ← e3]; exact hn

/-- What the costs add up to: with one rate `w`, postings in `c1` booked at cost contribute `w` times their amount in
`c2`. -/
theorem sum_at_rate (c1 c2 : Option Str) (hne : c1 ≠ c2) (w : ℚ) (ps ps' : List Post)
    (hcost : ∀ p ∈ ps, p.cost = none)
    (h : List.Forall₂ (fun p p' => ∃ a, p.amount = some a ∧
      ((a.comm = c1 ∧ ∃ c, p' = { p with cost := some c } ∧ c.comm = c2 ∧ c.qty.val = w * a.qty.val) ∨
       (a.comm ≠ c1 ∧ p' = p))) ps ps') (c : Option Str) :
    sumIn c (bookedAmounts ps') =
      (if c = c1 then 0 else sumIn c (bookedAmounts ps)) + (if c = c2 then w * sumIn c1 (bookedAmounts ps) else 0) := by
  induction h with
  | nil => simp [bookedAmounts, sumIn]
  | @cons p p' ps ps' hp h ih =>
    have ih := ih fun q hq => hcost q (by simp [hq])
    obtain ⟨a, ha, hp⟩ := hp
    have hb : p.booked = some a := by unfold Post.booked; rw [hcost p (by simp)]; exact ha
    have e : bookedAmounts (p :: ps) = a :: bookedAmounts ps := List.filterMap_cons_some hb
    rcases hp with ⟨h1, k, rfl, h3, h4⟩ | ⟨h1, rfl⟩
    · have e' : bookedAmounts ({ p with cost := some k } :: ps') = k :: bookedAmounts ps' :=
        List.filterMap_cons_some rfl
      rw [e, e', sumIn_cons, sumIn_cons, sumIn_cons, ih]
      unfold Amount.valIn
      rw [h3, h4, h1]
      by_cases x1 : c = c1
      · subst x1
        simp [hne, Ne.symm hne]
      · by_cases x2 : c = c2
        · subst x2
          simp [hne, x1]; ring
        · simp [x1, x2, Ne.symm x1, Ne.symm x2]
    · have e' : bookedAmounts (p' :: ps') = a :: bookedAmounts ps' := List.filterMap_cons_some hb
      rw [e, e', sumIn_cons, sumIn_cons, sumIn_cons, ih]
      unfold Amount.valIn
      rw [if_neg h1]
      by_cases x1 : c = c1
      · subst x1
        simp [hne, h1]
      · by_cases x2 : c = c2
        · subst x2
          simp [x1]; ring
        · simp [x1, x2]

/-- **C35** is violated when a posting of the first commodity has a written cost: 10 EUR @@ 11 USD, -5 EUR, -6 USD sum
to 5 USD and -5 EUR; the rate is exact and the totals have opposite signs, but the transaction does not balance at
cost. -/
theorem C35_implied_rate_violated :
    ∃ j x, parsed "2023-05-01 p\n  A  10 EUR @@ 11 USD\n  B  -5 EUR\n  C  -6 USD\n" = .ok j ∧ x ∈ j.xacts ∧
      ¬ Balances x.posts := by
  have h : ∃ j x, parsed "2023-05-01 p\n  A  10 EUR @@ 11 USD\n  B  -5 EUR\n  C  -6 USD\n" = .ok j ∧ j.xacts = [x] ∧
      bookedAmounts x.posts = [⟨⟨false, 10, 0⟩, some (str "USD")⟩, ⟨⟨true, 5, 0⟩, some (str "USD")⟩,
        ⟨⟨true, 6, 0⟩, some (str "USD")⟩] := by
    refine ⟨_, _, rfl, rfl, ?_⟩
    decide +kernel
  obtain ⟨j, x, h1, h2, h3⟩ := h
  refine ⟨j, x, h1, by rw [h2]; simp, ?_⟩
  intro hb
  have := hb (some (str "USD"))
  rw [h3] at this
  simp only [sumIn, Amount.valIn, if_pos, Dec.val_mk, Dec.sgn] at this
  norm_num at this

/-- **C35** (partial) An accepted transaction without blank posting and without written costs, whose first posting is
in `c1` and whose amounts are in `c1` and `c2` with totals `T1`, `T2`, neither zero: there is one rate, |T2/T1| if a
quantity can hold it and otherwise rounded, and each posting in `c1` gets the cost rate × amount in `c2`; the other
postings stay as they are.  If the rate and the costs are exact and the totals have opposite signs, the transaction
balances at cost.  Missing: transactions with written costs, for which this fails (`C35_implied_rate_violated`). -/
theorem C35_implied_rate_partial (x x' : Xact) (pool pool' : Pool) (h : finalize x pool = .ok (x', pool'))
    (hnc : ∀ p ∈ x.posts, p.cost = none ∧ p.amount ≠ none) (hr : InRange (bookedAmounts x.posts))
    (c1 c2 : Option Str) (hne : c1 ≠ c2) (hfst : ∃ p a, x.posts.head? = some p ∧ p.amount = some a ∧ a.comm = c1)
    (hc : ∀ a ∈ bookedAmounts x.posts, a.comm = c1 ∨ a.comm = c2)
    (h1 : sumIn c1 (bookedAmounts x.posts) ≠ 0) (h2 : sumIn c2 (bookedAmounts x.posts) ≠ 0) :
    ∃ u : Dec, PreciseTo u |sumIn c2 (bookedAmounts x.posts) / sumIn c1 (bookedAmounts x.posts)| ∧
      (Representable (sumIn c2 (bookedAmounts x.posts) / sumIn c1 (bookedAmounts x.posts)) →
        u.val = |sumIn c2 (bookedAmounts x.posts) / sumIn c1 (bookedAmounts x.posts)|) ∧
      List.Forall₂ (fun p p' => ∃ a, p.amount = some a ∧
        ((a.comm = c1 ∧ ∃ c, p' = { p with cost := some c } ∧ c.comm = c2 ∧ PreciseTo c.qty (u.val * a.qty.val) ∧
            (Representable (u.val * a.qty.val) → c.qty.val = u.val * a.qty.val)) ∨
         (a.comm ≠ c1 ∧ p' = p))) x.posts x'.posts ∧
      (Representable (sumIn c2 (bookedAmounts x.posts) / sumIn c1 (bookedAmounts x.posts)) →
        (∀ a ∈ bookedAmounts x.posts, a.comm = c1 → Representable (u.val * a.qty.val)) →
        sumIn c1 (bookedAmounts x.posts) * sumIn c2 (bookedAmounts x.posts) < 0 → Balances x'.posts) := by
  have hnb : ∀ p ∈ x.posts, ¬ p.Blank := by
    intro p hp hb
    exact (hnc p hp).2 (blank_fields hb).2
  obtain ⟨b, b1, g1, _, g3, _, g5⟩ := finalize_full _ _ _ _ h hnb
  obtain ⟨t1, t2, t3, t4⟩ := twoEntries _ _ hr g1
  obtain ⟨p0, a0, hp0, ha0, hac0⟩ := hfst
  have hbooked : ∀ p ∈ x.posts, p.booked = p.amount := by
    intro p hp; unfold Post.booked; rw [(hnc p hp).1]
  have hmem0 : p0 ∈ x.posts := List.mem_of_head? hp0
  have ha0m : a0 ∈ bookedAmounts x.posts := List.mem_filterMap.mpr ⟨p0, hmem0, by rw [hbooked p0 hmem0, ha0]⟩
  -- the top posting is the first
  have htop : topPost x.posts = some p0 := by
    cases hps : x.posts with
    | nil => rw [hps] at hp0; cases hp0
    | cons q qs =>
      rw [hps] at hp0; injection hp0 with hp0; subst hp0
      unfold topPost
      rw [List.find?_cons_of_pos]; rw [ha0]; rfl
  -- the balance has exactly the two entries
  have hm1 : c1 ∈ b.amounts.map (·.comm) := (t3 c1).mpr (by rw [← hac0]; exact List.mem_map_of_mem ha0m)
  have hm2 : c2 ∈ b.amounts.map (·.comm) := by
    by_contra hn
    apply h2
    rw [← t1]
    have : ∀ as : List Amount, c2 ∉ as.map (·.comm) → sumIn c2 as = 0 := by
      intro as
      induction as with
      | nil => intro _; rfl
      | cons q as ih =>
        intro hq
        rw [List.map_cons, List.mem_cons, not_or] at hq
        rw [sumIn_cons, ih hq.2]; unfold Amount.valIn; rw [if_neg (Ne.symm hq.1)]; simp
    exact this _ hn
  have honly : ∀ a ∈ b.amounts, a.comm = c1 ∨ a.comm = c2 := by
    intro a ha
    obtain ⟨a', ha', e⟩ := List.mem_map.mp ((t3 a.comm).mp (List.mem_map_of_mem ha))
    rw [← e]; exact hc a' ha'
  have hpair : ∃ e1 e2, (b.amounts = [e1, e2] ∨ b.amounts = [e2, e1]) ∧ e1.comm = c1 ∧ e2.comm = c2 := by
    obtain ⟨am⟩ := b
    unfold Balance.OneEach at t2
    simp only at hm1 hm2 honly t2 ⊢
    match am, hm1, hm2, honly, t2 with
    | [], hm1, _, _, _ => simp at hm1
    | [e], hm1, hm2, _, _ =>
      simp at hm1 hm2; exact absurd (hm1.trans hm2.symm) hne
    | [e, f], hm1, hm2, ho, hnd =>
      rcases ho e (by simp) with he | he
      · rcases ho f (by simp) with hf | hf
        · simp [he, hf] at hnd
        · exact ⟨e, f, Or.inl rfl, he, hf⟩
      · rcases ho f (by simp) with hf | hf
        · exact ⟨f, e, Or.inr rfl, hf, he⟩
        · simp [he, hf] at hnd
    | e :: f :: g :: rest, _, _, ho, hnd =>
      exfalso
      simp only [List.map_cons, List.nodup_cons, List.mem_cons, not_or] at hnd
      obtain ⟨⟨n1, n2, _⟩, ⟨n3, _⟩, _⟩ := hnd
      rcases ho e (by simp) with he | he <;> rcases ho f (by simp) with hf | hf <;>
        rcases ho g (by simp) with hg | hg <;>
        first | exact n1 (he.trans hf.symm) | exact n2 (he.trans hg.symm) | exact n3 (hf.trans hg.symm)
  obtain ⟨e1, e2, hb, hc1, hc2⟩ := hpair
  have hme1 : e1 ∈ b.amounts := by rcases hb with hb | hb <;> rw [hb] <;> simp
  have hme2 : e2 ∈ b.amounts := by rcases hb with hb | hb <;> rw [hb] <;> simp
  have hv1 : e1.qty.val = sumIn c1 (bookedAmounts x.posts) := by rw [t4 e1 hme1, hc1]
  have hv2 : e2.qty.val = sumIn c2 (bookedAmounts x.posts) := by rw [t4 e2 hme2, hc2]
  have hz1 : e1.isZero = false := by
    cases hz : e1.isZero with
    | false => rfl
    | true => exact absurd (hv1 ▸ (Dec.isZero_iff _).mp hz) h1
  have hz2 : e2.isZero = false := by
    cases hz : e2.isZero with
    | false => rfl
    | true => exact absurd (hv2 ▸ (Dec.isZero_iff _).mp hz) h2
  -- the rate and the assignment
  have hrun : ∃ u, e2.div e1 = .ok u ∧ List.Forall₂ (CostAssigned c1 u.abs) x.posts x'.posts := by
    unfold impliedCosts at g3
    rcases hb with hb | hb
    · rw [hb] at g3
      simp only [htop, hz1, hz2, ha0, hac0, hc1] at g3
      simp only [Bool.not_false, and_self, if_true, ne_eq, not_true, if_false] at g3
      cases hd : e2.div e1 with
      | error e => rw [hd] at g3; simp [bind, Except.bind] at g3
      | ok u =>
        rw [hd] at g3
        simp only [bind, Except.bind, hc1] at g3
        exact ⟨u, rfl, assignCosts_ok _ _ _ _ _ _ g3⟩
    · rw [hb] at g3
      simp only [htop, hz1, hz2, ha0, hac0, hc2] at g3
      simp only [Bool.not_false, and_self, if_true, ne_eq, Ne.symm hne, not_false_eq_true] at g3
      cases hd : e2.div e1 with
      | error e => rw [hd] at g3; simp [bind, Except.bind] at g3
      | ok u =>
        rw [hd] at g3
        simp only [bind, Except.bind, hc1] at g3
        exact ⟨u, rfl, assignCosts_ok _ _ _ _ _ _ g3⟩
  obtain ⟨u, hu, hf⟩ := hrun
  obtain ⟨r1, r2⟩ := (C06_sound e2 e1 u).2 hu
  have huex : Representable (sumIn c2 (bookedAmounts x.posts) / sumIn c1 (bookedAmounts x.posts)) →
      u.qty.val = sumIn c2 (bookedAmounts x.posts) / sumIn c1 (bookedAmounts x.posts) := by
    intro hrep
    obtain ⟨q', k1, k2, _⟩ := C06_div e2 e1 (by rw [hv1]; exact h1) (by rw [hv1, hv2]; exact hrep)
    rw [hu] at k1; injection k1 with k1; subst k1
    rw [k2, hv1, hv2]
  -- costs are in c2, or the transaction would have been refused
  have hprices := (recordPrices_ok _ _ _ _ _ g5).2.1
  have hc2s : c2 ≠ none := by
    intro hn
    -- the first posting would get a cost in c1
    cases hps : x.posts with
    | nil => rw [hps] at hp0; cases hp0
    | cons q qs =>
      rw [hps] at hp0 hf; injection hp0 with hp0; subst hp0
      cases hps' : x'.posts with
      | nil => rw [hps'] at hf; cases hf
      | cons q' qs' =>
        rw [hps'] at hf
        obtain ⟨amt, ha, hh⟩ := (List.forall₂_cons.mp hf).1
        rw [ha0] at ha; injection ha with ha; subst ha
        rcases hh with ⟨_, k, hk, hq'⟩ | ⟨hk, _⟩
        · obtain ⟨a', ha', hne', _⟩ := hprices q' (by rw [hps']; simp) k (by rw [hq'])
          rw [hq'] at ha'; simp only [ha0] at ha'; injection ha' with ha'; subst ha'
          apply hne'
          obtain ⟨_, hkc⟩ := (C06_sound u.abs a0 k).1 hk
          rw [hkc, hac0]
          have huc : u.abs.comm = c1 := by
            show u.comm = c1
            rw [r2]; unfold resultComm; rw [hc2, hn, hc1]
          unfold resultComm
          rw [huc, hac0]
          cases c1 <;> rfl
        · exact hk hac0
  have huc : u.abs.comm = c2 := by
    show u.comm = c2
    rw [r2]; unfold resultComm; rw [hc2]
    cases hcc : c2 with
    | none => exact absurd hcc hc2s
    | some z => rfl
  have habs : u.abs.qty.val = |u.qty.val| := (C04_abs u).1
  have hfin : List.Forall₂ (fun p p' => ∃ a, p.amount = some a ∧
        ((a.comm = c1 ∧ ∃ c, p' = { p with cost := some c } ∧ c.comm = c2 ∧ PreciseTo c.qty (u.abs.qty.val * a.qty.val) ∧
            (Representable (u.abs.qty.val * a.qty.val) → c.qty.val = u.abs.qty.val * a.qty.val)) ∨
         (a.comm ≠ c1 ∧ p' = p))) x.posts x'.posts := by
    refine hf.imp ?_
    rintro p p' ⟨amt, ha, ⟨k1, c, k2, k3⟩ | ⟨k1, k2⟩⟩
    · refine ⟨amt, ha, Or.inl ⟨k1, c, k3, ?_, ?_, ?_⟩⟩
      · rw [((C06_sound u.abs amt c).1 k2).2]
        unfold resultComm
        rw [huc]
        cases hcc : c2 with
        | none => exact absurd hcc hc2s
        | some z => rfl
      · exact ((C06_sound u.abs amt c).1 k2).1
      · intro hrep
        obtain ⟨r, m1, _, m2, _⟩ := C06_mul u.abs amt hrep
        rw [k2] at m1; injection m1 with m1; subst m1
        exact m2
    · exact ⟨amt, ha, Or.inr ⟨k1, k2⟩⟩
  refine ⟨u.abs.qty, ?_, ?_, hfin, ?_⟩
  · rw [← hv1, ← hv2]
    exact Dec.precise_abs r1 habs (C04_abs u).2.2
  · intro hrep
    rw [habs, huex hrep]
  · intro hrep hreps hopp c
    have hw : u.abs.qty.val = - (sumIn c2 (bookedAmounts x.posts) / sumIn c1 (bookedAmounts x.posts)) := by
      rw [habs, huex hrep]
      apply abs_of_neg
      rcases lt_or_gt_of_ne h1 with hlt | hgt
      · exact div_neg_of_pos_of_neg (by nlinarith) hlt
      · exact div_neg_of_neg_of_pos (by nlinarith) hgt
    have hs := sum_at_rate c1 c2 hne u.abs.qty.val x.posts x'.posts (fun p hp => (hnc p hp).1) (by
      have hall : ∀ p ∈ x.posts, ∀ a, p.amount = some a → a ∈ bookedAmounts x.posts := by
        intro p hp a ha
        exact List.mem_filterMap.mpr ⟨p, hp, by rw [hbooked p hp, ha]⟩
      have : ∀ ps ps' : List Post, (∀ p ∈ ps, ∀ a, p.amount = some a → a ∈ bookedAmounts x.posts) →
          List.Forall₂ (fun p p' => ∃ a, p.amount = some a ∧
            ((a.comm = c1 ∧ ∃ c, p' = { p with cost := some c } ∧ c.comm = c2 ∧
                PreciseTo c.qty (u.abs.qty.val * a.qty.val) ∧
                (Representable (u.abs.qty.val * a.qty.val) → c.qty.val = u.abs.qty.val * a.qty.val)) ∨
             (a.comm ≠ c1 ∧ p' = p))) ps ps' →
          List.Forall₂ (fun p p' => ∃ a, p.amount = some a ∧
            ((a.comm = c1 ∧ ∃ c, p' = { p with cost := some c } ∧ c.comm = c2 ∧ c.qty.val = u.abs.qty.val * a.qty.val) ∨
             (a.comm ≠ c1 ∧ p' = p))) ps ps' := by
        intro ps ps' hm hF
        induction hF with
        | nil => exact .nil
        | @cons p p' ps ps' hp hF ih =>
          refine .cons ?_ (ih fun q hq => hm q (by simp [hq]))
          obtain ⟨a, ha, ⟨m1, c, m2, m3, _, m5⟩ | m⟩ := hp
          · exact ⟨a, ha, Or.inl ⟨m1, c, m2, m3, m5 (hreps a (hm p (by simp) a ha) m1)⟩⟩
          · exact ⟨a, ha, Or.inr m⟩
      exact this _ _ hall hfin) c
    rw [hs]
    by_cases x1 : c = c1
    · rw [if_pos x1, if_neg (by rw [x1]; exact hne)]; ring
    · rw [if_neg x1]
      by_cases x2 : c = c2
      · rw [if_pos x2, hw, x2]
        field_simp
        ring
      · rw [if_neg x2]
        have : ∀ as : List Amount, (∀ a ∈ as, a.comm = c1 ∨ a.comm = c2) → sumIn c as = 0 := by
          intro as
          induction as with
          | nil => intro _; rfl
          | cons q as ih =>
            intro hq
            rw [sumIn_cons, ih fun z hz => hq z (by simp [hz])]
            unfold Amount.valIn
            rw [if_neg]
            · simp
            · rcases hq q (by simp) with e | e <;> rw [e]
              · exact Ne.symm x1
              · exact Ne.symm x2
        rw [this _ hc]; ring

/-- A purchase of shares, without stating a price. -/
def exampleTrade : Xact :=
  ⟨some ⟨2023, 5, 1⟩, none, str "Broker",
    [⟨[str "A"], some ⟨⟨false, 4, 0⟩, some (str "ABC")⟩, none, none⟩,
     ⟨[str "C"], some ⟨⟨true, 30, 0⟩, some (str "EUR")⟩, none, none⟩,
     ⟨[str "B"], some ⟨⟨false, 8, 0⟩, some (str "ABC")⟩, none, none⟩], none⟩

/-- The pool that knows both commodities. -/
def exampleTradePool : Pool := ((Pool.empty.findOrCreate (str "ABC") none).1.findOrCreate (str "EUR") none).1

example : ∃ pool', finalize exampleTrade exampleTradePool = .ok ({ exampleTrade with posts :=
    [⟨[str "A"], some ⟨⟨false, 4, 0⟩, some (str "ABC")⟩, some ⟨⟨false, 100, 1⟩, some (str "EUR")⟩, none⟩,
     ⟨[str "C"], some ⟨⟨true, 30, 0⟩, some (str "EUR")⟩, none, none⟩,
     ⟨[str "B"], some ⟨⟨false, 8, 0⟩, some (str "ABC")⟩, some ⟨⟨false, 200, 1⟩, some (str "EUR")⟩, none⟩] }, pool') ∧
    pool'.history.getDirectPrice 0 1 = some (⟨⟨2023, 5, 1⟩, Time.midnight⟩, ⟨false, 25, 1⟩) := by
  refine ⟨_, rfl, ?_⟩
  decide +kernel

/-- **C36** The prices an accepted transaction leaves: after any history of calls `ops`, the pool is as if, in the order
of the postings, one price had been recorded for each posting with a cost of non-zero unit value, at midnight of the
transaction's date, and nothing else.  (C11–C16 say what recorded prices mean for queries.)  A transaction that ends
up without costs leaves the pool as it is. -/
theorem C36_costs_create_prices (x x' : Xact) (pool pool' : Pool) (h : finalize x pool = .ok (x', pool')) :
    (∃ rs, PricesOf x.date x'.posts rs ∧ ∀ ops, runOps Pool.empty ops = .ok pool →
      runOps Pool.empty (ops ++ rs.map Recording.op) = .ok pool' ∧
      recordings (ops ++ rs.map Recording.op) = recordings ops ++ rs) ∧
    ((∀ p ∈ x'.posts, p.cost = none) → pool' = pool) := by
  have key : ∃ rs, PricesOf x.date x'.posts rs ∧ runOps pool (rs.map Recording.op) = .ok pool' := by
    by_cases hb : ∃ p ∈ x.posts, p.Blank
    · obtain ⟨l, p, r, a, h1, h2, _, _, h5, h6⟩ := finalize_blank _ _ _ _ h hb
      obtain ⟨_, _, rs, h7, h8⟩ := recordPrices_ok _ _ _ _ _ h6
      refine ⟨rs, ?_, h8⟩
      rw [h5]
      rw [h1] at h7
      exact pricesOf_append_iff l r rs (blank_fields h2).1 (blank_fields h2).1 h7
    · obtain ⟨b, b1, _, _, _, _, h6⟩ := finalize_full _ _ _ _ h (fun p hp hbl => hb ⟨p, hp, hbl⟩)
      obtain ⟨_, _, rs, h7, h8⟩ := recordPrices_ok _ _ _ _ _ h6
      exact ⟨rs, h7, h8⟩
  obtain ⟨rs, k1, k2⟩ := key
  refine ⟨⟨rs, k1, ?_⟩, ?_⟩
  · intro ops ho
    refine ⟨by rw [Pool.runOps_append, ho]; exact k2, ?_⟩
    unfold recordings
    rw [List.filterMap_append]
    congr 1
    rw [List.filterMap_map]
    have : (PoolOp.recording ∘ Recording.op) = some := by
      funext r; cases r; rfl
    rw [this, List.filterMap_some]
  · intro hc
    have hrs : rs = [] := by
      have : ∀ ps, (∀ p ∈ ps, p.cost = none) → PricesOf x.date ps rs → rs = [] := by
        intro ps hps hP
        clear k1 k2
        induction hP with
        | nil => rfl
        | noCost _ _ ih => exact ih fun q hq => hps q (by simp [hq])
        | @zero p _ _ _ _ _ _ hc _ _ _ _ _ => rw [hps p (by simp)] at hc; cases hc
        | @price p _ _ _ _ _ _ _ _ _ hc _ _ _ _ _ _ _ _ => rw [hps p (by simp)] at hc; cases hc
      exact this _ hc k1
    subst hrs
    injection k2 with k2
    exact k2.symm

/-- **C36** In particular every posting with a cost of non-zero unit value has its price among the recorded ones. -/
theorem C36_each_cost (date : Option Date) (ps : List Post) (rs : List Recording) (h : PricesOf date ps rs)
    (p : Post) (hp : p ∈ ps) (a c : Amount) (ha : p.amount = some a) (hc : p.cost = some c) :
    ∃ q, IsUnitCost q a c ∧ (q.val ≠ 0 → ∃ A B d, a.comm = some A ∧ c.comm = some B ∧ date = some d ∧
      (⟨A, B, ⟨d, Time.midnight⟩, q⟩ : Recording) ∈ rs) := by
  induction h with
  | nil => cases hp
  | noCost hn _ ih =>
    rcases List.mem_cons.mp hp with rfl | hp
    · rw [hn] at hc; cases hc
    · exact ih hp
  | @zero p' _ _ a' c' q' ha' hc' _ hq' h0 _ ih =>
    rcases List.mem_cons.mp hp with rfl | hp
    · rw [ha] at ha'; injection ha' with ha'; subst ha'
      rw [hc] at hc'; injection hc' with hc'; subst hc'
      exact ⟨q', hq', fun hn => absurd h0 hn⟩
    · exact ih hp
  | @price p' _ _ a' c' q' A B d ha' hc' hA hB _ hd hq' _ _ ih =>
    rcases List.mem_cons.mp hp with rfl | hp
    · rw [ha] at ha'; injection ha' with ha'; subst ha'
      rw [hc] at hc'; injection hc' with hc'; subst hc'
      exact ⟨q', hq', fun _ => ⟨A, B, d, hA, hB, hd, by simp⟩⟩
    · obtain ⟨q, h1, h2⟩ := ih hp
      refine ⟨q, h1, fun hn => ?_⟩
      obtain ⟨A, B, d, k1, k2, k3, k4⟩ := h2 hn
      exact ⟨A, B, d, k1, k2, k3, by simp [k4]⟩

/-- **C37** is violated: 10 EUR at a total cost of 5 EUR is accepted beside -3 USD, because the derived rate replaces
the cost before it is checked. -/
theorem C37_same_commodity_violated :
    ∃ x x' pool pool' p a c, finalize x pool = .ok (x', pool') ∧ p ∈ x.posts ∧ p.amount = some a ∧ p.cost = some c ∧
      a.comm = c.comm := by
  refine ⟨⟨some ⟨2023, 5, 1⟩, none, str "p",
    [⟨[str "A"], some ⟨⟨false, 10, 0⟩, some (str "EUR")⟩, some ⟨⟨false, 5, 0⟩, some (str "EUR")⟩, none⟩,
     ⟨[str "C"], some ⟨⟨true, 3, 0⟩, some (str "USD")⟩, none, none⟩], none⟩, _,
    ((Pool.empty.findOrCreate (str "EUR") none).1.findOrCreate (str "USD") none).1, _, _, _, _, rfl,
    List.mem_cons_self, rfl, rfl, rfl⟩

/-- The same from a text. -/
theorem C37_text_violated : ∃ j, parsed "2023-05-01 p\n  A  10 EUR @@ 5 EUR\n  B  -3 USD\n" = .ok j := ⟨_, rfl⟩

/-- **C37** (partial) A posting with a cost in its own commodity is refused if some posting is blank, or if the sums
(at cost) are not in exactly two commodities with non-zero totals, or if the posting is not in the commodity of the
first posting and that has no cost.  Missing: otherwise a derived rate may replace the cost
(`C37_same_commodity_violated`). -/
theorem C37_same_commodity_partial (x : Xact) (pool : Pool) (p : Post) (a c : Amount) (hp : p ∈ x.posts)
    (ha : p.amount = some a) (hc : p.cost = some c) (hsame : a.comm = c.comm) (hr : InRange (bookedAmounts x.posts))
    (hno : (∃ q ∈ x.posts, q.Blank) ∨
      (∀ A B, A ≠ B → (∀ e ∈ bookedAmounts x.posts, e.comm = A ∨ e.comm = B) →
        sumIn A (bookedAmounts x.posts) = 0 ∨ sumIn B (bookedAmounts x.posts) = 0) ∨
      (∃ q e, x.posts.head? = some q ∧ q.amount = some e ∧ q.cost = none ∧ e.comm ≠ a.comm)) :
    ∃ e, finalize x pool = .error e := by
  cases hf : finalize x pool with
  | error e => exact ⟨e, rfl⟩
  | ok res =>
    exfalso
    obtain ⟨x', pool'⟩ := res
    by_cases hb : ∃ q ∈ x.posts, q.Blank
    · obtain ⟨_, _, _, _, _, _, _, _, _, h6⟩ := finalize_blank _ _ _ _ hf hb
      obtain ⟨a', e1, e2, _⟩ := (recordPrices_ok _ _ _ _ _ h6).2.1 p hp c hc
      rw [ha] at e1; injection e1 with e1; subst e1
      exact e2 hsame
    · rcases hno with hno | hno
      · exact hb hno
      obtain ⟨b, b1, h1, _, h3, _, h6⟩ := finalize_full _ _ _ _ hf (fun p hp hbl => hb ⟨p, hp, hbl⟩)
      have hpr := (recordPrices_ok _ _ _ _ _ h6).2.1
      have fin : p ∈ x'.posts → False := by
        intro hpx
        obtain ⟨a', e1, e2, _⟩ := hpr p hpx c hc
        rw [ha] at e1; injection e1 with e1; subst e1
        exact e2 hsame
      rcases impliedCosts_ok _ _ _ _ _ h3 with ⟨e, _⟩ | ⟨_, y, z, top, ta, u, e1, e2, e3, e4, e5, e6⟩
      · exact fin (by rw [e]; exact hp)
      · obtain ⟨_, t2, t3, t4⟩ := twoEntries _ _ hr h1
        rcases hno with hno | ⟨q, e, k1, k2, k3, k4⟩
        · have hyz : y.comm ≠ z.comm := by
            unfold Balance.OneEach at t2; rw [e1] at t2; simpa using t2
          have hall : ∀ e ∈ bookedAmounts x.posts, e.comm = y.comm ∨ e.comm = z.comm := by
            intro e he
            have := (t3 e.comm).mpr (List.mem_map_of_mem he)
            rw [e1] at this; simpa using this
          rcases hno y.comm z.comm hyz hall with h0 | h0
          · rw [← t4 y (by rw [e1]; simp)] at h0
            have hz : y.isZero = true := (Dec.isZero_iff _).mpr h0
            rw [hz] at e4; cases e4
          · rw [← t4 z (by rw [e1]; simp)] at h0
            have hz : z.isZero = true := (Dec.isZero_iff _).mpr h0
            rw [hz] at e5; cases e5
        · -- the costs are assigned to the postings in the commodity of the first one
          have hmem : q ∈ x.posts := List.mem_of_head? k1
          have htop : top = q := by
            cases hps : x.posts with
            | nil => rw [hps] at k1; cases k1
            | cons q' qs =>
              rw [hps] at k1; injection k1 with k1; subst k1
              unfold topPost at e2
              rw [hps, List.find?_cons_of_pos (by rw [k2]; rfl)] at e2
              injection e2 with e2; exact e2.symm
          subst htop
          rw [k2] at e3; injection e3 with e3; subst e3
          have hem : e ∈ bookedAmounts x.posts :=
            List.mem_filterMap.mpr ⟨top, hmem, by unfold Post.booked; rw [k3]; exact k2⟩
          have hin : e.comm = y.comm ∨ e.comm = z.comm := by
            have := (t3 e.comm).mpr (List.mem_map_of_mem hem)
            rw [e1] at this; simpa using this
          have key : ∀ comm, comm = e.comm → List.Forall₂ (CostAssigned comm u.abs) x.posts x'.posts → False := by
            intro comm hcomm hF
            apply fin
            have : ∀ ps ps' : List Post, List.Forall₂ (CostAssigned comm u.abs) ps ps' → p ∈ ps → p ∈ ps' := by
              intro ps ps' hF
              induction hF with
              | nil => exact id
              | @cons s s' _ _ hs _ ih =>
                intro hm
                rcases List.mem_cons.mp hm with rfl | hm
                · obtain ⟨amt, m1, ⟨m2, _⟩ | ⟨_, m3⟩⟩ := hs
                  · rw [ha] at m1; injection m1 with m1; subst m1
                    exact absurd (m2.trans hcomm).symm k4
                  · rw [m3]; simp
                · exact List.mem_cons_of_mem _ (ih hm)
            exact this _ _ hF hp
          rcases e6 with ⟨n1, _, n3⟩ | ⟨n1, _, n3⟩
          · exact key _ n1 n3
          · rcases hin with hin | hin
            · exact n1 hin.symm
            · exact key _ hin.symm n3

/-- **C38** is violated for total costs: selling 10 VEUR for 200 EUR in total books the cost as +200 EUR. -/
theorem C38_cost_sign_violated :
    ∃ j x p a c, parsed "2023-05-01 Sell\n  A  -10 VEUR @@ 200 EUR\n  B  200 EUR\n" = .ok j ∧ j.xacts = [x] ∧
      x.posts[0]? = some p ∧ p.amount = some a ∧ p.cost = some c ∧ a.qty.val < 0 ∧ 0 < c.qty.val := by
  have h : ∃ j x p, parsed "2023-05-01 Sell\n  A  -10 VEUR @@ 200 EUR\n  B  200 EUR\n" = .ok j ∧ j.xacts = [x] ∧
      x.posts[0]? = some p ∧ p.amount = some ⟨⟨true, 10, 0⟩, some (str "VEUR")⟩ ∧
      p.cost = some ⟨⟨false, 200, 0⟩, some (str "EUR")⟩ := by
    refine ⟨_, _, _, rfl, rfl, rfl, ?_, ?_⟩ <;> decide +kernel
  obtain ⟨j, x, p, h1, h2, h3, h4, h5⟩ := h
  refine ⟨j, x, p, _, _, h1, h2, h3, h4, h5, ?_, ?_⟩ <;> simp only [Dec.val_mk, Dec.sgn] <;> norm_num

/-- **C38** (partial) A per-unit cost that is not negative is booked with the sign of the amount, and is cost × amount
when a quantity can hold that; a total cost is booked as written.  Missing: the sign for total costs. -/
theorem C38_cost_sign_partial (t : Scanner.PostTokens) (a c : Amount) (q : Dec) (pool pool' : Pool)
    (h : Parser.parseCost t (some a) pool = .ok (pool', some c)) (hq : Dec.fromStr t.costQuantity = some q) :
    (t.isPerUnit = true → 0 ≤ q.val →
      (0 ≤ a.qty.val → 0 ≤ c.qty.val) ∧ (a.qty.val ≤ 0 → c.qty.val ≤ 0) ∧ PreciseTo c.qty (q.val * a.qty.val) ∧
      (Representable (q.val * a.qty.val) → c.qty.val = q.val * a.qty.val)) ∧
    (t.isPerUnit = false → c.qty = q) := by
  unfold Parser.parseCost at h
  simp only at h
  split at h
  · simp at h
  · unfold Parser.parseAmountParts at h
    rw [hq] at h
    simp only [Option.map_some] at h
    constructor
    · intro hper h0
      rw [if_pos hper] at h
      unfold Amount.mulAssign at h
      simp only [bind, Except.bind] at h
      cases hm : q.mul a.qty with
      | error e => rw [hm] at h; simp at h
      | ok r =>
        rw [hm] at h
        simp only [Except.ok.injEq, Prod.mk.injEq, Option.some.injEq] at h
        obtain ⟨_, rfl⟩ := h
        have hsign : ∀ s : Dec, (s.isZero = false → s.neg = (q.neg != a.qty.neg)) → s = r →
            (0 ≤ a.qty.val → 0 ≤ s.val) ∧ (a.qty.val ≤ 0 → s.val ≤ 0) := by
          intro s hs hsr
          by_cases hz : s.isZero = true
          · rw [Dec.zero_val s hz]; exact ⟨fun _ => le_refl _, fun _ => le_refl _⟩
          · have hs := hs (by simpa using hz)
            have hv : s.val ≠ 0 := fun e => hz ((Dec.isZero_iff s).mpr e)
            -- factors are not zero
            have hqa : q.val ≠ 0 ∧ a.qty.val ≠ 0 := by
              constructor
              · intro e
                apply hv
                have := (Dec.isZero_iff q).mpr e
                rw [hsr]
                unfold Dec.mul at hm
                rw [if_pos (by simp [this])] at hm
                injection hm with hm; rw [← hm]; exact Dec.val_zero
              · intro e
                apply hv
                have := (Dec.isZero_iff a.qty).mpr e
                rw [hsr]
                unfold Dec.mul at hm
                rw [if_pos (by simp [this])] at hm
                injection hm with hm; rw [← hm]; exact Dec.val_zero
            have sg : ∀ d : Dec, d.val ≠ 0 → (d.neg = true ↔ d.val < 0) := by
              intro d hd
              have hpos : 0 < (d.mant : ℚ) / 10 ^ d.scale := by
                have := Dec.abs_val d
                rw [← this]; exact abs_pos.mpr hd
              rw [Dec.val_eq]
              cases d.neg with
              | true => simp only [Dec.sgn, if_true, true_iff]; rw [mul_div_assoc]; linarith
              | false =>
                simp only [Dec.sgn, Bool.false_eq_true, if_false, false_iff, not_lt]
                rw [mul_div_assoc]; linarith
            have hqn : q.neg = false := by
              cases hn : q.neg with
              | false => rfl
              | true => have := (sg q hqa.1).mp hn; linarith
            rw [hqn, Bool.false_bne] at hs
            have e1 := sg s hv
            have e2 := sg a.qty hqa.2
            rw [hs] at e1
            constructor
            · intro h
              by_contra hlt
              have := e2.mp (e1.mpr (by linarith)); linarith
            · intro h
              have : a.qty.val < 0 := lt_of_le_of_ne h hqa.2
              exact le_of_lt (e1.mp (e2.mpr this))
        obtain ⟨s1, s2⟩ := hsign r (fun hz => Dec.mul_neg _ _ _ hm hz) rfl
        refine ⟨s1, s2, Dec.mul_precise _ _ _ hm, ?_⟩
        intro hrep
        obtain ⟨r', m1, m2⟩ := Dec.mul_exact q a.qty hrep
        rw [hm] at m1; injection m1 with m1; subst m1
        exact m2.1
    · intro hper
      rw [hper] at h
      simp only [Bool.false_eq_true, if_false, Except.ok.injEq, Prod.mk.injEq, Option.some.injEq] at h
      rw [← h.2]

example : ∃ pool, Parser.parseCost { Scanner.PostTokens.empty with costQuantity := str "20", costSymbol := str "EUR", isPerUnit := true }
    (some ⟨⟨true, 10, 0⟩, some (str "VEUR")⟩) Pool.empty = .ok (pool, some ⟨⟨true, 200, 0⟩, some (str "EUR")⟩) := ⟨_, rfl⟩

end Ledger
