import Verif.Spec.Causes
import Verif.Lemmas.Faults
/-
Which panic a transaction causes.
-/
namespace Ledger
open Ledger.Parser Finalize

/-! ### a transaction has one cause, if it is faulty -/

theorem impliedBy_unique {w : Writing} {A B A' B' : Option Str} (h : ImpliedBy w A B) (g : ImpliedBy w A' B') :
    A = A' ∧ B = B' := by
  obtain ⟨_, hne, hc, h1, h2, e, he, hi⟩ := h
  obtain ⟨_, gne, gc, g1, g2, e', he', gi⟩ := g
  rw [he] at he'; injection he' with he'; subst he'
  have hm : ∀ c, entriesSum w.entries c ≠ 0 → ∃ f ∈ w.entries, f.worthIn = c := by
    intro c hcn
    by_contra hn
    simp only [not_exists, not_and] at hn
    apply hcn
    unfold entriesSum
    rw [List.map_congr_left (g := fun _ => (0 : ℚ)) (fun f hf => if_neg (hn f hf))]
    simp
  have heo := hc e (List.mem_of_head? he)
  have geo := gc e (List.mem_of_head? he)
  have hset : ∀ c, entriesSum w.entries c ≠ 0 → c = A ∨ c = B := by
    intro c h; obtain ⟨f, hf, rfl⟩ := hm c h; exact hc f hf
  have a' := hset _ g1
  have b' := hset _ g2
  by_cases hw : e.commodity = e.worthIn
  · have k1 := hi.mpr hw
    have k2 := gi.mpr hw
    have : A = A' := k1.symm.trans k2
    subst this
    refine ⟨rfl, ?_⟩
    rcases b' with h | h
    · exact absurd h.symm gne
    · exact h.symm
  · have k1 : e.worthIn = B := heo.resolve_left (fun k => hw (hi.mp k))
    have k2 : e.worthIn = B' := geo.resolve_left (fun k => hw (gi.mp k))
    have : B = B' := k1.symm.trans k2
    subst this
    refine ⟨?_, rfl⟩
    rcases a' with h | h
    · exact h.symm
    · exact absurd h gne

theorem CostFault.unique {w : Writing} {e : Entry} {k k' : Panic} (h : CostFault w e k) (h' : CostFault w e k') : k = k' := by
  cases h <;> cases h' <;> first | rfl | (exfalso; simp_all)

/-- The first element with a property is at one place only. -/
theorem first_unique {α : Type} {P : α → Prop} {l l' r r' : List α} {x x' : α} (h : l ++ x :: r = l' ++ x' :: r')
    (hl : ∀ y ∈ l, ¬ P y) (hl' : ∀ y ∈ l', ¬ P y) (hx : P x) (hx' : P x') : l = l' ∧ x = x' ∧ r = r' := by
  induction l generalizing l' with
  | nil =>
    cases l' with
    | nil => simpa using h
    | cons y l' =>
      simp only [List.nil_append, List.cons_append, List.cons.injEq] at h
      exact absurd (h.1 ▸ hx) (hl' y List.mem_cons_self)
  | cons y l ih =>
    cases l' with
    | nil =>
      simp only [List.nil_append, List.cons_append, List.cons.injEq] at h
      exact absurd (h.1 ▸ hx') (hl y List.mem_cons_self)
    | cons z l' =>
      simp only [List.cons_append, List.cons.injEq] at h
      obtain ⟨h1, h2, h3⟩ := ih h.2 (fun y hy => hl y (List.mem_cons_of_mem _ hy))
        (fun y hy => hl' y (List.mem_cons_of_mem _ hy))
      exact ⟨by rw [h.1, h1], h2, h3⟩

theorem first_exists {α : Type} {P : α → Prop} {l : List α} (h : ∃ x ∈ l, P x) :
    ∃ a x b, l = a ++ x :: b ∧ (∀ y ∈ a, ¬ P y) ∧ P x := by
  induction l with
  | nil => obtain ⟨x, h, _⟩ := h; cases h
  | cons y l ih =>
    by_cases hy : P y
    · exact ⟨[], y, l, rfl, by simp, hy⟩
    · obtain ⟨x, hx, hp⟩ := h
      rcases List.mem_cons.mp hx with rfl | hx
      · exact absurd hp hy
      · obtain ⟨a, x, b, rfl, h2, h3⟩ := ih ⟨x, hx, hp⟩
        refine ⟨y :: a, x, b, rfl, ?_, h3⟩
        intro z hz
        rcases List.mem_cons.mp hz with rfl | hz
        · exact hy
        · exact h2 z hz

theorem TwoBlank.not_single {w : Writing} (h : TwoBlank w) : w.entries.length ≠ 1 := by
  obtain ⟨l, m, r, e, f, h, _⟩ := h
  rw [h]
  simp only [List.length_append, List.length_cons]
  omega

theorem Cause.unique {w : Writing} {k k' : Panic} (h : Cause w k) (h' : Cause w k') : k = k' := by
  cases h with
  | blanks h =>
    cases h' with
    | blanks _ => rfl
    | single h' => exact absurd h' h.not_single
    | cost _ _ _ _ hb => exact absurd h hb
    | mixed _ _ _ hb => exact absurd h hb
  | single h =>
    cases h' with
    | blanks h' => exact absurd h h'.not_single
    | single _ => rfl
    | cost _ _ _ _ _ hs => exact absurd h hs
    | mixed _ _ _ _ hs => exact absurd h hs
  | cost l r e _ hb hs h hl he =>
    cases h' with
    | blanks h' => exact absurd h' hb
    | single h' => exact absurd h' hs
    | cost l' r' e' _ _ _ h' hl' he' =>
      rw [h] at h'
      obtain ⟨_, rfl, _⟩ := first_unique (P := fun f => ∃ k, CostFault w f k) h'
        (fun f hf ⟨k, hk⟩ => hl f hf k hk) (fun f hf ⟨k, hk⟩ => hl' f hf k hk) ⟨_, he⟩ ⟨_, he'⟩
      exact he.unique he'
    | mixed _ _ _ _ _ hf => exact absurd he (hf e (by rw [h]; simp) _)
  | mixed _ _ _ hb hs hf =>
    cases h' with
    | blanks h' => exact absurd h' hb
    | single h' => exact absurd h' hs
    | cost l' r' e' _ _ _ h' _ he' => exact absurd he' (hf e' (by rw [h']; simp) _)
    | mixed => rfl

theorem CostFault.faulty {w : Writing} {e : Entry} {k : Panic} (h : CostFault w e k) (he : e ∈ w.entries) : Faulty w := by
  cases h with
  | same a ha hc hk h => exact .cost e a he ha hc (Or.inr (Or.inl h)) hk
  | bare a ha hc hk h hw => exact .cost e a he ha hc (Or.inl h) hk
  | number a ha hc hk h hw hz => exact .cost e a he ha hc (Or.inr (Or.inr ⟨hw, hz⟩)) hk
  | rateBare a B ha h hi => exact .rate _ _ hi e a he ha rfl (Or.inl h)
  | rateSame a ha h hi => exact .rate _ _ hi e a he ha rfl (Or.inr rfl)

theorem Cause.faulty {w : Writing} {k : Panic} (h : Cause w k) : Faulty w := by
  cases h with
  | blanks h => obtain ⟨l, m, r, e, f, h, he, hf⟩ := h; exact .blanks l m r e f h he hf
  | single h => exact .single h
  | cost l r e _ hb hs h hl he => exact he.faulty (by rw [h]; simp)
  | mixed e p q hb hs hf he hp hq hn hpa hqa hne => exact .mixed e p q he hp hq hn hpa hqa hne

theorem Faulty.cause {w : Writing} (h : Faulty w) : ∃ k, Cause w k := by
  by_cases hb : TwoBlank w
  · exact ⟨_, .blanks hb⟩
  by_cases hs : w.entries.length = 1
  · exact ⟨_, .single hs⟩
  by_cases hf : ∃ e ∈ w.entries, ∃ k, CostFault w e k
  · obtain ⟨l, e, r, h1, h2, k, h3⟩ := first_exists hf
    exact ⟨k, .cost l r e k hb hs h1 (fun f hf k hk => h2 f hf ⟨k, hk⟩) h3⟩
  simp only [not_exists, not_and] at hf
  cases h with
  | single h => exact absurd h hs
  | blanks l m r e f h he hf => exact absurd ⟨l, m, r, e, f, h, he, hf⟩ hb
  | mixed e p q he hp hq hn hpa hqa hne => exact ⟨_, .mixed e p q hb hs hf he hp hq hn hpa hqa hne⟩
  | cost e a he ha hc hbad hkeep =>
    exfalso
    by_cases h1 : a.comm = e.worthIn
    · exact hf e he _ (.same a ha hc hkeep h1)
    · by_cases h2 : a.comm = none
      · exact hf e he _ (.bare a ha hc hkeep h2 (fun h => h1 (h2.trans h.symm)))
      · rcases hbad with h | h | ⟨h3, h4⟩
        · exact h2 h
        · exact h1 h
        · exact hf e he _ (.number a ha hc hkeep h2 h3 h4)
  | rate A B h e a he ha hac hbad =>
    exfalso
    subst hac
    by_cases h1 : a.comm = none
    · exact hf e he _ (.rateBare a B ha h1 h)
    · have h2 := hbad.resolve_left h1
      subst h2
      exact hf e he _ (.rateSame a ha h1 h)

/-! ### the phases of finalising -/

/-- The panic that the cost of a posting causes when prices are recorded. -/
inductive PriceFault (date : Option Date) (p : Post) : Panic → Prop
  | lone (c : Amount) (hc : p.cost = some c) (ha : p.amount = none) : PriceFault date p .postWithoutAmount
  | same (a c : Amount) (ha : p.amount = some a) (hc : p.cost = some c) (h : a.comm = c.comm) :
      PriceFault date p .costSameCommodity
  | undated (a c : Amount) (ha : p.amount = some a) (hc : p.cost = some c) (h : a.comm ≠ c.comm) (hd : date = none) :
      PriceFault date p .xactWithoutDate
  | bare (a c : Amount) (ha : p.amount = some a) (hc : p.cost = some c) (h : a.comm ≠ c.comm) (hd : date ≠ none)
      (hn : a.comm = none) : PriceFault date p .amountWithoutCommodity
  | number (a c : Amount) (ha : p.amount = some a) (hc : p.cost = some c) (hd : date ≠ none)
      (hn : a.comm ≠ none) (hcn : c.comm = none) (hv : ¬ Vanishing a c) : PriceFault date p .priceWithoutCommodity

/-- The pool knows the commodities of a posting. -/
def PostKnown (pool : Pool) (p : Post) : Prop :=
  ∀ a, p.amount = some a ∨ p.cost = some a → ∀ s, a.comm = some s → (pool.find s).isSome

theorem sumPosts_second (ps : List Post) (i : Nat) (b b' : Balance) (np : Option Nat) (e : Panic)
    (hb : b.addAll (bookedAmounts ps) = .ok b') (h : sumPosts ps i b np = .error e) : e = .secondNullPost := by
  induction ps generalizing i b np with
  | nil => simp [sumPosts] at h
  | cons p ps ih =>
    rw [sumPosts_cons] at h
    cases hp : p.booked with
    | none =>
      have e1 : bookedAmounts (p :: ps) = bookedAmounts ps := List.filterMap_cons_none hp
      rw [hp] at h
      rw [e1] at hb
      cases np with
      | none => exact ih _ _ _ hb h
      | some k => simp only [Except.error.injEq] at h; exact h.symm
    | some a =>
      have e1 : bookedAmounts (p :: ps) = a :: bookedAmounts ps := List.filterMap_cons_some hp
      rw [hp] at h
      rw [e1, Balance.addAll] at hb
      cases h1 : b.add a with
      | error x => rw [h1] at hb; simp [bind, Except.bind] at hb
      | ok b1 =>
        rw [h1] at hb
        simp only [h1] at h
        exact ih _ _ _ hb h

/-- A cost that is a number without commodity. -/
theorem exchange_number {pool : Pool} (hi : pool.Inv) {d : Date} {a c : Amount} (hn : a.comm ≠ none) (hcn : c.comm = none)
    (hv : ¬ Vanishing a c) (ha : ∀ s, a.comm = some s → (pool.find s).isSome)
    (hs : (a.qty.val ≠ 0 → Moderate (c.qty.val / a.qty.val)) ∧ ∀ A ann pr, a.comm = some A →
        assocGet A pool.annotated = some ann → ann.price = some pr → Moderate (pr.qty.val * a.qty.val)) :
    ∃ bd np, pool.exchange a c false ⟨d, Time.midnight⟩ = .ok (bd, some np) ∧
      pool.addPriceStruct np = .error .priceWithoutCommodity := by
  obtain ⟨A, hA⟩ := Option.ne_none_iff_exists'.mp hn
  obtain ⟨cA, fA⟩ := Option.isSome_iff_exists.mp (ha A hA)
  have hidx : pool.getByIndex cA.graphIndex = .ok A := by
    unfold Pool.getByIndex History.getCommodity
    rw [(hi.find fA).2]
  have hder : pool.deref (some A) = .ok cA := by unfold Pool.deref; simp only [fA]
  rcases perUnitCost_class a c with ⟨u, hu, _⟩ | ⟨_, h1, h2⟩
  rotate_left
  · exact absurd (hs.1 h1) h2
  rcases basisCost_class (assocGet A pool.annotated) a c with ⟨bs, hb⟩ | ⟨_, an, pr, hann, hpr, hm⟩
  rotate_left
  · exact absurd (hs.2 A an pr hA hann hpr) hm
  have hz : u.isZero = false := by
    cases hz : u.isZero with
    | false => rfl
    | true =>
      exfalso
      apply hv
      have h0 := (Dec.isZero_iff _).mp hz
      obtain ⟨hq, _⟩ := unitCost_ok a c u hu
      refine ⟨fun z => ?_, fun z => ?_⟩
      · have := hq.1 z
        rw [h0] at this
        exact abs_eq_zero.mp this.symm
      · have := precise_zero (hq.2 z).1 h0
        rwa [abs_abs] at this
  refine ⟨⟨a, c, bs⟩, ⟨A, ⟨d, Time.midnight⟩, u.removeCommodity⟩, ?_, ?_⟩
  · unfold Pool.exchange
    have hz' : u.removeCommodity.isZero = false := hz
    simp only [hA, hder, hidx, hu, Pool.finalCost, hb, bind, Except.bind, Bool.not_false, if_true, hcn, hz']
    simp [Amount.removeCommodity]
  · unfold Pool.addPriceStruct Pool.addPrice
    simp only [hder, bind, Except.bind, Amount.removeCommodity]
    simp

theorem recordPrices_fault (date : Option Date) (ps : List Post) (pool : Pool) (hi : pool.Inv)
    (hk : ∀ p ∈ ps, PostKnown pool p) (hs : ∀ p ∈ ps, Sized pool p) (e : Panic)
    (h : recordPrices date ps pool = .error e) :
    ∃ l p r, ps = l ++ p :: r ∧ (∀ q ∈ l, ∀ k, ¬ PriceFault date q k) ∧ PriceFault date p e := by
  induction ps generalizing pool with
  | nil => simp [recordPrices] at h
  | cons p ps ih =>
    have more : (∀ k, ¬ PriceFault date p k) → (∃ l q r, ps = l ++ q :: r ∧ (∀ q ∈ l, ∀ k, ¬ PriceFault date q k) ∧
        PriceFault date q e) → ∃ l q r, p :: ps = l ++ q :: r ∧ (∀ q ∈ l, ∀ k, ¬ PriceFault date q k) ∧
        PriceFault date q e := by
      rintro hn ⟨l, q, r, rfl, h2, h3⟩
      refine ⟨p :: l, q, r, rfl, ?_, h3⟩
      intro z hz
      rcases List.mem_cons.mp hz with rfl | hz
      · exact hn
      · exact h2 z hz
    have first : PriceFault date p e → ∃ l q r, p :: ps = l ++ q :: r ∧ (∀ q ∈ l, ∀ k, ¬ PriceFault date q k) ∧
        PriceFault date q e := fun hp => ⟨[], p, ps, rfl, by simp, hp⟩
    rw [recordPrices] at h
    cases hc : p.cost with
    | none =>
      rw [hc] at h
      refine more (fun k hf => by cases hf <;> simp_all) ?_
      refine ih pool hi (fun q hq => hk q (List.mem_cons_of_mem _ hq)) (fun q hq => hs q (List.mem_cons_of_mem _ hq)) ?_
      cases hr : recordPrices date ps pool with
      | error e' => rw [hr] at h; simpa [bind, Except.bind] using h
      | ok r => rw [hr] at h; simp [bind, Except.bind] at h
    | some c =>
      rw [hc] at h
      cases ha : p.amount with
      | none =>
        rw [ha] at h
        simp only [Except.error.injEq] at h
        subst h
        exact first (.lone c hc ha)
      | some a =>
        rw [ha] at h
        simp only at h
        by_cases hsame : a.comm = c.comm
        · rw [if_pos hsame] at h
          simp only [Except.error.injEq] at h
          subst h
          exact first (.same a c ha hc hsame)
        rw [if_neg hsame] at h
        cases date with
        | none =>
          simp only [Except.error.injEq] at h
          subst h
          exact first (.undated a c ha hc hsame rfl)
        | some d =>
          simp only at h
          by_cases hn : a.comm = none
          · have : pool.exchange a c false ⟨d, Time.midnight⟩ = .error .amountWithoutCommodity := by
              unfold Pool.exchange; simp only [hn]
            rw [this] at h
            simp only [bind, Except.bind, Except.error.injEq] at h
            subst h
            exact first (.bare a c ha hc hsame (by simp) hn)
          have ka := hk p List.mem_cons_self a (Or.inl ha)
          have kc := hk p List.mem_cons_self c (Or.inr hc)
          have hsz := hs p List.mem_cons_self a c ha hc
          by_cases hbad : c.comm = none ∧ ¬ Vanishing a c
          · obtain ⟨bd, np, h1, h2⟩ := exchange_number (d := d) hi hn hbad.1 hbad.2 ka hsz
            rw [h1] at h
            simp only [bind, Except.bind, h2, Except.error.injEq] at h
            subst h
            exact first (.number a c ha hc (by simp) hn hbad.1 hbad.2)
          · have hnp : ¬ NoPrice (some d) a c := by
              rintro (n | n | n | n)
              · exact hn n
              · exact hsame n
              · cases n
              · exact hbad n
            rcases exchange_class (d := d) hi hnp ka kc with ⟨bd, np, pool1, e1, e2, e3, e4, e5, e6⟩ | ⟨_, hm⟩
            rotate_left
            · exact absurd hsz hm
            refine more (fun k hf => ?_) ?_
            · cases hf with
              | lone c' h1 h2 => rw [ha] at h2; cases h2
              | same a' c' h1 h2 h3 => rw [ha] at h1; rw [hc] at h2; cases h1; cases h2; exact hsame h3
              | undated a' c' h1 h2 h3 h4 => cases h4
              | bare a' c' h1 h2 h3 h4 h5 => rw [ha] at h1; cases h1; exact hn h5
              | number a' c' h1 h2 h3 h4 h5 h6 => rw [ha] at h1; rw [hc] at h2; cases h1; cases h2; exact hbad ⟨h5, h6⟩
            · refine ih pool1 e4 (fun q hq a' h1 s h2 => by rw [e5]; exact hk q (List.mem_cons_of_mem _ hq) a' h1 s h2)
                (fun q hq a' c' h1 h2 => by rw [e6]; exact hs q (List.mem_cons_of_mem _ hq) a' c' h1 h2) ?_
              rw [e1] at h
              simp only [bind, Except.bind] at h
              cases np with
              | none =>
                simp only [Except.ok.injEq] at e3
                subst e3
                simp only at h
                cases hr : recordPrices (some d) ps pool with
                | error e' => rw [hr] at h; simpa using h
                | ok r => rw [hr] at h; simp at h
              | some np =>
                simp only at e3
                simp only [e3] at h
                cases hr : recordPrices (some d) ps pool1 with
                | error e' => rw [hr] at h; simpa using h
                | ok r => rw [hr] at h; simp at h

/-- The costs of an implied rate are assigned, if the numbers are of everyday size, and stay of moderate size. -/
theorem implied_assigned {ps : List Post} {b : Balance} {pool : Pool} (ho : Ordinary ps) (hl : pool.OrdinaryLots)
    (hb : Balance.empty.addAll (bookedAmounts ps) = .ok b) (hamt : ∀ p ∈ ps, p.amount ≠ none) {c1 c2 : Option Str}
    (h : Implied ps c1 c2) :
    ∃ (x y u : Amount) (ps' : List Post) (b' : Balance), x.comm = c1 ∧ y.comm = c2 ∧ y.div x = .ok u ∧ impliedCosts ps b none = .ok (ps', b') ∧
      List.Forall₂ (CostAssigned c1 u.abs) ps ps' ∧ ∀ q ∈ ps', Sized pool q := by
  have hr := ordinary_inRange ho
  obtain ⟨ex, ey, mx, my, k1, k2, k3, k4, k5⟩ := impliedCosts_implied _ _ hr hb c1 c2 h
  obtain ⟨_, hne, hbc, hs1, hs2, _⟩ := id h
  have hx0 : ex.qty.val ≠ 0 := by rw [k3]; exact hs1
  obtain ⟨D, T, hDT, hdec, htot⟩ := ho.costed (fun hn => hn.2 _ _ h)
  obtain ⟨b', f1, f2, f3, _⟩ := addAll_grid (S := D) (by omega) (bookedAmounts ps) Balance.empty
    (by intro a ha; cases ha) (fun a ha => hdec a (booked_written ha)) (by
      simp only [Balance.empty, mass, zero_add]
      exact mass_room (by omega) (le_trans (mass_booked ps) htot))
  rw [hb] at f1; injection f1 with f1; subst f1
  have g1 : Bounded (10 ^ T) b.amounts := by
    refine fun a ha => ⟨(f2 a ha).1, ?_⟩
    refine le_trans (le_mass ha) (le_trans f3 ?_)
    simp only [Balance.empty, mass, zero_add]
    exact le_trans (mass_booked ps) htot
  have g2 : 1 / 10 ^ D ≤ |ex.qty.val| := grid_least (f2 ex mx).2 hx0
  obtain ⟨u, hdv⟩ := (C06_accepted ey ex).2.2.mpr
    ⟨hx0, moderate_of_le (le_trans (quotient_le g2 (g1 ey my).2) (ten_le (by omega)))⟩
  have hw : |u.abs.qty.val| ≤ 10 ^ (T + D) + 1 / 2 := by
    rw [(C04_abs u).1, abs_abs]
    refine le_trans (precise_le ((C06_sound ey ex u).2 hdv).1) ?_
    have := quotient_le g2 (g1 ey my).2
    linarith
  obtain ⟨ps', b', hok⟩ := assignCosts_bounded c1 u.abs ps b (10 ^ T) (by positivity) g1
    (fun p hp => by
      obtain ⟨a, ha⟩ := Option.ne_none_iff_exists'.mp (hamt p hp)
      exact ⟨a, ha, (hdec a (List.mem_append_left _ (List.mem_filterMap.mpr ⟨p, hp, ha⟩))).1⟩)
    (by
      unfold load
      have t1 := htot
      rw [mass_append] at t1
      have t2 := mass_nonneg (writtenCosts ps)
      exact load_room hDT hw (by linarith) (mass_nonneg _) (by exact_mod_cast ho.count))
  have hall := assignCosts_ok _ _ _ _ _ _ hok
  refine ⟨ex, ey, u, ps', b', k1, k2, hdv, by rw [k5, hdv]; exact hok, hall, fun q hq => ?_⟩
  obtain ⟨p, hp, a, ha, hcase⟩ := forall₂_right hall hq
  rcases hcase with ⟨hac, c', hc', rfl⟩ | ⟨hac, rfl⟩
  · intro a' c'' ha' hc''
    simp only at ha'
    rw [ha] at ha'; injection ha' with ha'; subst ha'
    simp only [Option.some.injEq] at hc''
    subst hc''
    have hma : a ∈ writtenAmounts ps ++ writtenCosts ps :=
      List.mem_append_left _ (List.mem_filterMap.mpr ⟨p, hp, ha⟩)
    exact ⟨fun h0 => moderate_of_le (rate_room hDT hw (grid_least (hdec a hma).2 h0)
        (precise_le ((C06_sound u.abs a c').1 hc').1)),
      fun A ann pr _ hann hpr => moderate_of_le (lot_room hDT (hl A ann pr hann hpr) (le_trans (le_mass hma) htot))⟩
  · exact ordinary_sized ho hl hp

/-! ### from postings to what is written -/

/-- A posting as it is when the prices are recorded. -/
def PricedAs (w : Writing) (e : Entry) (p : Post) : Prop :=
  p.amount = e.amount ∧
  ((∃ A B a c, ImpliedBy w A B ∧ e.amount = some a ∧ a.comm = A ∧ p.cost = some c ∧
      c.comm = if B = none then A else B) ∨
   ((∀ a, e.amount = some a → ∀ B, ¬ ImpliedBy w a.comm B) ∧ PostOf e p))

theorem priceFault_iff {w : Writing} {e : Entry} {p : Post} (h : PricedAs w e p) (d : Date) (k : Panic) :
    PriceFault (some d) p k ↔ CostFault w e k := by
  obtain ⟨hpa, ⟨A, B, a, c, hi, ha, hac, hc, hcc⟩ | ⟨hk, hpe⟩⟩ := h
  · subst hac
    have hne := hi.2.1
    have hp : p.amount = some a := hpa.trans ha
    constructor
    · intro h
      cases h with
      | lone c' h1 h2 => rw [hp] at h2; cases h2
      | same a' c' h1 h2 h3 =>
        rw [hp] at h1; rw [hc] at h2; cases h1; cases h2
        rw [hcc] at h3
        by_cases hB : B = none
        · subst hB
          exact .rateSame a ha hne hi
        · rw [if_neg hB] at h3; exact absurd h3 hne
      | undated a' c' h1 h2 h3 h4 => cases h4
      | bare a' c' h1 h2 h3 h4 h5 =>
        rw [hp] at h1; cases h1
        exact .rateBare a B ha h5 hi
      | number a' c' h1 h2 h3 h4 h5 h6 =>
        rw [hp] at h1; rw [hc] at h2; cases h1; cases h2
        rw [hcc] at h5
        split at h5
        · exact absurd h5 h4
        · rename_i hB; exact absurd h5 hB
    · intro h
      cases h with
      | same a' h1 h2 h3 h4 => rw [ha] at h1; cases h1; exact absurd hi (h3 _)
      | bare a' h1 h2 h3 h4 h5 => rw [ha] at h1; cases h1; exact absurd hi (h3 _)
      | number a' h1 h2 h3 h4 h5 h6 => rw [ha] at h1; cases h1; exact absurd hi (h3 _)
      | rateBare a' B' h1 h2 h3 =>
        rw [ha] at h1; cases h1
        have hB : B ≠ none := fun hB => hne (h2.trans hB.symm)
        rw [if_neg hB] at hcc
        exact .bare a c hp hc (by rw [hcc]; exact hne) (by simp) h2
      | rateSame a' h1 h2 h3 =>
        rw [ha] at h1; cases h1
        obtain ⟨_, rfl⟩ := impliedBy_unique hi h3
        exact .same a c hp hc (by rw [hcc, if_pos rfl])
  · constructor
    · intro h
      cases h with
      | lone c' h1 h2 =>
        obtain ⟨_, hn, _⟩ := hpe.cost_value h1
        exact absurd (hpa.symm.trans h2) hn
      | same a c h1 h2 h3 =>
        obtain ⟨c1, _, c3, c4⟩ := hpe.cost_value h2
        have ha := hpa.symm.trans h1
        exact .same a ha c1 (hk a ha) (h3.trans c4)
      | undated a' c' h1 h2 h3 h4 => cases h4
      | bare a c h1 h2 h3 h4 h5 =>
        obtain ⟨c1, _, c3, c4⟩ := hpe.cost_value h2
        have ha := hpa.symm.trans h1
        exact .bare a ha c1 (hk a ha) h5 (by rw [← c4]; exact fun h => h3 (h5.trans h.symm))
      | number a c h1 h2 h3 h4 h5 h6 =>
        obtain ⟨c1, _, c3, c4⟩ := hpe.cost_value h2
        have ha := hpa.symm.trans h1
        unfold Vanishing at h6
        rw [c3] at h6
        exact .number a ha c1 (hk a ha) h4 (by rw [← c4]; exact h5) h6
    · intro h
      cases h with
      | same a ha hc hk' h =>
        obtain ⟨c, hpc⟩ := hpe.cost_some (by rw [ha]; simp) hc
        obtain ⟨_, _, c3, c4⟩ := hpe.cost_value hpc
        exact .same a c (hpa.trans ha) hpc (by rw [c4]; exact h)
      | bare a ha hc hk' h hw =>
        obtain ⟨c, hpc⟩ := hpe.cost_some (by rw [ha]; simp) hc
        obtain ⟨_, _, c3, c4⟩ := hpe.cost_value hpc
        exact .bare a c (hpa.trans ha) hpc (by rw [c4, h]; exact hw.symm) (by simp) h
      | number a ha hc hk' h hw hz =>
        obtain ⟨c, hpc⟩ := hpe.cost_some (by rw [ha]; simp) hc
        obtain ⟨_, _, c3, c4⟩ := hpe.cost_value hpc
        exact .number a c (hpa.trans ha) hpc (by simp) h (by rw [c4]; exact hw) (by unfold Vanishing; rw [c3]; exact hz)
      | rateBare a B ha h hi => exact absurd hi (hk a ha _)
      | rateSame a ha h hi => exact absurd hi (hk a ha _)

/-- The first faulty cost, from the postings back to what is written. -/
theorem costs_cause {w : Writing} {ps : List Post} (hp : List.Forall₂ (PricedAs w) w.entries ps) (d : Date) {k : Panic}
    (h : ∃ l p r, ps = l ++ p :: r ∧ (∀ q ∈ l, ∀ k, ¬ PriceFault (some d) q k) ∧ PriceFault (some d) p k)
    (hb : ¬ TwoBlank w) (hs : w.entries.length ≠ 1) : Cause w k := by
  obtain ⟨l, p, r, rfl, h2, h3⟩ := h
  obtain ⟨el, er, f1, f2, f3⟩ := forall₂_split_right hp
  cases f2 with
  | @cons e _ er _ hpe _ =>
    refine .cost el er e k hb hs f3 (fun f hf k' hk => ?_) ((priceFault_iff hpe d k).mp h3)
    obtain ⟨q, hq, hqe⟩ := forall₂_mem_left f1 hf
    exact h2 q hq k' ((priceFault_iff hqe d k').mpr hk)

theorem twoBlank_iff {w : Writing} {x : Xact} (hx : XactOf w x) :
    TwoBlank w ↔ ∃ l p m q r, x.posts = l ++ p :: m ++ q :: r ∧ p.Blank ∧ q.Blank := by
  constructor
  · rintro ⟨l, m, r, e, f, h, he, hf⟩
    have hposts := hx.posts
    rw [h] at hposts
    obtain ⟨ps1, ps2, h1, h2, h3⟩ := forall₂_split hposts
    obtain ⟨ps3, ps4, h4, h5, h6⟩ := forall₂_split h1
    cases h2 with
    | @cons _ q _ pr hq _ =>
      cases h5 with
      | @cons _ p _ pm hp _ =>
        exact ⟨ps3, p, pm, q, pr, by rw [h3, h6], hp.blank_iff.mpr he, hq.blank_iff.mpr hf⟩
  · rintro ⟨l, p, m, q, r, h, hp, hq⟩
    have hposts := hx.posts
    rw [h] at hposts
    obtain ⟨es1, es2, h1, h2, h3⟩ := forall₂_split_right hposts
    obtain ⟨es3, es4, h4, h5, h6⟩ := forall₂_split_right h1
    cases h2 with
    | @cons f _ er _ hf _ =>
      cases h5 with
      | @cons e _ em _ he _ =>
        exact ⟨es3, em, er, e, f, by rw [h3, h6], he.blank_iff.mp hp, hf.blank_iff.mp hq⟩

/-- The phases of finalising a transaction of everyday size before the prices are recorded. -/
theorem finalize_phases {w : Writing} {x : Xact} {pool : Pool} (hx : XactOf w x)
    (hk : pool.Knows x.posts) (ho : Ordinary x.posts) (hl : pool.OrdinaryLots) (h2 : ¬ TwoBlank w) {b : Balance}
    (e1 : Balance.empty.addAll (bookedAmounts x.posts) = .ok b) :
    ∃ np ps b', sumPosts x.posts 0 Balance.empty none = .ok (b, np) ∧ impliedCosts x.posts b np = .ok (ps, b') ∧
      List.Forall₂ (PricedAs w) w.entries ps ∧ (∀ q ∈ ps, PostKnown pool q) ∧ (∀ q ∈ ps, Sized pool q) ∧
      (np = none → ∀ p ∈ x.posts, ¬ p.Blank) ∧ (np ≠ none → ps = x.posts ∧ b' = b ∧ ∀ A B, ¬ ImpliedBy w A B) := by
  have hr := ordinary_inRange ho
  have h2' : ¬ ∃ l p m q r, x.posts = l ++ p :: m ++ q :: r ∧ p.Blank ∧ q.Blank := fun h => h2 ((twoBlank_iff hx).mpr h)
  have plain : (∀ A B, ¬ ImpliedBy w A B) → List.Forall₂ (PricedAs w) w.entries x.posts := fun hn =>
    hx.posts.imp fun e p hpe => ⟨hpe.amount, Or.inr ⟨fun a _ B => hn _ _, hpe⟩⟩
  have known : ∀ p ∈ x.posts, PostKnown pool p := fun p hp a ha => known_of hk hp ha
  have sized : ∀ p ∈ x.posts, Sized pool p := fun p hp => ordinary_sized ho hl hp
  rcases blanks_cases x.posts with hnb | ⟨l, p, r, hx1, hpb, hnb⟩ | hb2
  · have hna : ∀ e ∈ w.entries, e.amount ≠ none := by
      intro e he hn
      obtain ⟨p, hp, hpe⟩ := forall₂_mem_left hx.posts he
      exact hnb p hp (hpe.blank_iff.mpr hn)
    have hamt : ∀ p ∈ x.posts, p.amount ≠ none := by
      intro p hp
      obtain ⟨e, he, hpe⟩ := forall₂_mem_right hx.posts hp
      rw [hpe.amount]; exact hna e he
    by_cases hsome : ∃ A B, ImpliedBy w A B
    · obtain ⟨A, B, hi'⟩ := hsome
      obtain ⟨ex, ey, u, ps', b', k1, k2, k3, k4, hall, hsz⟩ := implied_assigned ho hl e1 hamt ((implied_iff hx _ _).mpr hi')
      have hpriced : List.Forall₂ (PricedAs w) w.entries ps' := by
        have key : ∀ es ps qs, List.Forall₂ PostOf es ps → List.Forall₂ (CostAssigned A u.abs) ps qs →
            List.Forall₂ (PricedAs w) es qs := by
          intro es ps qs f1 f2
          induction f1 generalizing qs with
          | nil => cases f2; exact .nil
          | @cons e p es ps hpe _ ih =>
            cases f2 with
            | @cons _ q _ qs hq f2 =>
              refine .cons ?_ (ih _ f2)
              obtain ⟨a, ha, ⟨hac, c, hc, rfl⟩ | ⟨hac, rfl⟩⟩ := hq
              · refine ⟨hpe.amount, Or.inl ⟨A, B, a, c, hi', by rw [← hpe.amount]; exact ha, hac, rfl, ?_⟩⟩
                rw [impliedCost_comm k3 hc (hac.trans k1.symm), k1, k2]
              · refine ⟨hpe.amount, Or.inr ⟨fun a' ha' B' hB' => hac ?_, hpe⟩⟩
                rw [hpe.amount, ha'] at ha
                injection ha with ha
                subst ha
                exact (impliedBy_unique hB' hi').1
        exact key _ _ _ hx.posts hall
      refine ⟨none, ps', b', sumPosts_none _ _ _ _ e1 hnb, k4, hpriced, ?_, hsz, fun _ => hnb, fun h => absurd rfl h⟩
      intro q hq a ha s hs
      obtain ⟨p, hp, a', ha', hcase⟩ := forall₂_right hall hq
      rcases hcase with ⟨hac, c, hc, rfl⟩ | ⟨_, rfl⟩
      · rcases ha with ha | ha
        · exact known p hp a (Or.inl ha) s hs
        · simp only [Option.some.injEq] at ha
          subst ha
          rw [impliedCost_comm k3 hc (hac.trans k1.symm), k1, k2] at hs
          split at hs
          · exact known p hp a' (Or.inl ha') s (hac.trans hs)
          · obtain ⟨_, _, _, _, hs2, _⟩ := (implied_iff hx _ _).mpr hi'
            by_contra hn
            apply hs2
            apply sumIn_absent
            intro hm
            obtain ⟨a, ha, e⟩ := List.mem_map.mp hm
            exact hn (hk a (booked_written ha) s (e.trans hs))
      · exact known _ hp a ha s hs
    · have hno : ∀ A B, ¬ ImpliedBy w A B := fun A B h => hsome ⟨A, B, h⟩
      have him := (impliedCosts_else _ _ hr hnb e1).resolve_right (by
        rintro ⟨A, B, h⟩
        exact hno A B ((implied_iff hx _ _).mp h))
      exact ⟨none, x.posts, b, sumPosts_none _ _ _ _ e1 hnb, him, plain hno, known, sized, fun _ => hnb, fun h => absurd rfl h⟩
  · have hpm : p ∈ x.posts := by rw [hx1]; simp
    obtain ⟨e, he, hpe⟩ := forall₂_mem_right hx.posts hpm
    have hno : ∀ A B, ¬ ImpliedBy w A B := fun A B h => h.1 e he (hpe.blank_iff.mp hpb)
    refine ⟨some l.length, x.posts, b, ?_, rfl, plain hno, known, sized, fun h => (by cases h), fun _ => ⟨rfl, rfl, hno⟩⟩
    rw [hx1] at e1 ⊢
    have := sumPosts_one l r p 0 Balance.empty b e1 hpb hnb
    rwa [Nat.zero_add] at this
  · exact absurd hb2 h2'

/-- A refused transaction of everyday size is refused for its cause. -/
theorem finalize_cause {w : Writing} {x : Xact} {pool : Pool} (hx : XactOf w x) (hp : Pool.empty.Later pool)
    (hk : pool.Knows x.posts) (ho : Ordinary x.posts) (hl : pool.OrdinaryLots) {k : Panic}
    (h : finalize x pool = .error k) : Cause w k := by
  obtain ⟨ops, hops⟩ := hp
  have hi : pool.Inv := Pool.inv_runOps Pool.inv_empty ops hops
  have hr := ordinary_inRange ho
  obtain ⟨b, e1, _⟩ := C07_balance_is_sum _ hr
  have hlen := hx.posts.length_eq
  by_cases h2 : TwoBlank w
  · -- the second blank posting
    cases hsum : sumPosts x.posts 0 Balance.empty none with
    | error e =>
      have := sumPosts_second _ _ _ _ _ _ e1 hsum
      subst this
      unfold finalize at h
      rw [hsum] at h
      simp only [bind, Except.bind, Except.error.injEq] at h
      subst h
      exact .blanks h2
    | ok z =>
      exfalso
      obtain ⟨b', np'⟩ := z
      obtain ⟨l, p, m, q, r, hx2, hp2, hq2⟩ := (twoBlank_iff hx).mp h2
      obtain ⟨_, _, s3⟩ := sumPosts_ok _ _ _ _ _ _ hsum
      rcases s3 rfl with ⟨g, _⟩ | ⟨l', p', r', g1, g2, g3, _⟩
      · exact g p (by rw [hx2]; simp) hp2
      · rw [hx2] at g1
        have hcount : ∀ ps : List Post, (∀ q ∈ ps, ¬ q.Blank) → ps.countP (fun p => decide (p.booked = none)) = 0 := by
          intro ps hps
          rw [List.countP_eq_zero]
          intro q hq
          simp only [decide_eq_true_eq]
          exact hps q hq
        have c1 := congrArg (List.countP (fun p : Post => decide (p.booked = none))) g1
        have d1 := hcount l' (fun q hq => g3 q (List.mem_append_left _ hq))
        have d2 := hcount r' (fun q hq => g3 q (List.mem_append_right _ hq))
        have e1 : p.booked = none := hp2
        have e2 : q.booked = none := hq2
        simp only [List.countP_append, List.countP_cons, d1, d2, e1, e2, decide_true, if_true] at c1
        split at c1 <;> omega
  have h2' : ¬ ∃ l p m q r, x.posts = l ++ p :: m ++ q :: r ∧ p.Blank ∧ q.Blank := fun h => h2 ((twoBlank_iff hx).mpr h)
  have plain : (∀ A B, ¬ ImpliedBy w A B) → List.Forall₂ (PricedAs w) w.entries x.posts := fun hn =>
    hx.posts.imp fun e p hpe => ⟨hpe.amount, Or.inr ⟨fun a _ B => hn _ _, hpe⟩⟩
  by_cases h1 : w.entries.length = 1
  · have : k = .singlePosting := by
      unfold finalize at h
      cases hsum : sumPosts x.posts 0 Balance.empty none with
      | error e =>
        exfalso
        rcases blanks_cases x.posts with hnb | ⟨l, p, r, hx1, hpb, hnb⟩ | hb2
        · rw [sumPosts_none _ _ _ _ e1 hnb] at hsum; cases hsum
        · rw [hx1] at e1 hsum
          rw [sumPosts_one l r p 0 Balance.empty b e1 hpb hnb] at hsum; cases hsum
        · exact h2' hb2
      | ok z =>
        rw [hsum] at h
        simp only [bind, Except.bind] at h
        rw [if_pos (by rw [← hlen]; exact h1)] at h
        simp only [Except.error.injEq] at h
        exact h.symm
    subst this
    exact .single h1
  have h1' : x.posts.length ≠ 1 := by rw [← hlen]; exact h1
  have known : ∀ p ∈ x.posts, PostKnown pool p := fun p hp a ha => known_of hk hp ha
  have sized : ∀ p ∈ x.posts, Sized pool p := fun p hp => ordinary_sized ho hl hp
  have hdate := hx.date
  rcases blanks_cases x.posts with hnb | ⟨l, p, r, hx1, hpb, hnb⟩ | hb2
  · obtain ⟨np, ps, b', s1, s2, hpriced, hknown, hsized, _, _⟩ := finalize_phases hx hk ho hl h2 e1
    have s0 := s1
    rw [sumPosts_none _ _ _ _ e1 hnb] at s0
    injection s0 with s0
    injection s0 with _ s0
    subst s0
    unfold finalize at h
    rw [s1] at h
    simp only [bind, Except.bind] at h
    rw [if_neg h1', s2] at h
    simp only at h
    cases hrp : recordPrices x.date ps pool with
    | ok z => rw [hrp] at h; simp [fillNull] at h
    | error e =>
      rw [hrp] at h
      simp only [Except.error.injEq] at h
      subst h
      exact costs_cause hpriced w.date (recordPrices_fault _ _ _ hi hknown hsized e (by rw [← hdate]; exact hrp)) h2 h1
  · have hpm : p ∈ x.posts := by rw [hx1]; simp
    obtain ⟨e, he, hpe⟩ := forall₂_mem_right hx.posts hpm
    have hno : ∀ A B, ¬ ImpliedBy w A B := fun A B h => h.1 e he (hpe.blank_iff.mp hpb)
    have hsum : sumPosts x.posts 0 Balance.empty none = .ok (b, some l.length) := by
      rw [hx1] at e1 ⊢
      have := sumPosts_one l r p 0 Balance.empty b e1 hpb hnb
      rwa [Nat.zero_add] at this
    cases hrp : recordPrices x.date x.posts pool with
    | error e' =>
      have : k = e' := by
        unfold finalize at h
        rw [hsum] at h
        simp only [bind, Except.bind] at h
        rw [if_neg h1'] at h
        unfold impliedCosts at h
        simp only [hrp, Except.error.injEq] at h
        exact h.symm
      subst this
      exact costs_cause (plain hno) w.date (recordPrices_fault _ _ _ hi known sized k (by rw [← hdate]; exact hrp)) h2 h1
    | ok z =>
      obtain ⟨ps2, pool2⟩ := z
      have hfill : k = .nullPostCommodities ∧ ∀ a, b.amounts ≠ [a] := by
        unfold finalize at h
        rw [hsum] at h
        simp only [bind, Except.bind] at h
        rw [if_neg h1'] at h
        unfold impliedCosts at h
        simp only [hrp] at h
        unfold fillNull at h
        simp only at h
        split at h
        · rename_i e' hm
          split at hm
          · cases hm
          · rename_i hn
            simp only [Except.error.injEq] at hm h
            exact ⟨by rw [← h, ← hm], fun a ha => hn a ha⟩
        · cases h
      obtain ⟨rfl, hone⟩ := hfill
      obtain ⟨_, t2, t3, _⟩ := twoEntries _ _ hr e1
      have hmix : ∃ a ∈ bookedAmounts x.posts, ∃ a' ∈ bookedAmounts x.posts, a.comm ≠ a'.comm := by
        obtain ⟨am⟩ := b
        unfold Balance.OneEach at t2
        cases am with
        | nil =>
          exfalso
          have hlr : l ++ r ≠ [] := by
            intro e
            apply h1'
            rw [hx1, List.length_append, List.length_cons]
            have := congrArg List.length e
            rw [List.length_append, List.length_nil] at this
            omega
          obtain ⟨q, qs, hq⟩ := List.exists_cons_of_ne_nil hlr
          have hqm : q ∈ l ++ r := by rw [hq]; simp
          obtain ⟨a, ha⟩ := Option.ne_none_iff_exists'.mp (hnb q hqm)
          have hqx : q ∈ x.posts := by
            rw [hx1]
            rcases List.mem_append.mp hqm with h | h
            · exact List.mem_append_left _ h
            · exact List.mem_append_right _ (List.mem_cons_of_mem _ h)
          have := (t3 a.comm).mpr (List.mem_map_of_mem (List.mem_filterMap.mpr ⟨q, hqx, ha⟩))
          simp at this
        | cons a am =>
          cases am with
          | nil => exact absurd rfl (hone a)
          | cons a' am =>
            obtain ⟨z, hz, ez⟩ := List.mem_map.mp ((t3 a.comm).mp (by simp))
            obtain ⟨z', hz', ez'⟩ := List.mem_map.mp ((t3 a'.comm).mp (by simp))
            refine ⟨z, hz, z', hz', ?_⟩
            rw [ez, ez']
            simp only [List.map_cons, List.nodup_cons, List.mem_cons, not_or] at t2
            exact t2.1.1
      obtain ⟨a, ha, a', ha', hne⟩ := hmix
      obtain ⟨p1, hp1, q1⟩ := List.mem_filterMap.mp ha
      obtain ⟨p2, hp2, q2⟩ := List.mem_filterMap.mp ha'
      obtain ⟨f1, hf1, g1⟩ := forall₂_mem_right hx.posts hp1
      obtain ⟨f2, hf2, g2⟩ := forall₂_mem_right hx.posts hp2
      have n1 : f1.amount ≠ none := fun h => by
        have := g1.blank_iff.mpr h; unfold Post.Blank at this; rw [q1] at this; cases this
      have n2 : f2.amount ≠ none := fun h => by
        have := g2.blank_iff.mpr h; unfold Post.Blank at this; rw [q2] at this; cases this
      obtain ⟨b1, i1, _, j1⟩ := g1.booked_value n1
      obtain ⟨b2, i2, _, j2⟩ := g2.booked_value n2
      rw [q1] at i1; injection i1 with i1; subst i1
      rw [q2] at i2; injection i2 with i2; subst i2
      refine .mixed e f1 f2 h2 h1 (fun f hf k hk => ?_) he hf1 hf2 (hpe.blank_iff.mp hpb) n1 n2 (by rw [← j1, ← j2]; exact hne)
      obtain ⟨q, hq, hqe⟩ := forall₂_mem_left (plain hno) hf
      have hpf := (priceFault_iff hqe w.date k).mpr hk
      rw [hdate] at hrp
      have good := recordPrices_prices _ _ _ _ _ hrp q hq
      cases hpf with
      | lone c h1 h2 => obtain ⟨a, ga, _⟩ := good c h1; rw [h2] at ga; cases ga
      | same a c h1 h2 h3 => obtain ⟨a', ga, gn⟩ := good c h2; rw [h1] at ga; cases ga; exact gn (Or.inr (Or.inl h3))
      | undated a c h1 h2 h3 h4 => cases h4
      | bare a c h1 h2 h3 h4 h5 => obtain ⟨a', ga, gn⟩ := good c h2; rw [h1] at ga; cases ga; exact gn (Or.inl h5)
      | number a c h1 h2 h3 h4 h5 h6 =>
        obtain ⟨a', ga, gn⟩ := good c h2; rw [h1] at ga; cases ga; exact gn (Or.inr (Or.inr (Or.inr ⟨h5, h6⟩)))
  · exact absurd hb2 h2'

end Ledger
