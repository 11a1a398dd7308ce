import Verif.Spec.Faults
import Verif.Lemmas.Ready
/-
Written transactions and their defects.
-/
namespace Ledger
open Ledger.Parser Finalize

/-! ### entries and postings -/

theorem PostOf.blank_iff {e : Entry} {p : Post} (h : PostOf e p) : p.Blank ↔ e.amount = none := by
  constructor
  · intro hb
    rw [← h.amount]; exact (blank_fields hb).2
  · intro ha
    unfold Post.Blank Post.booked
    rcases h.cost with ⟨_, hc⟩ | ⟨a, h1, _⟩
    · rw [hc, h.amount, ha]
    · rw [ha] at h1; cases h1

theorem PostOf.booked_value {e : Entry} {p : Post} (h : PostOf e p) (ha : e.amount ≠ none) :
    ∃ b, p.booked = some b ∧ b.qty.val = e.worth ∧ b.comm = e.worthIn := by
  obtain ⟨acct, am, lot, cost, cmts, strays⟩ := e
  cases am with
  | none => exact absurd rfl ha
  | some a =>
    have h1 : p.amount = some a := h.amount
    rcases h.cost with ⟨h, _⟩ | ⟨a', h2, h3⟩
    · cases h
    · simp only [Option.some.injEq] at h2
      subst h2
      cases cost with
      | none =>
        have h3 : p.cost = none := h3
        exact ⟨a, by unfold Post.booked; rw [h3, h1], rfl, rfl⟩
      | some c =>
        obtain ⟨u, k⟩ := c
        cases u with
        | false =>
          have h3 : p.cost = some k := h3
          exact ⟨k, by unfold Post.booked; rw [h3], rfl, rfl⟩
        | true =>
          obtain ⟨r, h3, h4, h5, h6, h7⟩ := h3
          exact ⟨r, by unfold Post.booked; rw [h3], h4, h5⟩

theorem entriesSum_cons (e : Entry) (r : List Entry) (c : Option Str) :
    entriesSum (e :: r) c = (if e.worthIn = c then e.worth else 0) + entriesSum r c := by
  unfold entriesSum; rw [List.map_cons, List.sum_cons]

theorem entriesSum_append (l r : List Entry) (c : Option Str) : entriesSum (l ++ r) c = entriesSum l c + entriesSum r c := by
  unfold entriesSum; rw [List.map_append, List.sum_append]

theorem postsOf_sum {es : List Entry} {ps : List Post} (h : List.Forall₂ PostOf es ps) (ha : ∀ e ∈ es, e.amount ≠ none)
    (c : Option Str) : sumIn c (bookedAmounts ps) = entriesSum es c := by
  induction h with
  | nil => rfl
  | @cons e p es ps hp _ ih =>
    obtain ⟨b, b1, b2, b3⟩ := hp.booked_value (ha e List.mem_cons_self)
    have eb : bookedAmounts (p :: ps) = b :: bookedAmounts ps := List.filterMap_cons_some b1
    rw [eb, entriesSum_cons, ← ih (fun e he => ha e (List.mem_cons_of_mem _ he)), sumIn, Amount.valIn, b2, b3]

/-- A cost in a posting is a cost in its entry. -/
theorem PostOf.cost_value {e : Entry} {p : Post} (h : PostOf e p) {c : Amount} (hc : p.cost = some c) :
    e.cost ≠ none ∧ e.amount ≠ none ∧ c.qty.val = e.worth ∧ c.comm = e.worthIn := by
  have ha : e.amount ≠ none := by
    intro ha
    rcases h.cost with ⟨_, h1⟩ | ⟨a, h1, _⟩
    · rw [hc] at h1; cases h1
    · rw [ha] at h1; cases h1
  obtain ⟨b, b1, b2, b3⟩ := h.booked_value ha
  have : b = c := by unfold Post.booked at b1; rw [hc] at b1; injection b1 with b1; exact b1.symm
  subst this
  refine ⟨?_, ha, b2, b3⟩
  intro hn
  rcases h.cost with ⟨h1, _⟩ | ⟨a, _, h2⟩
  · exact ha h1
  · rw [hn, CostOf, hc] at h2; cases h2

theorem PostOf.cost_some {e : Entry} {p : Post} (h : PostOf e p) (ha : e.amount ≠ none) (hc : e.cost ≠ none) :
    ∃ c, p.cost = some c := by
  rcases h.cost with ⟨h1, _⟩ | ⟨a, _, h2⟩
  · exact absurd h1 ha
  · obtain ⟨⟨u, k⟩, hk⟩ := Option.ne_none_iff_exists'.mp hc
    rw [hk] at h2
    cases u with
    | false => exact ⟨k, h2⟩
    | true => obtain ⟨r, h3, _⟩ := h2; exact ⟨r, h3⟩

theorem forall₂_split_right {α β : Type} {R : α → β → Prop} {l r : List β} {m : List α} (h : List.Forall₂ R m (l ++ r)) :
    ∃ m1 m2, List.Forall₂ R m1 l ∧ List.Forall₂ R m2 r ∧ m = m1 ++ m2 := by
  obtain ⟨m1, m2, h1, h2, h3⟩ := forall₂_split (R := fun b a => R a b) (List.Forall₂.flip h)
  exact ⟨m1, m2, List.Forall₂.flip h1, List.Forall₂.flip h2, h3⟩

/-! ### defects -/

theorem implied_iff {w : Writing} {x : Xact} (hx : XactOf w x) (A B : Option Str) :
    Implied x.posts A B ↔ ImpliedBy w A B := by
  have hblank : (∀ p ∈ x.posts, ¬ p.Blank) ↔ ∀ e ∈ w.entries, e.amount ≠ none := by
    constructor
    · intro h e he ha
      obtain ⟨p, hp, hpe⟩ := forall₂_mem_left hx.posts he
      exact h p hp (hpe.blank_iff.mpr ha)
    · intro h p hp hb
      obtain ⟨e, he, hpe⟩ := forall₂_mem_right hx.posts hp
      exact h e he (hpe.blank_iff.mp hb)
  unfold Implied ImpliedBy
  rw [hblank]
  refine and_congr_right fun ha => ?_
  rw [postsOf_sum hx.posts ha, postsOf_sum hx.posts ha]
  refine and_congr_right fun _ => and_congr ?_ (and_congr_right fun _ => and_congr_right fun _ => ?_)
  · constructor
    · intro h e he
      obtain ⟨p, hp, hpe⟩ := forall₂_mem_left hx.posts he
      obtain ⟨b, b1, _, b3⟩ := hpe.booked_value (ha e he)
      rw [← b3]
      exact h b (List.mem_filterMap.mpr ⟨p, hp, b1⟩)
    · intro h a hm
      obtain ⟨p, hp, hb⟩ := List.mem_filterMap.mp hm
      obtain ⟨e, he, hpe⟩ := forall₂_mem_right hx.posts hp
      obtain ⟨b, b1, _, b3⟩ := hpe.booked_value (ha e he)
      rw [b1] at hb; injection hb with hb; subst hb
      rw [b3]; exact h e he
  · have hposts := hx.posts
    generalize x.posts = ps at hposts
    generalize w.entries = es at hposts ha
    cases hposts with
    | nil => simp [bookedAmounts]
    | @cons e p es ps hpe _ =>
      obtain ⟨b, b1, _, b3⟩ := hpe.booked_value (ha e List.mem_cons_self)
      obtain ⟨a, hea⟩ := Option.ne_none_iff_exists'.mp (ha e List.mem_cons_self)
      have h1 : (bookedAmounts (p :: ps)).head? = some b := by unfold bookedAmounts; rw [List.filterMap_cons_some b1]; rfl
      have h2 : (writtenAmounts (p :: ps)).head? = some a := by
        unfold writtenAmounts; rw [List.filterMap_cons_some (by rw [hpe.amount]; exact hea)]; rfl
      have h3 : e.commodity = a.comm := by unfold Entry.commodity; rw [hea]; rfl
      rw [h1, h2]
      constructor
      · rintro ⟨f, t, hf, ht, h⟩
        injection hf with hf; injection ht with ht
        subst hf ht
        exact ⟨e, rfl, by rw [h3, ← b3]; exact h⟩
      · rintro ⟨e', he', h⟩
        injection he' with he'
        subst he'
        exact ⟨b, a, rfl, rfl, by rw [h3, ← b3] at h; exact h⟩

theorem priceless_iff {e : Entry} {p : Post} (h : PostOf e p) {a c : Amount} (hc : p.cost = some c) (d : Date) :
    NoPrice (some d) a c ↔ e.Priceless a := by
  obtain ⟨_, _, c3, c4⟩ := h.cost_value hc
  unfold NoPrice Vanishing Entry.Priceless
  rw [c3, c4]
  simp

/-- A written transaction is faulty exactly if it is read as a defective one. -/
theorem defective_iff {w : Writing} {x : Xact} (hx : XactOf w x) : Defective x ↔ Faulty w := by
  constructor
  · intro h
    cases h with
    | single h => exact .single (by rw [hx.posts.length_eq]; exact h)
    | blanks l m r p q h hp hq =>
      have hposts := hx.posts
      rw [h] at hposts
      obtain ⟨es1, es2, h1, h2, h3⟩ := forall₂_split_right hposts
      obtain ⟨es3, es4, h4, h5, h6⟩ := forall₂_split_right h1
      cases h2 with
      | @cons f _ er _ hf _ =>
        cases h5 with
        | @cons e _ em _ he _ =>
          exact .blanks es3 em er e f (by rw [h3, h6]) (he.blank_iff.mp hp) (hf.blank_iff.mp hq)
    | mixed p hp hb a b ha hb' hne =>
      obtain ⟨e, he, hpe⟩ := forall₂_mem_right hx.posts hp
      obtain ⟨p1, hp1, k1⟩ := List.mem_filterMap.mp ha
      obtain ⟨p2, hp2, k2⟩ := List.mem_filterMap.mp hb'
      obtain ⟨e1, he1, q1⟩ := forall₂_mem_right hx.posts hp1
      obtain ⟨e2, he2, q2⟩ := forall₂_mem_right hx.posts hp2
      have n1 : e1.amount ≠ none := fun h => by
        have := q1.blank_iff.mpr h; unfold Post.Blank at this; rw [k1] at this; cases this
      have n2 : e2.amount ≠ none := fun h => by
        have := q2.blank_iff.mpr h; unfold Post.Blank at this; rw [k2] at this; cases this
      obtain ⟨b1, f1, _, g1⟩ := q1.booked_value n1
      obtain ⟨b2, f2, _, g2⟩ := q2.booked_value n2
      rw [k1] at f1; injection f1 with f1; subst f1
      rw [k2] at f2; injection f2 with f2; subst f2
      exact .mixed e e1 e2 he he1 he2 (hpe.blank_iff.mp hb) n1 n2 (by rw [← g1, ← g2]; exact hne)
    | lone p hp hc ha =>
      obtain ⟨e, he, hpe⟩ := forall₂_mem_right hx.posts hp
      obtain ⟨c, hc⟩ := Option.ne_none_iff_exists'.mp hc
      obtain ⟨_, hn, _⟩ := hpe.cost_value hc
      rw [← hpe.amount] at hn
      exact absurd ha hn
    | cost p hp a c ha hc hbad hkeep =>
      obtain ⟨e, he, hpe⟩ := forall₂_mem_right hx.posts hp
      rw [hx.date, priceless_iff hpe hc] at hbad
      exact .cost e a he (by rw [← hpe.amount]; exact ha) (hpe.cost_value hc).1 hbad
        (fun B hB => hkeep B ((implied_iff hx _ _).mpr hB))
    | rate c1 c2 h p hp a ha hac hbad =>
      obtain ⟨e, he, hpe⟩ := forall₂_mem_right hx.posts hp
      refine .rate c1 c2 ((implied_iff hx _ _).mp h) e a he (by rw [← hpe.amount]; exact ha) hac ?_
      rw [hx.date] at hbad
      simpa using hbad
  · intro h
    cases h with
    | single h => exact .single (by rw [← hx.posts.length_eq]; exact h)
    | blanks l m r e f h he hf =>
      have hposts := hx.posts
      rw [h] at hposts
      obtain ⟨ps1, ps2, h1, h2, h3⟩ := forall₂_split hposts
      obtain ⟨ps3, ps4, h4, h5, h6⟩ := forall₂_split h1
      cases h2 with
      | @cons _ q _ pr hq _ =>
        cases h5 with
        | @cons _ p _ pm hp _ =>
          exact .blanks ps3 pm pr p q (by rw [h3, h6]) (hp.blank_iff.mpr he) (hq.blank_iff.mpr hf)
    | mixed e p q he hp hq hb hpa hqa hne =>
      obtain ⟨p0, hp0, k0⟩ := forall₂_mem_left hx.posts he
      obtain ⟨p1, hp1, k1⟩ := forall₂_mem_left hx.posts hp
      obtain ⟨p2, hp2, k2⟩ := forall₂_mem_left hx.posts hq
      obtain ⟨b1, f1, _, g1⟩ := k1.booked_value hpa
      obtain ⟨b2, f2, _, g2⟩ := k2.booked_value hqa
      exact .mixed p0 hp0 (k0.blank_iff.mpr hb) b1 b2 (List.mem_filterMap.mpr ⟨p1, hp1, f1⟩)
        (List.mem_filterMap.mpr ⟨p2, hp2, f2⟩) (by rw [g1, g2]; exact hne)
    | cost e a he ha hc hbad hkeep =>
      obtain ⟨p, hp, hpe⟩ := forall₂_mem_left hx.posts he
      obtain ⟨c, hpc⟩ := hpe.cost_some (by rw [ha]; simp) hc
      exact .cost p hp a c (by rw [hpe.amount]; exact ha) hpc (by rw [hx.date]; exact (priceless_iff hpe hpc _).mpr hbad)
        (fun B hB => hkeep B ((implied_iff hx _ _).mp hB))
    | rate A B h e a he ha hac hbad =>
      obtain ⟨p, hp, hpe⟩ := forall₂_mem_left hx.posts he
      exact .rate A B ((implied_iff hx _ _).mpr h) p hp a (by rw [hpe.amount]; exact ha) hac (by tauto)

/-! ### sizes -/

theorem size_nonneg (e : Entry) : 0 ≤ e.size := by
  unfold Entry.size
  split <;> positivity

theorem size_le_total {es : List Entry} {e : Entry} (h : e ∈ es) : e.size ≤ (es.map (·.size)).sum := by
  induction es with
  | nil => cases h
  | cons f es ih =>
    rw [List.map_cons, List.sum_cons]
    have h0 : 0 ≤ (es.map (·.size)).sum := List.sum_nonneg (by
      intro x hx
      obtain ⟨e, _, rfl⟩ := List.mem_map.mp hx
      exact size_nonneg e)
    rcases List.mem_cons.mp h with rfl | h
    · linarith
    · have := ih h; have := size_nonneg f; linarith

theorem Everyday.of_billion {w : Writing} (h1 : ∀ e ∈ w.entries, e.UpTo 9) (h2 : (w.entries.map (·.size)).sum ≤ 10 ^ 9)
    (h3 : w.entries.length ≤ 10 ^ 9) (h4 : ∀ e ∈ w.entries, ∀ pr, e.lot.price = some pr → |pr.qty.val| ≤ 10 ^ 15) : Everyday w :=
  ⟨⟨9, 9, Or.inl (by decide), h1, h2⟩, h3, h4⟩

theorem roomy_of {es : List Entry} (h1 : ∀ e ∈ es, e.UpTo 9) (h2 : (es.map (·.size)).sum ≤ 10 ^ 19) : Roomy es :=
  ⟨9, by decide, h1, by norm_num at h2 ⊢; linarith⟩

theorem Roomy.mono {es es' : List Entry} (h : Roomy es) (h1 : ∀ e ∈ es', e ∈ es)
    (h2 : (es'.map (·.size)).sum ≤ (es.map (·.size)).sum) : Roomy es' := by
  obtain ⟨D, hD, hd, hs⟩ := h
  exact ⟨D, hD, fun e he => hd e (h1 e he), le_trans (mul_le_mul_of_nonneg_right h2 (by positivity)) hs⟩

theorem Everyday.fits {w : Writing} (h : Everyday w) : ∀ e ∈ w.entries, e.Fits := by
  intro e he a k ha hk
  have hw : e.worth = k.qty.val * a.qty.val := by unfold Entry.worth; rw [ha, hk]
  have hd : e.worthDecimals = k.qty.scale + a.qty.scale := by unfold Entry.worthDecimals; rw [ha, hk]
  obtain ⟨D, T, hDT, hdec, htot⟩ := h.numbers
  have hDT : D + T ≤ 28 := by omega
  have hs : |e.worth| ≤ 10 ^ T := by
    have h1 := le_trans (size_le_total he) htot
    have h2 : e.size = |a.qty.val| + |e.worth| := by unfold Entry.size; rw [ha, hk]
    have := abs_nonneg a.qty.val
    linarith
  have h6 := (hdec e he).2
  rw [hd] at h6
  rw [hw] at hs
  refine representable_of_grid (S := k.qty.scale + a.qty.scale) (by omega) ?_ ?_
  · obtain ⟨z1, h1⟩ := onGrid_val k.qty k.qty.scale (Nat.le_refl _)
    obtain ⟨z2, h2⟩ := onGrid_val a.qty a.qty.scale (Nat.le_refl _)
    exact ⟨z1 * z2, by rw [h1, h2, pow_add]; push_cast; rw [div_mul_div_comm]⟩
  · calc |k.qty.val * a.qty.val| * 10 ^ (k.qty.scale + a.qty.scale) ≤ 10 ^ T * 10 ^ D :=
          mul_le_mul hs (ten_le h6) (by positivity) (by positivity)
      _ = 10 ^ (T + D) := (pow_add _ _ _).symm
      _ ≤ 10 ^ 28 := ten_le (by omega)
      _ < 2 ^ 96 := by norm_num

theorem postsOf_size {es : List Entry} {ps : List Post} (h : List.Forall₂ PostOf es ps) :
    mass (writtenAmounts ps) + mass (writtenCosts ps) = (es.map (·.size)).sum := by
  induction h with
  | nil => simp [writtenAmounts, writtenCosts, mass]
  | @cons e p es ps hp _ ih =>
    rw [List.map_cons, List.sum_cons, ← ih]
    unfold writtenAmounts writtenCosts
    cases ha : e.amount with
    | none =>
      have hpc : p.cost = none := by
        rcases hp.cost with ⟨_, h⟩ | ⟨a, h, _⟩
        · exact h
        · rw [ha] at h; cases h
      rw [List.filterMap_cons_none (by rw [hp.amount, ha]), List.filterMap_cons_none hpc]
      have : e.size = 0 := by unfold Entry.size; rw [ha]
      rw [this, zero_add]
    | some a =>
      rw [List.filterMap_cons_some (by rw [hp.amount, ha]), mass_cons]
      cases hc : e.cost with
      | none =>
        have hpc : p.cost = none := by
          cases hpc : p.cost with
          | none => rfl
          | some c => exact absurd hc (hp.cost_value hpc).1
        rw [List.filterMap_cons_none hpc]
        have : e.size = |a.qty.val| := by unfold Entry.size; rw [ha, hc]
        rw [this]; ring
      | some k =>
        obtain ⟨c, hpc⟩ := hp.cost_some (by rw [ha]; simp) (by rw [hc]; simp)
        rw [List.filterMap_cons_some hpc, mass_cons, (hp.cost_value hpc).2.2.1]
        have : e.size = |a.qty.val| + |e.worth| := by unfold Entry.size; rw [ha, hc]
        rw [this]; ring

theorem Everyday.ordinary {w : Writing} (h : Everyday w) {x : Xact} (hx : XactOf w x)
    (hv : ∀ e ∈ w.entries, e.ValidNumbers) : Ordinary x.posts := by
  obtain ⟨D, T, hDT, hdec, htot⟩ := h.numbers
  have hcl : w.Costless → Costless x.posts := by
    rintro ⟨h1, h2⟩
    refine ⟨fun p hp => ?_, fun A B hi => h2 A B ((implied_iff hx A B).mp hi)⟩
    obtain ⟨e, he, hpe⟩ := forall₂_mem_right hx.posts hp
    cases hc : p.cost with
    | none => rfl
    | some c => exact absurd (h1 e he) (hpe.cost_value hc).1
  refine ⟨⟨D, T, hDT.imp_right fun h => ⟨h.1, hcl h.2⟩, ?_, ?_⟩, by rw [← hx.posts.length_eq]; exact h.count⟩
  · intro a ha
    rcases List.mem_append.mp ha with ha | ha
    · obtain ⟨p, hp, hpa⟩ := List.mem_filterMap.mp ha
      obtain ⟨e, he, hpe⟩ := forall₂_mem_right hx.posts hp
      have hea : e.amount = some a := by rw [← hpe.amount]; exact hpa
      exact ⟨(hv e he).1 a hea, (hdec e he).1 a hea⟩
    · obtain ⟨p, hp, hpc⟩ := List.mem_filterMap.mp ha
      obtain ⟨e, he, hpe⟩ := forall₂_mem_right hx.posts hp
      obtain ⟨_, hn, _⟩ := hpe.cost_value hpc
      obtain ⟨b, b1, _, _, b4, b5⟩ := hpe.booked (hv e he) hn
      have : b = a := by
        unfold Post.booked at b1
        have hpc : p.cost = some a := hpc
        rw [hpc] at b1; injection b1 with b1; exact b1.symm
      subst this
      exact ⟨b4, Nat.le_trans b5 (hdec e he).2⟩
  · rw [mass_append, postsOf_size hx.posts]; exact htot

theorem postsOf_knows {es : List Entry} {ps : List Post} (h : List.Forall₂ PostOf es ps) {pool : Pool}
    (hk : ∀ e ∈ es, ∀ s, e.Mentions s → (pool.find s).isSome) : pool.Knows ps := by
  intro a ha s hs
  rcases List.mem_append.mp ha with ha | ha
  · obtain ⟨p, hp, hpa⟩ := List.mem_filterMap.mp ha
    obtain ⟨e, he, hpe⟩ := forall₂_mem_right h hp
    have hea : e.amount = some a := by rw [← hpe.amount]; exact hpa
    exact hk e he s (Or.inl (Entry.holder_of (by unfold Entry.commodity; rw [hea]; exact hs)))
  · obtain ⟨p, hp, hpc⟩ := List.mem_filterMap.mp ha
    obtain ⟨e, he, hpe⟩ := forall₂_mem_right h hp
    obtain ⟨_, _, _, c4⟩ := hpe.cost_value hpc
    exact hk e he s (worthIn_mentions (by rw [← c4]; exact hs))

/-! ### what is stored -/

theorem inverse_val (a : Amount) : a.inverse.qty.val = - |a.qty.val| ∧ a.inverse.comm = a.comm := by
  refine ⟨?_, by unfold Amount.inverse; simp only⟩
  unfold Amount.inverse
  simp only
  rw [Dec.abs_val]
  split
  · rw [Dec.val_eq]
    simp only [Dec.setSignNegative, Dec.sgn]
    simp; ring
  · rename_i h
    rw [Dec.val_eq]
    have : a.qty.neg = true := by simpa [Dec.isSignPositive] using h
    rw [this]; simp [Dec.sgn]; ring

theorem costed_entries {A B : Option Str} {u : Amount} {es : List Entry} {ps ps' : List Post}
    (h : List.Forall₂ PostOf es ps) (h2 : List.Forall₂ (CostAssigned A u) ps ps')
    (hm : ∀ e ∈ es, ∀ a c, e.amount = some a → a.comm = A → u.mul a = .ok c →
      c.comm = B ∧ PreciseTo c.qty (u.qty.val * a.qty.val)) :
    ∃ es', List.Forall₂ (CostedEntry A B u.qty.val) es es' ∧ List.Forall₂ PostOf es' ps' := by
  induction h generalizing ps' with
  | nil => cases h2; exact ⟨[], .nil, .nil⟩
  | @cons e p es ps hp _ ih =>
    cases h2 with
    | @cons _ p' _ ps' h3 h4 =>
      obtain ⟨es', i1, i2⟩ := ih h4 (fun e he => hm e (List.mem_cons_of_mem _ he))
      obtain ⟨a, ha, hcase⟩ := h3
      have hea : e.amount = some a := by rw [← hp.amount, ha]
      have hec : e.commodity = a.comm := by unfold Entry.commodity; rw [hea]; rfl
      rcases hcase with ⟨hac, c, hcm, rfl⟩ | ⟨hac, rfl⟩
      · obtain ⟨m1, m2⟩ := hm e List.mem_cons_self a c hea hac hcm
        refine ⟨{ e with cost := some (false, c) } :: es', .cons (Or.inl ⟨hec.trans hac, a, c, hea, m1, m2, rfl⟩) i1,
          .cons ⟨hp.account, hp.amount, Or.inr ⟨a, hea, rfl⟩, hp.note⟩ i2⟩
      · exact ⟨e :: es', .cons (Or.inr ⟨by rw [hec]; exact hac, rfl⟩) i1, .cons hp i2⟩

theorem inverse_scale (a : Amount) : a.inverse.qty.scale = a.qty.scale ∧ (a.qty.Valid → a.inverse.qty.Valid) := by
  unfold Amount.inverse
  simp only
  split
  · exact ⟨rfl, fun h => h⟩
  · exact ⟨rfl, fun h => h⟩

theorem addAll_decimals {as : List Amount} {b : Balance} (hr : InRange as) (h : Balance.empty.addAll as = .ok b) {a : Amount}
    (ha : a ∈ b.amounts) : a.qty.Valid ∧ ∀ S, (∀ x ∈ as, x.qty.scale ≤ S) → a.qty.scale ≤ S := by
  obtain ⟨S0, h1, h2, h3⟩ := hr
  have key : ∀ S ≤ S0, (∀ x ∈ as, x.qty.scale ≤ S) → a.qty.Valid ∧ a.qty.scale ≤ S := by
    intro S hS hx
    obtain ⟨b', g1, g2, _⟩ := addAll_grid (Nat.le_trans hS h1) as Balance.empty (by intro x hx; cases hx)
      (fun x hx' => ⟨(h2 x hx').1, hx x hx'⟩) (by
        have e : mass Balance.empty.amounts = 0 := rfl
        rw [e, zero_add]
        refine lt_of_le_of_lt ?_ h3
        exact mul_le_mul_of_nonneg_left (pow_le_pow_right₀ (by norm_num) hS) (mass_nonneg as))
    rw [h] at g1
    injection g1 with g1
    subst g1
    exact g2 a ha
  refine ⟨(key S0 (le_refl _) (fun x hx => (h2 x hx).2)).1, fun S hS => ?_⟩
  rcases Nat.le_total S S0 with h | h
  · exact (key S h hS).2
  · exact Nat.le_trans (key S0 (le_refl _) (fun x hx => (h2 x hx).2)).2 h

theorem PostOf.figure {e : Entry} {p : Post} (h : PostOf e p) (hf : ∀ f, e.figure = some f → f.qty.Valid) :
    p.booked = e.figure := by
  obtain ⟨acct, am, lot, cost, cmts, strays⟩ := e
  have h1 : p.amount = am := h.amount
  rcases h.cost with ⟨h2, h3⟩ | ⟨a, h2, h3⟩
  · have h2 : am = none := h2
    subst h2
    unfold Post.booked Entry.figure
    rw [h3, h1]
  · have h2 : am = some a := h2
    subst h2
    cases cost with
    | none =>
      have h3 : p.cost = none := h3
      unfold Post.booked Entry.figure
      rw [h3, h1]
    | some c =>
      obtain ⟨u, k⟩ := c
      cases u with
      | false =>
        have h3 : p.cost = some k := h3
        unfold Post.booked Entry.figure
        rw [h3]
      | true =>
        obtain ⟨r, h3, _, h5, _, _, h8⟩ := h3
        have h9 := h8 (hf _ rfl)
        unfold Post.booked Entry.figure
        rw [h3]
        obtain ⟨rq, rc⟩ := r
        simp only at h5 h9 ⊢
        rw [h5, h9]

theorem postsOf_figures {es : List Entry} {ps : List Post} (h : List.Forall₂ PostOf es ps)
    (hf : ∀ e ∈ es, ∀ f, e.figure = some f → f.qty.Valid) : bookedAmounts ps = es.filterMap (·.figure) := by
  unfold bookedAmounts
  induction h with
  | nil => rfl
  | @cons e p es ps hp _ ih =>
    rw [List.filterMap_cons, List.filterMap_cons, hp.figure (hf e List.mem_cons_self),
      ih (fun e he => hf e (List.mem_cons_of_mem _ he))]

theorem finalize_settles {w : Writing} {x x' : Xact} {pool pool' : Pool} (hx : XactOf w x)
    (hv : ∀ e ∈ w.entries, e.ValidNumbers) (hc : ∀ e ∈ w.entries, e.amount = none → e.cost = none) (hr : InRange (bookedAmounts x.posts)) (hnf : ¬ Faulty w)
    (hf : finalize x pool = .ok (x', pool')) : ∃ w', Settles w w' ∧ XactOf w' x' := by
  by_cases hb : ∃ p ∈ x.posts, p.Blank
  · obtain ⟨l, p, r, a, h1, h2, h3, h4, h5, _⟩ := finalize_blank _ _ _ _ hf hb
    have hposts := hx.posts
    rw [h1] at hposts
    obtain ⟨el, er0, f1, f2, f3⟩ := forall₂_split_right hposts
    cases f2 with
    | @cons e _ er _ hpe hr2 =>
      have hlr : List.Forall₂ PostOf (el ++ er) (l ++ r) := List.rel_append f1 hr2
      have hbk : bookedAmounts x.posts = bookedAmounts (l ++ r) := by
        rw [h1]
        unfold bookedAmounts
        rw [List.filterMap_append, List.filterMap_cons_none h2, List.filterMap_append]
      rw [hbk] at hr
      obtain ⟨_, _, t3, t4⟩ := twoEntries _ _ hr h4
      have hna : ∀ q ∈ el ++ er, q.amount ≠ none := by
        intro q hq hn
        obtain ⟨q', hq', hqe⟩ := forall₂_mem_left hlr hq
        exact h3 q' hq' (hqe.blank_iff.mpr hn)
      have hea : e.amount = none := hpe.blank_iff.mp h2
      obtain ⟨i1, i2⟩ := inverse_val a
      subst h5
      obtain ⟨d1, d2⟩ := addAll_decimals hr h4 (List.mem_cons_self (a := a) (l := []))
      refine ⟨_, .filled el er e a.inverse f3 hea ?_ ?_ ⟨(inverse_scale a).2 d1, ?_⟩ ?_, hx.date, hx.aux, hx.payee, hx.note,
        List.rel_append f1 (.cons ⟨hpe.account, rfl, Or.inr ⟨_, rfl, ?_⟩, hpe.note⟩ hr2)⟩
      · intro q hq
        refine ⟨hna q hq, ?_⟩
        obtain ⟨q', hq', hqe⟩ := forall₂_mem_left hlr hq
        obtain ⟨b, b1, _, b3⟩ := hqe.booked_value (hna q hq)
        have := (t3 b.comm).mpr (List.mem_map_of_mem (List.mem_filterMap.mpr ⟨q', hq', b1⟩))
        rw [List.map_singleton, List.mem_singleton] at this
        rw [← b3, this, i2]
      · rw [i1, i2, t4 a List.mem_cons_self, postsOf_sum hlr hna]
      · intro S hS
        rw [(inverse_scale a).1]
        refine d2 S fun y hy => ?_
        obtain ⟨p', hp', hy'⟩ := List.mem_filterMap.mp hy
        obtain ⟨q, hq, hqe⟩ := forall₂_mem_right hlr hp'
        obtain ⟨b, b1, _, _, _, b5⟩ := hqe.booked (hv q (by
          rw [f3]
          rcases List.mem_append.mp hq with h | h <;> simp [h])) (hna q hq)
        rw [hy'] at b1
        injection b1 with b1
        subst b1
        exact Nat.le_trans b5 (hS q hq)
      · intro hfig
        have ht := addAll_tally hr
        rw [h4, postsOf_figures hlr hfig] at ht
        injection ht with ht
        unfold fillOf
        rw [← (Balance.mk.injEq _ _).mp ht]
        unfold Amount.inverse Dec.isSignPositive Dec.setSignNegative
        obtain ⟨⟨n, m, sc⟩, cm⟩ := a
        cases n <;> rfl
      · rw [hc e (by rw [f3]; simp) hea]
        unfold CostOf
        exact (blank_fields h2).1
  · simp only [not_exists, not_and] at hb
    obtain ⟨b, b1, g1, _, g3, g4, g5⟩ := finalize_full _ _ _ _ hf hb
    have hna : ∀ e ∈ w.entries, e.amount ≠ none := by
      intro e he hn
      obtain ⟨p, hp, hpe⟩ := forall₂_mem_left hx.posts he
      exact hb p hp (hpe.blank_iff.mpr hn)
    by_cases hsome : ∃ A B, ImpliedBy w A B
    · obtain ⟨A, B, h⟩ := hsome
      obtain ⟨xx, y, _, _, k1, k2, k3, k4, k5⟩ := impliedCosts_implied _ _ hr g1 A B ((implied_iff hx _ _).mpr h)
      rw [k5] at g3
      rw [postsOf_sum hx.posts hna] at k3 k4
      cases hd : y.div xx with
      | error e => rw [hd] at g3; simp [bind, Except.bind] at g3
      | ok u =>
        rw [hd] at g3
        simp only [bind, Except.bind] at g3
        have hu := ((C06_sound y xx u).2 hd).1
        rw [k3, k4] at hu
        obtain ⟨es', m1, m2⟩ := costed_entries (B := B) hx.posts (assignCosts_ok _ _ _ _ _ _ g3) (by
          intro e he a c ha hac hcm
          refine ⟨?_, ((C06_sound u.abs a c).1 hcm).1⟩
          have hB : B ≠ none := fun hB => hnf (.rate A B h e a he ha hac (Or.inr hB))
          rw [impliedCost_comm hd hcm (hac.trans k1.symm), k2, if_neg hB])
        rw [(C04_abs u).1] at m1
        refine ⟨_, .rated A B u.qty es' h hu m1, ?_⟩
        rw [g4]
        exact ⟨hx.date, hx.aux, hx.payee, hx.note, m2⟩
    · have h := (impliedCosts_else _ _ hr hb g1).resolve_right (by
        rintro ⟨A, B, h⟩
        exact hsome ⟨A, B, (implied_iff hx _ _).mp h⟩)
      rw [g3] at h
      simp only [Except.ok.injEq, Prod.mk.injEq] at h
      refine ⟨w, .kept hna (fun A B h => hsome ⟨A, B, h⟩), ?_⟩
      rw [g4, h.1]
      exact hx

end Ledger
