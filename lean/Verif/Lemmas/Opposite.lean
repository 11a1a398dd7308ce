import Verif.Spec.Opposite
import Verif.Lemmas.Money
/-
Turning all signs around turns around all sums.
-/
namespace Ledger
open Ledger.Parser Ledger.Finalize Ledger.Cli

/-! ### quantities -/

theorem Dec.Opposite.symm {a b : Dec} (h : a.Opposite b) : b.Opposite a := by
  obtain ⟨h1, h2, h3⟩ := h
  refine ⟨h1.symm, h2.symm, ?_⟩
  rcases h3 with h3 | h3
  · exact .inl (h1 ▸ h3)
  · exact .inr (by rw [h3]; simp)

theorem Dec.Opposite.zero {a b : Dec} (h : a.Opposite b) : b.isZero = a.isZero := by
  unfold Dec.isZero; rw [h.1]

theorem Dec.Opposite.neg {a b : Dec} (h : a.Opposite b) (hz : a.isZero = false) : b.neg = !a.neg := by
  rcases h.2.2 with h | h
  · simp [Dec.isZero, h] at hz
  · exact h

theorem Dec.turned_opposite (a : Dec) : a.Opposite ⟨!a.neg, a.mant, a.scale⟩ := ⟨rfl, rfl, .inr rfl⟩

theorem fitGo_opposite (n : Bool) (m s f k : Nat) : Alongside Dec.Opposite (Dec.fitGo n m s f k) (Dec.fitGo (!n) m s f k) := by
  induction f generalizing k with
  | zero => exact .error _
  | succ f ih =>
    simp only [Dec.fitGo]
    split
    · exact .ok ⟨rfl, rfl, .inr rfl⟩
    · exact ih _

theorem roundDiv_zero (d : Nat) : Dec.roundDiv 0 d = 0 := by
  simp [Dec.roundDiv]

theorem fitGo_nothing (n n' : Bool) (s f k : Nat) : Alongside Dec.Opposite (Dec.fitGo n 0 s f k) (Dec.fitGo n' 0 s f k) := by
  cases f with
  | zero => exact .error _
  | succ f =>
    simp only [Dec.fitGo, roundDiv_zero]
    exact .ok ⟨rfl, rfl, .inl rfl⟩

theorem Dec.add_opposite {a a' b b' : Dec} (ha : a.Opposite a') (hb : b.Opposite b') :
    Alongside Dec.Opposite (a.add b) (a'.add b') := by
  unfold Dec.add
  rw [ha.zero, hb.zero]
  cases za : a.isZero with
  | true => exact .ok hb
  | false =>
    cases zb : b.isZero with
    | true => exact .ok ha
    | false =>
      simp only [Bool.false_eq_true, if_false]
      rw [ha.1, ha.2.1, hb.1, hb.2.1, ha.neg za, hb.neg zb]
      have hn : ((!a.neg) = !b.neg) ↔ (a.neg = b.neg) := by cases a.neg <;> cases b.neg <;> decide
      simp only [hn]
      split
      · exact fitGo_opposite _ _ _ _ _
      · split
        · exact fitGo_opposite _ _ _ _ _
        · split
          · exact fitGo_nothing _ _ _ _ _
          · exact fitGo_opposite _ _ _ _ _

theorem Dec.sub_opposite {a a' b b' : Dec} (ha : a.Opposite a') (hb : b.Opposite b') :
    Alongside Dec.Opposite (a.sub b) (a'.sub b') := by
  unfold Dec.sub
  rw [ha.zero, hb.zero]
  split
  · split
    · exact .ok hb
    · exact .ok ha
  · refine Dec.add_opposite ha ⟨hb.1, hb.2.1, ?_⟩
    rcases hb.2.2 with h | h
    · exact .inl h
    · exact .inr (by simp [h])

theorem Dec.mul_opposite (k : Dec) {a a' : Dec} (ha : a.Opposite a') : Alongside Dec.Opposite (k.mul a) (k.mul a') := by
  unfold Dec.mul
  rw [ha.zero]
  cases za : a.isZero with
  | true => simp only [Bool.or_true, if_true]; exact .ok ⟨rfl, rfl, .inl rfl⟩
  | false =>
    cases zk : k.isZero with
    | true => simp only [Bool.true_or, if_true]; exact .ok ⟨rfl, rfl, .inl rfl⟩
    | false =>
      simp only [Bool.or_self, Bool.false_eq_true, if_false]
      rw [ha.1, ha.2.1, ha.neg za]
      have : (k.neg != !a.neg) = !(k.neg != a.neg) := by cases k.neg <;> cases a.neg <;> rfl
      rw [this]
      exact fitGo_opposite _ _ _ _ _

/-- Opposite operands give the same quotient. -/
theorem Dec.div_opposite {a a' b b' : Dec} (ha : a.Opposite a') (hb : b.Opposite b') : a'.div b' = a.div b := by
  unfold Dec.div
  rw [ha.zero, hb.zero]
  cases zb : b.isZero with
  | true => simp only [if_true]
  | false =>
    cases za : a.isZero with
    | true => simp only [if_true]
    | false =>
      simp only [Bool.false_eq_true, if_false]
      rw [ha.1, ha.2.1, hb.1, hb.2.1, ha.neg za, hb.neg zb]
      have : ((!a.neg) != !b.neg) = (a.neg != b.neg) := by cases a.neg <;> cases b.neg <;> rfl
      rw [this]

/-! ### amounts -/

theorem Amount.Opposite.symm {a b : Amount} (h : a.Opposite b) : b.Opposite a := ⟨h.1.symm, h.2.symm⟩

theorem Amount.turned_opposite (a : Amount) : a.Opposite a.turned := ⟨⟨rfl, rfl, .inr rfl⟩, rfl⟩

theorem Amount.Opposite.zero {a b : Amount} (h : a.Opposite b) : b.isZero = a.isZero := h.1.zero

theorem Amount.Opposite.abs {a b : Amount} (h : a.Opposite b) : b.abs = a.abs := by
  obtain ⟨⟨n, m, s⟩, c⟩ := a
  obtain ⟨⟨n', m', s'⟩, c'⟩ := b
  obtain ⟨⟨h1, h2, _⟩, h3⟩ := h
  simp only at h1 h2 h3
  subst h1; subst h2; subst h3
  rfl

theorem Amount.add_opposite {a a' b b' : Amount} (ha : a.Opposite a') (hb : b.Opposite b') :
    Alongside Amount.Opposite (a.add b) (a'.add b') := by
  unfold Amount.add
  rw [ha.2, hb.2, hb.1.zero]
  split
  · exact .error _
  · split
    · exact .ok ha
    · exact (Dec.add_opposite ha.1 hb.1).bind fun q q' hq => .ok ⟨hq, rfl⟩

theorem Amount.subAssign_opposite {a a' b b' : Amount} (ha : a.Opposite a') (hb : b.Opposite b') :
    Alongside (fun x x' => x.Opposite x' ∧ x.comm = a.comm) (a.subAssign b) (a'.subAssign b') := by
  unfold Amount.subAssign
  rw [ha.2, hb.2]
  split
  · exact .error _
  · exact (Dec.sub_opposite ha.1 hb.1).bind fun q q' hq => .ok ⟨⟨hq, rfl⟩, rfl⟩

theorem Amount.mul_opposite (k : Amount) {a a' : Amount} (ha : a.Opposite a') :
    Alongside Amount.Opposite (k.mul a) (k.mul a') := by
  unfold Amount.mul
  rw [ha.2]
  exact (Dec.mul_opposite k.qty ha.1).bind fun q q' hq => .ok ⟨hq, rfl⟩

theorem Amount.mulAssign_opposite (k : Amount) {a a' : Amount} (ha : a.Opposite a') :
    Alongside Amount.Opposite (k.mulAssign a) (k.mulAssign a') := by
  unfold Amount.mulAssign
  rw [ha.2]
  exact (Dec.mul_opposite k.qty ha.1).bind fun q q' hq => .ok ⟨hq, rfl⟩

theorem Amount.div_opposite {a a' b b' : Amount} (ha : a.Opposite a') (hb : b.Opposite b') : a'.div b' = a.div b := by
  unfold Amount.div
  rw [Dec.div_opposite ha.1 hb.1, ha.2, hb.2]

/-! ### balances -/

/-- The same commodities in the same order with opposite quantities. -/
def Balance.Opposite (b b' : Balance) : Prop := List.Forall₂ Amount.Opposite b.amounts b'.amounts

theorem addGo_opposite {l l' : List Amount} (h : List.Forall₂ Amount.Opposite l l') {a a' : Amount} (ha : a.Opposite a') :
    Alongside (fun m m' => List.Forall₂ Amount.Opposite m m' ∧ ∀ x ∈ l, ∃ y ∈ m, y.comm = x.comm) (Balance.addGo l a)
      (Balance.addGo l' a') := by
  induction h with
  | nil => exact .ok ⟨.cons ha .nil, by simp⟩
  | @cons x x' l l' hx hl ih =>
    simp only [Balance.addGo]
    rw [hx.2, ha.2]
    split
    · rename_i hc
      cases hr : x.add a with
      | error k =>
        have := Amount.add_opposite hx ha
        rw [hr] at this
        cases hr' : x'.add a' with
        | error k' => rw [hr'] at this; cases this; exact .error _
        | ok _ => rw [hr'] at this; cases this
      | ok y =>
        have := Amount.add_opposite hx ha
        rw [hr] at this
        cases hr' : x'.add a' with
        | error k' => rw [hr'] at this; cases this
        | ok y' =>
          rw [hr'] at this
          cases this with
          | ok hy =>
            refine .ok ⟨.cons hy hl, ?_⟩
            have hyc : y.comm = x.comm := by
              unfold Amount.add at hr
              split at hr
              · cases hr
              · split at hr
                · injection hr with hr; rw [hr]
                · cases hq : x.qty.add a.qty with
                  | error _ => rw [hq] at hr; cases hr
                  | ok q => rw [hq] at hr; injection hr with hr; rw [← hr]
            intro z hz
            rcases List.mem_cons.mp hz with rfl | hz
            · exact ⟨y, List.mem_cons_self, hyc⟩
            · exact ⟨z, List.mem_cons_of_mem _ hz, rfl⟩
    · refine ih.bind fun m m' hm => .ok ⟨.cons hx hm.1, ?_⟩
      intro z hz
      rcases List.mem_cons.mp hz with rfl | hz
      · exact ⟨z, List.mem_cons_self, rfl⟩
      · obtain ⟨y, hy, hc⟩ := hm.2 z hz
        exact ⟨y, List.mem_cons_of_mem _ hy, hc⟩

theorem Balance.add_opposite {b b' : Balance} (h : b.Opposite b') {a a' : Amount} (ha : a.Opposite a') :
    Alongside (fun m m' => m.Opposite m' ∧ ∀ x ∈ b.amounts, ∃ y ∈ m.amounts, y.comm = x.comm) (b.add a) (b'.add a') :=
  (addGo_opposite h ha).bind fun _ _ hm => .ok hm

theorem subGo_opposite {l l' : List Amount} (h : List.Forall₂ Amount.Opposite l l') {a a' : Amount} (ha : a.Opposite a')
    (hc : ∃ x ∈ l, x.comm = a.comm) :
    Alongside (fun m m' => List.Forall₂ Amount.Opposite m m' ∧ ∀ x ∈ l, ∃ y ∈ m, y.comm = x.comm) (Balance.subGo l a)
      (Balance.subGo l' a') := by
  induction h with
  | nil => obtain ⟨x, hx, _⟩ := hc; cases hx
  | @cons x x' l l' hx hl ih =>
    simp only [Balance.subGo]
    rw [hx.2, ha.2]
    split
    · refine (Amount.subAssign_opposite hx ha).bind fun y y' hy => .ok ⟨.cons hy.1 hl, ?_⟩
      intro z hz
      rcases List.mem_cons.mp hz with rfl | hz
      · exact ⟨y, List.mem_cons_self, hy.2⟩
      · exact ⟨z, List.mem_cons_of_mem _ hz, rfl⟩
    · rename_i hne
      have hc' : ∃ z ∈ l, z.comm = a.comm := by
        obtain ⟨z, hz, hzc⟩ := hc
        rcases List.mem_cons.mp hz with rfl | hz
        · exact absurd hzc hne
        · exact ⟨z, hz, hzc⟩
      refine (ih hc').bind fun m m' hm => .ok ⟨.cons hx hm.1, ?_⟩
      intro z hz
      rcases List.mem_cons.mp hz with rfl | hz
      · exact ⟨z, List.mem_cons_self, rfl⟩
      · obtain ⟨y, hy, hc⟩ := hm.2 z hz
        exact ⟨y, List.mem_cons_of_mem _ hy, hc⟩

theorem Balance.subAssign_opposite {b b' : Balance} (h : b.Opposite b') {a a' : Amount} (ha : a.Opposite a')
    (hc : ∃ x ∈ b.amounts, x.comm = a.comm) :
    Alongside (fun m m' => m.Opposite m' ∧ ∀ x ∈ b.amounts, ∃ y ∈ m.amounts, y.comm = x.comm) (b.subAssign a)
      (b'.subAssign a') := (subGo_opposite h ha hc).bind fun _ _ hm => .ok hm

theorem Balance.addAll_opposite {l l' : List Amount} (hl : List.Forall₂ Amount.Opposite l l') {b b' : Balance} (h : b.Opposite b') :
    Alongside Balance.Opposite (b.addAll l) (b'.addAll l') := by
  induction hl generalizing b b' with
  | nil => exact .ok h
  | cons hx _ ih => exact (Balance.add_opposite h hx).bind fun m m' hm => ih hm.1

theorem Balance.addBalance_opposite {b b' c c' : Balance} (h : b.Opposite b') (hc : c.Opposite c') :
    Alongside Balance.Opposite (b.addBalance c) (b'.addBalance c') := Balance.addAll_opposite hc h

/-! ### completing a transaction -/

theorem sumPosts_opposite {ps ps' : List Post} (h : List.Forall₂ Post.Opposite ps ps') (i : Nat) {b b' : Balance}
    (hb : b.Opposite b') : Alongside (fun r r' => r.1.Opposite r'.1 ∧ r.2 = none ∧ r'.2 = none) (sumPosts ps i b none)
      (sumPosts ps' i b' none) := by
  induction h generalizing i b b' with
  | nil => exact .ok ⟨hb, rfl, rfl⟩
  | @cons p p' ps ps' hp _ ih =>
    obtain ⟨acc, am, co, no⟩ := p
    obtain ⟨acc', am', co', no'⟩ := p'
    obtain ⟨_, ⟨a, a', h1, h2, h3⟩, hc⟩ := hp
    simp only at h1 h2 hc
    subst h1; subst h2
    rcases hc with ⟨h4, h5⟩ | ⟨c, c', h4, h5, h6⟩
    · subst h4; subst h5
      exact (Balance.add_opposite hb h3).bind fun m m' hm => ih _ hm.1
    · subst h4; subst h5
      exact (Balance.add_opposite hb h6).bind fun m m' hm => ih _ hm.1

theorem assignCosts_opposite (c : Option Str) (u : Amount) {ps ps' : List Post} (h : List.Forall₂ Post.Opposite ps ps')
    {b b' : Balance} (hb : b.Opposite b') (hc : ∃ x ∈ b.amounts, x.comm = c) :
    Alongside (fun r r' => List.Forall₂ Post.Opposite r.1 r'.1) (assignCosts c u ps b) (assignCosts c u ps' b') := by
  induction h generalizing b b' with
  | nil => exact .ok .nil
  | @cons p p' ps ps' hp _ ih =>
    obtain ⟨acc, am, co, no⟩ := p
    obtain ⟨acc', am', co', no'⟩ := p'
    have hp' := hp
    obtain ⟨ha, ⟨a, a', h1, h2, h3⟩, _⟩ := hp
    simp only at h1 h2 ha
    subst h1; subst h2
    simp only [assignCosts]
    rw [h3.2]
    split
    · rename_i hac
      refine (Balance.subAssign_opposite hb h3 (by rw [hac]; exact hc)).bind fun b1 b1' h4 => ?_
      refine (Amount.mul_opposite u h3).bind fun k k' h5 => ?_
      refine (Balance.add_opposite h4.1 h5).bind fun b2 b2' h6 => ?_
      have hc2 : ∃ x ∈ b2.amounts, x.comm = c := by
        obtain ⟨x, hx, hxc⟩ := hc
        obtain ⟨y, hy, hyc⟩ := h4.2 x hx
        obtain ⟨z, hz, hzc⟩ := h6.2 y hy
        exact ⟨z, hz, by rw [hzc, hyc, hxc]⟩
      refine (ih h6.1 hc2).bind fun r r' h7 => ?_
      exact .ok (.cons ⟨ha, ⟨a, a', rfl, rfl, h3⟩, .inr ⟨k, k', rfl, rfl, h5⟩⟩ h7)
    · exact (ih hb hc).bind fun r r' h7 => .ok (.cons hp' h7)

theorem topPost_opposite {ps ps' : List Post} (h : List.Forall₂ Post.Opposite ps ps') :
    (topPost ps = none ∧ topPost ps' = none) ∨ ∃ p p', topPost ps = some p ∧ topPost ps' = some p' ∧ p.Opposite p' := by
  cases h with
  | nil => exact .inl ⟨rfl, rfl⟩
  | @cons p p' ps ps' hp _ =>
    have hp' := hp
    obtain ⟨_, ⟨a, a', h1, h2, _⟩, _⟩ := hp
    exact .inr ⟨p, p', by simp [topPost, h1], by simp [topPost, h2], hp'⟩

theorem impliedCosts_opposite {ps ps' : List Post} (h : List.Forall₂ Post.Opposite ps ps') {b b' : Balance}
    (hb : b.Opposite b') :
    Alongside (fun r r' => List.Forall₂ Post.Opposite r.1 r'.1) (impliedCosts ps b none) (impliedCosts ps' b' none) := by
  have hb' := hb
  obtain ⟨l⟩ := b
  obtain ⟨l'⟩ := b'
  simp only [Balance.Opposite] at hb
  rcases hb with _ | ⟨hx, _ | ⟨hy, _ | ⟨hz, hl⟩⟩⟩
  · exact .ok h
  · exact .ok h
  · rename_i x x' y y'
    simp only [impliedCosts]
    rcases topPost_opposite h with ⟨h1, h2⟩ | ⟨p, p', h1, h2, hp⟩
    · rw [h1, h2]; exact .ok h
    · rw [h1, h2]
      obtain ⟨_, ⟨a, a', h3, h4, h5⟩, _⟩ := hp
      simp only [h3, h4, hx.zero, hy.zero]
      split
      · have swap : ∀ {x x' y y' : Amount}, x.Opposite x' → y.Opposite y' → (∃ z ∈ (⟨[x, y]⟩ : Balance).amounts, z.comm = x.comm) := by
          intro x x' y y' _ _
          exact ⟨x, by simp, rfl⟩
        by_cases hne : x.comm ≠ a.comm
        · have hne' : x'.comm ≠ a'.comm := by rw [hx.2, h5.2]; exact hne
          simp only [hne, hne', if_true, ne_eq, not_false_eq_true]
          rw [Amount.div_opposite hx hy, hy.2]
          refine (Alongside.of_eq (rfl : x.div y = _)).bind ?_
          rintro u _ rfl
          exact assignCosts_opposite _ _ h hb' ⟨y, by simp, rfl⟩
        · have hne' : ¬ x'.comm ≠ a'.comm := by rw [hx.2, h5.2]; exact hne
          simp only [hne, hne', if_false]
          rw [Amount.div_opposite hy hx, hx.2]
          refine (Alongside.of_eq (rfl : y.div x = _)).bind ?_
          rintro u _ rfl
          exact assignCosts_opposite _ _ h hb' ⟨x, by simp, rfl⟩
      · exact .ok h
  · exact .ok h

theorem exchange_opposite (p : Pool) {a a' c c' : Amount} (ha : a.Opposite a') (hc : c.Opposite c') (t : DateTime) :
    Alongside (fun r r' => r.1.amount.Opposite r'.1.amount ∧ r.2 = r'.2) (p.exchange a c false t) (p.exchange a' c' false t) := by
  unfold Pool.exchange
  rw [ha.2, hc.2]
  cases hs : a.comm with
  | none => exact .error _
  | some s =>
    simp only
    refine (Alongside.of_eq (rfl : p.deref (some s) = _)).bind ?_
    rintro k _ rfl
    refine (Alongside.of_eq (rfl : p.getByIndex k.graphIndex = _)).bind ?_
    rintro s' _ rfl
    have hu : Pool.perUnitCost a c false = Pool.perUnitCost a' c' false := by
      unfold Pool.perUnitCost
      rw [ha.zero, hc.abs, Amount.div_opposite hc ha]
    refine (Alongside.of_eq hu).bind ?_
    rintro q _ rfl
    have hf : Alongside Amount.Opposite (Pool.finalCost a c false) (Pool.finalCost a' c' false) := .ok hc
    refine hf.bind fun f f' hf => ?_
    have hbs : Alongside (fun _ _ => True) (Pool.basisCost (assocGet s' p.annotated) a f)
        (Pool.basisCost (assocGet s' p.annotated) a' f') := by
      unfold Pool.basisCost
      cases assocGet s' p.annotated with
      | none => exact Alongside.ok (R := fun _ _ => True) trivial
      | some an =>
        obtain ⟨pr, d⟩ := an
        cases pr with
        | none => exact Alongside.ok (R := fun _ _ => True) trivial
        | some pr =>
          simp only
          have := Amount.mul_opposite pr ha
          generalize pr.mul a = m at this ⊢
          generalize pr.mul a' = m' at this ⊢
          cases this with
          | ok _ => exact Alongside.ok (R := fun _ _ => True) trivial
          | error _ => exact .error _
    refine hbs.bind fun b b' _ => ?_
    exact .ok ⟨ha, rfl⟩

theorem recordPrices_opposite (d : Option Date) {ps ps' : List Post} (h : List.Forall₂ Post.Opposite ps ps') (p : Pool) :
    Alongside (fun r r' => List.Forall₂ Post.Opposite r.1 r'.1 ∧ r.2 = r'.2) (recordPrices d ps p) (recordPrices d ps' p) := by
  induction h generalizing p with
  | nil => exact .ok ⟨.nil, rfl⟩
  | @cons x x' ps ps' hx _ ih =>
    obtain ⟨acc, am, co, no⟩ := x
    obtain ⟨acc', am', co', no'⟩ := x'
    have hx' := hx
    obtain ⟨hacc, ⟨a, a', h1, h2, h3⟩, hc⟩ := hx
    simp only at h1 h2 hc hacc
    subst h1; subst h2
    rcases hc with ⟨h4, h5⟩ | ⟨c, c', h4, h5, h6⟩
    · subst h4; subst h5
      exact (ih p).bind fun r r' hr => .ok ⟨.cons hx' hr.1, hr.2⟩
    · subst h4; subst h5
      simp only [recordPrices]
      rw [h3.2, h6.2]
      split
      · exact .error _
      · cases d with
        | none => exact .error _
        | some d =>
          refine (exchange_opposite p h3 h6 _).bind ?_
          rintro ⟨br, np⟩ ⟨br', np'⟩ ⟨g1, g2⟩
          simp only at g1 g2
          subst g2
          have step : ∀ q : Pool, Alongside (fun r r' : List Post × Pool => List.Forall₂ Post.Opposite r.1 r'.1 ∧ r.2 = r'.2)
              (recordPrices (some d) ps q >>= fun r => Except.ok (⟨acc, some br.amount, some c, no⟩ :: r.1, r.2))
              (recordPrices (some d) ps' q >>= fun r => Except.ok (⟨acc', some br'.amount, some c', no'⟩ :: r.1, r.2)) := by
            intro q
            exact (ih q).bind fun r r' hr =>
              .ok ⟨.cons ⟨hacc, ⟨_, _, rfl, rfl, g1⟩, .inr ⟨_, _, rfl, rfl, h6⟩⟩ hr.1, hr.2⟩
          cases np with
          | none => exact step p
          | some pr =>
            refine (Alongside.of_eq (rfl : p.addPriceStruct pr = _)).bind ?_
            rintro q _ rfl
            exact step q

theorem finalize_opposite {x x' : Xact} (h : x.Opposite x') (p : Pool) :
    Alongside (fun r r' => r.1.Opposite r'.1 ∧ r.2 = r'.2) (finalize x p) (finalize x' p) := by
  obtain ⟨hp, hd⟩ := h
  unfold finalize
  rw [hd, ← hp.length_eq]
  refine (sumPosts_opposite hp 0 (b := Balance.empty) (b' := Balance.empty) .nil).bind ?_
  rintro ⟨b, np⟩ ⟨b', np'⟩ ⟨h1, h2, h3⟩
  simp only at h1 h2 h3
  subst h2; subst h3
  simp only
  split
  · exact .error _
  · refine (impliedCosts_opposite hp h1).bind fun r r' h4 => ?_
    refine (recordPrices_opposite x.date h4 p).bind fun s s' h5 => ?_
    exact .ok ⟨⟨h5.1, rfl⟩, h5.2⟩

/-! ### booking -/

theorem forall2_get {α β : Type} {R : α → β → Prop} {l : List α} {l' : List β} (h : List.Forall₂ R l l') (i : Nat) :
    (l[i]? = none ∧ l'[i]? = none) ∨ ∃ x x', l[i]? = some x ∧ l'[i]? = some x' ∧ R x x' := by
  induction h generalizing i with
  | nil => exact .inl ⟨rfl, rfl⟩
  | @cons x x' l l' hx _ ih =>
    cases i with
    | zero => exact .inr ⟨x, x', rfl, rfl, hx⟩
    | succ i => simpa using ih i

theorem OppositeBooks.get {j j' : Journal} (h : OppositeBooks j j') (i : Nat) : (j.xacts[i]? = none ∧ j'.xacts[i]? = none) ∨
    ∃ x x', j.xacts[i]? = some x ∧ j'.xacts[i]? = some x' ∧ x.Opposite x' := by
  exact forall2_get h.xacts i

theorem forall2_modify {α β : Type} {R : α → β → Prop} {l : List α} {l' : List β} (h : List.Forall₂ R l l') (i : Nat)
    {g : α → α} {g' : β → β} (hg : ∀ x x', R x x' → R (g x) (g' x')) : List.Forall₂ R (l.modify i g) (l'.modify i g') := by
  induction h generalizing i with
  | nil => simp
  | cons hx hl ih =>
    cases i with
    | zero => exact .cons (hg _ _ hx) hl
    | succ i => exact .cons hx (ih i)

theorem forall2_set {α β : Type} {R : α → β → Prop} {l : List α} {l' : List β} (h : List.Forall₂ R l l') (i : Nat)
    {x : α} {x' : β} (hx : R x x') : List.Forall₂ R (l.set i x) (l'.set i x') := by
  induction h generalizing i with
  | nil => exact .nil
  | cons hy hl ih =>
    cases i with
    | zero => exact .cons hx hl
    | succ i => exact .cons hy (ih i)

theorem OppositeBooks.update {j j' : Journal} (h : OppositeBooks j j') (i : Nat) {g g' : Xact → Xact}
    (hg : ∀ x x', x.Opposite x' → (g x).Opposite (g' x')) : OppositeBooks (j.updateXact i g) (j'.updateXact i g') :=
  ⟨h.master, forall2_modify h.xacts i hg, h.pool⟩

theorem bookAmounts_opposite (e : Entry) (he : e.amount ≠ none) (p : Pool) :
    Alongside (fun r r' => r'.1 = r.1 ∧ ∃ a a', r.2.1 = some a ∧ r'.2.1 = some a' ∧ a.Opposite a' ∧
      ((r.2.2 = none ∧ r'.2.2 = none) ∨ ∃ c c', r.2.2 = some c ∧ r'.2.2 = some c' ∧ c.Opposite c'))
      (e.bookAmounts p) (e.turned.bookAmounts p) := by
  obtain ⟨acc, am, lot, co, cs, st⟩ := e
  cases am with
  | none => exact absurd rfl he
  | some a =>
    unfold Entry.bookAmounts
    simp only [Entry.turned, Option.map_some]
    cases co with
    | none => exact .ok ⟨rfl, a, a.turned, rfl, rfl, a.turned_opposite, .inl ⟨rfl, rfl⟩⟩
    | some k =>
      obtain ⟨u, k⟩ := k
      cases u with
      | false => exact .ok ⟨rfl, a, a.turned, rfl, rfl, a.turned_opposite, .inr ⟨k, k.turned, rfl, rfl, k.turned_opposite⟩⟩
      | true =>
        refine (Amount.mulAssign_opposite k a.turned_opposite).bind fun c c' hc => ?_
        exact .ok ⟨rfl, a, a.turned, rfl, rfl, a.turned_opposite, .inr ⟨c, c', rfl, rfl, hc⟩⟩

theorem book_opposite (e : Entry) (he : e.amount ≠ none) (i : Nat) {j j' : Journal} (h : OppositeBooks j j') :
    Alongside OppositeBooks (e.book i j) (e.turned.book i j') := by
  unfold Entry.book
  have hr : Alongside (fun r r' => OppositeBooks r.1 r'.1 ∧ r.2 = r'.2) (j.registerAccount e.account)
      (j'.registerAccount e.turned.account) := by
    unfold Journal.registerAccount
    have ea : e.turned.account = e.account := rfl
    rw [ea, h.master]
    split
    · exact .error _
    · refine (Alongside.of_eq (rfl : j.master.findOrCreate e.account true = _)).bind ?_
      rintro ⟨m, a⟩ _ rfl
      exact .ok ⟨⟨rfl, h.xacts, h.pool⟩, rfl⟩
  refine hr.bind ?_
  rintro ⟨j1, a⟩ ⟨j1', a'⟩ ⟨h1, h2⟩
  simp only at h1 h2
  subst h2
  cases a with
  | none => exact .error _
  | some path =>
    simp only [h1.pool]
    refine (bookAmounts_opposite e he j1.pool).bind ?_
    rintro ⟨p, am, co⟩ ⟨p', am', co'⟩ ⟨h3, a, a', h4, h5, h6, h7⟩
    simp only at h3 h4 h5 h7
    subst h3; subst h4; subst h5
    have hn : (match j1.xacts[i]? with | some x => x.posts.length | none => 0) =
        (match j1'.xacts[i]? with | some x => x.posts.length | none => 0) := by
      rcases h1.get i with ⟨g1, g2⟩ | ⟨y, y', g1, g2, g3⟩
      · rw [g1, g2]
      · rw [g1, g2]
        exact g3.1.length_eq
    have hs : OppositeBooks { j1 with pool := p' } { j1' with pool := p' } := ⟨h1.master, h1.xacts, rfl⟩
    have hu := hs.update i (g := fun x => { x with posts := x.posts ++ [Post.mk path (some a) co none] })
      (g' := fun x => { x with posts := x.posts ++ [Post.mk path (some a') co' none] })
      (fun x x' hx => ⟨List.rel_append hx.1 (.cons ⟨rfl, ⟨a, a', rfl, rfl, h6⟩, h7⟩ .nil), hx.2⟩)
    refine .ok ⟨?_, hu.xacts, hu.pool⟩
    simp only [hu.master]
    exact congrArg _ (congrArg (Prod.mk i) hn.symm)

theorem noteLast_opposite (n : Str) {ps ps' : List Post} (h : List.Forall₂ Post.Opposite ps ps') :
    List.Forall₂ Post.Opposite (Xact.noteLast n ps) (Xact.noteLast n ps') := by
  induction h with
  | nil => exact .nil
  | @cons p p' ps ps' hp hl ih =>
    cases hl with
    | nil => exact .cons ⟨hp.account, hp.amount, hp.cost⟩ .nil
    | cons hq hr => exact .cons hp ih

theorem addNote_opposite (n : Str) {x x' : Xact} (h : x.Opposite x') : (x.addNote n).Opposite (x'.addNote n) := by
  unfold Xact.addNote
  have e : x'.posts = [] ↔ x.posts = [] := by
    rw [← List.length_eq_zero_iff, ← List.length_eq_zero_iff, h.1.length_eq]
  simp only [e]
  split
  · exact ⟨h.1, h.2⟩
  · exact ⟨noteLast_opposite n h.1, h.2⟩

theorem OppositeBooks.notes {j j' : Journal} (h : OppositeBooks j j') (i : Nat) (ts : List Str) :
    OppositeBooks (bookNotes i ts j) (bookNotes i ts j') := by
  induction ts generalizing j j' with
  | nil => exact h
  | cons t ts ih =>
    rw [bookNotes, bookNotes]
    apply ih
    split
    · exact h
    · exact h.update i fun x x' hx => addNote_opposite t hx

theorem bookEntries_opposite (i : Nat) (es : List Entry) (he : ∀ e ∈ es, e.amount ≠ none) {j j' : Journal}
    (h : OppositeBooks j j') : Alongside OppositeBooks (bookEntries i es j) (bookEntries i (es.map Entry.turned) j') := by
  induction es generalizing j j' with
  | nil => exact .ok h
  | cons e es ih =>
    exact (book_opposite e (he e List.mem_cons_self) i h).bind fun k k' hk =>
      ih (fun x hx => he x (List.mem_cons_of_mem _ hx)) (hk.notes i _)

theorem enter_opposite {w : Writing} (hw : w.Full) {j j' : Journal} (h : OppositeBooks j j') :
    Alongside OppositeBooks (w.enter j) (w.turned.enter j') := by
  unfold Writing.enter
  simp only [Journal.addXact, ← h.xacts.length_eq]
  refine bookEntries_opposite _ _ hw (OppositeBooks.notes ?_ _ _)
  exact ⟨h.master, List.rel_append h.xacts (.cons ⟨.nil, rfl⟩ .nil), h.pool⟩

theorem finalizeXact_opposite (i : Nat) {j j' : Journal} (h : OppositeBooks j j') :
    Alongside OppositeBooks (Parser.finalizeXact i j) (Parser.finalizeXact i j') := by
  unfold Parser.finalizeXact
  rcases h.get i with ⟨g1, g2⟩ | ⟨y, y', g1, g2, g3⟩
  · rw [g1, g2]; exact .error _
  · rw [g1, g2]
    simp only [h.pool]
    refine (finalize_opposite g3 j.pool).bind fun r r' hr => ?_
    exact .ok ⟨h.master, forall2_set h.xacts i hr.1, hr.2.symm⟩

theorem bookWritings_opposite (ws : List Writing) (hw : ∀ w ∈ ws, w.Full) {j j' : Journal} (h : OppositeBooks j j') :
    Alongside OppositeBooks (bookWritings ws j).res (bookWritings (ws.map Writing.turned) j').res := by
  induction ws generalizing j j' with
  | nil => exact .ok h
  | cons w ws ih =>
    rw [List.map_cons, bookWritings, bookWritings, Trace.bind_res', Trace.bind_res']
    refine Alongside.bind (R := OppositeBooks) ?_ fun k k' hk => ih (fun x hx => hw x (List.mem_cons_of_mem _ hx)) hk
    unfold Writing.book
    rw [Trace.bind_res', Trace.bind_res', Trace.lift, Trace.lift]
    refine (enter_opposite (hw w List.mem_cons_self) h).bind ?_
    intro k k' hk
    rw [Trace.finalizeXact_res, Trace.finalizeXact_res, h.xacts.length_eq]
    exact finalizeXact_opposite _ hk

/-! ### the totals -/

theorem postAt_opposite {j j' : Journal} (h : OppositeBooks j j') (r : PostRef) :
    (j.postAt r = none ∧ j'.postAt r = none) ∨ ∃ p p', j.postAt r = some p ∧ j'.postAt r = some p' ∧ p.Opposite p' := by
  simp only [Journal.postAt]
  rcases h.get r.1 with ⟨g1, g2⟩ | ⟨y, y', g1, g2, g3⟩
  · rw [g1, g2]; exact .inl ⟨rfl, rfl⟩
  · rw [g1, g2]
    exact forall2_get g3.1 r.2

theorem amountGo_opposite {j j' : Journal} (h : OppositeBooks j j') (rs : List PostRef) {b b' : Balance} (hb : b.Opposite b') :
    Alongside Balance.Opposite (j.amountGo rs b) (j'.amountGo rs b') := by
  induction rs generalizing b b' with
  | nil => exact .ok hb
  | cons r rs ih =>
    have hp := postAt_opposite h r
    simp only [Journal.amountGo]
    rcases hp with ⟨g1, g2⟩ | ⟨p, p', g1, g2, ⟨_, ⟨a, a', h1, h2, h3⟩, _⟩⟩
    · rw [g1, g2]; exact .error _
    · rw [g1, g2]
      simp only [h1, h2]
      exact (Balance.add_opposite hb h3).bind fun m m' hm => ih hm.1

theorem totalGo_opposite {rs rs' : List (Str × Res Balance)}
    (h : List.Forall₂ (fun r r' => r'.1 = r.1 ∧ Alongside Balance.Opposite r.2 r'.2) rs rs') {b b' : Balance} (hb : b.Opposite b') :
    Alongside Balance.Opposite (Journal.totalGo rs b) (Journal.totalGo rs' b') := by
  induction h generalizing b b' with
  | nil => exact .ok hb
  | @cons r r' rs rs' hr _ ih =>
    obtain ⟨n, r⟩ := r
    obtain ⟨n', r'⟩ := r'
    exact hr.2.bind fun s s' hs => (Balance.addBalance_opposite hb hs).bind fun m m' hm => ih hm

theorem sortByKey_forall2 {α β : Type} {R : α → β → Prop} {l : List (Str × α)} {l' : List (Str × β)}
    (h : List.Forall₂ (fun r r' => r'.1 = r.1 ∧ R r.2 r'.2) l l') :
    List.Forall₂ (fun r r' => r'.1 = r.1 ∧ R r.2 r'.2) (sortByKey l) (sortByKey l') := by
  induction h with
  | nil => exact .nil
  | @cons x x' l l' hx _ ih =>
    simp only [sortByKey]
    generalize sortByKey l = m at ih ⊢
    generalize sortByKey l' = m' at ih ⊢
    induction ih with
    | nil => exact .cons hx .nil
    | @cons y y' m m' hy hm ih =>
      simp only [insertByKey]
      rw [hx.1, hy.1]
      split
      · exact .cons hx (.cons hy hm)
      · exact .cons hy ih

theorem accountTotal_opposite {j j' : Journal} (h : OppositeBooks j j') (a : Account) :
    Alongside Balance.Opposite (j.accountTotal a) (j'.accountTotal a) := by
  induction a using Account.ind with
  | h n ps cs ih =>
    rw [accountTotal_mk, accountTotal_mk]
    have hc : List.Forall₂ (fun r r' => r'.1 = r.1 ∧ Alongside Balance.Opposite r.2 r'.2)
        (cs.map (fun c => (c.name, j.accountTotal c))) (cs.map (fun c => (c.name, j'.accountTotal c))) := by
      rw [List.forall₂_map_left_iff, List.forall₂_map_right_iff, List.forall₂_same]
      exact fun c hc => ⟨rfl, ih c hc⟩
    refine (totalGo_opposite (sortByKey_forall2 hc) (b := Balance.empty) (b' := Balance.empty) .nil).bind fun b b' hb => ?_
    refine (amountGo_opposite h ps (b := Balance.empty) (b' := Balance.empty) .nil).bind fun o o' ho => ?_
    exact Balance.addBalance_opposite hb ho

end Ledger
