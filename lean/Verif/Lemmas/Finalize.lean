import Verif.Spec.Xact
import Verif.Model.Finalize
import Verif.Lemmas.Balance
import Verif.Lemmas.Pool
import Verif.Props.Quantity
/-
The phases of finalising a transaction.
-/
namespace Ledger
open Finalize

theorem sumPosts_cons (p : Post) (ps : List Post) (i : Nat) (b : Balance) (np : Option Nat) :
    sumPosts (p :: ps) i b np = (match p.booked with
      | some a => (do let b' ← b.add a; sumPosts ps (i + 1) b' np)
      | none => match np with
        | some _ => .error .secondNullPost
        | none => sumPosts ps (i + 1) b (some i)) := by
  cases np <;> rfl

theorem sumPosts_ok (ps : List Post) (i : Nat) (b b' : Balance) (np np' : Option Nat)
    (h : sumPosts ps i b np = .ok (b', np')) :
    b.addAll (bookedAmounts ps) = .ok b' ∧
    (∀ k, np = some k → (∀ p ∈ ps, ¬ p.Blank) ∧ np' = some k) ∧
    (np = none → ((∀ p ∈ ps, ¬ p.Blank) ∧ np' = none) ∨
      ∃ l p r, ps = l ++ p :: r ∧ p.Blank ∧ (∀ q ∈ l ++ r, ¬ q.Blank) ∧ np' = some (i + l.length)) := by
  induction ps generalizing i b np with
  | nil =>
    simp only [sumPosts, Except.ok.injEq, Prod.mk.injEq] at h
    obtain ⟨rfl, rfl⟩ := h
    exact ⟨rfl, fun k hk => ⟨by simp, hk⟩, fun hn => Or.inl ⟨by simp, hn⟩⟩
  | cons p ps ih =>
    rw [sumPosts_cons] at h
    cases hb : p.booked with
    | some a =>
      rw [hb] at h
      cases hx : b.add a with
      | error e => simp only [hx] at h; simp [bind, Except.bind] at h
      | ok b1 =>
        simp only [hx, bind, Except.bind] at h
        obtain ⟨h1, h2, h3⟩ := ih _ _ _ h
        have hnb : ¬ p.Blank := by unfold Post.Blank; rw [hb]; simp
        refine ⟨?_, ?_, ?_⟩
        · unfold bookedAmounts
          rw [List.filterMap_cons_some hb]
          rw [Balance.addAll, hx]
          simp only [bind, Except.bind]
          exact h1
        · intro k hk
          obtain ⟨g1, g2⟩ := h2 k hk
          exact ⟨by simpa using ⟨hnb, g1⟩, g2⟩
        · intro hn
          rcases h3 hn with ⟨g1, g2⟩ | ⟨l, q, r, rfl, g2, g3, g4⟩
          · exact Or.inl ⟨by simpa using ⟨hnb, g1⟩, g2⟩
          · refine Or.inr ⟨p :: l, q, r, rfl, g2, ?_, ?_⟩
            · intro z hz
              rw [List.cons_append, List.mem_cons] at hz
              rcases hz with rfl | hz
              · exact hnb
              · exact g3 z hz
            · rw [g4, List.length_cons]; congr 1; omega
    | none =>
      rw [hb] at h
      cases np with
      | some k => simp at h
      | none =>
        simp only at h
        obtain ⟨h1, h2, _⟩ := ih _ _ _ h
        obtain ⟨g1, g2⟩ := h2 i rfl
        refine ⟨?_, by simp, fun _ => Or.inr ⟨[], p, ps, rfl, hb, g1, by simpa using g2⟩⟩
        unfold bookedAmounts
        rw [List.filterMap_cons_none hb]
        exact h1

/-- Success of the first loop. -/
theorem sumPosts_some (ps : List Post) (i k : Nat) (b b' : Balance) (hb : b.addAll (bookedAmounts ps) = .ok b')
    (hn : ∀ p ∈ ps, ¬ p.Blank) : sumPosts ps i b (some k) = .ok (b', some k) := by
  induction ps generalizing i b with
  | nil => injection hb with hb; subst hb; rfl
  | cons p ps ih =>
    rw [sumPosts_cons]
    cases hp : p.booked with
    | none => exact absurd hp (hn p (by simp))
    | some a =>
      unfold bookedAmounts at hb
      rw [List.filterMap_cons_some hp, Balance.addAll] at hb
      cases hx : b.add a with
      | error e => rw [hx] at hb; simp [bind, Except.bind] at hb
      | ok b1 =>
        rw [hx] at hb
        simp only [hx, bind, Except.bind] at hb ⊢
        exact ih _ _ hb fun q hq => hn q (by simp [hq])

theorem sumPosts_none (ps : List Post) (i : Nat) (b b' : Balance) (hb : b.addAll (bookedAmounts ps) = .ok b')
    (hn : ∀ p ∈ ps, ¬ p.Blank) : sumPosts ps i b none = .ok (b', none) := by
  induction ps generalizing i b with
  | nil => injection hb with hb; subst hb; rfl
  | cons p ps ih =>
    rw [sumPosts_cons]
    cases hp : p.booked with
    | none => exact absurd hp (hn p (by simp))
    | some a =>
      unfold bookedAmounts at hb
      rw [List.filterMap_cons_some hp, Balance.addAll] at hb
      cases hx : b.add a with
      | error e => rw [hx] at hb; simp [bind, Except.bind] at hb
      | ok b1 =>
        rw [hx] at hb
        simp only [hx, bind, Except.bind] at hb ⊢
        exact ih _ _ hb fun q hq => hn q (by simp [hq])

theorem sumPosts_one (l r : List Post) (p : Post) (i : Nat) (b b' : Balance)
    (hb : b.addAll (bookedAmounts (l ++ p :: r)) = .ok b')
    (hp : p.Blank) (hn : ∀ q ∈ l ++ r, ¬ q.Blank) :
    sumPosts (l ++ p :: r) i b none = .ok (b', some (i + l.length)) := by
  induction l generalizing i b with
  | nil =>
    rw [List.nil_append] at hb ⊢
    unfold bookedAmounts at hb
    rw [List.filterMap_cons_none hp] at hb
    rw [sumPosts_cons]
    rw [hp]
    exact sumPosts_some _ _ _ _ _ hb hn
  | cons q l ih =>
    rw [List.cons_append, sumPosts_cons]
    cases hq : q.booked with
    | none => exact absurd hq (hn q (by simp))
    | some a =>
      unfold bookedAmounts at hb
      rw [List.cons_append, List.filterMap_cons_some hq, Balance.addAll] at hb
      cases hx : b.add a with
      | error e => rw [hx] at hb; simp [bind, Except.bind] at hb
      | ok b1 =>
        rw [hx] at hb
        simp only [hx, bind, Except.bind] at hb ⊢
        rw [ih (i + 1) b1 hb (fun z hz => hn z (by simp at hz ⊢; tauto))]
        rw [List.length_cons, show i + 1 + l.length = i + (l.length + 1) by omega]

/-- What the two-commodity phase does to one posting. -/
def CostAssigned (comm : Option Str) (u : Amount) (p p' : Post) : Prop :=
  ∃ amt, p.amount = some amt ∧
    ((amt.comm = comm ∧ ∃ c, u.mul amt = .ok c ∧ p' = { p with cost := some c }) ∨ (amt.comm ≠ comm ∧ p' = p))

theorem assignCosts_ok (comm : Option Str) (u : Amount) (ps ps' : List Post) (b : Balance) (b' : Balance)
    (h : assignCosts comm u ps b = .ok (ps', b')) : List.Forall₂ (CostAssigned comm u) ps ps' := by
  induction ps generalizing b ps' b' with
  | nil =>
    simp only [assignCosts, Except.ok.injEq, Prod.mk.injEq] at h
    obtain ⟨rfl, _⟩ := h
    exact .nil
  | cons p ps ih =>
    rw [assignCosts] at h
    cases ha : p.amount with
    | none => rw [ha] at h; simp at h
    | some amt =>
      rw [ha] at h
      simp only at h
      by_cases hc : amt.comm = comm
      · rw [if_pos hc] at h
        cases h1 : b.subAssign amt with
        | error e => rw [h1] at h; simp [bind, Except.bind] at h
        | ok b1 =>
        cases h2 : u.mul amt with
        | error e => rw [h1, h2] at h; simp [bind, Except.bind] at h
        | ok c =>
        cases h3 : b1.add c with
        | error e => rw [h1, h2] at h; simp [bind, Except.bind, h3] at h
        | ok b2 =>
        cases h4 : assignCosts comm u ps b2 with
        | error e => rw [h1, h2] at h; simp [bind, Except.bind, h3, h4] at h
        | ok r =>
          rw [h1, h2] at h
          simp only [bind, Except.bind, h3, h4, Except.ok.injEq, Prod.mk.injEq] at h
          obtain ⟨rfl, _⟩ := h
          exact .cons ⟨amt, ha, Or.inl ⟨hc, c, h2, by rw [ha]⟩⟩ (ih _ _ _ h4)
      · rw [if_neg hc] at h
        cases h4 : assignCosts comm u ps b with
        | error e => rw [h4] at h; simp [bind, Except.bind] at h
        | ok r =>
          rw [h4] at h
          simp only [bind, Except.bind, Except.ok.injEq, Prod.mk.injEq] at h
          obtain ⟨rfl, _⟩ := h
          exact .cons ⟨amt, ha, Or.inr ⟨hc, rfl⟩⟩ (ih _ _ _ h4)

/-- The two-commodity phase: either it does nothing or it assigns costs from one rate. -/
theorem impliedCosts_ok (ps ps' : List Post) (b b' : Balance) (np : Option Nat)
    (h : impliedCosts ps b np = .ok (ps', b')) :
    (ps' = ps ∧ b' = b) ∨ (np = none ∧ ∃ x y top a u, b.amounts = [x, y] ∧ topPost ps = some top ∧ top.amount = some a ∧
      x.isZero = false ∧ y.isZero = false ∧
      ((x.comm = a.comm ∧ y.div x = .ok u ∧ List.Forall₂ (CostAssigned x.comm u.abs) ps ps') ∨
       (x.comm ≠ a.comm ∧ x.div y = .ok u ∧ List.Forall₂ (CostAssigned y.comm u.abs) ps ps'))) := by
  unfold impliedCosts at h
  cases np with
  | some k => simp only [Except.ok.injEq, Prod.mk.injEq] at h; exact Or.inl ⟨h.1.symm, h.2.symm⟩
  | none =>
    cases hb : b.amounts with
    | nil => rw [hb] at h; simp only [Except.ok.injEq, Prod.mk.injEq] at h; exact Or.inl ⟨h.1.symm, h.2.symm⟩
    | cons x l =>
    cases l with
    | nil => rw [hb] at h; simp only [Except.ok.injEq, Prod.mk.injEq] at h; exact Or.inl ⟨h.1.symm, h.2.symm⟩
    | cons y l =>
    cases l with
    | cons z l => rw [hb] at h; simp only [Except.ok.injEq, Prod.mk.injEq] at h; exact Or.inl ⟨h.1.symm, h.2.symm⟩
    | nil =>
      rw [hb] at h
      simp only at h
      cases ht : topPost ps with
      | none => rw [ht] at h; simp only [Except.ok.injEq, Prod.mk.injEq] at h; exact Or.inl ⟨h.1.symm, h.2.symm⟩
      | some top =>
        rw [ht] at h
        simp only at h
        split at h
        · rename_i hz
          have hta : top.amount.isSome := by
            have := List.find?_some ht
            simpa using this
          obtain ⟨a, ha⟩ := Option.isSome_iff_exists.mp hta
          rw [ha] at h
          simp only at h
          refine Or.inr ⟨rfl, x, y, top, a, ?_⟩
          by_cases hc : x.comm ≠ a.comm
          · rw [if_pos hc] at h
            simp only at h
            cases hd : x.div y with
            | error e => rw [hd] at h; simp [bind, Except.bind] at h
            | ok u =>
              rw [hd] at h
              simp only [bind, Except.bind] at h
              exact ⟨u, rfl, rfl, ha, by simpa using hz.1, by simpa using hz.2,
                Or.inr ⟨hc, rfl, assignCosts_ok _ _ _ _ _ _ h⟩⟩
          · rw [if_neg hc] at h
            simp only at h
            cases hd : y.div x with
            | error e => rw [hd] at h; simp [bind, Except.bind] at h
            | ok u =>
              rw [hd] at h
              simp only [bind, Except.bind] at h
              exact ⟨u, rfl, rfl, ha, by simpa using hz.1, by simpa using hz.2,
                Or.inl ⟨by simpa using hc, rfl, assignCosts_ok _ _ _ _ _ _ h⟩⟩
        · simp only [Except.ok.injEq, Prod.mk.injEq] at h; exact Or.inl ⟨h.1.symm, h.2.symm⟩

theorem unitCost_ok (amt cost u : Amount) (h : Pool.perUnitCost amt cost false = .ok u) :
    IsUnitCost u.qty amt cost ∧ (cost.comm ≠ none → u.comm = cost.comm) := by
  unfold Pool.perUnitCost at h
  have hz : amt.isZero = true ↔ amt.qty.val = 0 := Dec.isZero_iff _
  by_cases hc : amt.isZero = true
  · rw [Bool.false_or, if_pos hc] at h
    injection h with h; subst h
    exact ⟨⟨fun _ => (C04_abs cost).1, fun hn => absurd (hz.mp hc) hn⟩, fun _ => rfl⟩
  · rw [Bool.false_or, if_neg hc] at h
    have hn : amt.qty.val ≠ 0 := fun e => hc (hz.mpr e)
    cases hd : cost.div amt with
    | error e => rw [hd] at h; simp [bind, Except.bind] at h
    | ok q =>
      rw [hd] at h
      simp only [bind, Except.bind, Except.ok.injEq] at h
      subst h
      obtain ⟨r1, r2⟩ := (C06_sound cost amt q).2 hd
      refine ⟨⟨fun e => absurd e hn, fun _ => ⟨?_, ?_⟩⟩, ?_⟩
      · exact Dec.precise_abs r1 (C04_abs q).1 (C04_abs q).2.2
      · intro hr
        obtain ⟨q', e1, e2, _⟩ := C06_div cost amt hn hr
        rw [hd] at e1; injection e1 with e1; subst e1
        rw [(C04_abs q).1, e2]
      · intro hcn
        show q.comm = _
        rw [r2]; unfold resultComm
        cases hcc : cost.comm with
        | none => exact absurd hcc hcn
        | some x => rfl

theorem exchange_ok (p : Pool) (amt cost : Amount) (m : DateTime) (bd : CostBreakdown) (np : Option Price)
    (hne : amt.comm ≠ cost.comm) (h : p.exchange amt cost false m = .ok (bd, np)) :
    bd.amount = amt ∧ ∃ A u, amt.comm = some A ∧ IsUnitCost u.qty amt cost ∧ u.comm = cost.comm ∧
      ((np = none ∧ u.qty.val = 0) ∨ (np = some ⟨A, m, u⟩ ∧ u.qty.val ≠ 0)) := by
  unfold Pool.exchange at h
  cases hA : amt.comm with
  | none => rw [hA] at h; simp at h
  | some A =>
    rw [hA] at h
    simp only at h
    cases h1 : p.deref (some A) with
    | error e => rw [h1] at h; simp [bind, Except.bind] at h
    | ok c =>
    cases h2 : p.getByIndex c.graphIndex with
    | error e => rw [h1] at h; simp [bind, Except.bind, h2] at h
    | ok s =>
    cases h3 : Pool.perUnitCost amt cost false with
    | error e => rw [h1] at h; simp [bind, Except.bind, h2, h3] at h
    | ok u =>
    cases h4 : Pool.finalCost amt cost false with
    | error e => rw [h1] at h; simp [bind, Except.bind, h2, h3, h4] at h
    | ok f =>
    cases h5 : Pool.basisCost (assocGet s p.annotated) amt f with
    | error e => rw [h1] at h; simp [bind, Except.bind, h2, h3, h4, h5] at h
    | ok bs =>
      rw [h1] at h
      simp only [bind, Except.bind, h2, h3, h4, h5, Except.ok.injEq, Prod.mk.injEq] at h
      obtain ⟨rfl, hnp⟩ := h
      obtain ⟨g1, g2⟩ := unitCost_ok _ _ _ h3
      refine ⟨rfl, A, (if cost.comm = none then u.removeCommodity else u), rfl, ?_, ?_, ?_⟩
      · split
        · exact g1
        · exact g1
      · split
        · rename_i e; rw [e]; rfl
        · rename_i e; exact g2 e
      · have hcomm : (if cost.comm = none then u.removeCommodity else u).comm = cost.comm := by
          split
          · rename_i e; rw [e]; rfl
          · rename_i e; exact g2 e
        generalize (if cost.comm = none then u.removeCommodity else u) = v at hnp hcomm
        have hz : v.isZero = true ↔ v.qty.val = 0 := Dec.isZero_iff _
        by_cases hv : v.isZero = true
        · left
          rw [if_neg (by simp [hv])] at hnp
          exact ⟨hnp.symm, hz.mp hv⟩
        · right
          rw [if_pos ⟨by simpa using hv, by rw [hcomm, ← hA]; exact hne⟩] at hnp
          exact ⟨hnp.symm, fun e => hv (hz.mpr e)⟩

/-- The price phase records prices and leaves the postings alone. -/
theorem recordPrices_ok (date : Option Date) (ps ps' : List Post) (pool pool' : Pool)
    (h : recordPrices date ps pool = .ok (ps', pool')) :
    ps' = ps ∧ (∀ p ∈ ps, ∀ c, p.cost = some c → ∃ a, p.amount = some a ∧ a.comm ≠ c.comm ∧ a.comm ≠ none ∧ date ≠ none) ∧
    ∃ rs, PricesOf date ps rs ∧ runOps pool (rs.map Recording.op) = .ok pool' := by
  induction ps generalizing ps' pool with
  | nil =>
    simp only [recordPrices, Except.ok.injEq, Prod.mk.injEq] at h
    obtain ⟨rfl, rfl⟩ := h
    exact ⟨rfl, by simp, [], .nil, rfl⟩
  | cons p ps ih =>
    rw [recordPrices] at h
    cases hc : p.cost with
    | none =>
      rw [hc] at h
      simp only at h
      cases hr : recordPrices date ps pool with
      | error e => rw [hr] at h; simp [bind, Except.bind] at h
      | ok r =>
        rw [hr] at h
        simp only [bind, Except.bind, Except.ok.injEq, Prod.mk.injEq] at h
        obtain ⟨rfl, rfl⟩ := h
        obtain ⟨e1, e2, rs, e3, e4⟩ := ih _ _ hr
        refine ⟨by rw [e1], ?_, rs, .noCost hc e3, e4⟩
        intro q hq c hqc
        rw [List.mem_cons] at hq
        rcases hq with rfl | hq
        · rw [hc] at hqc; cases hqc
        · exact e2 q hq c hqc
    | some cost =>
      rw [hc] at h
      simp only at h
      cases ha : p.amount with
      | none => rw [ha] at h; simp at h
      | some amt =>
        rw [ha] at h
        simp only at h
        by_cases hne : amt.comm = cost.comm
        · rw [if_pos hne] at h; simp at h
        · rw [if_neg hne] at h
          cases date with
          | none => simp at h
          | some d =>
            simp only at h
            cases hx : pool.exchange amt cost false ⟨d, Time.midnight⟩ with
            | error e => rw [hx] at h; simp [bind, Except.bind] at h
            | ok r =>
              obtain ⟨bd, np⟩ := r
              obtain ⟨g1, A, u, gA, gu, guc, gnp⟩ := exchange_ok _ _ _ _ _ _ hne hx
              rw [hx] at h
              simp only [bind, Except.bind] at h
              have fin : ∀ (pool1 : Pool) (r : List Post × Pool), recordPrices (some d) ps pool1 = .ok r →
                  (({ p with amount := some bd.amount } : Post) :: r.1, r.2) = (ps', pool') →
                  ps' = p :: ps ∧ (∀ q ∈ p :: ps, ∀ c, q.cost = some c → ∃ a, q.amount = some a ∧ a.comm ≠ c.comm ∧
                    a.comm ≠ none ∧ some d ≠ none) ∧
                  ∃ rs, PricesOf (some d) ps rs ∧ runOps pool1 (rs.map Recording.op) = .ok pool' := by
                intro pool1 r hr he
                simp only [Prod.mk.injEq] at he
                obtain ⟨rfl, rfl⟩ := he
                obtain ⟨e1, e2, rs, e3, e4⟩ := ih _ _ hr
                refine ⟨?_, ?_, rs, e3, e4⟩
                · rw [e1, g1, ← ha]
                · intro q hq c hqc
                  rw [List.mem_cons] at hq
                  rcases hq with rfl | hq
                  · rw [hc] at hqc; injection hqc with hqc; subst hqc
                    exact ⟨amt, ha, hne, by rw [gA]; simp, by simp⟩
                  · exact e2 q hq c hqc
              rcases gnp with ⟨rfl, g0⟩ | ⟨rfl, g0⟩
              · simp only at h
                cases hr : recordPrices (some d) ps pool with
                | error e => rw [hr] at h; simp at h
                | ok r =>
                  rw [hr] at h
                  simp only [Except.ok.injEq] at h
                  obtain ⟨f1, f2, rs, f3, f4⟩ := fin _ _ hr (by rw [hc]; exact h)
                  exact ⟨f1, f2, rs, .zero ha hc hne gu g0 f3, f4⟩
              · simp only at h
                cases hp : pool.addPriceStruct ⟨A, ⟨d, Time.midnight⟩, u⟩ with
                | error e => rw [hp] at h; simp at h
                | ok pool1 =>
                  rw [hp] at h
                  simp only at h
                  cases hr : recordPrices (some d) ps pool1 with
                  | error e => rw [hr] at h; simp at h
                  | ok r =>
                    rw [hr] at h
                    simp only [Except.ok.injEq] at h
                    obtain ⟨f1, f2, rs, f3, f4⟩ := fin _ _ hr (by rw [hc]; exact h)
                    have hp' : pool.addPrice (some A) ⟨d, Time.midnight⟩ u = .ok pool1 := hp
                    obtain ⟨A', B, cA, cB, k1, k2, k3, _⟩ := Pool.addPrice_ok hp'
                    injection k1 with k1; subst k1
                    refine ⟨f1, f2, _, .price ha hc gA (by rw [← guc]; exact k2) k3 rfl gu g0 f3, ?_⟩
                    rw [List.map_cons, runOps]
                    have : (Recording.op ⟨A, B, ⟨d, Time.midnight⟩, u.qty⟩).run pool = .ok pool1 := by
                      rw [← hp']; unfold Recording.op PoolOp.run; simp only; rw [← k2]
                    rw [this]
                    exact f4

/-- Without costs the price phase does nothing. -/
theorem recordPrices_noCost (date : Option Date) (ps : List Post) (pool : Pool) (h : ∀ p ∈ ps, p.cost = none) :
    recordPrices date ps pool = .ok (ps, pool) := by
  induction ps with
  | nil => rfl
  | cons p ps ih =>
    rw [recordPrices, h p (by simp)]
    simp only
    rw [ih fun q hq => h q (by simp [hq])]
    rfl

/-- The phases of a successful finalisation. -/
theorem finalize_ok (x x' : Xact) (pool pool' : Pool) (h : finalize x pool = .ok (x', pool')) :
    ∃ b np ps1 b1 ps2, sumPosts x.posts 0 Balance.empty none = .ok (b, np) ∧ x.posts.length ≠ 1 ∧
      impliedCosts x.posts b np = .ok (ps1, b1) ∧ recordPrices x.date ps1 pool = .ok (ps1, pool') ∧
      fillNull ps1 b1 np = .ok ps2 ∧ x' = { x with posts := ps2 } := by
  unfold finalize at h
  cases h1 : sumPosts x.posts 0 Balance.empty none with
  | error e => rw [h1] at h; simp [bind, Except.bind] at h
  | ok r1 =>
  obtain ⟨b, np⟩ := r1
  rw [h1] at h
  simp only [bind, Except.bind] at h
  by_cases hl : x.posts.length = 1
  · rw [if_pos hl] at h; simp at h
  · rw [if_neg hl] at h
    cases h2 : impliedCosts x.posts b np with
    | error e => rw [h2] at h; simp at h
    | ok r2 =>
    cases h3 : recordPrices x.date r2.1 pool with
    | error e => rw [h2] at h; simp [h3] at h
    | ok r3 =>
    cases h4 : fillNull r3.1 r2.2 np with
    | error e => rw [h2] at h; simp [h3, h4] at h
    | ok r4 =>
      rw [h2] at h
      simp only [h3, h4, Except.ok.injEq, Prod.mk.injEq] at h
      obtain ⟨rfl, rfl⟩ := h
      have e := (recordPrices_ok _ _ _ _ _ h3).1
      refine ⟨b, np, r2.1, r2.2, r4, rfl, hl, h2, ?_, ?_, rfl⟩
      · rw [h3]; rw [← e]
      · rw [← e]; exact h4

end Ledger
