import Verif.Spec.Rename
import Verif.Lemmas.Booked
import Verif.Lemmas.Totals
/-
What the program does commutes with other names for the commodities.
-/
namespace Ledger
open Ledger.Parser Ledger.Finalize Ledger.Cli

variable {f : Str → Str}

theorem Renaming.opt (h : Renaming f) (a b : Option Str) : a.map f = b.map f ↔ a = b := by
  constructor
  · intro e
    cases a <;> cases b <;> simp_all
    exact h.1 e
  · rintro rfl; rfl

theorem Renaming.nil (h : Renaming f) (s : Str) : f s = [] ↔ s = [] :=
  ⟨fun e => h.1 (e.trans h.2.symm), fun e => e ▸ h.2⟩

theorem Renaming.eq (h : Renaming f) (a b : Str) : f a = f b ↔ a = b := h.1.eq_iff

/-! ### amounts and balances -/

section
variable {α β γ : Type}

theorem res_bind_map (m : Res α) (g : α → β) (k : β → Res γ) : (m.map g).bind k = m.bind (fun a => k (g a)) := by
  cases m <;> rfl

theorem res_map_bind (m : Res α) (k : α → Res β) (g : β → γ) : (m.bind k).map g = m.bind (fun a => (k a).map g) := by
  cases m <;> rfl
end

namespace Amount

theorem add_renamed (h : Renaming f) (a b : Amount) : (a.renamed f).add (b.renamed f) = (a.add b).map (renamed f) := by
  unfold add
  simp only [renamed, ne_eq, h.opt]
  split
  · rfl
  · by_cases hz : b.qty.isZero
    · simp only [hz, if_true]; rfl
    · simp only [hz, bind, Except.bind]; cases a.qty.add b.qty <;> rfl

theorem subAssign_renamed (h : Renaming f) (a b : Amount) :
    (a.renamed f).subAssign (b.renamed f) = (a.subAssign b).map (renamed f) := by
  unfold subAssign
  simp only [renamed, ne_eq, h.opt]
  split
  · rfl
  · simp only [bind, Except.bind]; cases a.qty.sub b.qty <;> rfl

theorem inverse_renamed (a : Amount) : (a.renamed f).inverse = a.inverse.renamed f := rfl

theorem abs_renamed (a : Amount) : (a.renamed f).abs = a.abs.renamed f := rfl

theorem isZero_renamed (a : Amount) : (a.renamed f).isZero = a.isZero := rfl

theorem removeCommodity_renamed (a : Amount) : (a.renamed f).removeCommodity = a.removeCommodity.renamed f := rfl

theorem mul_renamed (a b : Amount) : (a.renamed f).mul (b.renamed f) = (a.mul b).map (renamed f) := by
  unfold mul
  simp only [renamed, bind, Except.bind]
  cases a.qty.mul b.qty with
  | error _ => rfl
  | ok q =>
    obtain ⟨qa, ca⟩ := a
    cases ca <;> simp [Except.map, renamed]

theorem div_renamed (a b : Amount) : (a.renamed f).div (b.renamed f) = (a.div b).map (renamed f) := by
  unfold div
  simp only [renamed, bind, Except.bind]
  cases a.qty.div b.qty with
  | error _ => rfl
  | ok q =>
    obtain ⟨qa, ca⟩ := a
    cases ca <;> simp [Except.map, renamed]

theorem mulAssign_renamed (a b : Amount) : (a.renamed f).mulAssign (b.renamed f) = (a.mulAssign b).map (renamed f) := by
  unfold mulAssign
  simp only [renamed, bind, Except.bind]
  cases a.qty.mul b.qty with
  | error _ => rfl
  | ok q =>
    obtain ⟨qa, ca⟩ := a
    obtain ⟨qb, cb⟩ := b
    cases ca <;> cases cb <;> simp [Except.map, renamed]

end Amount

/-- The balance with other names for commodities. -/
def Balance.renamed (f : Str → Str) (b : Balance) : Balance := ⟨b.amounts.map (Amount.renamed f)⟩

namespace Balance

theorem addGo_renamed (h : Renaming f) (l : List Amount) (a : Amount) :
    addGo (l.map (Amount.renamed f)) (a.renamed f) = (addGo l a).map (List.map (Amount.renamed f)) := by
  induction l with
  | nil => rfl
  | cons x xs ih =>
    simp only [List.map_cons, addGo, Amount.renamed, h.opt]
    split
    · have := Amount.add_renamed h x a
      simp only [Amount.renamed] at this
      simp only [this, bind, Except.bind]
      cases x.add a <;> rfl
    · simp only [Amount.renamed] at ih
      simp only [ih, bind, Except.bind]
      cases addGo xs a <;> rfl

theorem add_renamed (h : Renaming f) (b : Balance) (a : Amount) :
    (b.renamed f).add (a.renamed f) = (b.add a).map (renamed f) := by
  simp only [add, renamed, addGo_renamed h, bind, Except.bind]
  cases addGo b.amounts a <;> rfl

theorem subGo_renamed (h : Renaming f) (l : List Amount) (a : Amount) :
    subGo (l.map (Amount.renamed f)) (a.renamed f) = (subGo l a).map (List.map (Amount.renamed f)) := by
  induction l with
  | nil => rfl
  | cons x xs ih =>
    simp only [List.map_cons, subGo, Amount.renamed, h.opt]
    split
    · have := Amount.subAssign_renamed h x a
      simp only [Amount.renamed] at this
      simp only [this, bind, Except.bind]
      cases x.subAssign a <;> rfl
    · simp only [Amount.renamed] at ih
      simp only [ih, bind, Except.bind]
      cases subGo xs a <;> rfl

theorem subAssign_renamed (h : Renaming f) (b : Balance) (a : Amount) :
    (b.renamed f).subAssign (a.renamed f) = (b.subAssign a).map (renamed f) := by
  simp only [subAssign, renamed, subGo_renamed h, bind, Except.bind]
  cases subGo b.amounts a <;> rfl

theorem addAll_renamed (h : Renaming f) (as : List Amount) (b : Balance) :
    (b.renamed f).addAll (as.map (Amount.renamed f)) = (b.addAll as).map (renamed f) := by
  induction as generalizing b with
  | nil => rfl
  | cons a as ih =>
    simp only [List.map_cons, addAll, add_renamed h, bind, Except.bind]
    cases b.add a with
    | error _ => rfl
    | ok b' => exact ih b'

theorem addBalance_renamed (h : Renaming f) (b o : Balance) :
    (b.renamed f).addBalance (o.renamed f) = (b.addBalance o).map (renamed f) := addAll_renamed h _ _

end Balance

/-! ### the pool -/

section
variable {β γ : Type}

theorem assocGet_renamed (h : Renaming f) (g : β → γ) (k : Str) (l : List (Str × β)) :
    assocGet (f k) (l.map (fun c => (f c.1, g c.2))) = (assocGet k l).map g := by
  induction l with
  | nil => rfl
  | cons x xs ih =>
    simp only [List.map_cons, assocGet, h.eq]
    split
    · rfl
    · exact ih

theorem assocInsert_renamed (h : Renaming f) (g : β → γ) (k : Str) (v : β) (l : List (Str × β)) :
    assocInsert (f k) (g v) (l.map (fun c => (f c.1, g c.2))) = (assocInsert k v l).map (fun c => (f c.1, g c.2)) := by
  induction l with
  | nil => rfl
  | cons x xs ih =>
    simp only [List.map_cons, assocInsert, h.eq]
    split
    · rfl
    · rw [ih]; rfl
end

/-- The commodity with another name. -/
def Commodity.renamed (f : Str → Str) (c : Commodity) : Commodity := ⟨f c.symbol, c.graphIndex, c.annotated⟩

namespace Pool

theorem find_renamed (h : Renaming f) (p : Pool) (s : Str) : (p.renamed f).find (f s) = (p.find s).map (Commodity.renamed f) :=
  assocGet_renamed h (Commodity.renamed f) s p.commodities

theorem create_renamed (h : Renaming f) (p : Pool) (s : Str) (ann : Option Annotation) :
    ((p.renamed f).create (f s) (ann.map (Annotation.renamed f))) = ((p.create s ann).1.renamed f, f s) := by
  have h1 := assocInsert_renamed h (Commodity.renamed f) s ⟨s, p.history.nodes.length, ann.isSome⟩ p.commodities
  unfold Commodity.renamed at h1
  cases ann with
  | none =>
    simp only [create, History.addCommodity, renamed, List.length_map, Option.map_none, Option.isSome_none, List.map_append,
      List.map_cons, List.map_nil] at h1 ⊢
    rw [h1]
  | some a =>
    have h2 := assocInsert_renamed h (Annotation.renamed f) s a p.annotated
    simp only [create, History.addCommodity, renamed, List.length_map, Option.map_some, Option.isSome_some, List.map_append,
      List.map_cons, List.map_nil] at h1 h2 ⊢
    rw [h1, h2]

theorem findOrCreate_renamed (h : Renaming f) (p : Pool) (s : Str) (ann : Option Annotation) :
    ((p.renamed f).findOrCreate (f s) (ann.map (Annotation.renamed f))).1 = (p.findOrCreate s ann).1.renamed f := by
  unfold findOrCreate
  simp only [h.nil, find_renamed h]
  split
  · rfl
  · cases hp : p.find s with
    | none => simp only [Option.map_none, create_renamed h]
    | some c =>
      cases ann with
      | none => rfl
      | some a =>
        have h1 := assocGet_renamed h (Annotation.renamed f) s p.annotated
        have h2 := assocInsert_renamed h (Annotation.renamed f) s a p.annotated
        simp only [Option.map_some]
        have e : (assocGet (f s) (p.renamed f).annotated).isNone = (assocGet s p.annotated).isNone := by
          simp only [renamed]; rw [h1]; cases assocGet s p.annotated <;> rfl
        rw [e]
        split
        · simp only [renamed]; rw [h2]
        · rfl

theorem deref_renamed (h : Renaming f) (p : Pool) (s : Option Str) :
    (p.renamed f).deref (s.map f) = (p.deref s).map (Commodity.renamed f) := by
  cases s with
  | none => rfl
  | some s =>
    simp only [deref, Option.map_some, find_renamed h]
    cases p.find s <;> rfl

theorem addPrice_renamed (h : Renaming f) (p : Pool) (s : Option Str) (t : DateTime) (a : Amount) :
    (p.renamed f).addPrice (s.map f) t (a.renamed f) = (p.addPrice s t a).map (renamed f) := by
  unfold addPrice
  rw [deref_renamed h]
  have e : (s.map f = (a.renamed f).comm) ↔ s = a.comm := by simp only [Amount.renamed, h.opt]
  simp only [bind, Except.bind, e]
  cases p.deref s with
  | error _ => rfl
  | ok c =>
    simp only [Except.map]
    split
    · rfl
    · cases hc : a.comm with
      | none => simp only [Amount.renamed, hc, Option.map_none]
      | some d =>
        have := deref_renamed h p (some d)
        simp only [Amount.renamed, hc, Option.map_some] at this ⊢
        rw [this]
        cases p.deref (some d) <;> rfl

theorem getByIndex_renamed (p : Pool) (i : Nat) : (p.renamed f).getByIndex i = (p.getByIndex i).map f := by
  simp only [getByIndex, History.getCommodity, renamed, List.getElem?_map]
  cases p.history.nodes[i]? <;> rfl

theorem perUnitCost_renamed (a c : Amount) (u : Bool) :
    perUnitCost (a.renamed f) (c.renamed f) u = (perUnitCost a c u).map (Amount.renamed f) := by
  unfold perUnitCost
  rw [Amount.isZero_renamed, Amount.div_renamed]
  split
  · rfl
  · simp only [bind, Except.bind]; cases c.div a <;> rfl

theorem finalCost_renamed (a c : Amount) (u : Bool) :
    finalCost (a.renamed f) (c.renamed f) u = (finalCost a c u).map (Amount.renamed f) := by
  unfold finalCost
  rw [Amount.abs_renamed, Amount.mul_renamed]
  split <;> rfl

theorem basisCost_renamed (ann : Option Annotation) (a c : Amount) :
    basisCost (ann.map (Annotation.renamed f)) (a.renamed f) (c.renamed f) = (basisCost ann a c).map (Amount.renamed f) := by
  cases ann with
  | none => rfl
  | some l =>
    simp only [basisCost, Option.map_some, Annotation.renamed]
    cases l.price with
    | none => rfl
    | some p => exact Amount.mul_renamed p a

/-- The price with other names. -/
def _root_.Ledger.Price.renamed (f : Str → Str) (p : Price) : Price := ⟨f p.commodity, p.datetime, p.price.renamed f⟩

/-- The breakdown with other names. -/
def _root_.Ledger.CostBreakdown.renamed (f : Str → Str) (b : CostBreakdown) : CostBreakdown :=
  ⟨b.amount.renamed f, b.finalCost.renamed f, b.basisCost.renamed f⟩

theorem exchange_renamed (h : Renaming f) (p : Pool) (a c : Amount) (u : Bool) (t : DateTime) :
    (p.renamed f).exchange (a.renamed f) (c.renamed f) u t =
      (p.exchange a c u t).map (fun r => (r.1.renamed f, r.2.map (Price.renamed f))) := by
  unfold exchange
  rw [perUnitCost_renamed, finalCost_renamed]
  cases hc : a.comm with
  | none => simp only [Amount.renamed, hc, Option.map_none]; rfl
  | some s =>
    have e1 := deref_renamed h p (some s)
    have e2 : (a.renamed f).comm = some (f s) := by simp [Amount.renamed, hc]
    have e3 : ((c.renamed f).comm = none) ↔ c.comm = none := by cases hd : c.comm <;> simp [Amount.renamed, hd]
    simp only [Option.map_some] at e1
    simp only [e2, e1, bind, Except.bind]
    cases p.deref (some s) with
    | error _ => rfl
    | ok k =>
      simp only [Except.map, getByIndex_renamed, Commodity.renamed]
      cases p.getByIndex k.graphIndex with
      | error _ => rfl
      | ok s' =>
        have e4 := assocGet_renamed h (Annotation.renamed f) s' p.annotated
        simp only
        cases perUnitCost a c u with
        | error _ => rfl
        | ok q =>
          simp only
          cases finalCost a c u with
          | error _ => rfl
          | ok fc =>
            have e5 : assocGet (f s') (p.renamed f).annotated = (assocGet s' p.annotated).map (Annotation.renamed f) := e4
            simp only [e5, basisCost_renamed]
            cases basisCost (assocGet s' p.annotated) a fc with
            | error _ => rfl
            | ok b =>
              simp only [Except.map, e3]
              have e6 : (if c.comm = none then (q.renamed f).removeCommodity else q.renamed f) =
                  (if c.comm = none then q.removeCommodity else q).renamed f := by split <;> rfl
              rw [e6]
              generalize (if c.comm = none then q.removeCommodity else q) = q'
              have e7 : (some (f s) ≠ (q'.renamed f).comm) ↔ some s ≠ q'.comm := by
                have := h.opt (some s) q'.comm
                simp only [Option.map_some] at this
                simp only [Amount.renamed, ne_eq, this]
              simp only [Amount.isZero_renamed, e7, Except.ok.injEq, Prod.mk.injEq]
              refine ⟨rfl, ?_⟩
              split <;> rfl

end Pool

/-! ### completing a transaction -/

theorem sumPosts_renamed (h : Renaming f) (ps : List Post) (i : Nat) (b : Balance) (np : Option Nat) :
    sumPosts (ps.map (Post.renamed f)) i (b.renamed f) np = (sumPosts ps i b np).map (fun r => (r.1.renamed f, r.2)) := by
  induction ps generalizing i b np with
  | nil => rfl
  | cons p ps ih =>
    have key : ∀ a : Amount, ((b.renamed f).add (a.renamed f) >>= fun b' => sumPosts (ps.map (Post.renamed f)) (i + 1) b' np) =
        (b.add a >>= fun b' => sumPosts ps (i + 1) b' np).map (fun r => (r.1.renamed f, r.2)) := by
      intro a
      simp only [Balance.add_renamed h, bind, Except.bind]
      cases b.add a with
      | error _ => rfl
      | ok b' => exact ih _ _ _
    obtain ⟨acc, am, co, no⟩ := p
    simp only [List.map_cons, sumPosts, Post.renamed]
    cases co with
    | some c => exact key c
    | none => cases am with
      | some a => exact key a
      | none => cases np with
        | some _ => rfl
        | none => exact ih _ _ _

theorem topPost_renamed (ps : List Post) : topPost (ps.map (Post.renamed f)) = (topPost ps).map (Post.renamed f) := by
  induction ps with
  | nil => rfl
  | cons p ps ih =>
    obtain ⟨acc, am, co, no⟩ := p
    cases am with
    | none => simpa [topPost, Post.renamed] using ih
    | some a => simp [topPost, Post.renamed]

theorem assignCosts_renamed (h : Renaming f) (c : Option Str) (u : Amount) (ps : List Post) (b : Balance) :
    assignCosts (c.map f) (u.renamed f) (ps.map (Post.renamed f)) (b.renamed f) =
      (assignCosts c u ps b).map (fun r => (r.1.map (Post.renamed f), r.2.renamed f)) := by
  induction ps generalizing b with
  | nil => rfl
  | cons p ps ih =>
    obtain ⟨acc, am, co, no⟩ := p
    cases am with
    | none => rfl
    | some a =>
      have e : ((a.renamed f).comm = c.map f) ↔ a.comm = c := h.opt _ _
      simp only [List.map_cons, assignCosts, Post.renamed, Option.map_some, e]
      split
      · simp only [Balance.subAssign_renamed h, Amount.mul_renamed, bind, Except.bind]
        cases b.subAssign a with
        | error _ => rfl
        | ok b1 =>
          simp only [Except.map]
          cases u.mul a with
          | error _ => rfl
          | ok k =>
            simp only [Balance.add_renamed h]
            cases b1.add k with
            | error _ => rfl
            | ok b2 =>
              simp only [Except.map, ih]
              cases assignCosts c u ps b2 <;> rfl
      · simp only [ih, bind, Except.bind]
        cases assignCosts c u ps b <;> rfl

theorem impliedCosts_renamed (h : Renaming f) (ps : List Post) (b : Balance) (np : Option Nat) :
    impliedCosts (ps.map (Post.renamed f)) (b.renamed f) np =
      (impliedCosts ps b np).map (fun r => (r.1.map (Post.renamed f), r.2.renamed f)) := by
  obtain ⟨l⟩ := b
  cases np with
  | some _ => rfl
  | none =>
    rcases l with _ | ⟨x, _ | ⟨y, _ | ⟨z, l⟩⟩⟩
    · rfl
    · rfl
    · simp only [impliedCosts, Balance.renamed, List.map_cons, List.map_nil, topPost_renamed]
      cases topPost ps with
      | none => rfl
      | some t =>
        simp only [Option.map_some, Amount.isZero_renamed]
        by_cases hz : (!x.isZero) = true ∧ (!y.isZero) = true
        · simp only [hz, and_self, if_true]
          have key : ∀ x' y' : Amount, ((y'.renamed f).div (x'.renamed f) >>= fun u =>
              assignCosts (x'.renamed f).comm u.abs (ps.map (Post.renamed f)) ⟨[x.renamed f, y.renamed f]⟩) =
              (y'.div x' >>= fun u => assignCosts x'.comm u.abs ps ⟨[x, y]⟩).map
                (fun r => (r.1.map (Post.renamed f), r.2.renamed f)) := by
            intro x' y'
            simp only [Amount.div_renamed, bind, Except.bind]
            cases y'.div x' with
            | error _ => rfl
            | ok u => exact assignCosts_renamed h x'.comm u.abs ps ⟨[x, y]⟩
          have pick : ∀ tc : Option Str,
              (match (if (x.renamed f).comm ≠ tc.map f then (y.renamed f, x.renamed f) else (x.renamed f, y.renamed f)) with
                | (x', y') => y'.div x' >>= fun u =>
                  assignCosts x'.comm u.abs (ps.map (Post.renamed f)) ⟨[x.renamed f, y.renamed f]⟩) =
              Except.map (fun r : List Post × Balance => (r.1.map (Post.renamed f), r.2.renamed f))
                (match (if x.comm ≠ tc then (y, x) else (x, y)) with
                | (x', y') => y'.div x' >>= fun u => assignCosts x'.comm u.abs ps ⟨[x, y]⟩) := by
            intro tc
            have e2 : ((x.renamed f).comm ≠ tc.map f) ↔ x.comm ≠ tc := not_congr (h.opt _ _)
            by_cases hx : x.comm ≠ tc
            · rw [if_pos (e2.mpr hx), if_pos hx]
              exact key y x
            · rw [if_neg (mt e2.mp hx), if_neg hx]
              exact key x y
          obtain ⟨acc, am, co, no⟩ := t
          cases am with
          | none => exact pick none
          | some a => exact pick a.comm
        · simp only [hz, if_false]
          rfl
    · rfl

theorem recordPrices_renamed (h : Renaming f) (d : Option Date) (ps : List Post) (p : Pool) :
    recordPrices d (ps.map (Post.renamed f)) (p.renamed f) =
      (recordPrices d ps p).map (fun r => (r.1.map (Post.renamed f), r.2.renamed f)) := by
  induction ps generalizing p with
  | nil => rfl
  | cons x ps ih =>
    obtain ⟨acc, am, co, no⟩ := x
    cases co with
    | none =>
      simp only [List.map_cons, recordPrices, Post.renamed, Option.map_none, ih, bind, Except.bind]
      cases recordPrices d ps p <;> rfl
    | some k =>
      cases am with
      | none => rfl
      | some a =>
        have e : ((a.renamed f).comm = (k.renamed f).comm) ↔ a.comm = k.comm := h.opt _ _
        simp only [List.map_cons, recordPrices, Post.renamed, Option.map_some, e]
        split
        · rfl
        · cases d with
          | none => rfl
          | some d =>
            simp only [Pool.exchange_renamed h, bind, Except.bind]
            cases p.exchange a k false ⟨d, Time.midnight⟩ with
            | error _ => rfl
            | ok r =>
              obtain ⟨br, np⟩ := r
              cases np with
              | none =>
                simp only [Except.map, Option.map_none, ih]
                cases recordPrices (some d) ps p <;> rfl
              | some pr =>
                have e2 : (p.renamed f).addPriceStruct (pr.renamed f) = (p.addPriceStruct pr).map (Pool.renamed f) :=
                  Pool.addPrice_renamed h p (some pr.commodity) pr.datetime pr.price
                simp only [Except.map, Option.map_some, e2]
                cases p.addPriceStruct pr with
                | error _ => rfl
                | ok p' =>
                  simp only [ih]
                  cases recordPrices (some d) ps p' <;> rfl

theorem fillNull_renamed (ps : List Post) (b : Balance) (np : Option Nat) :
    fillNull (ps.map (Post.renamed f)) (b.renamed f) np = (fillNull ps b np).map (List.map (Post.renamed f)) := by
  obtain ⟨l⟩ := b
  cases np with
  | none => rfl
  | some i =>
    rcases l with _ | ⟨a, _ | ⟨y, l⟩⟩
    · rfl
    · simp only [fillNull, Balance.renamed, List.map_cons, List.map_nil, Except.map]
      congr 1
      refine List.ext_getElem? fun n => ?_
      simp only [List.getElem?_modify, List.getElem?_map]
      split
      · cases ps[n]? <;> rfl
      · cases ps[n]? <;> rfl
    · rfl

theorem finalize_renamed (h : Renaming f) (x : Xact) (p : Pool) :
    finalize (x.renamed f) (p.renamed f) = (finalize x p).map (fun r => (r.1.renamed f, r.2.renamed f)) := by
  have e := sumPosts_renamed h x.posts 0 Balance.empty none
  have e0 : Balance.empty.renamed f = Balance.empty := rfl
  rw [e0] at e
  simp only [finalize, Xact.renamed, e, List.length_map, bind, Except.bind]
  cases sumPosts x.posts 0 Balance.empty none with
  | error _ => rfl
  | ok r =>
    obtain ⟨b, np⟩ := r
    simp only [Except.map]
    split
    · rfl
    · simp only [impliedCosts_renamed h]
      cases impliedCosts x.posts b np with
      | error _ => rfl
      | ok r =>
        obtain ⟨ps, b⟩ := r
        simp only [Except.map, recordPrices_renamed h]
        cases recordPrices x.date ps p with
        | error _ => rfl
        | ok r =>
          obtain ⟨ps, p'⟩ := r
          simp only [Except.map, fillNull_renamed]
          cases fillNull ps b np <;> rfl

/-! ### booking -/

theorem registerAccount_renamed (j : Journal) (n : Str) :
    (j.renamed f).registerAccount n = (j.registerAccount n).map (fun r => (r.1.renamed f, r.2)) := by
  unfold Journal.registerAccount
  simp only [Journal.renamed]
  split
  · rfl
  · simp only [bind, Except.bind]
    cases j.master.findOrCreate n true <;> rfl

theorem updateXact_renamed (j : Journal) (i : Nat) {g g' : Xact → Xact} (h : ∀ x, g' (x.renamed f) = (g x).renamed f) :
    (j.renamed f).updateXact i g' = (j.updateXact i g).renamed f := by
  simp only [Journal.updateXact, Journal.renamed, Journal.mk.injEq, true_and]
  refine List.ext_getElem? fun n => ?_
  simp only [List.getElem?_modify, List.getElem?_map]
  split
  · cases j.xacts[n]? with
    | none => rfl
    | some x => simp [h]
  · cases j.xacts[n]? <;> rfl

theorem Writing.symbolText_renamed (h : Renaming f) (c : Option Str) : symbolText (c.map f) = f (symbolText c) := by
  cases c with
  | none => exact h.2.symm
  | some s => rfl

theorem or_renamed (a b : Option Str) : (a.map f).or (b.map f) = (a.or b).map f := by cases a <;> rfl

theorem bookAmounts_renamed (h : Renaming f) (e : Entry) (p : Pool) :
    (e.renamed f).bookAmounts (p.renamed f) =
      (e.bookAmounts p).map (fun r => (r.1.renamed f, r.2.1.map (Amount.renamed f), r.2.2.map (Amount.renamed f))) := by
  obtain ⟨acc, am, lot, co, cs, st⟩ := e
  have foc : ∀ (p : Pool) (c : Option Str), ((p.renamed f).findOrCreate (symbolText (c.map f)) none).1 =
      (p.findOrCreate (symbolText c) none).1.renamed f := by
    intro p c
    rw [Writing.symbolText_renamed h]
    exact Pool.findOrCreate_renamed h p (symbolText c) none
  have foc' : ∀ (p : Pool) (c : Option Str), ((p.renamed f).findOrCreate (symbolText (c.map f)) (some (lot.renamed f))).1 =
      (p.findOrCreate (symbolText c) (some lot)).1.renamed f := by
    intro p c
    rw [Writing.symbolText_renamed h]
    exact Pool.findOrCreate_renamed h p (symbolText c) (some lot)
  have eh : (Entry.renamed f ⟨acc, am, lot, co, cs, st⟩).holder = (Entry.holder ⟨acc, am, lot, co, cs, st⟩).map f := by
    cases am with
    | none => rfl
    | some a => obtain ⟨q, c⟩ := a; cases c <;> rfl
  have ep : ((lot.renamed f).price.bind (·.comm)).or (st.price.map f) = ((lot.price.bind (·.comm)).or st.price).map f := by
    rw [← or_renamed]
    obtain ⟨pr, d⟩ := lot
    cases pr with
    | none => rfl
    | some a => rfl
  have step : ∀ e' : Entry, e' = ⟨acc, am, lot, co, cs, st⟩ →
      ((((p.renamed f).findOrCreate (symbolText (e'.holder.map f)) none).1.findOrCreate
        (symbolText (((lot.renamed f).price.bind (·.comm)).or (st.price.map f))) none).1.findOrCreate
        (symbolText (e'.holder.map f)) (some (lot.renamed f))).1 =
      (((p.findOrCreate (symbolText e'.holder) none).1.findOrCreate
        (symbolText ((lot.price.bind (·.comm)).or st.price)) none).1.findOrCreate (symbolText e'.holder) (some lot)).1.renamed f := by
    intro e' _
    rw [foc, ep, foc, foc']
  unfold Entry.bookAmounts
  simp only [eh]
  have st' := step _ rfl
  simp only [Entry.renamed] at st' ⊢
  rw [st']
  generalize ((((p.findOrCreate (symbolText (Entry.holder ⟨acc, am, lot, co, cs, st⟩)) none).1.findOrCreate
        (symbolText ((lot.price.bind (·.comm)).or st.price)) none).1.findOrCreate
        (symbolText (Entry.holder ⟨acc, am, lot, co, cs, st⟩)) (some lot)).1) = p3
  cases am with
  | none => cases co <;> rfl
  | some a =>
    cases co with
    | none =>
      simp only [Option.map_some, Option.map_none, foc]
      rfl
    | some k =>
      obtain ⟨u, k⟩ := k
      have fk : ((p3.renamed f).findOrCreate (symbolText (k.renamed f).comm) none).1 =
          (p3.findOrCreate (symbolText k.comm) none).1.renamed f := foc p3 k.comm
      simp only [Option.map_some, fk, Amount.mulAssign_renamed]
      cases u with
      | false => rfl
      | true =>
        simp only [if_true, bind, Except.bind]
        cases k.mulAssign a <;> rfl

theorem book_renamed (h : Renaming f) (e : Entry) (i : Nat) (j : Journal) :
    (e.renamed f).book i (j.renamed f) = (e.book i j).map (Journal.renamed f) := by
  unfold Entry.book
  have ea : (e.renamed f).account = e.account := rfl
  simp only [ea, registerAccount_renamed, bind, Except.bind]
  cases j.registerAccount e.account with
  | error _ => rfl
  | ok r =>
    obtain ⟨j1, acct⟩ := r
    simp only [Except.map]
    cases acct with
    | none => rfl
    | some path =>
      have ep : (j1.renamed f).pool = j1.pool.renamed f := rfl
      simp only [ep, bookAmounts_renamed h]
      cases e.bookAmounts j1.pool with
      | error _ => rfl
      | ok r =>
        obtain ⟨p, am, co⟩ := r
        simp only [Except.map]
        have en : (match (j1.renamed f).xacts[i]? with | some x => x.posts.length | none => 0) =
            (match j1.xacts[i]? with | some x => x.posts.length | none => 0) := by
          simp only [Journal.renamed, List.getElem?_map]
          cases j1.xacts[i]? with
          | none => rfl
          | some x => simp [Xact.renamed]
        have eu := updateXact_renamed (f := f) { j1 with pool := p } i
          (g := fun x => { x with posts := x.posts ++ [Post.mk path am co none] })
          (g' := fun x => { x with posts := x.posts ++ [Post.mk path (am.map (Amount.renamed f)) (co.map (Amount.renamed f)) none] })
          (by intro x; simp [Xact.renamed, Post.renamed])
        have ej : ({ j1.renamed f with pool := p.renamed f } : Journal) = ({ j1 with pool := p } : Journal).renamed f := rfl
        simp only [ej, eu]
        congr 1
        simp only [Journal.updateXact, Journal.renamed, Journal.mk.injEq, and_true]
        congr 2

theorem noteLast_renamed (n : Str) (ps : List Post) :
    Xact.noteLast n (ps.map (Post.renamed f)) = (Xact.noteLast n ps).map (Post.renamed f) := by
  induction ps with
  | nil => rfl
  | cons p ps ih =>
    cases ps with
    | nil => rfl
    | cons q r => simp only [List.map_cons, Xact.noteLast] at ih ⊢; rw [ih]

theorem addNote_renamed (n : Str) (x : Xact) : (x.renamed f).addNote n = (x.addNote n).renamed f := by
  unfold Xact.addNote
  simp only [Xact.renamed, List.map_eq_nil_iff]
  split
  · rfl
  · rw [noteLast_renamed]

theorem bookNotes_renamed (i : Nat) (ts : List Str) (j : Journal) :
    bookNotes i ts (j.renamed f) = (bookNotes i ts j).renamed f := by
  induction ts generalizing j with
  | nil => rfl
  | cons t ts ih =>
    rw [bookNotes, bookNotes, ← ih]
    congr 1
    split
    · rfl
    · exact updateXact_renamed j i (fun x => addNote_renamed t x)

theorem bookEntries_renamed (h : Renaming f) (i : Nat) (es : List Entry) (j : Journal) :
    bookEntries i (es.map (Entry.renamed f)) (j.renamed f) = (bookEntries i es j).map (Journal.renamed f) := by
  induction es generalizing j with
  | nil => rfl
  | cons e es ih =>
    have ec : (e.renamed f).comments = e.comments := rfl
    simp only [List.map_cons, bookEntries, book_renamed h, bind, Except.bind]
    cases e.book i j with
    | error _ => rfl
    | ok j1 =>
      simp only [Except.map, ec, bookNotes_renamed]
      exact ih _

theorem enter_renamed (h : Renaming f) (w : Writing) (j : Journal) :
    (w.renamed f).enter (j.renamed f) = (w.enter j).map (Journal.renamed f) := by
  have e : ∀ x : Xact, x.posts = [] → ((j.renamed f).addXact x) = ((j.addXact x).1.renamed f, (j.addXact x).2) := by
    intro x hx
    have : x.renamed f = x := by cases x; simp only at hx; subst hx; rfl
    simp only [Journal.addXact, Journal.renamed, List.length_map, List.map_append, List.map_cons, List.map_nil, this]
  unfold Writing.enter
  simp only [Writing.renamed]
  rw [e _ rfl]
  simp only [bookNotes_renamed]
  exact bookEntries_renamed h _ _ _

theorem finalizeXact_renamed (h : Renaming f) (i : Nat) (j : Journal) :
    Parser.finalizeXact i (j.renamed f) = (Parser.finalizeXact i j).map (Journal.renamed f) := by
  unfold Parser.finalizeXact
  have e : (j.renamed f).xacts[i]? = (j.xacts[i]?).map (Xact.renamed f) := by simp [Journal.renamed]
  have ep : (j.renamed f).pool = j.pool.renamed f := rfl
  rw [e]
  cases j.xacts[i]? with
  | none => rfl
  | some x =>
    simp only [Option.map_some, ep, finalize_renamed h, bind, Except.bind]
    cases Finalize.finalize x j.pool with
    | error _ => rfl
    | ok r =>
      simp only [Except.map, Except.ok.injEq]
      simp only [Journal.renamed, List.map_set]

theorem Trace.bind_res' {α β : Type} (m : Trace.Traced α) (k : α → Trace.Traced β) :
    (m >>= k).res = m.res.bind (fun a => (k a).res) := by
  cases hm : m.res with
  | error e => rw [Trace.bind_error hm]; rfl
  | ok a => rw [Trace.bind_ok hm]; rfl

theorem bookWritings_renamed (h : Renaming f) (ws : List Writing) (j : Journal) :
    (bookWritings (ws.map (Writing.renamed f)) (j.renamed f)).res = (bookWritings ws j).res.map (Journal.renamed f) := by
  induction ws generalizing j with
  | nil => rfl
  | cons w ws ih =>
    have el : (j.renamed f).xacts.length = j.xacts.length := by simp [Journal.renamed]
    have eb : ((w.renamed f).book (j.renamed f)).res = (w.book j).res.map (Journal.renamed f) := by
      unfold Writing.book
      rw [Trace.bind_res', Trace.bind_res', Trace.lift, Trace.lift, el]
      simp only [enter_renamed h]
      cases w.enter j with
      | error _ => rfl
      | ok j1 =>
        simp only [Except.map, Except.bind, Trace.finalizeXact_res]
        exact finalizeXact_renamed h _ _
    rw [List.map_cons, bookWritings, bookWritings, Trace.bind_res', Trace.bind_res', eb]
    cases (w.book j).res with
    | error _ => rfl
    | ok j1 => exact ih j1

/-! ### the totals -/

theorem postAt_renamed (j : Journal) (r : PostRef) : (j.renamed f).postAt r = (j.postAt r).map (Post.renamed f) := by
  simp only [Journal.postAt, Journal.renamed, List.getElem?_map]
  cases j.xacts[r.1]? with
  | none => rfl
  | some x => simp [Xact.renamed]

theorem amountGo_renamed (h : Renaming f) (j : Journal) (rs : List PostRef) (b : Balance) :
    (j.renamed f).amountGo rs (b.renamed f) = (j.amountGo rs b).map (Balance.renamed f) := by
  induction rs generalizing b with
  | nil => rfl
  | cons r rs ih =>
    simp only [Journal.amountGo, postAt_renamed]
    cases j.postAt r with
    | none => rfl
    | some p =>
      obtain ⟨acc, am, co, no⟩ := p
      cases am with
      | none => exact ih b
      | some a =>
        simp only [Option.map_some, Post.renamed, Balance.add_renamed h, bind, Except.bind]
        cases b.add a with
        | error _ => rfl
        | ok b' => exact ih b'

theorem insertByKey_values {α β : Type} (g : α → β) (x : Str × α) (l : List (Str × α)) :
    insertByKey (x.1, g x.2) (l.map (fun r => (r.1, g r.2))) = (insertByKey x l).map (fun r => (r.1, g r.2)) := by
  induction l with
  | nil => rfl
  | cons y ys ih =>
    simp only [List.map_cons, insertByKey]
    split
    · rfl
    · rw [ih]; rfl

theorem sortByKey_values {α β : Type} (g : α → β) (l : List (Str × α)) :
    sortByKey (l.map (fun r => (r.1, g r.2))) = (sortByKey l).map (fun r => (r.1, g r.2)) := by
  induction l with
  | nil => rfl
  | cons x xs ih => rw [List.map_cons, sortByKey, ih, sortByKey]; exact insertByKey_values g x _

theorem totalGo_renamed (h : Renaming f) (rs : List (Str × Res Balance)) (b : Balance) :
    Journal.totalGo (rs.map (fun r => (r.1, r.2.map (Balance.renamed f)))) (b.renamed f) =
      (Journal.totalGo rs b).map (Balance.renamed f) := by
  induction rs generalizing b with
  | nil => rfl
  | cons r rs ih =>
    obtain ⟨n, r⟩ := r
    simp only [List.map_cons, Journal.totalGo, bind, Except.bind]
    cases r with
    | error _ => rfl
    | ok s =>
      simp only [Except.map, Balance.addBalance_renamed h]
      cases b.addBalance s with
      | error _ => rfl
      | ok b' => exact ih b'

theorem accountTotal_renamed (h : Renaming f) (j : Journal) (a : Account) :
    (j.renamed f).accountTotal a = (j.accountTotal a).map (Balance.renamed f) := by
  induction a using Account.ind with
  | h n ps cs ih =>
    rw [accountTotal_mk, accountTotal_mk]
    have e : cs.map (fun c => (c.name, (j.renamed f).accountTotal c)) =
        (cs.map (fun c => (c.name, j.accountTotal c))).map (fun r => (r.1, r.2.map (Balance.renamed f))) := by
      rw [List.map_map]
      exact List.map_congr_left fun c hc => by simp [ih c hc]
    rw [e, sortByKey_values (Except.map (Balance.renamed f))]
    have e2 := totalGo_renamed h (sortByKey (cs.map (fun c => (c.name, j.accountTotal c)))) Balance.empty
    have e3 := amountGo_renamed h j ps Balance.empty
    rw [show Balance.empty.renamed f = Balance.empty from rfl] at e2 e3
    rw [e2, e3]
    simp only [bind, Except.bind]
    cases Journal.totalGo (sortByKey (cs.map (fun c => (c.name, j.accountTotal c)))) Balance.empty with
    | error _ => rfl
    | ok b =>
      simp only [Except.map]
      cases j.amountGo ps Balance.empty with
      | error _ => rfl
      | ok o => exact Balance.addBalance_renamed h b o

end Ledger
