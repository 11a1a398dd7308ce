import Verif.Lemmas.Finalize
import Verif.Props.Balance
/-
Accepted transactions.
-/
namespace Ledger
open Finalize

theorem modify_mid {α : Type} (l r : List α) (p : α) (f : α → α) : (l ++ p :: r).modify l.length f = l ++ f p :: r := by
  induction l with
  | nil => rfl
  | cons q l ih => rw [List.cons_append, List.length_cons, List.modify_succ_cons, ih, List.cons_append]

theorem bookedAmounts_append (l r : List Post) : bookedAmounts (l ++ r) = bookedAmounts l ++ bookedAmounts r :=
  List.filterMap_append

theorem bookedAmounts_blank (l r : List Post) (p : Post) (hp : p.Blank) :
    bookedAmounts (l ++ p :: r) = bookedAmounts (l ++ r) := by
  rw [bookedAmounts_append, bookedAmounts_append]
  congr 1
  exact List.filterMap_cons_none hp

theorem bookedAmounts_some (l r : List Post) (p : Post) (a : Amount) (hp : p.booked = some a) :
    bookedAmounts (l ++ p :: r) = bookedAmounts l ++ a :: bookedAmounts r := by
  rw [bookedAmounts_append]
  congr 1
  exact List.filterMap_cons_some hp

theorem blank_fields {p : Post} (h : p.Blank) : p.cost = none ∧ p.amount = none := by
  unfold Post.Blank Post.booked at h
  cases hc : p.cost with
  | some c => rw [hc] at h; simp at h
  | none => rw [hc] at h; exact ⟨rfl, h⟩

theorem pricesOf_append_iff {date : Option Date} (l : List Post) {p p' : Post} (r : List Post) (rs : List Recording)
    (hp : p.cost = none) (hp' : p'.cost = none) (h : PricesOf date (l ++ p :: r) rs) :
    PricesOf date (l ++ p' :: r) rs := by
  induction l generalizing rs with
  | nil =>
    rw [List.nil_append] at h ⊢
    cases h with
    | noCost hc h => exact .noCost hp' h
    | zero ha hc hne hq h0 h => rw [hp] at hc; cases hc
    | price ha hc hA hB hne hd hq h0 h => rw [hp] at hc; cases hc
  | cons q l ih =>
    rw [List.cons_append] at h ⊢
    cases h with
    | noCost hc h => exact .noCost hc (ih _ h)
    | zero ha hc hne hq h0 h => exact .zero ha hc hne hq h0 (ih _ h)
    | price ha hc hA hB hne hd hq h0 h => exact .price ha hc hA hB hne hd hq h0 (ih _ h)

/-- An accepted transaction with a blank posting. -/
theorem finalize_blank (x x' : Xact) (pool pool' : Pool) (h : finalize x pool = .ok (x', pool'))
    (hb : ∃ p ∈ x.posts, p.Blank) :
    ∃ l p r a, x.posts = l ++ p :: r ∧ p.Blank ∧ (∀ q ∈ l ++ r, ¬ q.Blank) ∧
      Balance.empty.addAll (bookedAmounts (l ++ r)) = .ok ⟨[a]⟩ ∧
      x' = { x with posts := l ++ { p with amount := some a.inverse } :: r } ∧
      recordPrices x.date x.posts pool = .ok (x.posts, pool') := by
  obtain ⟨b, np, ps1, b1, ps2, h1, _, h3, h4, h5, h6⟩ := finalize_ok _ _ _ _ h
  obtain ⟨s1, _, s3⟩ := sumPosts_ok _ _ _ _ _ _ h1
  rcases s3 rfl with ⟨g, _⟩ | ⟨l, p, r, e1, e2, e3, e4⟩
  · obtain ⟨p, hp, hb⟩ := hb
    exact absurd hb (g p hp)
  · rw [Nat.zero_add] at e4
    subst e4
    have h3' : ps1 = x.posts ∧ b1 = b := by
      rcases impliedCosts_ok _ _ _ _ _ h3 with h | ⟨h, _⟩
      · exact h
      · cases h
    obtain ⟨rfl, rfl⟩ := h3'
    unfold fillNull at h5
    simp only at h5
    obtain ⟨am⟩ := b1
    simp only at h5
    cases am with
    | nil => simp at h5
    | cons a am =>
      cases am with
      | cons _ _ => simp at h5
      | nil =>
        simp only [Except.ok.injEq] at h5
        rw [e1, modify_mid] at h5
        refine ⟨l, p, r, a, e1, e2, e3, ?_, ?_, h4⟩
        · rw [← bookedAmounts_blank l r p e2, ← e1]; exact s1
        · rw [h6, h5]

/-- An accepted transaction without blank posting. -/
theorem finalize_full (x x' : Xact) (pool pool' : Pool) (h : finalize x pool = .ok (x', pool'))
    (hb : ∀ p ∈ x.posts, ¬ p.Blank) :
    ∃ b b1, Balance.empty.addAll (bookedAmounts x.posts) = .ok b ∧ x.posts.length ≠ 1 ∧
      impliedCosts x.posts b none = .ok (x'.posts, b1) ∧ x' = { x with posts := x'.posts } ∧
      recordPrices x.date x'.posts pool = .ok (x'.posts, pool') := by
  obtain ⟨b, np, ps1, b1, ps2, h1, h2, h3, h4, h5, h6⟩ := finalize_ok _ _ _ _ h
  obtain ⟨s1, _, s3⟩ := sumPosts_ok _ _ _ _ _ _ h1
  rcases s3 rfl with ⟨_, g⟩ | ⟨l, p, r, e1, e2, _, _⟩
  · subst g
    unfold fillNull at h5
    simp only [Except.ok.injEq] at h5
    subst h5
    subst h6
    exact ⟨b, b1, s1, h2, h3, rfl, h4⟩
  · exact absurd e2 (hb p (by rw [e1]; simp))

theorem finalize_cases (x x' : Xact) (pool pool' : Pool) (h : finalize x pool = .ok (x', pool')) :
    x.posts.length ≠ 1 := by
  obtain ⟨_, _, _, _, _, _, h2, _⟩ := finalize_ok _ _ _ _ h
  exact h2

/-- The assignment of costs keeps everything but the costs. -/
theorem costAssigned_keep {comm : Option Str} {u : Amount} {p p' : Post} (h : CostAssigned comm u p p') :
    p'.account = p.account ∧ p'.note = p.note ∧ p'.amount = p.amount ∧ p.amount ≠ none := by
  obtain ⟨amt, h1, ⟨_, c, _, rfl⟩ | ⟨_, rfl⟩⟩ := h
  · exact ⟨rfl, rfl, rfl, by rw [h1]; simp⟩
  · exact ⟨rfl, rfl, rfl, by rw [h1]; simp⟩

theorem impliedCosts_keep (ps ps' : List Post) (b b' : Balance) (np : Option Nat)
    (h : impliedCosts ps b np = .ok (ps', b')) :
    List.Forall₂ (fun p p' => p'.account = p.account ∧ p'.note = p.note ∧ p'.amount = p.amount ∧
      (p'.cost = none → p.cost = none)) ps ps' := by
  rcases impliedCosts_ok _ _ _ _ _ h with ⟨rfl, _⟩ | ⟨_, x, y, top, a, u, _, _, _, _, _, hc⟩
  · induction ps' with
    | nil => exact .nil
    | cons p ps ih => exact .cons ⟨rfl, rfl, rfl, id⟩ (List.forall₂_same.mpr fun p _ => ⟨rfl, rfl, rfl, id⟩)
  · have key : ∀ c, List.Forall₂ (CostAssigned c u.abs) ps ps' →
        List.Forall₂ (fun p p' => p'.account = p.account ∧ p'.note = p.note ∧ p'.amount = p.amount ∧
          (p'.cost = none → p.cost = none)) ps ps' := by
      intro c hf
      refine hf.imp ?_
      rintro p p' ⟨amt, h1, ⟨_, c, _, rfl⟩ | ⟨_, rfl⟩⟩
      · exact ⟨rfl, rfl, rfl, by simp⟩
      · exact ⟨rfl, rfl, rfl, id⟩
    rcases hc with ⟨_, _, hf⟩ | ⟨_, _, hf⟩
    · exact key _ hf
    · exact key _ hf

theorem forall2_mid {α : Type} {R : α → α → Prop} (l r : List α) (p p' : α) (hrefl : ∀ q, R q q) (h : R p p') :
    List.Forall₂ R (l ++ p :: r) (l ++ p' :: r) := by
  induction l with
  | nil => exact .cons h (List.forall₂_same.mpr fun q _ => hrefl q)
  | cons q l ih => exact .cons (hrefl q) ih

/-- Totals of an exact sum: two entries. -/
theorem twoEntries (as : List Amount) (b : Balance) (hr : InRange as) (h : Balance.empty.addAll as = .ok b) :
    (∀ c, b.totalIn c = sumIn c as) ∧ b.OneEach ∧ (∀ c, c ∈ b.amounts.map (·.comm) ↔ c ∈ as.map (·.comm)) ∧
    ∀ a ∈ b.amounts, a.qty.val = sumIn a.comm as := by
  obtain ⟨b', h1, h2, h3, h4⟩ := C07_balance_is_sum as hr
  rw [h] at h1; injection h1 with h1; subst h1
  exact ⟨h2, h3, h4, fun a ha => by rw [C07_entry_is_total b h3 a ha, h2]⟩

theorem inRange_cases {as : List Amount} (h : InRange as) : ∀ a ∈ as, a.qty.Valid := by
  obtain ⟨S, _, h1, _⟩ := h
  exact fun a ha => (h1 a ha).1

end Ledger
