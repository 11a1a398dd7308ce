import Verif.Props.Conformance
import Verif.Props.Journal
import Verif.Lemmas.LineOrder
/-
C73: the account balances of `get_account_balances`.
-/
namespace Ledger
open Report

theorem addPosts_eq (ps : List Post) (b : Balance) (h : ∀ p ∈ ps, p.amount ≠ none) :
    addPosts ps b = b.addAll (ps.filterMap (·.amount)) := by
  induction ps generalizing b with
  | nil => rfl
  | cons p ps ih =>
    have hp := h p (by simp)
    cases ha : p.amount with
    | none => exact absurd ha hp
    | some a =>
      rw [List.filterMap_cons, ha]
      simp only [addPosts, ha, Balance.addAll]
      cases hx : b.add a with
      | error e => rfl
      | ok b' => exact ih b' (fun q hq => h q (List.mem_cons_of_mem _ hq))

theorem balancesGo_iff (j : Journal) (ps : List Path) (rs : List (Str × Balance)) :
    balancesGo j ps = .ok rs ↔ List.Forall₂ (fun p r => r.1 = Account.fullname p ∧
      addPosts (j.allPosts.filter (fun q => q.account = p)) Balance.empty = .ok r.2) ps rs := by
  induction ps generalizing rs with
  | nil =>
    simp only [balancesGo, Except.ok.injEq, List.forall₂_nil_left_iff]
    exact eq_comm
  | cons p ps ih =>
    rw [List.forall₂_cons_left_iff]
    simp only [balancesGo]
    cases hb : addPosts (j.allPosts.filter (fun q => q.account = p)) Balance.empty with
    | error e =>
      constructor
      · intro h; cases h
      · rintro ⟨r, rs', ⟨_, h⟩, _⟩; cases h
    | ok b =>
      cases hr : balancesGo j ps with
      | error e =>
        constructor
        · intro h; cases h
        · rintro ⟨r, rs', _, h, _⟩
          rw [(ih rs').mpr h] at hr; cases hr
      | ok l =>
        simp only [bind, Except.bind, Except.ok.injEq]
        constructor
        · rintro rfl
          exact ⟨_, _, ⟨rfl, rfl⟩, (ih l).mp hr, rfl⟩
        · rintro ⟨⟨n, b'⟩, rs', ⟨rfl, h1⟩, h2, rfl⟩
          rw [(ih rs').mpr h2] at hr
          injection hr with hr
          simp only at h1
          rw [h1, hr]

/-- **C73** For every journal a program can have, the balances found by searching the postings of every account are
those the accounts report themselves: the list has one entry for each account, in the order of the tree, with its full
name and exactly the result of `Account::amount`; it cannot be computed exactly if one of those cannot be computed. -/
theorem C73_balances_agree {j : Journal} (h : j.Reachable) (rs : List (Str × Balance)) :
    accountBalances j = .ok rs ↔
      List.Forall₂ (fun x r => r.1 = Account.fullname x.1 ∧
        ∃ a, j.master.at? x.1 = some a ∧ j.accountAmount a = .ok r.2) j.master.flatten rs := by
  have hb := h.booked
  have hc := (C33_journal_complete h).1
  unfold accountBalances
  rw [balancesGo_iff, List.forall₂_map_left_iff]
  have key : ∀ x ∈ j.master.flatten, ∀ r : Str × Balance,
      (addPosts (j.allPosts.filter (fun q => q.account = x.1)) Balance.empty = .ok r.2 ↔
        ∃ a, j.master.at? x.1 = some a ∧ j.accountAmount a = .ok r.2) := by
    intro x hx r
    obtain ⟨a, ha, _⟩ := (Account.mem_flatten hb.wf x.1 x.2).mp hx
    obtain ⟨hv, he⟩ := hb.ownAmounts ha
    have e : j.accountAmount a = addPosts (j.allPosts.filter (fun q => q.account = x.1)) Balance.empty := by
      unfold Journal.accountAmount
      rw [amountGo_eq _ _ _ hv, he, addPosts_eq _ _ (fun p hp => hc p (List.mem_of_mem_filter hp))]
      rfl
    rw [← e]
    constructor
    · intro hh; exact ⟨a, ha, hh⟩
    · rintro ⟨a', ha', hh⟩
      rw [ha] at ha'; injection ha' with ha'; rwa [ha']
  rw [List.forall₂_iff_zip, List.forall₂_iff_zip]
  refine and_congr_right fun _ => ?_
  constructor
  · intro hh x r hm
    obtain ⟨h1, h2⟩ := hh hm
    exact ⟨h1, (key x (List.of_mem_zip hm).1 r).mp h2⟩
  · intro hh x r hm
    obtain ⟨h1, h2⟩ := hh hm
    exact ⟨h1, (key x (List.of_mem_zip hm).1 r).mpr h2⟩

/-- C73: if the amounts are in range the balances are computed, and each is, for every commodity, the sum of the
postings that name the account. -/
theorem C73_balances_sums {j : Journal} (h : j.Reachable) (hr : InRange (allAmounts j)) :
    ∃ t : Path → Balance,
      (∀ p, j.master.Has p → (∀ c, (t p).totalIn c = sumIn c (amountsAt j p)) ∧ (t p).OneEach) ∧
      accountBalances j = .ok (j.master.flatten.map (fun x => (Account.fullname x.1, t x.1))) := by
  have hc := (C33_journal_complete h).1
  have key : ∀ p, ∃ b, addPosts (j.allPosts.filter (fun q => q.account = p)) Balance.empty = .ok b ∧
      (∀ c, b.totalIn c = sumIn c (amountsAt j p)) ∧ b.OneEach := by
    intro p
    have hsub : ∃ rest, (allAmounts j).Perm (amountsAt j p ++ rest) := by
      refine ⟨(j.allPosts.filter (fun q => !(q.account = p))).filterMap (·.amount), ?_⟩
      unfold allAmounts amountsAt
      rw [← List.filterMap_append]
      exact (List.filter_append_perm _ j.allPosts).symm.filterMap _
    obtain ⟨rest, hrest⟩ := hsub
    have hi := inRange_append_left (inRange_perm hrest hr)
    rw [addPosts_eq _ _ (fun p hp => hc p (List.mem_of_mem_filter hp))]
    obtain ⟨b, h1, h2, h3, _⟩ := C07_balance_is_sum (amountsAt j p) hi
    exact ⟨b, h1, h2, h3⟩
  choose t ht using key
  refine ⟨t, fun p _ => ⟨(ht p).2.1, (ht p).2.2⟩, ?_⟩
  unfold accountBalances
  rw [balancesGo_iff, List.forall₂_map_left_iff, List.forall₂_map_right_iff]
  exact List.forall₂_same.mpr (fun x _ => ⟨rfl, (ht x.1).1⟩)

example : accountBalances readExample = .ok [([], ⟨[]⟩), (str "Assets", ⟨[]⟩), (str "Assets:Bank", ⟨[]⟩),
      (str "Assets:Bank:Giro", ⟨[⟨⟨true, 50, 0⟩, some (str "EUR")⟩]⟩),
      (str "Assets:Broker", ⟨[⟨⟨false, 10, 0⟩, some (str "VEUR")⟩]⟩),
      (str "Assets:Cash", ⟨[⟨⟨true, 20, 0⟩, some (str "EUR")⟩]⟩), (str "Expenses", ⟨[]⟩),
      (str "Expenses:Food", ⟨[⟨⟨false, 20, 0⟩, some (str "EUR")⟩]⟩)] := by decide +kernel

end Ledger
