import Verif.Props.Finalize
import Verif.Props.Journal
import Verif.Lemmas.LineOrder
/-
C83: the order of the commodities on a report line.
-/
namespace Ledger

/-- C83: whenever the total of an account can be computed, its entries are in the order in which their commodities occur
first in the postings, where the accounts below come before the account and siblings by name. -/
theorem C83_total_order {j : Journal} (h : j.Reachable) {p : Path} {a : Account} (ha : j.master.at? p = some a)
    {b : Balance} (hb : j.accountTotal a = .ok b) :
    ∃ l, ParentsLast j p l ∧ b.amounts.map (·.comm) = firsts ((l.flatMap (amountsAt j)).map (·.comm)) := by
  have hk := h.booked
  have hw := Account.at?_wf hk.wf ha
  refine ⟨a.upward.map (fun q => p ++ q), ⟨?_, ?_⟩, ?_⟩
  · intro q
    rw [List.mem_map]
    constructor
    · rintro ⟨r, hr, rfl⟩
      refine ⟨?_, List.prefix_append _ _⟩
      have := (Account.mem_upward hw r).mp hr
      unfold Account.Has at this ⊢
      rw [Account.at?_append, ha]; exact this
    · rintro ⟨hh, r, rfl⟩
      refine ⟨r, (Account.mem_upward hw r).mpr ?_, rfl⟩
      unfold Account.Has at hh ⊢
      rw [Account.at?_append, ha] at hh; exact hh
  · rw [List.pairwise_map]
    refine (Account.upward_sorted hw).imp ?_
    intro x y hxy
    clear ha
    induction p with
    | nil => exact hxy
    | cons m p ih => exact Or.inr ⟨rfl, ih⟩
  · rw [accountTotal_comms j hw (hk.amounts ha).1 hb]
    unfold Account.commsUp
    rw [List.flatMap_map, List.map_flatMap]
    congr 1
    refine List.flatMap_congr fun q hq => ?_
    have hh := (Account.mem_upward hw q).mp hq
    obtain ⟨c, hc⟩ := Option.isSome_iff_exists.mp hh
    have h1 : a.postsAt q = some c.posts := by unfold Account.postsAt; rw [hc]; rfl
    have h2 : j.master.at? (p ++ q) = some c := by rw [Account.at?_append, ha, Option.bind_some, hc]
    rw [h1, Option.getD_some, (hk.ownAmounts h2).2]

/-- C83: the balance report lists on each line the commodities in this order, each with the sum of the postings. -/
theorem C83_report_order {j : Journal} (h : j.Reachable) (hr : InRange (allAmounts j)) :
    ∃ t : Path → Balance,
      Report.balanceReport j = .ok (j.master.flatten.map (fun x => lineText (Account.fullname x.1) (t x.1))) ∧
      ∀ p, j.master.Has p → (∀ c, (t p).totalIn c = sumIn c (amountsBelow j p)) ∧
        ∃ l, ParentsLast j p l ∧ (t p).amounts.map (·.comm) = firsts ((l.flatMap (amountsAt j)).map (·.comm)) := by
  obtain ⟨t, h1, ht⟩ := journal_totals h hr
  refine ⟨t, C26_balance_report_sound j h.booked.wf t ht, fun p hp => ⟨(h1 p hp).1, ?_⟩⟩
  obtain ⟨a, ha⟩ := Option.isSome_iff_exists.mp hp
  exact C83_total_order h ha (ht p a ha)

/-- C83: there is only one such list of accounts. -/
theorem C83_order_unique {j : Journal} {p : Path} {l l' : List Path} (h : ParentsLast j p l) (h' : ParentsLast j p l') :
    l = l' := by
  apply sorted_unique (r := ParentLast) parentLast_irrefl ?_ _ _ h.order h'.order
  · intro q; rw [h.mem, h'.mem]
  · intro a b c
    induction a generalizing b c with
    | nil => exact fun h => h.elim
    | cons m a ih =>
      intro h1 h2
      cases b with
      | nil => exact h2.elim
      | cons n b =>
        cases c with
        | nil => trivial
        | cons o c =>
          rcases h1 with h1 | ⟨rfl, h1⟩ <;> rcases h2 with h2 | ⟨rfl, h2⟩
          · exact Or.inl (strBefore_trans h1 h2)
          · exact Or.inl h1
          · exact Or.inl h2
          · exact Or.inr ⟨rfl, ih _ _ h1 h2⟩

/-- The account below comes first although the journal names it last. -/
example : ∃ j, parsed "2023-05-01 x\n A  1 EUR\n A  -1 EUR\n\n2023-05-02 y\n A:B  2 USD\n C  -2 USD\n" = .ok j ∧
    Report.balanceReport j = .ok [str "Account  has balance 0 USD0 EUR", str "Account A has balance 2 USD0 EUR",
      str "Account A:B has balance 2 USD", str "Account C has balance -2 USD"] ∧
    (([[str "A", str "B"], [str "A"]] : List Path).flatMap (amountsAt j)).map (·.comm) =
      [some (str "USD"), some (str "EUR"), some (str "EUR")] := ok_and (by decide +kernel)

example : firsts [some (str "USD"), some (str "EUR"), some (str "USD")] = [some (str "USD"), some (str "EUR")] ∧
    ParentLast [str "A", str "B"] [str "A"] ∧ ParentLast [str "A"] [str "C"] := by
  refine ⟨by decide, Or.inr ⟨rfl, trivial⟩, Or.inl (List.Lex.rel (by decide))⟩

end Ledger
