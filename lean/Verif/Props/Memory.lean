import Verif.Lemmas.Memory
import Verif.Props.Journal
import Verif.Props.Parser
/-
C62 to C64, C68: pointers kept by the journal, and commodities compared by value and by pointer.
-/
namespace Ledger
open Ledger.Parser Ledger.Memory

theorem mem_bookings {xs : List Xact} {b : PostRef × Path} (h : b ∈ bookings xs) :
    ∃ x post, xs[b.1.1]? = some x ∧ x.posts[b.1.2]? = some post ∧ post.account = b.2 := by
  obtain ⟨⟨x, i⟩, hx, hb⟩ := List.mem_flatMap.mp h
  obtain ⟨⟨post, k⟩, hp, rfl⟩ := List.mem_map.mp hb
  rw [List.mem_zipIdx_iff_getElem?] at hx hp
  exact ⟨x, post, hx, hp, rfl⟩

/-! ### C62 -/

/-- An allocator that moves whatever has to grow. -/
def moving : Nat → Bool := fun _ => false

/-- C62 is violated: after five postings the account of the first one refers to memory where no posting is any more. -/
theorem C62_references_violated :
    ∃ j, parsed "2023-05-01 x\n A  1 EUR\n B  1 EUR\n C  1 EUR\n D  1 EUR\n E\n" = .ok j ∧
      j.master.postsAt [str "A"] = some [(0, 0)] ∧ j.xacts.length = 1 ∧
      ∀ k < 5, postAddr moving j (0, k) ≠ some (storedPost moving (0, 0)) ∧ (postAddr moving j (0, k)).isSome :=
  ok_and (by decide +kernel)

/-- In general: once the postings of a transaction have been moved, the reference to an earlier posting refers to none of
them. -/
theorem C62_moved_violated (stays : Nat → Bool) (j : Journal) (i k : Nat) (x : Xact) (hx : j.xacts[i]? = some x)
    (hs : stays (room vecNext (k + 1)) = false) (hk : room vecNext (k + 1) < x.posts.length) (k' : Nat) :
    postAddr stays j (i, k') ≠ some (storedPost stays (i, k)) := by
  intro h
  simp only [postAddr, hx] at h
  split at h
  · have := block_grows vecNext_gt (stays := stays) (n := k + 1) hk hs
    simp only [storedPost, Option.some.injEq, Addr.mk.injEq] at h
    omega
  · cases h

example : ((List.range 9).map (fun k => room vecNext (k + 1))) = [4, 4, 4, 4, 8, 8, 8, 8, 16] := by decide

/-- C62 while the postings fit into the first allocation that held them, in particular for transactions of at most four
postings: every posting reference kept by an account is the address of that posting, whatever the allocator does.
Missing: transactions with more postings, for which the claim is false. -/
theorem C62_references_partial (stays : Nat → Bool) {j : Journal} (hj : Journal.Reachable j) {p : Path} {ps : List PostRef}
    (hp : j.master.postsAt p = some ps) {r : PostRef} (hr : r ∈ ps) :
    ∃ x post, j.xacts[r.1]? = some x ∧ x.posts[r.2]? = some post ∧ post.account = p ∧
      (x.posts.length ≤ room vecNext (r.2 + 1) → postAddr stays j r = some (storedPost stays r)) ∧
      (x.posts.length ≤ 4 → postAddr stays j r = some (storedPost stays r)) := by
  have hb := hj.booked
  rw [hb.lists p ps hp] at hr
  obtain ⟨b, hb1, rfl⟩ := List.mem_map.mp hr
  rw [List.mem_filter] at hb1
  obtain ⟨hm, he⟩ := hb1
  obtain ⟨x, post, h1, h2, h3⟩ := mem_bookings hm
  have hlt : b.1.2 < x.posts.length := (List.getElem?_eq_some_iff.mp h2).1
  have key : x.posts.length ≤ room vecNext (b.1.2 + 1) → postAddr stays j b.1 = some (storedPost stays b.1) := by
    intro hle
    simp only [postAddr, h1, if_pos hlt, storedPost]
    rw [(room_block_fits (stays := stays) (n := b.1.2 + 1) (m := x.posts.length) hlt hle).2]
  refine ⟨x, post, h1, h2, by rw [h3]; simpa using he, key, fun h4 => key ?_⟩
  refine Nat.le_trans h4 ?_
  have : room vecNext 1 ≤ room vecNext (b.1.2 + 1) := room_mono vecNext_gt (by omega)
  exact this

/-! ### C63 -/

/-- C63 is violated for commodities: with the fourth commodity the table moves, and the commodity of the first amount is
not where it was when the amount was made; nothing else is there. -/
theorem C63_commodities_violated {p p' : Pool} (h : p.Later p') {s : Str} {a : Addr} (ha : commodityAddr p s = some a)
    (hg : room tableNext p.len < p'.len) : (p'.find s).isSome ∧ ∀ s', commodityAddr p' s' ≠ some a := by
  have hp := poolLater_keys h
  refine ⟨?_, fun s' => tableAddr_gone (ks := p.commodities.map (fun x : Str × Commodity => x.1)) ha (by simpa [Pool.len] using hg) s'⟩
  have : s ∈ p.commodities.map (·.1) := by
    unfold commodityAddr tableAddr at ha
    split at ha
    · assumption
    · cases ha
  have := hp.subset this
  cases hf : p'.find s with
  | some c => rfl
  | none => exact absurd this ((assocGet_none_iff s _).mp hf)

/-- A journal in which this happens: the euros of the first transaction. -/
theorem C63_commodities_text_violated :
    ∃ j j', parsed "2023-05-01 x\n A  1 EUR\n B\n" = .ok j ∧
      parsed "2023-05-01 x\n A  1 EUR\n B\n\n2023-05-02 y\n A  1 USD\n B\n\n2023-05-02 y\n A  1 GBP\n B\n\n2023-05-02 y\n A  1 CHF\n B\n" = .ok j' ∧
      (∃ a, commodityAddr j.pool (str "EUR") = some a ∧
        ∀ s ∈ j'.pool.commodities.map (fun c : Str × Commodity => c.1), commodityAddr j'.pool s ≠ some a) := by
  obtain ⟨j, h1, h2⟩ : ∃ j, parsed "2023-05-01 x\n A  1 EUR\n B\n" = .ok j ∧
      commodityAddr j.pool (str "EUR") = some ⟨1, 0⟩ := ok_and (by decide +kernel)
  obtain ⟨j', h3, h4⟩ : ∃ j', parsed "2023-05-01 x\n A  1 EUR\n B\n\n2023-05-02 y\n A  1 USD\n B\n\n2023-05-02 y\n A  1 GBP\n B\n\n2023-05-02 y\n A  1 CHF\n B\n" = .ok j' ∧
      ∀ s ∈ j'.pool.commodities.map (fun c : Str × Commodity => c.1), commodityAddr j'.pool s ≠ some ⟨1, 0⟩ := ok_and (by decide +kernel)
  exact ⟨j, j', h1, h3, _, h2, h4⟩

/-- It happens within one transaction: when the fourth posting has been read, and the transaction is about to be
finalised, the commodity of the first amount has moved. -/
theorem C63_transaction_violated :
    ∃ j1 j4, parsePost (str "A  1 EUR") 0 { Journal.new with xacts := [⟨none, none, str "p", [], none⟩] } = .ok j1 ∧
      (do let j ← parsePost (str "B  1 USD") 0 j1
          let j ← parsePost (str "C  1 GBP") 0 j
          parsePost (str "D  1 CHF") 0 j) = .ok j4 ∧
      (∃ a, commodityAddr j1.pool (str "EUR") = some a ∧
        ∀ s ∈ j4.pool.commodities.map (fun c : Str × Commodity => c.1), commodityAddr j4.pool s ≠ some a) := by
  obtain ⟨j1, h1, h2, h3⟩ : ∃ j1, parsePost (str "A  1 EUR") 0 { Journal.new with xacts := [⟨none, none, str "p", [], none⟩] } = .ok j1 ∧
      commodityAddr j1.pool (str "EUR") = some ⟨1, 0⟩ ∧
      resAnd (do let j ← parsePost (str "B  1 USD") 0 j1
                 let j ← parsePost (str "C  1 GBP") 0 j
                 parsePost (str "D  1 CHF") 0 j)
        (fun j4 => ∀ s ∈ j4.pool.commodities.map (fun c : Str × Commodity => c.1), commodityAddr j4.pool s ≠ some ⟨1, 0⟩) := ok_and (by decide +kernel)
  obtain ⟨j4, h4, h5⟩ := ok_and h3
  exact ⟨j1, j4, h1, h4, _, h2, h5⟩

/-- C63 for commodities, exactly: the commodity stays where it is if and only if the table does not have to grow.
Missing: pools that outgrow their table, for which the claim is false. -/
theorem C63_commodities_partial {p p' : Pool} (h : p.Later p') {s : Str} {a : Addr} (ha : commodityAddr p s = some a) :
    commodityAddr p' s = some a ↔ p'.len ≤ room tableNext p.len := by
  have := tableAddr_later (poolLater_keys h) ha
  simpa [commodityAddr, Pool.len] using this

example : ((List.range 9).map (fun k => room tableNext (k + 1))) = [3, 3, 3, 7, 7, 7, 7, 14, 14] := by decide

/-- C63 for a journal with up to three commodities: reading anything more that keeps to three leaves all of them where
they are.  Missing: further commodities, for which the claim is false. -/
theorem C63_three_commodities_partial (files : Files) (depth : Nat) (src : Source) (j j' : Journal)
    (h : parse files depth src j = .ok j') (h3 : j'.pool.len ≤ 3) (s : Str) (a : Addr)
    (ha : commodityAddr j.pool s = some a) : commodityAddr j'.pool s = some a := by
  rw [C63_commodities_partial (parse_ok files depth src j j' h).1.pool ha]
  refine Nat.le_trans h3 ?_
  have : j.pool.len ≠ 0 := by
    intro h0
    unfold commodityAddr tableAddr at ha
    rw [List.eq_nil_of_length_eq_zero h0] at ha
    cases ha
  exact room_mono tableNext_gt (n := 1) (by omega)

/-- C63 is violated for accounts: with the fourth account below the same parent (or the master account) the table of
that parent moves, and with it all accounts in it. -/
theorem C63_accounts_violated {m m' : Account} (hw : m.WF) (h : Account.Later m m') {p : Path} {n : Str} {a : Addr}
    {c c' : Account} (hc : m.at? p = some c) (hc' : m'.at? p = some c') (ha : accountAddr m p n = some a)
    (hg : room tableNext c.children.length < c'.children.length) :
    m'.Has (p ++ [n]) ∧ ∀ n', accountAddr m' p n' ≠ some a := by
  have hns : m.namesAt p = some (c.children.map (·.name)) := by simp [Account.namesAt, hc]
  have hns' : m'.namesAt p = some (c'.children.map (·.name)) := by simp [Account.namesAt, hc']
  rw [accountAddr_eq, hns] at ha
  refine ⟨?_, fun n' => ?_⟩
  · refine Account.later_has h hw ?_
    have hn : n ∈ c.children.map (·.name) := by
      simp only [Option.bind_some, tableAddr] at ha
      split at ha
      · assumption
      · cases ha
    unfold Account.Has
    rw [Account.at?_append, hc]
    obtain ⟨cn, cp, cs⟩ := c
    simp only [Option.bind_some, Account.at?_cons]
    cases hg : Account.getChild n cs with
    | some x => simp [Account.at?_nil]
    | none =>
      obtain ⟨y, hy, rfl⟩ := List.mem_map.mp hn
      exact absurd rfl (Account.getChild_none.mp hg y hy)
  · rw [accountAddr_eq, hns']
    exact tableAddr_gone (ks := c.children.map (fun x : Account => x.name)) ha (by simpa using hg) n'

/-- A journal in which this happens: the account of the first posting. -/
theorem C63_accounts_text_violated :
    ∃ j j', parsed "2023-05-01 x\n A  1 EUR\n B\n" = .ok j ∧
      parsed "2023-05-01 x\n A  1 EUR\n B\n\n2023-05-02 y\n C  1 EUR\n D\n" = .ok j' ∧
      (∃ a, accountAddr j.master [] (str "A") = some a ∧
        ∀ c ∈ j'.master.children, accountAddr j'.master [] c.name ≠ some a) := by
  obtain ⟨j, h1, h2⟩ : ∃ j, parsed "2023-05-01 x\n A  1 EUR\n B\n" = .ok j ∧
      accountAddr j.master [] (str "A") = some ⟨1, 0⟩ := ok_and (by decide +kernel)
  obtain ⟨j', h3, h4⟩ : ∃ j', parsed "2023-05-01 x\n A  1 EUR\n B\n\n2023-05-02 y\n C  1 EUR\n D\n" = .ok j' ∧
      ∀ c ∈ j'.master.children, accountAddr j'.master [] c.name ≠ some ⟨1, 0⟩ := ok_and (by decide +kernel)
  exact ⟨j, j', h1, h3, _, h2, h4⟩

/-- C63 for accounts, exactly: an account stays where it is if and only if the table of its parent does not have to grow.
This covers the pointer of a posting to its account, and the pointer of an account to its parent (the parent being the
account at `p ++ [n]`).  Missing: parents that outgrow their table, for which the claim is false. -/
theorem C63_accounts_partial {m m' : Account} (hw : m.WF) (h : Account.Later m m') {p : Path} {n : Str} {a : Addr}
    {c : Account} (hc : m.at? p = some c) (ha : accountAddr m p n = some a) :
    ∃ c', m'.at? p = some c' ∧ (accountAddr m' p n = some a ↔ c'.children.length ≤ room tableNext c.children.length) := by
  have hns : m.namesAt p = some (c.children.map (·.name)) := by simp [Account.namesAt, hc]
  obtain ⟨ns', h1, h2⟩ := Account.later_names h hw hns
  cases hc' : m'.at? p with
  | none => simp [Account.namesAt, hc'] at h1
  | some c' =>
    refine ⟨c', rfl, ?_⟩
    have e : ns' = c'.children.map (·.name) := by simp [Account.namesAt, hc'] at h1; exact h1.symm
    rw [accountAddr_eq, hns] at ha
    rw [accountAddr_eq, h1]
    have := tableAddr_later h2 ha
    rw [e] at this ⊢
    simpa using this

/-! ### C64 -/

/-- The commodities `Commodity::new("EUR")` made twice, at the addresses 0 and 1. -/
def twoEuros : Heap := fun _ => ⟨str "EUR", none, false⟩

/-- C64 is violated: the commodities are equal, and adding panics. -/
theorem C64_equal_commodities_violated :
    PAmount.commodity twoEuros ⟨Dec.one, some 0⟩ = PAmount.commodity twoEuros ⟨Dec.one, some 1⟩ ∧
    balanceAdd twoEuros [⟨Dec.one, some 0⟩] ⟨Dec.one, some 1⟩ = .error .differentCommodities := by decide +kernel

/-- In general: it panics whenever the first entry with an equal commodity has another pointer. -/
theorem C64_other_pointer_violated (h : Heap) (pre post : List PAmount) (x a : PAmount)
    (hpre : ∀ y ∈ pre, y.commodity h ≠ a.commodity h) (hx : x.commodity h = a.commodity h) (hp : x.ptr ≠ a.ptr) :
    balanceAdd h (pre ++ x :: post) a = .error .differentCommodities := by
  induction pre with
  | nil => simp only [List.nil_append, balanceAdd, if_pos hx, PAmount.add, if_pos hp, bind, Except.bind]
  | cons y pre ih =>
    simp only [List.cons_append, balanceAdd, if_neg (hpre y (by simp))]
    rw [ih (fun z hz => hpre z (by simp [hz]))]
    rfl

/-- The amount with the symbol of its commodity in place of the pointer. -/
def Memory.PAmount.named (h : Heap) (a : PAmount) : Amount := ⟨a.qty, a.ptr.map (fun p => (h p).symbol)⟩

/-- C64 for commodities of one pool, where there is one commodity for each symbol: adding to a balance works as with
symbols in place of pointers.  Missing: commodities made outside of a pool, or in another pool, for which the claim is
false. -/
theorem C64_one_pool_partial (h : Heap) (l : List PAmount) (a : PAmount)
    (hone : ∀ x ∈ l, ∀ p q, x.ptr = some p → a.ptr = some q → (h p).symbol = (h q).symbol → p = q) :
    (balanceAdd h l a).map (·.map (PAmount.named h)) = Balance.addGo (l.map (PAmount.named h)) (a.named h) := by
  induction l with
  | nil => rfl
  | cons x xs ih =>
    have ih' := ih (fun y hy => hone y (by simp [hy]))
    have hx := hone x (by simp)
    have h1 : x.commodity h = a.commodity h ↔ x.ptr = a.ptr := by
      cases hxp : x.ptr <;> cases hap : a.ptr <;> simp only [PAmount.commodity, hxp, hap, Option.map_some, Option.map_none,
        Option.some.injEq, reduceCtorEq]
      exact ⟨fun e => hx _ _ hxp hap (by rw [e]), fun e => by rw [e]⟩
    have h2 : (x.named h).comm = (a.named h).comm ↔ x.ptr = a.ptr := by
      cases hxp : x.ptr <;> cases hap : a.ptr <;> simp only [PAmount.named, hxp, hap, Option.map_some, Option.map_none,
        Option.some.injEq, reduceCtorEq]
      exact ⟨fun e => hx _ _ hxp hap e, fun e => by rw [e]⟩
    by_cases he : x.ptr = a.ptr
    · have hl : balanceAdd h (x :: xs) a = (do let x' ← x.add a; .ok (x' :: xs)) := by
        simp only [balanceAdd, if_pos (h1.mpr he)]
      have hr : Balance.addGo (x.named h :: xs.map (PAmount.named h)) (a.named h) =
          (do let x' ← (x.named h).add (a.named h); .ok (x' :: xs.map (PAmount.named h))) := by
        simp only [Balance.addGo, if_pos (h2.mpr he)]
      have hadd : (x.add a).map (PAmount.named h) = (x.named h).add (a.named h) := by
        have e1 : (a.named h).qty = a.qty := rfl
        have e2 : (x.named h).qty = x.qty := rfl
        simp only [PAmount.add, Amount.add, he, h2.mpr he, ne_eq, not_true_eq_false, if_false, e1, e2]
        split
        · rfl
        · cases x.qty.add a.qty with
          | error e => rfl
          | ok q =>
            simp only [bind, Except.bind, Except.map, PAmount.named]
      rw [List.map_cons, hl, hr, ← hadd]
      cases x.add a <;> rfl
    · simp only [balanceAdd, List.map_cons, Balance.addGo, if_neg (mt h1.mp he), if_neg (mt h2.mp he)]
      rw [← ih']
      cases balanceAdd h xs a <;> rfl

example : ∃ l, balanceAdd (fun p => ⟨if p = 0 then str "EUR" else str "USD", some p, false⟩)
    [⟨Dec.one, some 0⟩, ⟨Dec.one, some 1⟩] ⟨Dec.one, some 1⟩ = .ok l ∧ l.map (·.ptr) = [some 0, some 1] ∧
    l.map (fun x => x.qty.mant) = [1, 2] := ok_and (by decide +kernel)

/-! ### C68 -/

/-- C68 is violated: after five transactions the postings of the first four refer to memory where no transaction is. -/
theorem C68_back_pointer_violated (stays : Nat → Bool) (j : Journal) (i : Nat)
    (hs : stays (room vecNext (i + 1)) = false) (hi : room vecNext (i + 1) < j.xacts.length) (i' : Nat) :
    xactAddr stays j i' ≠ some (storedXact stays i) := by
  intro h
  simp only [xactAddr] at h
  split at h
  · have := block_grows vecNext_gt (stays := stays) (n := i + 1) hi hs
    simp only [storedXact, Option.some.injEq, Addr.mk.injEq] at h
    omega
  · cases h

example : ∃ j, parsed "2023-05-01 x\n A  1 EUR\n B\n\n2023-05-01 x\n A  1 EUR\n B\n\n2023-05-01 x\n A  1 EUR\n B\n\n2023-05-01 x\n A  1 EUR\n B\n\n2023-05-01 x\n A  1 EUR\n B\n" = .ok j ∧
    room vecNext 1 < j.xacts.length := ok_and (by decide +kernel)

/-- C68 while the transactions fit into the allocation, in particular for up to four transactions.  Missing: more
transactions, for which the claim is false. -/
theorem C68_back_pointer_partial (stays : Nat → Bool) (j : Journal) (i : Nat) (hi : i < j.xacts.length)
    (hr : j.xacts.length ≤ room vecNext (i + 1) ∨ j.xacts.length ≤ 4) : xactAddr stays j i = some (storedXact stays i) := by
  have hle : j.xacts.length ≤ room vecNext (i + 1) := by
    rcases hr with h | h
    · exact h
    · exact Nat.le_trans h (room_mono vecNext_gt (n := 1) (by omega))
  simp only [xactAddr, if_pos hi, storedXact]
  rw [(room_block_fits (stays := stays) (n := i + 1) (m := j.xacts.length) hi hle).2]

end Ledger
