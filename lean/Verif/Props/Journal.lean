import Verif.Lemmas.Booking
import Verif.Props.Pool
import Verif.Props.Totals
/-
C25, C26, C33, C39, C40, C43, C44 for whole journals.
-/
namespace Ledger
open Ledger.Parser

/-- Check of a decidable condition on a successful result. -/
def resAnd {α : Type} (x : Res α) (P : α → Prop) [DecidablePred P] : Bool :=
  match x with
  | .ok a => decide (P a)
  | .error _ => false

theorem ok_and {α : Type} {x : Res α} {P : α → Prop} [DecidablePred P] (h : resAnd x P = true) : ∃ a, x = .ok a ∧ P a := by
  cases x with
  | ok a => exact ⟨a, rfl, by simpa [resAnd] using h⟩
  | error e => simp [resAnd] at h

/-- The journal of the examples. -/
def readExample : Journal :=
  (parsed "2023-05-01 Supermarket\n Expenses:Food  20 EUR\n Assets:Cash\n\n2023-05-02 Broker\n Assets:Broker  10 VEUR @ 5 EUR\n Assets:Bank:Giro  -50 EUR\n").toOption.getD
    Journal.new

theorem readExample_ok : parsed "2023-05-01 Supermarket\n Expenses:Food  20 EUR\n Assets:Cash\n\n2023-05-02 Broker\n Assets:Broker  10 VEUR @ 5 EUR\n Assets:Bank:Giro  -50 EUR\n" =
    .ok readExample := by decide +kernel

theorem readExample_reachable : readExample.Reachable := .parse _ _ _ .new readExample_ok

/-- **C43** The posting lists of all accounts together hold the references of all postings of all transactions, each
exactly once, and nothing else; every reference leads to its posting; the posting is listed under the account it names
and under no other. -/
theorem C43_each_posting_once {j : Journal} (h : j.Reachable) :
    (subtreePosts j.master).Nodup ∧
    (∀ r, r ∈ subtreePosts j.master ↔ ∃ p, j.postAt r = some p) ∧
    ∀ r p, j.postAt r = some p → ∀ a ps, j.master.postsAt a = some ps → (r ∈ ps ↔ a = p.account) := by
  have hb := h.booked
  have hs := hb.subtree (p := []) (Account.at?_nil _)
  have hall : ((bookings j.xacts).filter (fun b => List.isPrefixOf [] b.2)).map (·.1) = (refPosts 0 j.xacts).map (·.1) := by
    have : (bookings j.xacts).filter (fun b => List.isPrefixOf [] b.2) = bookings j.xacts :=
      List.filter_eq_self.mpr (fun b _ => by simp)
    rw [this, bookings_refPosts, List.map_map]; rfl
  rw [hall] at hs
  refine ⟨hs.nodup_iff.mpr (refPosts_nodup 0 _), ?_, ?_⟩
  · intro r
    rw [hs.mem_iff, List.mem_map]
    constructor
    · rintro ⟨⟨r', p⟩, hm, rfl⟩; exact ⟨p, (mem_refPosts_postAt j _ p).mp hm⟩
    · rintro ⟨p, hp⟩; exact ⟨(r, p), (mem_refPosts_postAt j r p).mpr hp, rfl⟩
  · intro r p hp a ps ha
    rw [hb.lists a ps ha, List.mem_map]
    constructor
    · rintro ⟨⟨r', q⟩, hm, rfl⟩
      rw [List.mem_filter, bookings_refPosts, List.mem_map] at hm
      obtain ⟨⟨⟨r2, p2⟩, hm, e⟩, hq⟩ := hm
      simp only [Prod.mk.injEq] at e
      obtain ⟨rfl, rfl⟩ := e
      have := (mem_refPosts_postAt j _ _).mp hm
      rw [hp] at this
      injection this with this
      rw [this]; exact (by simpa using hq : p2.account = a).symm
    · rintro rfl
      refine ⟨(r, p.account), ?_, rfl⟩
      rw [List.mem_filter, bookings_refPosts, List.mem_map]
      exact ⟨⟨(r, p), (mem_refPosts_postAt j r p).mpr hp, rfl⟩, by simp⟩

/-- C43: the account a posting names exists in the tree, and the posting lists are in the order of the journal. -/
theorem C43_accounts_exist {j : Journal} (h : j.Reachable) :
    (∀ r p, j.postAt r = some p → j.master.Has p.account) ∧
    ∀ a ps, j.master.postsAt a = some ps → ps = ((bookings j.xacts).filter (fun b => b.2 = a)).map (·.1) := by
  have hb := h.booked
  refine ⟨?_, hb.lists⟩
  intro r p hp
  refine hb.named (r, p.account) ?_
  rw [bookings_refPosts, List.mem_map]
  exact ⟨(r, p), (mem_refPosts_postAt j r p).mpr hp, rfl⟩

example : subtreePosts readExample.master = [(0, 0), (0, 1), (1, 0), (1, 1)] ∧
    readExample.master.postsAt [str "Assets", str "Bank", str "Giro"] = some [(1, 1)] := by decide +kernel

/-- C25 for the journals a program can have: the total of every account is, for every commodity, the sum of the amounts
of the postings that name the account or one below it. -/
theorem C25_journal_totals {j : Journal} (h : j.Reachable) {p : Path} {a : Account} (ha : j.master.at? p = some a)
    (hr : InRange (amountsBelow j p)) :
    ∃ b, j.accountTotal a = .ok b ∧ (∀ c, b.totalIn c = sumIn c (amountsBelow j p)) ∧ b.OneEach ∧
      ∀ c, c ∈ b.amounts.map (·.comm) ↔ c ∈ (amountsBelow j p).map (·.comm) := by
  obtain ⟨hv, hp⟩ := h.booked.amounts ha
  obtain ⟨b, h1, h2, h3, h4⟩ := C25_total_is_subtree_sum j a hv (inRange_perm hp.symm hr)
  exact ⟨b, h1, fun c => (h2 c).trans (sumIn_perm c hp), h3, fun c => (h4 c).trans ((hp.map _).mem_iff)⟩

example : amountsBelow readExample [str "Assets"] =
    [⟨⟨true, 20, 0⟩, some (str "EUR")⟩, ⟨⟨false, 10, 0⟩, some (str "VEUR")⟩, ⟨⟨true, 50, 0⟩, some (str "EUR")⟩] := by
  decide +kernel

/-- **C39** The total of the master account is, for every commodity, the sum of all postings of the journal. -/
theorem C39_grand_total {j : Journal} (h : j.Reachable) (hr : InRange (allAmounts j)) :
    ∃ b, j.accountTotal j.master = .ok b ∧ (∀ c, b.totalIn c = sumIn c (allAmounts j)) ∧ b.OneEach ∧
      ∀ c, c ∈ b.amounts.map (·.comm) ↔ c ∈ (allAmounts j).map (·.comm) := by
  have e : amountsBelow j [] = allAmounts j := by
    unfold amountsBelow allAmounts
    rw [List.filter_eq_self.mpr (fun b _ => by simp)]
  rw [← e] at hr ⊢
  exact C25_journal_totals h (Account.at?_nil _) hr

example : readExample.accountTotal readExample.master =
    .ok ⟨[⟨⟨true, 50, 0⟩, some (str "EUR")⟩, ⟨⟨false, 10, 0⟩, some (str "VEUR")⟩]⟩ := by decide +kernel

theorem allAmounts_inRange_example : InRange (allAmounts readExample) := by
  refine ⟨0, by omega, ?_, ?_⟩
  · decide +kernel
  · have : allAmounts readExample = [⟨⟨false, 20, 0⟩, some (str "EUR")⟩, ⟨⟨true, 20, 0⟩, some (str "EUR")⟩,
      ⟨⟨false, 10, 0⟩, some (str "VEUR")⟩, ⟨⟨true, 50, 0⟩, some (str "EUR")⟩] := by decide +kernel
    rw [this]
    norm_num [mass, Dec.val, Dec.signed]

/-- The totals of all accounts of a journal. -/
theorem journal_totals {j : Journal} (h : j.Reachable) (hr : InRange (allAmounts j)) :
    ∃ t : Path → Balance,
      (∀ p, j.master.Has p → (∀ c, (t p).totalIn c = sumIn c (amountsBelow j p)) ∧ (t p).OneEach ∧
        ∀ c, c ∈ (t p).amounts.map (·.comm) ↔ c ∈ (amountsBelow j p).map (·.comm)) ∧
      (∀ p a, j.master.at? p = some a → j.accountTotal a = .ok (t p)) := by
  have hb := h.booked
  have e : amountsBelow j [] = allAmounts j := by
    unfold amountsBelow allAmounts
    rw [List.filter_eq_self.mpr (fun b _ => by simp)]
  obtain ⟨hv, hp⟩ := hb.amounts (Account.at?_nil _)
  rw [e] at hp
  obtain ⟨t, ht, _⟩ := C26_balance_report j hb.wf hv (inRange_perm hp.symm hr)
  refine ⟨t, ?_, ht⟩
  intro p hh
  obtain ⟨a, ha⟩ := Option.isSome_iff_exists.mp hh
  have hsub : ∃ rest, (allAmounts j).Perm (amountsBelow j p ++ rest) := by
    refine ⟨(j.allPosts.filter (fun q => !p.isPrefixOf q.account)).filterMap (·.amount), ?_⟩
    unfold allAmounts amountsBelow
    rw [← List.filterMap_append]
    exact (List.filter_append_perm _ j.allPosts).symm.filterMap _
  obtain ⟨rest, hrest⟩ := hsub
  obtain ⟨b, h1, h2, h3, h4⟩ := C25_journal_totals h ha (inRange_append_left (inRange_perm hrest hr))
  rw [ht p a ha] at h1
  injection h1 with h1
  rw [h1]
  exact ⟨h2, h3, h4⟩

/-- C26 for the journals a program can have: the balance report has one line for each account, in order, each with the
full name and, for every commodity, the sum of the postings to the account and below. -/
theorem C26_journal_report {j : Journal} (h : j.Reachable) (hr : InRange (allAmounts j)) :
    ∃ t : Path → Balance,
      (∀ p, j.master.Has p → (∀ c, (t p).totalIn c = sumIn c (amountsBelow j p)) ∧ (t p).OneEach ∧
        ∀ c, c ∈ (t p).amounts.map (·.comm) ↔ c ∈ (amountsBelow j p).map (·.comm)) ∧
      Report.balanceReport j =
        .ok (j.master.flatten.map (fun x => lineText (Account.fullname x.1) (t x.1))) := by
  obtain ⟨t, h1, ht⟩ := journal_totals h hr
  exact ⟨t, h1, C26_balance_report_sound j h.booked.wf t ht⟩

/-- C33 for the journals a program can have: every posting has an amount, and no transaction has just one posting. -/
theorem C33_journal_complete {j : Journal} (h : j.Reachable) :
    (∀ p ∈ j.allPosts, p.amount ≠ none) ∧ ∀ x ∈ j.xacts, x.posts.length ≠ 1 := by
  have hc := h.complete
  refine ⟨?_, fun x hx => (hc x hx).2⟩
  intro p hp
  unfold Journal.allPosts at hp
  obtain ⟨x, hx, hp⟩ := List.mem_flatMap.mp hp
  exact (hc x hx).1 p hp

example : (readExample.allPosts.map (·.amount.isSome)) = [true, true, true, true] := by decide +kernel

/-- **C40** Parsing more into a journal keeps all transactions with their postings in place, keeps every account with
its postings, every commodity, and every priced pair of commodities. -/
theorem C40_parse_keeps (files : Files) (depth : Nat) (src : Source) {j j' : Journal} (h : j.Reachable)
    (hp : parse files depth src j = .ok j') :
    j.xacts <+: j'.xacts ∧
    (∀ p ps, j.master.postsAt p = some ps → ∃ ps', j'.master.postsAt p = some ps' ∧ ps <+: ps') ∧
    (∀ s c, j.pool.find s = some c → j'.pool.find s = some c) ∧
    (∀ a b i k, j.pool.findIndex a = .ok i → j.pool.findIndex b = .ok k → (j.pool.history.getDirectPrice i k).isSome →
      j'.pool.findIndex a = .ok i ∧ j'.pool.findIndex b = .ok k ∧ (j'.pool.history.getDirectPrice i k).isSome) := by
  obtain ⟨hg, hbk, new, e, _⟩ := parse_ok _ _ _ _ _ hp
  have hb := h.booked
  have hb' := hbk hb
  refine ⟨⟨new, e.symm⟩, ?_, fun s c hf => hg.pool.find hf, ?_⟩
  · intro p ps hps
    have hh : j.master.Has p := by rw [Account.has_iff_postsAt, hps]; rfl
    have hh' := Account.later_has hg.tree hb.wf hh
    rw [Account.has_iff_postsAt] at hh'
    obtain ⟨ps', hps'⟩ := Option.isSome_iff_exists.mp hh'
    refine ⟨ps', hps', ?_⟩
    rw [hb.lists p ps hps, hb'.lists p ps' hps', e]
    have : bookings (j.xacts ++ new) = bookings j.xacts ++ (refPosts j.xacts.length new).map (fun x => (x.1, x.2.account)) := by
      simp [bookings_refPosts, refPosts, List.zipIdx_append]
    rw [this, List.filter_append, List.map_append]
    exact List.prefix_append _ _
  · intro a b i k hi hk hpr
    have keep : ∀ s n, j.pool.findIndex s = .ok n → j'.pool.findIndex s = .ok n := by
      intro s n hs
      unfold Pool.findIndex at hs ⊢
      cases hf : j.pool.find s with
      | none => rw [hf] at hs; cases hs
      | some c => rw [hf] at hs; rw [hg.pool.find hf]; exact hs
    exact ⟨keep a i hi, keep b k hk, hg.pool.priced hpr⟩

example : ∃ j', parse (fun _ => none) 0 (textSource (str "2023-05-03 x\n Assets:Cash  1 EUR\n Income\n")) readExample = .ok j' ∧
    j'.xacts.length = 3 ∧ j'.master.postsAt [str "Assets", str "Cash"] = some [(0, 1), (2, 0)] :=
  ok_and (by decide +kernel)

/-- C44 is violated: reading a text with one transaction into a journal that already has one returns 2. -/
theorem C44_count_violated :
    ∃ j, parsed "2023-05-01 a\n A  1\n B\n" = .ok j ∧
      ∃ r, read (fun _ => none) 0 (textSource (str "2023-05-02 b\n A  1\n B\n")) j = .ok r ∧
        r.1.xacts.take 1 = j.xacts ∧ r.1.xacts.length = 2 ∧ r.2 ≠ 1 := by
  have h : ∃ j, parsed "2023-05-01 a\n A  1\n B\n" = .ok j ∧
      resAnd (read (fun _ => none) 0 (textSource (str "2023-05-02 b\n A  1\n B\n")) j)
        (fun r => r.1.xacts.take 1 = j.xacts ∧ r.1.xacts.length = 2 ∧ r.2 ≠ 1) = true := ok_and (by decide +kernel)
  obtain ⟨j, h1, h2⟩ := h
  exact ⟨j, h1, ok_and h2⟩

/-- C44: what is returned is the number of all transactions of the journal, old ones included, so it is the number parsed
exactly if the journal had none.  Missing: journals with transactions, for which the claim is false. -/
theorem C44_count_partial (files : Files) (depth : Nat) (src : Source) (j j' : Journal) (n : Nat)
    (h : read files depth src j = .ok (j', n)) :
    ∃ new, j'.xacts = j.xacts ++ new ∧ n = j.xacts.length + new.length ∧ (n = new.length ↔ j.xacts = []) := by
  unfold Parser.read at h
  cases hp : parse files depth src j with
  | error e => rw [hp] at h; simp [bind, Except.bind] at h
  | ok j1 =>
    rw [hp] at h
    simp only [bind, Except.bind, Except.ok.injEq, Prod.mk.injEq] at h
    obtain ⟨rfl, rfl⟩ := h
    obtain ⟨_, _, new, e, _⟩ := parse_ok _ _ _ _ _ hp
    refine ⟨new, e, by rw [e, List.length_append], ?_⟩
    rw [e, List.length_append]
    constructor
    · intro h; exact List.length_eq_zero_iff.mp (by omega)
    · intro h; rw [h]; simp

example : ∃ j', read (fun _ => none) 0 (textSource (str "2023-05-01 a\n A  1\n B\n\n2023-05-02 b\n A  1\n B\n")) Journal.new =
    .ok (j', 2) := by
  have h : ∃ r, read (fun _ => none) 0 (textSource (str "2023-05-01 a\n A  1\n B\n\n2023-05-02 b\n A  1\n B\n")) Journal.new = .ok r ∧
    r.2 = 2 := ok_and (by decide +kernel)
  obtain ⟨⟨j', n⟩, h1, rfl⟩ := h
  exact ⟨j', h1⟩

end Ledger
