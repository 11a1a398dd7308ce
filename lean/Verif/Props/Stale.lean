import Verif.Lemmas.Stale
import Verif.Props.Memory
import Verif.Props.Found
/-
C100: which journals keep pointers that point to nothing any more.
-/
namespace Ledger
open Ledger.Parser Ledger.Memory Ledger.Heap Ledger.Cli

/-- At most three commodities, three accounts below each account, four transactions and four postings in each. -/
structure TinyJournal (j : Journal) : Prop where
  commodities : j.pool.len ≤ 3
  accounts : ∀ q x, j.master.at? q = some x → x.children.length ≤ 3
  xacts : j.xacts.length ≤ 4
  posts : ∀ x ∈ j.xacts, x.posts.length ≤ 4

theorem tableBlock_small {n : Nat} (h1 : 1 ≤ n) (h3 : n ≤ 3) : tableBlock n = 1 := by
  unfold tableBlock
  rw [(room_block_fits (n := 1) h1 (by exact h3)).2]
  decide

theorem commodityAddr_key {p : Pool} (h : p.Inv) {i : Nat} {c : Str} (hc : (p.commodities.map (·.1))[i]? = some c) :
    commodityAddr p c = some ⟨tableBlock p.len, i⟩ := by
  have hn : (p.commodities.map (·.1)).Nodup := by rw [h.keys]; exact h.nodup
  have hm : c ∈ p.commodities.map (·.1) := List.mem_of_getElem? hc
  unfold commodityAddr tableAddr
  rw [if_pos hm]
  obtain ⟨hi, hc⟩ := List.getElem?_eq_some_iff.mp hc
  rw [← hc, hn.idxOf_getElem i hi]
  simp [Pool.len]

/-- Each posting is in the list of some account. -/
theorem booked_post {j : Journal} (hj : j.Reachable) {i k : Nat} {x : Xact} {p : Post} (hi : j.xacts[i]? = some x)
    (hp : x.posts[k]? = some p) : ∃ q rs, j.master.postsAt q = some rs ∧ (i, k) ∈ rs := by
  have hbk := hj.booked
  have hm : ((i, k), p.account) ∈ bookings j.xacts := by
    unfold bookings postRefs
    refine List.mem_flatMap.mpr ⟨(x, i), List.mem_zipIdx_iff_getElem?.mpr hi, List.mem_map.mpr ⟨(p, k), ?_, rfl⟩⟩
    exact List.mem_zipIdx_iff_getElem?.mpr hp
  have hh := hbk.named _ hm
  rw [Account.has_iff_postsAt] at hh
  obtain ⟨rs, hrs⟩ := Option.isSome_iff_exists.mp hh
  refine ⟨_, rs, hrs, ?_⟩
  rw [hbk.lists _ _ hrs]
  exact List.mem_map.mpr ⟨((i, k), p.account), List.mem_filter.mpr ⟨hm, by simp⟩, rfl⟩

/-- C100, for a journal: whatever the allocator does the pointers are all right, exactly if the journal is tiny. -/
theorem C100_journal {j : Journal} (hj : j.Reachable) {s : State} {homes : List Nat}
    (hb : Books s homes (bookings j.xacts)) (he : s.master.erase = j.master) :
    (TinyJournal j → ∀ stays, Intact stays j s homes) ∧ (Intact moving j s homes → TinyJournal j) := by
  have hbk := hj.booked
  have hinv : j.pool.Inv := by
    obtain ⟨ops, h⟩ := hj.pools
    exact Pool.inv_runOps Pool.inv_empty ops h
  have hfew : Few s.master ↔ ∀ q x, j.master.at? q = some x → x.children.length ≤ 3 := by
    rw [few_erase (by rw [he]; exact hbk.wf), he]
  constructor
  · intro ht stays
    have hr := hb.right.mpr (hfew.mpr ht.accounts)
    refine ⟨?_, ?_, ?_, ?_, hr.1, hr.2⟩
    · intro i c hc
      rw [commodityAddr_key hinv hc, storedNode]
      have hi : i < j.pool.len := by
        have := (List.getElem?_eq_some_iff.mp hc).1
        simpa [Pool.len] using this
      have := ht.commodities
      rw [tableBlock_small (by omega) (by omega), tableBlock_small (by omega) (by omega)]
    · intro p hp c a ha
      rw [C63_commodities_partial hp ha]
      refine Nat.le_trans ht.commodities ?_
      have : p.len ≠ 0 := by
        intro h0
        unfold commodityAddr tableAddr at ha
        rw [List.eq_nil_of_length_eq_zero h0] at ha
        cases ha
      exact room_mono tableNext_gt (n := 1) (by omega)
    · intro q rs hq r hr
      obtain ⟨x, post, h1, _, _, _, h4⟩ := C62_references_partial stays hj hq hr
      exact h4 (ht.posts x (List.mem_of_getElem? h1))
    · exact fun i hi => C68_back_pointer_partial stays j i hi (Or.inr ht.xacts)
  · intro h
    refine ⟨?_, hfew.mp (hb.right.mp ⟨h.homes, h.parents⟩), ?_, ?_⟩
    · by_contra hl
      have h4 : 3 < j.pool.len := by omega
      obtain ⟨c, hc⟩ : ∃ c, (j.pool.commodities.map (·.1))[0]? = some c := by
        refine ⟨_, List.getElem?_eq_getElem (by simp [Pool.len] at h4 ⊢; omega)⟩
      have h1 := h.nodes 0 c hc
      rw [commodityAddr_key hinv hc] at h1
      injection h1 with h1
      injection h1 with h1 _
      have := block_grows (stays := fun _ => false) tableNext_gt (n := 1) (m := j.pool.len) h4 rfl
      unfold tableBlock at h1
      rw [Nat.zero_add] at h1
      omega
    · by_contra hl
      exact C68_back_pointer_violated moving j 0 rfl (by show 4 < _; omega) 0 (h.xacts 0 (by omega))
    · intro x hx
      by_contra hl
      obtain ⟨i, hi⟩ := List.mem_iff_getElem?.mp hx
      obtain ⟨p, hp⟩ : ∃ p, x.posts[0]? = some p := ⟨_, List.getElem?_eq_getElem (by omega)⟩
      obtain ⟨q, rs, hrs, hr⟩ := booked_post hj hi hp
      exact C62_moved_violated moving j i 0 x hi rfl (by show 4 < _; omega) 0 (h.posts _ _ hrs _ hr)

theorem readFiles_replays (files : Files) (depth : Nat) {fs : List Str} {j j' : Journal} (hb : Replays j)
    (h : readFiles files depth fs j = .ok j') : Replays j' := by
  induction fs generalizing j with
  | nil => simp only [Cli.readFiles, Except.ok.injEq] at h; subst h; exact hb
  | cons f fs ih =>
    rw [Cli.readFiles] at h
    cases hq : parseFile files depth f j with
    | error e => rw [hq] at h; simp [bind, Except.bind] at h
    | ok j1 =>
      rw [hq] at h
      refine ih ?_ h
      unfold parseFile at hq
      split at hq
      · cases hq
      · exact parse_replays _ _ _ _ _ hq hb

theorem length_le_of_atMost {α : Type} {n : Nat} {P : α → Prop} {l : List α} (hn : l.Nodup) (h : ∀ x, x ∈ l ↔ P x) :
    AtMost n P ↔ l.length ≤ n := by
  constructor
  · exact fun ha => ha l hn (fun x hx => (h x).mp hx)
  · intro hl l' hn' h'
    exact Nat.le_trans (hn'.length_le_of_subset (fun x hx => (h x).mpr (h' x hx))) hl

theorem settles_length {w w' : Writing} (h : Settles w w') : w'.entries.length = w.entries.length := by
  cases h with
  | kept => rfl
  | filled l r e a h => rw [h]; simp
  | rated A B u es h hu hes => exact hes.length_eq.symm

/-- The commodities of a journal that was read, in general. -/
theorem items_named {is : List Item} {ws' : List Writing} {rs : List Recording} {j : Journal} (hinv : j.pool.Inv)
    (h : ItemsOutcome is ws' rs Journal.new j) : (∀ s, s ∈ j.pool.history.nodes ↔ ((∃ e ∈ allEntries (writings is), e.Mentions s) ∨
      ∃ r, Item.price r ∈ is ∧ (s = r.src ∨ s = r.dst))) ∧ ∀ k, j.pool.len ≤ k ↔
      AtMost k (fun c => (∃ e ∈ allEntries (writings is), e.Mentions c) ∨ ∃ r, Item.price r ∈ is ∧ (c = r.src ∨ c = r.dst)) := by
  have hp : ∀ s, s ∈ j.pool.history.nodes ↔ ((∃ e ∈ allEntries (writings is), e.Mentions s) ∨
      ∃ r, Item.price r ∈ is ∧ (s = r.src ∨ s = r.dst)) := by
    intro s
    have h1 := h.commodities s
    rw [show Journal.new.pool.find s = none from rfl] at h1
    simp only [Option.isSome_none, Bool.false_eq_true, false_or] at h1
    rw [← h1]
    constructor
    · intro hs; obtain ⟨c, hc⟩ := hinv.find_some hs; rw [hc]; rfl
    · intro hs
      by_contra hn
      rw [hinv.find_none.mpr hn] at hs
      cases hs
  have hlen : j.pool.len = j.pool.history.nodes.length := by rw [← hinv.keys]; simp [Pool.len]
  rw [hlen]
  exact ⟨hp, fun k => (length_le_of_atMost hinv.nodup hp).symm⟩

/-- The commodities of a journal that was read. -/
theorem items_commodities {is : List Item} {ws' : List Writing} {rs : List Recording} {j : Journal} (hj : j.Reachable)
    (h : ItemsOutcome is ws' rs Journal.new j) {k : Nat} : j.pool.len ≤ k ↔
      AtMost k (fun c => (∃ e ∈ allEntries (writings is), e.Mentions c) ∨ ∃ r, Item.price r ∈ is ∧ (c = r.src ∨ c = r.dst)) := by
  obtain ⟨ops, ho⟩ := hj.pools
  exact (items_named (Pool.inv_runOps Pool.inv_empty ops ho) h).2 k

/-- The accounts right below an account of a journal that was read. -/
theorem items_children {is : List Item} {ws' : List Writing} {rs : List Recording} {j : Journal} (hj : j.Reachable)
    (h : ItemsOutcome is ws' rs Journal.new j) {q : Path} {x : Account} (hx : j.master.at? q = some x) :
    (∀ n, n ∈ x.children.map Account.name ↔ ∃ e ∈ allEntries (writings is), q ++ [n] <+: pathOf e.account) ∧
    ∀ k, x.children.length ≤ k ↔ AtMost k (fun n => ∃ e ∈ allEntries (writings is), q ++ [n] <+: pathOf e.account) := by
  have hacc : ∀ n, n ∈ x.children.map Account.name ↔ ∃ e ∈ allEntries (writings is), q ++ [n] <+: pathOf e.account := by
    intro n
    have h1 := h.accounts (q ++ [n])
    have h2 : ¬ Journal.new.master.Has (q ++ [n]) := by
      rw [Account.has_iff_postsAt, show Journal.new.master = Account.new [] from rfl, Account.postsAt_new]
      cases q <;> simp
    rw [← (h1.trans (or_iff_right h2)), Account.Has, Account.at?_append, hx]
    obtain ⟨xn, xp, cs⟩ := x
    simp only [Option.bind_some, Account.at?_cons, Account.at?_nil, Account.children]
    rw [List.mem_map]
    cases hg : Account.getChild n cs with
    | some c => exact iff_of_true ⟨c, Account.getChild_some hg⟩ rfl
    | none =>
      refine iff_of_false ?_ (by simp)
      rintro ⟨c, hc, hn⟩
      exact Account.getChild_none.mp hg c hc hn
  refine ⟨hacc, fun k => ?_⟩
  have hwx := Account.at?_wf hj.booked.wf hx
  have := length_le_of_atMost (n := k) (l := x.children.map Account.name) (by
    obtain ⟨xn, xp, cs⟩ := x
    exact ((Account.wf_mk _ _ _).mp hwx).1) hacc
  rw [List.length_map] at this
  exact this.symm

/-- The numbers of postings of a journal that was read. -/
theorem items_posts {is : List Item} {ws' : List Writing} {rs : List Recording} {j : Journal}
    (h : ItemsOutcome is ws' rs Journal.new j) {k : Nat} :
    (∀ x ∈ j.xacts, x.posts.length ≤ k) ↔ ∀ w ∈ writings is, w.entries.length ≤ k := by
  obtain ⟨new, hn, hxs⟩ := h.xacts
  rw [show Journal.new.xacts = [] from rfl, List.nil_append] at hn
  constructor
  · intro ht w hw'
    obtain ⟨w', hw2, hs⟩ := forall₂_left h.settled hw'
    obtain ⟨x, hx, hxo⟩ := forall₂_left hxs hw2
    rw [← settles_length hs, hxo.posts.length_eq]
    exact ht x (hn ▸ hx)
  · intro ht x hx
    obtain ⟨w', hw2, hxo⟩ := forall₂_right hxs (hn ▸ hx)
    obtain ⟨w, hw1, hs⟩ := forall₂_right h.settled hw2
    rw [← hxo.posts.length_eq, settles_length hs]
    exact ht w hw1

/-- What was read is tiny exactly if the journal is. -/
theorem tiny_iff {is : List Item} {ws' : List Writing} {rs : List Recording} {j : Journal} (hj : j.Reachable)
    (h : ItemsOutcome is ws' rs Journal.new j) : TinyJournal j ↔ Tiny is := by
  obtain ⟨new, hn, hxs⟩ := h.xacts
  rw [show Journal.new.xacts = [] from rfl, List.nil_append] at hn
  have hl := h.settled.length_eq.trans hxs.length_eq
  constructor
  · intro ht
    refine ⟨(items_commodities hj h).mp ht.commodities, ?_, ?_, (items_posts h).mp ht.posts⟩
    · intro q
      cases hx : j.master.at? q with
      | some x => exact ((items_children hj h hx).2 3).mp (ht.accounts q x hx)
      | none =>
        intro l _ hall
        cases l with
        | nil => exact Nat.zero_le _
        | cons n l =>
          have h1 : j.master.Has (q ++ [n]) := (h.accounts _).mpr (Or.inr (hall n (by simp)))
          have h2 := Account.has_prefix h1 (List.prefix_append q [n])
          rw [Account.Has, hx] at h2
          cases h2
    · rw [hl, ← hn]; exact ht.xacts
  · intro ht
    refine ⟨(items_commodities hj h).mpr ht.commodities, ?_, ?_, (items_posts h).mpr ht.posts⟩
    · intro q x hx
      exact ((items_children hj h hx).2 3).mpr (ht.accounts q)
    · rw [hn, ← hl]; exact ht.xacts

/-- C100: reading files makes a journal that has a memory (and only one shape of the account tree); all pointers kept in it
point to what they were taken from, whatever the allocator does, exactly if there are at most three commodities, three
accounts below each account, four transactions and four postings in each.  If there are more and the allocator moves
whatever grows, some pointer points to nothing. -/
theorem C100_files (files : Files) (depth : Nat) {fs : List Str} {is : List Item} (hf : FilesSay files depth fs is .done)
    (hd : ∀ w ∈ writings is, Everyday w) {j : Journal} (h : readFiles files depth fs Journal.new = .ok j) :
    (∃ s homes, Books s homes (bookings j.xacts) ∧ s.master.erase = j.master) ∧
    ∀ s homes, Books s homes (bookings j.xacts) → s.master.erase = j.master →
      (Tiny is → ∀ stays, Intact stays j s homes) ∧ (Intact moving j s homes → Tiny is) := by
  have hj : j.Reachable := readFiles_stays .new h
  obtain ⟨_, _, ws', rs, ho⟩ := decidesItems_ok (readFiles_items files depth hf hd) readable_new h
  refine ⟨readFiles_replays files depth replays_new h, fun s homes hb he => ?_⟩
  rw [← tiny_iff hj ho]
  exact C100_journal hj hb he

namespace StaleExample
open LinesExample FaultsExample CausesExample FoundExample

theorem atMost_of_list {α : Type} {n : Nat} {P : α → Prop} (l : List α) (h : ∀ x, P x → x ∈ l) (hl : l.length ≤ n) : AtMost n P :=
  fun _ hn ha => Nat.le_trans (hn.length_le_of_subset (fun x hx => h x (ha x hx))) hl

theorem shelfTiny : Tiny [.price price, .xact first] := by
  refine ⟨?_, ?_, by decide, ?_⟩
  · refine atMost_of_list [str "EUR", str "VEUR"] ?_ (by decide)
    rintro c (⟨e, he, hm⟩ | ⟨r, hr, hc⟩)
    · have : e = bread ∨ e = cash := by simpa [allEntries, writings, first] using he
      rcases this with rfl | rfl
      · rcases hm with h | (⟨_, h, _⟩ | h) | ⟨_, _, h, _⟩ | h
        · cases h; simp
        all_goals cases h
      · rcases hm with h | (⟨_, h, _⟩ | h) | ⟨_, _, h, _⟩ | h <;> cases h
    · obtain rfl : r = price := by simpa using hr
      rcases hc with rfl | rfl <;> simp [price]
  · intro q
    refine atMost_of_list ([pathOf bread.account, pathOf cash.account].filterMap (·[q.length]?)) ?_
      (Nat.le_trans (List.length_filterMap_le _ _) (by decide))
    rintro n ⟨e, he, t, ht⟩
    have : e = bread ∨ e = cash := by simpa [allEntries, writings, first] using he
    rw [List.mem_filterMap]
    refine ⟨pathOf e.account, by rcases this with rfl | rfl <;> simp, ?_⟩
    rw [← ht]
    simp
  · intro w hw
    obtain rfl : w = first := by simpa [writings] using hw
    decide

/-- A price and a purchase: every pointer is right. -/
example {j : Journal} (h : readFiles shelf 0 [str "a"] Journal.new = .ok j) :
    ∃ s homes, Books s homes (bookings j.xacts) ∧ s.master.erase = j.master ∧ ∀ stays, Intact stays j s homes := by
  obtain ⟨⟨s, homes, hb, he⟩, hall⟩ := C100_files shelf 0 shelfSays (by
    intro w hw
    obtain rfl : w = first := by simpa [writings] using hw
    exact CausesExample.everyday _ (by simp)) h
  exact ⟨s, homes, hb, he, (hall s homes hb he).1 shelfTiny⟩

example : (readFiles shelf 0 [str "a"] Journal.new).isOk = true := by decide +kernel

def gold : Recording := ⟨str "GOLD", str "USD", ⟨⟨2023, 5, 2⟩, Time.midnight⟩, ⟨false, 26, 0⟩⟩

theorem goldLine : PriceSays (str "i 2023-05-02 GOLD 26 USD \n") gold :=
  ⟨str "2023-05-02", [], str "26", (priceLineParts_iff _ _ _ _ _ _).mpr (by decide +kernel),
    (C53_date_text _ _).mp (by decide +kernel), Or.inl ⟨rfl, rfl⟩, (C02_parse_exact _ _).mp (by decide +kernel), by decide, by decide⟩

def rates : Files := fun f => if f = str "a" then some [some (str "i 2023-05-02 VEUR 26 EUR \n"), some (str "i 2023-05-02 GOLD 26 USD \n")] else none

theorem ratesSays : FilesSay rates 0 [str "a"] [.price price, .price gold] .done :=
  .read (is := [.price price, .price gold]) (is' := []) (by decide +kernel) (.price ((topPart_iff _ _).mpr (by decide +kernel)) priceLine (.price ((topPart_iff _ _).mpr (by decide +kernel)) goldLine .nil)) .nil

/-- Two prices are enough to make a node of the price graph point to nothing. -/
example {j : Journal} (h : readFiles rates 0 [str "a"] Journal.new = .ok j) :
    ∃ s homes, Books s homes (bookings j.xacts) ∧ s.master.erase = j.master ∧ ¬ Intact moving j s homes := by
  obtain ⟨⟨s, homes, hb, he⟩, hall⟩ := C100_files rates 0 ratesSays (by intro w hw; simp [writings] at hw) h
  refine ⟨s, homes, hb, he, fun hi => ?_⟩
  have := ((hall s homes hb he).2 hi).commodities [str "VEUR", str "EUR", str "GOLD", str "USD"] (by decide) (by
    intro c hc
    right
    simp only [List.mem_cons, List.not_mem_nil, or_false] at hc
    rcases hc with rfl | rfl | rfl | rfl
    · exact ⟨price, by simp, Or.inl rfl⟩
    · exact ⟨price, by simp, Or.inr rfl⟩
    · exact ⟨gold, by simp, Or.inl rfl⟩
    · exact ⟨gold, by simp, Or.inr rfl⟩)
  exact absurd this (by decide)

example : (readFiles rates 0 [str "a"] Journal.new).isOk = true := by decide +kernel

end StaleExample

end Ledger
