import Verif.Lemmas.Faults
import Verif.Props.Cli
import Verif.Props.Parser
import Verif.Props.Accounts
/-
C69 to C72: from written text to postings, transactions and reports.
-/
namespace Ledger
open Ledger.Parser Ledger.Scanner Ledger.Cli

/-! ### C69 -/

/-- C69: reading a posting line appends one posting to the transaction that is being read, with the account, amount and
cost that are written; makes the account with its parents if it is not there and books the posting there; and stores the
lot for the commodity unless one is stored already. -/
theorem C69_posting_as_written {text : Str} {e : Entry} (h : EntryText text e) (hf : e.Fits) {j : Journal}
    (hw : j.master.WF) {xs : List Xact} {x : Xact} (hx : j.xacts = xs ++ [x]) :
    ∃ j' p, parsePost text xs.length j = .ok j' ∧ j'.xacts = xs ++ [{ x with posts := x.posts ++ [p] }] ∧ PostOf e p ∧
      PoolAfter e j.pool j'.pool ∧
      (∀ q, j'.master.Has q ↔ j.master.Has q ∨ q <+: pathOf e.account) ∧
      j'.master.postsAt (pathOf e.account) =
        some ((j.master.postsAt (pathOf e.account)).getD [] ++ [(xs.length, x.posts.length)]) ∧
      ∀ q, q ≠ pathOf e.account → j.master.Has q → j'.master.postsAt q = j.master.postsAt q := by
  obtain ⟨p, pool, h1, h2, h3⟩ := parsePost_written h hf hw hx
  refine ⟨_, p, h1, rfl, h2, h3, ?_, ?_, ?_⟩
  · intro q
    rw [Account.has_pushPost, Account.has_ensure]
  · rw [Account.postsAt_pushPost, if_pos rfl, Account.postsAt_ensure, if_pos List.prefix_rfl]
    cases j.master.postsAt (pathOf e.account) <;> rfl
  · intro q hq hh
    rw [Account.postsAt_pushPost, if_neg hq, Account.postsAt_ensure]
    rw [Account.has_iff_postsAt] at hh
    obtain ⟨ps, hps⟩ := Option.isSome_iff_exists.mp hh
    rw [hps]; rfl

/-- C38 for the posting that is booked: a cost that can be read is kept, and a per-unit cost that is not negative has the
sign of the amount and is cost × amount when a quantity can hold that; a total cost is as written.  Missing: the sign for
total costs, for which the claim is false. -/
theorem C38_booked_sign_partial {input : Str} {j j' : Journal} {xs : List Xact} {x : Xact} {t : PostTokens}
    (hx : j.xacts = xs ++ [x]) (ht : scanPost input = .ok t) (h : parsePost input xs.length j = .ok j') :
    ∃ p, j'.xacts = xs ++ [{ x with posts := x.posts ++ [p] }] ∧
      ∀ a q, p.amount = some a → Dec.fromStr t.costQuantity = some q → ∃ c, p.cost = some c ∧
        (t.isPerUnit = true → 0 ≤ q.val →
          (0 ≤ a.qty.val → 0 ≤ c.qty.val) ∧ (a.qty.val ≤ 0 → c.qty.val ≤ 0) ∧
          (Representable (q.val * a.qty.val) → c.qty.val = q.val * a.qty.val)) ∧
        (t.isPerUnit = false → c.qty = q) := by
  obtain ⟨t', m, path, pool, am, c, h1, _, _, h4, rfl⟩ := parsePost_ok hx h
  rw [ht] at h1; cases h1
  refine ⟨_, rfl, ?_⟩
  rintro a q (rfl : am = some a) hq
  unfold parsePostAmounts at h4
  simp only [bind, Except.bind] at h4
  split at h4
  · simp at h4
  · split at h4
    · simp at h4
    · rename_i r hc
      simp only [Except.ok.injEq, Prod.mk.injEq] at h4
      obtain ⟨e1, e2, e3⟩ := h4
      obtain ⟨pl, c'⟩ := r
      simp only at e1 e3
      rw [e2] at hc
      subst e3
      have hne : t.costQuantity ≠ [] := by
        intro e; rw [e, show Dec.fromStr [] = none by decide] at hq; simp at hq
      cases c' with
      | none =>
        exfalso
        unfold parseCost parseAmountParts at hc
        simp only [if_neg hne, hq, Option.map_some] at hc
        split at hc
        · simp only [bind, Except.bind] at hc
          split at hc <;> simp at hc
        · simp at hc
      | some c =>
        obtain ⟨k1, k2⟩ := C38_cost_sign_partial t a c q _ _ hc hq
        refine ⟨c, rfl, fun u z => ?_, k2⟩
        obtain ⟨l1, l2, _, l4⟩ := k1 u z
        exact ⟨l1, l2, l4⟩

example : ∃ j, parsed "2023-05-01 Sell\n A  -10 VEUR @ 20 EUR\n B\n" = .ok j ∧
    (j.xacts.flatMap (·.posts)).map (·.cost) = [some ⟨⟨true, 200, 0⟩, some (str "EUR")⟩, none] := ok_and (by decide +kernel)

/-- C18 is violated in journals: a first posting without a lot stores an empty one, so that the lot of a later posting
is dropped. -/
theorem C18_written_lot_violated :
    ∃ j, parsed "2023-05-01 x\n A  10 VEUR\n B\n\n2023-05-02 y\n A  10 VEUR {20 EUR} [2023-04-01] @ 25 EUR\n B  -250 EUR\n" = .ok j ∧
      assocGet (str "VEUR") j.pool.annotated = some ⟨none, none⟩ := ok_and (by decide +kernel)

/-- C18 in journals: the lot that is written on the first posting of a commodity is what the pool reports for the
commodity from then on.  Missing: later lots of the same commodity, for which the claim is false. -/
theorem C18_written_lot_partial {text : Str} {e : Entry} (h : EntryText text e) (hf : e.Fits) {j : Journal}
    (hw : j.master.WF) (hp : Pool.empty.Later j.pool) {xs : List Xact} {x : Xact} (hx : j.xacts = xs ++ [x]) {s : Str}
    (hs : e.holder = some s) (hn : assocGet s j.pool.annotated = none) :
    ∃ j', parsePost text xs.length j = .ok j' ∧
      ∀ p, j'.pool.Later p → assocGet s p.annotated = some e.lot := by
  obtain ⟨j', p, h1, _, _, h4, _⟩ := C69_posting_as_written h hf hw hx
  refine ⟨j', h1, ?_⟩
  rintro q ⟨later, hl⟩
  obtain ⟨ops, ho⟩ := hp
  obtain ⟨t, m, path, pool', am, c, _, _, _, g4, g5⟩ := parsePost_ok hx h1
  obtain ⟨ops', ho'⟩ := Pool.later_postAmounts g4
  have e1 : j'.pool = pool' := by rw [g5]
  refine C18_first_wins_violated (ops ++ ops') later j'.pool q (by rw [Pool.runOps_append, ho, e1]; exact ho') hl s e.lot ?_
  rw [h4.lots, if_pos ⟨hs, hn⟩]

/-! ### C70 -/

theorem writtenLots_completable {p : Pool} {ws : List Writing} (h : ∀ w ∈ ws, ∃ w', Completed (LotsOf p ws) w w') :
    Completable (LotsOf p ws) ws := fun w hw => ⟨fun e he _ hs => Or.inr ⟨w, hw, e, he, hs, rfl⟩, h w hw⟩

theorem Rated.unbalanced {lots : Str → Annotation → Prop} {w w' : Writing} (h : Rated lots w w') :
    ¬ EntriesBalance w.entries := by
  obtain ⟨A, B, rate, _, _, _, _, _, hSA, _⟩ := h
  exact fun hb => hSA (hb _)

theorem Rated.amounts {lots : Str → Annotation → Prop} {w w' : Writing} (h : Rated lots w w') :
    ∀ e ∈ w.entries, e.amount ≠ none := by
  obtain ⟨A, B, rate, _, _, _, hA, hB, _⟩ := h
  intro e he
  by_cases hc : e.commodity = some A
  · obtain ⟨a, ha, _⟩ := commodity_some hc
    rw [ha]; simp
  · exact (hB e he hc).1

theorem xactLines_says (files : Files) (depth : Nat) {lines : List Str} {w : Writing} (h : XactLines lines w) :
    Says files depth lines [w] := by
  cases depth with
  | zero => exact .last h
  | succ d => exact .last h

/-- C70: a written transaction that is complete is accepted, and the journal gets exactly what is written. -/
theorem C70_complete_as_written (files : Files) (depth : Nat) {lines : List Str} {w : Writing} (hl : XactLines lines w)
    {j : Journal} (hj : j.Reachable) (hs : Sound (LotsOf j.pool [w]) w) :
    ∃ j' x, parse files depth (lines.map some) j = .ok j' ∧ j'.xacts = j.xacts ++ [x] ∧ XactOf w x := by
  obtain ⟨j', ws', new, h1, h2, h3, h4, _⟩ := parse_written files depth (xactLines_says files depth hl)
    (writtenLots_completable (fun w' hw => ⟨w, by rw [List.mem_singleton.mp hw]; exact Or.inl ⟨hs, rfl⟩⟩))
    j hj.booked.wf hj.pools (fun s lot h => Or.inl h)
  cases h3 with
  | @cons _ w' _ _ hc h3 =>
    cases h3
    cases h4 with
    | @cons _ x _ _ hx h4 =>
      cases h4
      rcases hc with ⟨_, rfl⟩ | ⟨l, e, r, c, a, k1, k2, _⟩ | hr
      · exact ⟨j', x, h1, h2, hx⟩
      · exact absurd k2.1 (hs.amounts e (by rw [k1]; simp))
      · exact absurd hs.balance hr.unbalanced

/-- C70 is violated for blank postings: beside a negative amount, the blank posting gets the same negative amount. -/
theorem C70_blank_as_written_violated :
    ∃ j, parsed "2023-05-01 x\n A  -10 EUR\n B\n" = .ok j ∧
      j.xacts.map (fun x => x.posts.map (·.amount)) =
        [[some ⟨⟨true, 10, 0⟩, some (str "EUR")⟩, some ⟨⟨true, 10, 0⟩, some (str "EUR")⟩]] := ok_and (by decide +kernel)

/-- C70: a written transaction with one blank posting is accepted and stored as written, with the amount that makes the
sum zero filled in.  Missing: negative sums of the other postings, where the code is wrong (`C31_blank_violated`). -/
theorem C70_blank_as_written_partial (files : Files) (depth : Nat) {lines : List Str} {w w0 : Writing}
    (hl : XactLines lines w) {j : Journal} (hj : j.Reachable) (hf : Filled (LotsOf j.pool [w]) w w0) :
    ∃ j' w' x, parse files depth (lines.map some) j = .ok j' ∧ j'.xacts = j.xacts ++ [x] ∧
      Filled (LotsOf j.pool [w]) w w' ∧ XactOf w' x := by
  obtain ⟨j', ws', new, h1, h2, h3, h4, _⟩ := parse_written files depth (xactLines_says files depth hl)
    (writtenLots_completable (fun w' hw => ⟨w0, by rw [List.mem_singleton.mp hw]; exact Or.inr (Or.inl hf)⟩))
    j hj.booked.wf hj.pools (fun s lot h => Or.inl h)
  cases h3 with
  | @cons _ w' _ _ hc h3 =>
    cases h3
    cases h4 with
    | @cons _ x _ _ hx h4 =>
      cases h4
      rcases hc with ⟨hs, _⟩ | hc | hc
      · obtain ⟨l, e, r, c, a, k1, k2, _⟩ := hf
        exact absurd k2.1 (hs.amounts e (by rw [k1]; simp))
      · exact ⟨j', w', x, h1, h2, hc, hx⟩
      · obtain ⟨l, e, r, c, a, k1, k2, _⟩ := hf
        exact absurd k2.1 (hc.amounts e (by rw [k1]; simp))

/-- C70: a written transaction that exchanges one commodity for another, without costs, is accepted and stored as
written, with the costs that its rate implies. -/
theorem C70_rate_as_written (files : Files) (depth : Nat) {lines : List Str} {w w0 : Writing}
    (hl : XactLines lines w) {j : Journal} (hj : j.Reachable) (hr : Rated (LotsOf j.pool [w]) w w0) :
    ∃ j' w' x, parse files depth (lines.map some) j = .ok j' ∧ j'.xacts = j.xacts ++ [x] ∧
      Rated (LotsOf j.pool [w]) w w' ∧ XactOf w' x := by
  obtain ⟨j', ws', new, h1, h2, h3, h4, _⟩ := parse_written files depth (xactLines_says files depth hl)
    (writtenLots_completable (fun w' hw => ⟨w0, by rw [List.mem_singleton.mp hw]; exact Or.inr (Or.inr hr)⟩))
    j hj.booked.wf hj.pools (fun s lot h => Or.inl h)
  cases h3 with
  | @cons _ w' _ _ hc h3 =>
    cases h3
    cases h4 with
    | @cons _ x _ _ hx h4 =>
      cases h4
      rcases hc with ⟨hs, _⟩ | hc | hc
      · exact absurd hs.balance hr.unbalanced
      · obtain ⟨l, e, r, c, a, k1, k2, _⟩ := hc
        exact absurd k2.1 (hr.amounts e (by rw [k1]; simp))
      · exact ⟨j', w', x, h1, h2, hc, hx⟩

/-! ### C71 -/

/-- C71: a text of transactions, with comments and empty lines between them, gives exactly these transactions, in this
order, after those the journal has; blank amounts filled in; an include line stands for the transactions of the file.
Missing: transactions that are refused or completed otherwise (see `C70_blank_as_written_partial`). -/
theorem C71_text_as_written_partial (files : Files) (depth : Nat) {text : Str} {lines : List Str} {ws : List Writing}
    (ht : LinesOf text lines) (hl : Says files depth lines ws) {j : Journal} (hj : j.Reachable)
    (hc : ∀ w ∈ ws, ∃ w', Completed (LotsOf j.pool ws) w w') :
    ∃ j' ws' new, parseText files depth text j = .ok j' ∧ j'.xacts = j.xacts ++ new ∧
      List.Forall₂ (Completed (LotsOf j.pool ws)) ws ws' ∧ List.Forall₂ XactOf ws' new := by
  obtain ⟨j', ws', new, h1, h2, h3, h4, _⟩ := parse_written files depth hl (writtenLots_completable hc) j hj.booked.wf
    hj.pools (fun s lot h => Or.inl h)
  refine ⟨j', ws', new, ?_, h2, h3, h4⟩
  unfold parseText textSource
  rw [(readLines_iff text lines).mpr ht]
  exact h1

theorem complete_same {lots : Str → Annotation → Prop} {ws ws' : List Writing} (hc : ∀ w ∈ ws, Sound lots w)
    (h : List.Forall₂ (Completed lots) ws ws') : ws' = ws := by
  induction h with
  | nil => rfl
  | @cons w w' ws ws' h _ ih =>
    rw [ih (fun w hw => hc w (List.mem_cons_of_mem _ hw))]
    rcases h with ⟨_, rfl⟩ | ⟨l, e, r, c, a, k1, k2, _⟩ | h
    · rfl
    · exact absurd k2.1 ((hc w List.mem_cons_self).amounts e (by rw [k1]; simp))
    · exact absurd (hc w List.mem_cons_self).balance h.unbalanced

/-- C71: complete transactions are stored exactly as written. -/
theorem C71_complete_text (files : Files) (depth : Nat) {text : Str} {lines : List Str} {ws : List Writing}
    (ht : LinesOf text lines) (hl : Says files depth lines ws) {j : Journal} (hj : j.Reachable)
    (hc : ∀ w ∈ ws, Sound (LotsOf j.pool ws) w) :
    ∃ j' new, parseText files depth text j = .ok j' ∧ j'.xacts = j.xacts ++ new ∧
      List.Forall₂ XactOf ws new := by
  obtain ⟨j', ws', new, h1, h2, h3, h4⟩ := C71_text_as_written_partial files depth ht hl hj
    (fun w hw => ⟨w, Or.inl ⟨hc w hw, rfl⟩⟩)
  rw [complete_same hc h3] at h4
  exact ⟨j', new, h1, h2, h4⟩

theorem rated_sum {A B : Str} {rate : ℚ} (hne : A ≠ B) {es es' : List Entry} (h : List.Forall₂ (RatedEntry A B rate) es es')
    (hA : ∀ e ∈ es, e.commodity = some A → e.cost = none)
    (hB : ∀ e ∈ es, e.commodity ≠ some A → e.worthIn = some B) :
    entriesSum es' (some B) = entriesSum es (some B) + rate * entriesSum es (some A) ∧
      ∀ c, c ≠ some B → entriesSum es' c = 0 := by
  induction h with
  | nil => exact ⟨by simp [entriesSum], fun c _ => rfl⟩
  | @cons e e' es es' h _ ih =>
    obtain ⟨i1, i2⟩ := ih (fun e he => hA e (List.mem_cons_of_mem _ he)) (fun e he => hB e (List.mem_cons_of_mem _ he))
    rcases h with ⟨hc, a, k, ha, hk, hv, rfl⟩ | ⟨hc, rfl⟩
    · obtain ⟨w1, w2⟩ := worth_plain ha (hA e List.mem_cons_self hc)
      have hac : a.comm = some A := by
        unfold Entry.commodity at hc; rw [ha] at hc; exact hc
      have w3 : Entry.worth { e with cost := some (false, k) } = rate * a.qty.val := by
        unfold Entry.worth; simp only [ha]; exact hv
      have w4 : Entry.worthIn { e with cost := some (false, k) } = some B := by
        unfold Entry.worthIn; simp only [ha]; exact hk
      constructor
      · rw [entriesSum_cons, entriesSum_cons, entriesSum_cons, w1, w2, w3, w4, i1, hac, if_pos rfl, if_pos rfl,
          if_neg (by simpa using hne)]
        ring
      · intro c hcB
        rw [entriesSum_cons, w4, if_neg (Ne.symm hcB), i2 c hcB, add_zero]
    · have hw := hB _ List.mem_cons_self hc
      constructor
      · rw [entriesSum_cons, entriesSum_cons, entriesSum_cons, hw, i1, if_pos rfl, if_neg (by simpa using hne.symm)]
        ring
      · intro c hcB
        rw [entriesSum_cons, hw, if_neg (Ne.symm hcB), i2 c hcB, add_zero]

theorem sum_elsewhere {es : List Entry} {c d : Option Str} (h : ∀ e ∈ es, e.worthIn = c) (hd : d ≠ c) : entriesSum es d = 0 := by
  by_contra hn
  obtain ⟨e, he, h2⟩ := entriesSum_ne hn
  exact hd (h2.symm.trans (h e he))

/-- A completed transaction balances. -/
theorem Completed.balances {lots : Str → Annotation → Prop} {w w' : Writing} (h : Completed lots w w') :
    EntriesBalance w'.entries := by
  rcases h with ⟨hs, rfl⟩ | ⟨l, e, r, c, a, h1, ⟨_, hcn⟩, h3, _, _, _, h7, h8, rfl⟩ |
    ⟨A, B, rate, es, hne, _, hA, hB, _, hSB, _, _, _, _, hes, rfl⟩
  · exact hs.balance
  · intro d
    obtain ⟨w1, w2⟩ := worth_plain (e := { e with amount := some a }) (a := a) rfl hcn
    change entriesSum (l ++ _ :: r) d = 0
    rw [entriesSum_append, entriesSum_cons, w1, w2, h7]
    by_cases hd : d = c
    · subst hd
      rw [if_pos rfl, h8, entriesSum_append]; ring
    · have : entriesSum (l ++ r) d = 0 := sum_elsewhere (fun q hq => (h3 q hq).2.1) hd
      rw [entriesSum_append] at this
      rw [if_neg (Ne.symm hd)]; linarith
  · obtain ⟨s1, s2⟩ := rated_sum hne hes (fun e he hc => (hA e he hc).1) (fun e he hc => (hB e he hc).2.1)
    intro d
    by_cases hd : d = some B
    · subst hd
      change entriesSum es (some B) = 0
      rw [s1, hSB]; ring
    · exact s2 d hd

theorem Completed.amounts {lots : Str → Annotation → Prop} {w w' : Writing} (h : Completed lots w w') :
    ∀ e ∈ w'.entries, e.amount ≠ none := by
  rcases h with ⟨hs, rfl⟩ | ⟨l, e, r, c, a, h1, _, h3, _, _, _, _, _, rfl⟩ | h
  · exact hs.amounts
  · intro q hq
    have hq : q = { e with amount := some a } ∨ q ∈ l ++ r := by
      simp only [List.mem_append, List.mem_cons] at hq ⊢; tauto
    rcases hq with rfl | hq
    · simp
    · exact (h3 q hq).1
  · obtain ⟨A, B, rate, es, _, _, _, _, _, _, _, _, _, _, hes, rfl⟩ := id h
    intro q hq
    obtain ⟨e, he, hr⟩ := forall₂_mem_right hes hq
    rcases hr with ⟨_, a, k, ha, _, _, rfl⟩ | ⟨_, rfl⟩
    · simp only [ha]; simp
    · exact h.amounts _ he

/-- C71: the transactions that a text adds balance in every commodity, costs counted instead of amounts, and no amount is
missing.  Missing: transactions that are refused or completed otherwise. -/
theorem C71_text_balances_partial (files : Files) (depth : Nat) {text : Str} {lines : List Str} {ws : List Writing}
    (ht : LinesOf text lines) (hl : Says files depth lines ws) {j : Journal} (hj : j.Reachable)
    (hc : ∀ w ∈ ws, ∃ w', Completed (LotsOf j.pool ws) w w') :
    ∃ j' new, parseText files depth text j = .ok j' ∧ j'.xacts = j.xacts ++ new ∧ new.length = ws.length ∧
      ∀ x ∈ new, Balances x.posts ∧ ∀ p ∈ x.posts, p.amount ≠ none := by
  obtain ⟨j', ws', new, h1, h2, h3, h4⟩ := C71_text_as_written_partial files depth ht hl hj hc
  refine ⟨j', new, h1, h2, by rw [h3.length_eq, h4.length_eq], fun x hx => ?_⟩
  obtain ⟨w', hw', hxw⟩ := forall₂_mem_right h4 hx
  obtain ⟨w, _, hcw⟩ := forall₂_mem_right h3 hw'
  refine ⟨fun c => ?_, fun p hp => ?_⟩
  · rw [postsOf_sum hxw.posts hcw.amounts]; exact hcw.balances c
  · obtain ⟨e, he, hpe⟩ := forall₂_mem_right hxw.posts hp
    rw [hpe.amount]; exact hcw.amounts e he

/-- C71 is violated where C70 is: the second of these transactions does not balance. -/
theorem C71_text_violated :
    ∃ j x, parsed "; food\n2023-05-01 x\n A  10 EUR\n B\n\n2023-05-02 y\n A  -10 EUR\n B\n" = .ok j ∧ j.xacts.length = 2 ∧ x ∈ j.xacts ∧
      ¬ Balances x.posts := by
  obtain ⟨j, h1, h2⟩ : ∃ j, parsed "; food\n2023-05-01 x\n A  10 EUR\n B\n\n2023-05-02 y\n A  -10 EUR\n B\n" = .ok j ∧
      (j.xacts.length = 2 ∧ (j.xacts[1]?).map (fun x => bookedAmounts x.posts) = 
        some [⟨⟨true, 10, 0⟩, some (str "EUR")⟩, ⟨⟨true, 10, 0⟩, some (str "EUR")⟩]) := ok_and (by decide +kernel)
  obtain ⟨h2, h3⟩ := h2
  obtain ⟨x, hx, h3⟩ := Option.map_eq_some_iff.mp h3
  refine ⟨j, x, h1, h2, List.mem_of_getElem? hx, fun hb => ?_⟩
  have := hb (some (str "EUR"))
  rw [h3] at this
  simp only [sumIn, Amount.valIn, if_pos, Dec.val_mk, Dec.sgn] at this
  norm_num at this

/-- C71: every text has exactly one division into lines. -/
theorem C71_lines_unique (text : Str) : ∃ lines, LinesOf text lines ∧ ∀ l, LinesOf text l → l = lines :=
  ⟨readLines text, (readLines_iff _ _).mp rfl, fun _ h => ((readLines_iff _ _).mpr h).symm⟩

/-! ### C72 -/

theorem postsOf_amounts {es : List Entry} {ps : List Post} (h : List.Forall₂ PostOf es ps) (p : Path) :
    (ps.filter (fun q => p.isPrefixOf q.account)).filterMap (·.amount) =
      (es.filter (fun e => p.isPrefixOf (pathOf e.account))).filterMap (·.amount) := by
  induction h with
  | nil => rfl
  | @cons e q es ps hq _ ih =>
    rw [List.filter_cons, List.filter_cons, hq.account]
    split
    · rw [List.filterMap_cons, List.filterMap_cons, hq.amount, ih]
    · exact ih

theorem xactsOf_amounts {ws : List Writing} {xs : List Xact} (h : List.Forall₂ XactOf ws xs) (p : Path) :
    ((xs.flatMap (·.posts)).filter (fun q => p.isPrefixOf q.account)).filterMap (·.amount) = writtenBelow ws p := by
  unfold writtenBelow allEntries
  induction h with
  | nil => rfl
  | cons hx _ ih =>
    rw [List.flatMap_cons, List.flatMap_cons, List.filter_append, List.filter_append, List.filterMap_append,
      List.filterMap_append, ih, postsOf_amounts hx.posts]

/-- The report of a journal that was read from a text with these transactions: a line for the root and for every account
that is written and each of its parents, each once, parents first and by name; on it the sums of the written amounts, in the commodities that are written. -/
def ReportOf (ws ws' : List Writing) (out : List Str) : Prop :=
  ∃ (paths : List Path) (total : Path → Balance), paths.Pairwise PathBefore ∧
    (∀ p, p ∈ paths ↔ p = [] ∨ ∃ e ∈ allEntries ws, p <+: pathOf e.account) ∧
    (∀ p ∈ paths, (∀ c, (total p).totalIn c = sumIn c (writtenBelow ws' p)) ∧ (total p).OneEach ∧
      ∀ c, c ∈ (total p).amounts.map (·.comm) ↔ c ∈ (writtenBelow ws' p).map (·.comm)) ∧
    out = paths.map (fun p => lineText (Account.fullname p) (total p))

theorem report_written {j : Journal} (hj : j.Reachable) {ws ws' : List Writing} (hx : List.Forall₂ XactOf ws' j.xacts)
    (hh : ∀ q, j.master.Has q ↔ q = [] ∨ ∃ e ∈ allEntries ws, q <+: pathOf e.account)
    (hr : InRange (writtenBelow ws' [])) : ∃ out, Report.balanceReport j = .ok out ∧ ReportOf ws ws' out := by
  have hb : ∀ p, amountsBelow j p = writtenBelow ws' p := fun p => xactsOf_amounts hx p
  have hall : allAmounts j = writtenBelow ws' [] := by
    rw [← hb]
    unfold amountsBelow allAmounts
    rw [List.filter_eq_self.mpr (fun b _ => by simp)]
  obtain ⟨t, h1, h2⟩ := C26_journal_report hj (by rw [hall]; exact hr)
  have hm := C24_flatten_each_once hj.booked.wf
  have hmem : ∀ p, p ∈ j.master.flatten.map (·.1) ↔ j.master.Has p := by
    intro p
    rw [List.mem_map]
    constructor
    · rintro ⟨⟨q, n⟩, h, rfl⟩
      obtain ⟨b, h, _⟩ := (hm.1 q n).mp h
      exact Option.isSome_iff_exists.mpr ⟨b, h⟩
    · intro h
      obtain ⟨b, h⟩ := Option.isSome_iff_exists.mp h
      exact ⟨(p, b.name), (hm.1 p b.name).mpr ⟨b, h, rfl⟩, rfl⟩
  refine ⟨_, h2, j.master.flatten.map (·.1), t, ?_, ?_, ?_, ?_⟩
  · rw [List.pairwise_map]
    exact (C24_flatten_sorted hj.booked.wf).1
  · intro p; rw [hmem, hh]
  · intro p hp
    obtain ⟨h3, h4, h5⟩ := h1 p ((hmem p).mp hp)
    exact ⟨fun c => by rw [h3, hb], h4, fun c => by rw [h5, hb]⟩
  · rw [List.map_map]; rfl

theorem has_new (q : Path) : Journal.new.master.Has q ↔ q = [] := by
  cases q with
  | nil => simp [Account.Has, Account.at?_nil]
  | cons a q => simp [Account.Has, Journal.new, Account.new, Account.at?, Account.getChild]

theorem readFiles_reachable (files : Files) (depth : Nat) {fs : List Str} {j j' : Journal} (hj : j.Reachable)
    (h : readFiles files depth fs j = .ok j') : j'.Reachable := by
  induction fs generalizing j with
  | nil => injection h with h; rw [← h]; exact hj
  | cons f fs ih =>
    simp only [readFiles, bind, Except.bind] at h
    split at h
    · cases h
    · rename_i j1 h1
      refine ih ?_ h
      unfold parseFile at h1
      split at h1
      · cases h1
      · exact .parse files depth _ hj h1

/-- C72 is violated where C70 is: the report of this file does not sum to zero. -/
theorem C72_report_as_written_violated :
    ∃ out, run (fun f => if f = str "x" then some (textSource (str "2023-05-01 x\n A  -10 EUR\n B\n")) else none) 0
      [str "bal", str "-f", str "x"] = .ok out ∧
      out = [str "Account  has balance -20 EUR", str "Account A has balance -10 EUR", str "Account B has balance -10 EUR"] :=
  ok_and (by decide +kernel)

/-- C72: `bal -f FILE` on a file with these transactions prints the report of what is written; likewise for several
files.  Missing: transactions that are refused or completed otherwise (see `C70_blank_as_written_partial`). -/
theorem C72_report_as_written_partial (files : Files) (depth : Nat) {fs : List Str} {wss : List (List Writing)}
    (hf : List.Forall₂ (FileSays files depth) fs wss)
    (hc : ∀ w ∈ wss.flatten, ∃ w', Completed (LotsOf Journal.new.pool wss.flatten) w w')
    {args rest : List Str} {verb : Str} (ha : Options.processArguments args = .ok (verb :: rest, fs))
    (hv : BalanceVerb verb) :
    ∃ ws', List.Forall₂ (Completed (LotsOf Journal.new.pool wss.flatten)) wss.flatten ws' ∧
      (InRange (writtenBelow ws' []) → ∃ out, run files depth args = .ok out ∧ ReportOf wss.flatten ws' out) := by
  obtain ⟨j', ws', new, h1, h2, h3, h4, _, _, _, h5⟩ := readFiles_written files depth hf (writtenLots_completable hc)
    Journal.new Journal.Reachable.new.booked.wf Journal.Reachable.new.pools (fun s lot h => Or.inl h)
  refine ⟨ws', h3, fun hr => ?_⟩
  have hx : List.Forall₂ XactOf ws' j'.xacts := by rw [h2]; exact h4
  obtain ⟨out, h6, h7⟩ := report_written (readFiles_reachable files depth .new h1) (ws := wss.flatten) hx
    (fun q => by rw [h5, has_new]) hr
  refine ⟨out, ?_, h7⟩
  rw [C60_balance files depth args rest fs verb ha hv, h1]
  exact h6

/-- The last part of an account name, which is what the accounts command prints. -/
def lastPart (p : Path) : Str := p.getLastD []

theorem accounts_written (files : Files) (depth : Nat) {fs : List Str} {ws : List Writing} {j' : Journal}
    (h1 : readFiles files depth fs Journal.new = .ok j')
    (h5 : ∀ q, j'.master.Has q ↔ Journal.new.master.Has q ∨ ∃ e ∈ allEntries ws, q <+: pathOf e.account)
    {args rest : List Str} {verb : Str} (ha : Options.processArguments args = .ok (verb :: rest, fs))
    (hv : AccountsVerb verb) :
    ∃ out, run files depth args = .ok out ∧ out.Pairwise (fun a b => StrBefore a b ∨ a = b) ∧
      ∃ paths : List Path, paths.Nodup ∧
        (∀ p, p ∈ paths ↔ p = [] ∨ ∃ e ∈ allEntries ws, p <+: pathOf e.account) ∧
        out.Perm (paths.map lastPart) := by
  have hw := (readFiles_reachable files depth .new h1).booked.wf
  have hname : j'.master.name = [] := (readFiles_reachable files depth .new h1).booked.root
  obtain ⟨k1, ps, k2, k3, k4⟩ := C28_accounts_sorted j' hw
  refine ⟨accountsOutput j', ?_, k1, ps.map (·.1), k2, ?_, ?_⟩
  · obtain ⟨c, cs, rfl⟩ : ∃ c cs, verb = c :: cs := by
      cases verb with
      | nil => simp [AccountsVerb] at hv
      | cons c cs => exact ⟨c, cs, rfl⟩
    have hc : c = 'a' := by simpa [AccountsVerb] using hv
    subst hc
    simp only [run, ha, bind, Except.bind]
    rw [C28_accounts_command, h1]
    rfl
  · intro p
    rw [← has_new, ← h5, List.mem_map]
    constructor
    · rintro ⟨⟨q, n⟩, h, rfl⟩
      obtain ⟨b, h, _⟩ := (k3 q n).mp h
      exact Option.isSome_iff_exists.mpr ⟨b, h⟩
    · intro h
      obtain ⟨b, h⟩ := Option.isSome_iff_exists.mp h
      exact ⟨(p, b.name), (k3 p b.name).mpr ⟨b, h, rfl⟩, rfl⟩
  · refine k4.trans (List.Perm.of_eq ?_)
    rw [List.map_map]
    refine List.map_congr_left ?_
    rintro ⟨p, n⟩ h
    obtain ⟨b, hb, rfl⟩ := (k3 p n).mp h
    rcases List.eq_nil_or_concat p with rfl | ⟨q, m, rfl⟩
    · rw [Account.at?_nil] at hb
      injection hb with hb
      rw [← hb]
      exact hname
    · simp only [List.concat_eq_append] at hb ⊢
      simp only [Function.comp, lastPart]
      rw [Account.at?_name hb]
      simp

/-- C72: the accounts command on files with these transactions prints, in ascending order, the last part of the name of
every written account and each of its parents, and an empty line for the root.  Missing: as above. -/
theorem C72_accounts_as_written_partial (files : Files) (depth : Nat) {fs : List Str} {wss : List (List Writing)}
    (hf : List.Forall₂ (FileSays files depth) fs wss)
    (hc : ∀ w ∈ wss.flatten, ∃ w', Completed (LotsOf Journal.new.pool wss.flatten) w w')
    {args rest : List Str} {verb : Str} (ha : Options.processArguments args = .ok (verb :: rest, fs))
    (hv : AccountsVerb verb) :
    ∃ out, run files depth args = .ok out ∧ out.Pairwise (fun a b => StrBefore a b ∨ a = b) ∧
      ∃ paths : List Path, paths.Nodup ∧
        (∀ p, p ∈ paths ↔ p = [] ∨ ∃ e ∈ allEntries wss.flatten, p <+: pathOf e.account) ∧
        out.Perm (paths.map lastPart) := by
  obtain ⟨j', ws', new, h1, _, _, _, _, _, _, h5⟩ := readFiles_written files depth hf (writtenLots_completable hc)
    Journal.new Journal.Reachable.new.booked.wf Journal.Reachable.new.pools (fun s lot h => Or.inl h)
  exact accounts_written files depth h1 h5 ha hv

/-! ### an example for C69 to C72 -/

namespace LinesExample

/-- A journal with a comment, a purchase with a blank posting and an include line. -/
def text : List Str :=
  [str "; my journal\n", str "2023-05-01 Shop  ; food\n", str "    Expenses:Food  20.50 EUR\n", str "    ; bread\n",
   str "    Assets:Cash\n", str "\n", str "include y\n"]

/-- A journal with a purchase of shares with a lot and a cost; the last line does not end with a line feed. -/
def text2 : List Str :=
  [str "2023-05-02=2023-05-03 Broker\n",
   str "    Assets:Stocks  10 VEUR {20 EUR} [2023-04-01] @ 25 EUR\n", str "    Assets:Cash  -250 EUR"]

/-- The file system of the example: two files. -/
def files : Files := fun f =>
  if f = str "x" then some (textSource text.flatten) else if f = str "y" then some (textSource text2.flatten) else none

def eur (n : Bool) (m k : Nat) : Amount := ⟨⟨n, m, k⟩, some (str "EUR")⟩

def food : Entry := ⟨str "Expenses:Food", some (eur false 2050 2), ⟨none, none⟩, none, [str "bread"], {}⟩
def cash : Entry := ⟨str "Assets:Cash", none, ⟨none, none⟩, none, [], {}⟩
def stocks : Entry := ⟨str "Assets:Stocks", some ⟨⟨false, 10, 0⟩, some (str "VEUR")⟩,
  ⟨some (eur false 20 0), some ⟨2023, 4, 1⟩⟩, some (true, eur false 25 0), [], {}⟩
def paid : Entry := ⟨str "Assets:Cash", some (eur true 250 0), ⟨none, none⟩, none, [], {}⟩

def shop : Writing := ⟨⟨2023, 5, 1⟩, none, str "Shop", str "food", [], [food, cash]⟩
def broker : Writing := ⟨⟨2023, 5, 2⟩, some ⟨2023, 5, 3⟩, str "Broker", [], [], [stocks, paid]⟩

theorem b0 : Blank [] := by unfold Blank; decide
theorem b1 : Blank [' '] := by unfold Blank; decide
theorem b3 : Blank (str "   ") := by unfold Blank; decide
theorem nl : Blank (str "\n") := by unfold Blank; decide

theorem amount (q s : Str) (d : Dec) (hq : q ≠ [] ∧ ∀ c ∈ q, isQtyChar c = true) (hs : s ≠ [] ∧ ∀ c ∈ s, isSymEnd c = false)
    (hd : Dec.fromStr q = some d) : WrittenAmount (q ++ [' '] ++ s) ⟨d, some s⟩ :=
  ⟨q, s, amountExample q s (quantityText_of hq) (symbolText_of hs), (C02_parse_exact q d).mp hd,
    by simp [symbolOf, hs.1]⟩

theorem noLot : WrittenLot [] ⟨none, none⟩ := ⟨[], [], [], .none, Or.inl ⟨rfl, rfl⟩, Or.inl ⟨rfl, rfl⟩⟩
theorem noCost : WrittenCost [] none := ⟨[], [], false, .none, Or.inl ⟨rfl, rfl⟩⟩

theorem foodLine : EntryLine (str "    Expenses:Food  20.50 EUR\n") { food with comments := [] } := by
  refine ⟨str "   Expenses:Food  20.50 EUR\n", rfl, ?_⟩
  have e : str "   Expenses:Food  20.50 EUR\n" =
      str "   " ++ str "Expenses:Food" ++ ' ' :: ' ' :: [] ++ (str "20.50" ++ [' '] ++ str "EUR") ++ [] ++ [] ++ str "\n" := by
    decide
  rw [e]
  exact EntryText.full b3 (accountText_of ⟨⟨'E', by decide, by decide, by decide⟩, by decide, by decide⟩) b0
    (amount _ _ _ (by decide) (by decide) (by decide)) noLot noCost (.blank nl) (by intro h; cases h) (by intro h; cases h)

theorem cashLine : EntryLine (str "    Assets:Cash\n") cash := by
  refine ⟨str "   Assets:Cash\n", rfl, ?_⟩
  have e : str "   Assets:Cash\n" = str "   " ++ str "Assets:Cash" ++ str "\n" := by decide
  rw [e]
  exact EntryText.blank b3 (accountText_of ⟨⟨'A', by decide, by decide, by decide⟩, by decide, by decide⟩) nl
    (not_twoSpaces (by decide))

theorem paidLine : EntryLine (str "    Assets:Cash  -250 EUR") paid := by
  refine ⟨str "   Assets:Cash  -250 EUR", rfl, ?_⟩
  have e : str "   Assets:Cash  -250 EUR" =
      str "   " ++ str "Assets:Cash" ++ ' ' :: ' ' :: [] ++ (str "-250" ++ [' '] ++ str "EUR") ++ [] ++ [] ++ [] := by
    decide
  rw [e]
  exact EntryText.full b3 (accountText_of ⟨⟨'A', by decide, by decide, by decide⟩, by decide, by decide⟩) b0
    (amount _ _ _ (by decide) (by decide) (by decide)) noLot noCost (.blank b0) (by intro h; cases h) (by intro h; cases h)

theorem stocksLine : EntryLine (str "    Assets:Stocks  10 VEUR {20 EUR} [2023-04-01] @ 25 EUR\n") stocks := by
  refine ⟨str "   Assets:Stocks  10 VEUR {20 EUR} [2023-04-01] @ 25 EUR\n", rfl, ?_⟩
  have e : str "   Assets:Stocks  10 VEUR {20 EUR} [2023-04-01] @ 25 EUR\n" =
      str "   " ++ str "Assets:Stocks" ++ ' ' :: ' ' :: [] ++ (str "10" ++ [' '] ++ str "VEUR") ++
      ([' '] ++ ('{' :: [] ++ (str "20" ++ [' '] ++ str "EUR") ++ [] ++ ['}']) ++ [' '] ++ ('[' :: str "2023-04-01" ++ [']'])) ++
      ([' '] ++ '@' :: ' ' :: [] ++ (str "25" ++ [' '] ++ str "EUR")) ++ str "\n" := by
    decide
  rw [e]
  refine EntryText.full b3 (accountText_of ⟨⟨'A', by decide, by decide, by decide⟩, by decide, by decide⟩) b0
    (amount _ _ _ (by decide) (by decide) (by decide)) ?_ ?_ (.blank nl) (by intro h; cases h) (by intro h; cases h)
  · exact ⟨str "20", str "EUR", str "2023-04-01", LotText.priceDate b1 (by simp)
      (LotPrice.mk b0 (amountExample _ _ (quantityText_of (by decide)) (symbolText_of (by decide))) b0 (by decide))
      b1 (LotDate.mk (by decide) (by decide)),
      Or.inr ⟨_, rfl, (C02_parse_exact _ _).mp (by decide), by decide⟩,
      Or.inr ⟨_, rfl, 2023, 4, 1, by decide, by decide, by decide, rfl⟩⟩
  · exact ⟨str "25", str "EUR", true,
      CostText.unit b1 b0 (amountExample _ _ (quantityText_of (by decide)) (symbolText_of (by decide))),
      Or.inr ⟨_, rfl, (C02_parse_exact _ _).mp (by decide), by decide⟩⟩

theorem not_noteMark {s : Str} (h : '\x3b' ∉ s) : ¬ NoteMark s := by
  rintro ⟨a, b, rfl⟩
  exact h (by simp)

theorem shopHeader : HeaderSays (str "2023-05-01 Shop  ; food\n") shop := by
  have h := @HeaderText.mk (str "2023-05-01") [] [] [' '] (str "Shop") (str "food") (str "  ; food") (str "\n")
    (by unfold DateText; decide) (Or.inl ⟨rfl, rfl⟩) b1 (by constructor <;> decide) (not_noteMark (by decide))
    (by constructor <;> decide) (Or.inr ⟨[], [' '], b0, b1, by decide⟩) nl (by decide)
  exact .of_text h ⟨2023, 5, 1, by decide, by decide, by decide, rfl⟩ (Or.inl ⟨rfl, rfl⟩)

theorem brokerHeader : HeaderSays (str "2023-05-02=2023-05-03 Broker\n") broker := by
  have h := @HeaderText.mk (str "2023-05-02") (str "2023-05-03") (str "=2023-05-03") [' '] (str "Broker") [] []
    (str "\n") (by unfold DateText; decide) (Or.inr ⟨by unfold DateText; decide, by decide⟩) b1 (by constructor <;> decide)
    (not_noteMark (by decide)) (by constructor <;> decide) (Or.inl ⟨rfl, rfl⟩) nl (by decide)
  exact .of_text h ⟨2023, 5, 2, by decide, by decide, by decide, rfl⟩
    (Or.inr ⟨_, rfl, 2023, 5, 3, by decide, by decide, by decide, rfl⟩)

/-- A way to check the lines of a text. -/
theorem linesOf_of {lines : List Str}
    (h : (∀ l ∈ lines.dropLast, ('\n' ∉ l.dropLast ∧ l = l.dropLast ++ ['\n'])) ∧
      ∀ l ∈ lines.getLast?, l ≠ [] ∧ '\n' ∉ l.dropLast) : LinesOf lines.flatten lines :=
  ⟨rfl, fun l hl => ⟨l.dropLast, (h.1 l hl).2, (h.1 l hl).1⟩, h.2⟩

theorem textLines : LinesOf text.flatten text := linesOf_of (by decide)
theorem text2Lines : LinesOf text2.flatten text2 := linesOf_of (by decide)

theorem lines : Says files 1 text [shop, broker] := by
  have hshop : XactLines [str "2023-05-01 Shop  ; food\n", str "    Expenses:Food  20.50 EUR\n", str "    ; bread\n",
      str "    Assets:Cash\n"] shop :=
    ⟨_, [], [[str "    Expenses:Food  20.50 EUR\n", str "    ; bread\n"], [str "    Assets:Cash\n"]], rfl, shopHeader, .nil,
      .cons ⟨_, _, rfl, foodLine, .cons ⟨str "   ", str " bread\n", by decide, by decide, by decide⟩ .nil⟩
        (.cons ⟨_, [], rfl, cashLine, .nil⟩ .nil)⟩
  have hbroker : XactLines text2 broker :=
    ⟨_, [], [[_], [_]], rfl, brokerHeader, .nil, .cons ⟨_, [], rfl, stocksLine, .nil⟩ (.cons ⟨_, [], rfl, paidLine, .nil⟩ .nil)⟩
  have hinc : JournalLines (fun f ws => (files f = none ∧ ws = []) ∨
      ∃ lines, files f = some (lines.map some) ∧ Says files 0 lines ws) [str "include y\n"] ([broker] ++ []) :=
    .included (file := str "y") ⟨⟨[' '], ['\n'], by decide, by decide, by decide, by decide, by decide, by decide⟩,
      by unfold IncludeName; decide⟩
      (Or.inr ⟨text2, by rw [← (readLines_iff _ _).mpr text2Lines]; rfl, .last hbroker⟩) .nil
  exact .ignored (Or.inr (Or.inr ⟨';', _, rfl, by decide⟩))
    (.xact hshop (line := str "\n") (Or.inl ⟨'\n', [], rfl, Or.inl rfl⟩) hinc)

theorem foodWorth : food.worth = 41 / 2 ∧ food.worthIn = some (str "EUR") := by
  refine ⟨?_, rfl⟩
  change Dec.val ⟨false, 2050, 2⟩ = _
  simp only [Dec.val_mk, Dec.sgn]; norm_num

theorem stocksWorth : stocks.worth = 250 ∧ stocks.worthIn = some (str "EUR") := by
  refine ⟨?_, rfl⟩
  change Dec.val ⟨false, 25, 0⟩ * Dec.val ⟨false, 10, 0⟩ = _
  simp only [Dec.val_mk, Dec.sgn]; norm_num

theorem paidWorth : paid.worth = -250 ∧ paid.worthIn = some (str "EUR") := by
  refine ⟨?_, rfl⟩
  change Dec.val ⟨true, 250, 0⟩ = _
  simp only [Dec.val_mk, Dec.sgn]; norm_num

theorem representable (m : Nat) (h : m < 2 ^ 96) (x : ℚ) (hx : x = m) : Representable x :=
  ⟨⟨false, m, 0⟩, ⟨h, by norm_num⟩, by rw [hx]; simp only [Dec.val_mk, Dec.sgn]; norm_num⟩

theorem shopFilled (lots : Str → Annotation → Prop) : Filled lots shop { shop with entries := [food, { cash with amount := some (eur true 2050 2) }] } := by
  have hs : entriesSum [food] (some (str "EUR")) = 41 / 2 := by
    rw [entriesSum, List.map_cons, List.map_nil, List.sum_cons, List.sum_nil, foodWorth.1, if_pos foodWorth.2]; norm_num
  refine ⟨[food], cash, [], some (str "EUR"), eur true 2050 2, rfl, ⟨rfl, rfl⟩, ?_, List.cons_ne_nil _ _, ?_, ?_, rfl, ?_, rfl⟩
  · intro q hq
    rw [List.mem_singleton.mp hq]
    exact ⟨by decide, rfl, (by intro a k _ h; cases h), by intro a u k _ h; cases h⟩
  · refine ⟨2, by norm_num, ?_, ?_⟩
    · intro e he
      rw [List.mem_singleton.mp he]
      decide
    · change (List.map (fun e => |e.worth|) [food]).sum * 10 ^ 2 < 2 ^ 96
      rw [List.map_cons, List.map_nil, List.sum_cons, List.sum_nil, foodWorth.1, abs_of_pos (by norm_num)]; norm_num
  · change 0 ≤ entriesSum [food] _
    rw [hs]; norm_num
  · change Dec.val ⟨true, 2050, 2⟩ = - entriesSum [food] _
    rw [hs]; simp only [Dec.val_mk, Dec.sgn]; norm_num

theorem stocksFits (lots : Str → Annotation → Prop)
    (h : ∀ lot, lots (str "VEUR") lot → lot.price = none ∨ lot.price = some (eur false 20 0)) : stocks.CostFits lots := by
  intro a u k ha hk
  injection ha with ha
  injection hk with hk
  injection hk with _ hk
  subst ha hk
  refine ⟨str "VEUR", str "EUR", rfl, rfl, by decide, ?_, ?_⟩
  · intro _
    refine representable 25 (by norm_num) _ ?_
    rw [stocksWorth.1, Dec.val_mk]; norm_num [Dec.sgn]
  · intro lot pr hl hp
    rcases h lot hl with h | h
    · rw [h] at hp; cases hp
    · rw [h] at hp
      injection hp with hp
      subst hp
      refine representable 200 (by norm_num) _ ?_
      change Dec.val ⟨false, 20, 0⟩ * Dec.val ⟨false, 10, 0⟩ = _
      simp only [Dec.val_mk, Dec.sgn]; norm_num

theorem brokerSound : Sound (LotsOf Journal.new.pool [shop, broker]) broker := by
  refine ⟨by decide, by decide, ?_, ?_, ?_, ?_⟩
  · intro c
    change entriesSum [stocks, paid] c = 0
    rw [entriesSum, List.map_cons, List.map_cons, List.map_nil, List.sum_cons, List.sum_cons, List.sum_nil, stocksWorth.1,
      paidWorth.1, stocksWorth.2, paidWorth.2]
    split <;> norm_num
  · refine ⟨0, by norm_num, by decide, ?_⟩
    change (List.map (fun e => |e.worth|) [stocks, paid]).sum * 10 ^ 0 < 2 ^ 96
    rw [List.map_cons, List.map_cons, List.map_nil, List.sum_cons, List.sum_cons, List.sum_nil, stocksWorth.1,
      paidWorth.1, abs_of_pos (by norm_num), abs_of_neg (by norm_num)]
    norm_num
  · intro e he a k ha hk
    have : e = stocks := by
      rcases List.mem_cons.mp he with h | h
      · exact h
      · rw [List.mem_singleton.mp h] at hk; cases hk
    subst this
    injection ha with ha
    injection hk with hk
    injection hk with _ hk
    subst ha hk
    exact representable 250 (by norm_num) _ stocksWorth.1
  · intro e he
    rcases List.mem_cons.mp he with rfl | he
    · refine stocksFits _ ?_
      rintro lot (h | ⟨w, hw, e, he, h1, rfl⟩)
      · cases h
      · have he' : e ∈ [food, cash, stocks, paid] := by
          rcases List.mem_cons.mp hw with rfl | hw
          · have he : e ∈ [food, cash] := he
            exact List.mem_append_left [stocks, paid] he
          · rw [List.mem_singleton.mp hw] at he
            have he : e ∈ [stocks, paid] := he
            exact List.mem_append_right [food, cash] he
        have : ∀ e ∈ [food, cash, stocks, paid], e.lot.price = none ∨ e.lot.price = some (eur false 20 0) := by decide
        exact this e he'
    · rw [List.mem_singleton.mp he]
      intro a u k _ hk
      cases hk

/-- The purchase of shares with a blank posting, which is filled in at cost. -/
theorem brokerFilled : Filled (LotsOf Journal.new.pool [{ broker with entries := [stocks, cash] }])
    { broker with entries := [stocks, cash] } { broker with entries := [stocks, { cash with amount := some (eur true 250 0) }] } := by
  have hs : entriesSum [stocks] (some (str "EUR")) = 250 := by
    rw [entriesSum, List.map_cons, List.map_nil, List.sum_cons, List.sum_nil, stocksWorth.1, if_pos stocksWorth.2]; norm_num
  refine ⟨[stocks], cash, [], some (str "EUR"), eur true 250 0, rfl, ⟨rfl, rfl⟩, ?_, List.cons_ne_nil _ _, ?_, ?_, rfl, ?_, rfl⟩
  · intro q hq
    rw [List.mem_singleton.mp hq]
    refine ⟨by decide, rfl, ?_, ?_⟩
    · intro a k ha hk
      injection ha with ha
      injection hk with hk
      injection hk with _ hk
      subst ha hk
      exact representable 250 (by norm_num) _ stocksWorth.1
    · refine stocksFits _ ?_
      rintro lot (h | ⟨w, hw, e, he, h1, rfl⟩)
      · cases h
      · rw [List.mem_singleton.mp hw] at he
        have : ∀ e ∈ [stocks, cash], e.lot.price = none ∨ e.lot.price = some (eur false 20 0) := by decide
        exact this e he
  · refine ⟨0, by norm_num, ?_, ?_⟩
    · intro e he
      rw [List.mem_singleton.mp he]
      decide
    · change (List.map (fun e => |e.worth|) [stocks]).sum * 10 ^ 0 < 2 ^ 96
      rw [List.map_cons, List.map_nil, List.sum_cons, List.sum_nil, stocksWorth.1, abs_of_pos (by norm_num)]; norm_num
  · change 0 ≤ entriesSum [stocks] _
    rw [hs]; norm_num
  · change Dec.val ⟨true, 250, 0⟩ = - entriesSum [stocks] _
    rw [hs]; simp only [Dec.val_mk, Dec.sgn]; norm_num

theorem completed : ∀ w ∈ [shop, broker], ∃ w', Completed (LotsOf Journal.new.pool [shop, broker]) w w' := by
  intro w hw
  rcases List.mem_cons.mp hw with rfl | hw
  · exact ⟨_, Or.inr (Or.inl (shopFilled _))⟩
  · rw [List.mem_singleton.mp hw]; exact ⟨_, Or.inl ⟨brokerSound, rfl⟩⟩

def usd : Entry := ⟨str "Assets:Travel", some ⟨⟨false, 10, 0⟩, some (str "USD")⟩, ⟨none, none⟩, none, [], {}⟩
def spent : Entry := ⟨str "Assets:Cash", some (eur true 9 0), ⟨none, none⟩, none, [], {}⟩

/-- An exchange of currencies at an implied rate. -/
def exchange : Writing := ⟨⟨2023, 5, 3⟩, none, str "Bank", [], [], [usd, spent]⟩

theorem usdWorth : usd.worth = 10 ∧ usd.worthIn = some (str "USD") := by
  refine ⟨?_, rfl⟩
  change Dec.val ⟨false, 10, 0⟩ = _
  simp only [Dec.val_mk, Dec.sgn]; norm_num

theorem spentWorth : spent.worth = -9 ∧ spent.worthIn = some (str "EUR") := by
  refine ⟨?_, rfl⟩
  change Dec.val ⟨true, 9, 0⟩ = _
  simp only [Dec.val_mk, Dec.sgn]; norm_num

/-- The dollars cost nine euros. -/
theorem exchangeRated : Rated (LotsOf Journal.new.pool [exchange]) exchange
    { exchange with entries := [{ usd with cost := some (false, eur false 9 0) }, spent] } := by
  have hv : Dec.val ⟨false, 10, 0⟩ = 10 := by simp only [Dec.val_mk, Dec.sgn]; norm_num
  have h9 : Dec.val ⟨false, 9, 0⟩ = 9 := by simp only [Dec.val_mk, Dec.sgn]; norm_num
  have sA : entriesSum [usd, spent] (some (str "USD")) = 10 := by
    rw [entriesSum_cons, entriesSum_cons, usdWorth.1, usdWorth.2, spentWorth.2, if_pos rfl, if_neg (by decide)]
    simp [entriesSum]
  have sB : entriesSum [usd, spent] (some (str "EUR")) = -9 := by
    rw [entriesSum_cons, entriesSum_cons, usdWorth.2, spentWorth.1, spentWorth.2, if_pos rfl, if_neg (by decide)]
    simp [entriesSum]
  have sm : (List.map (fun e => |e.worth|) [usd, spent]).sum = 19 := by
    rw [List.map_cons, List.map_cons, List.map_nil, List.sum_cons, List.sum_cons, List.sum_nil, usdWorth.1,
      spentWorth.1, abs_of_pos (by norm_num), abs_of_neg (by norm_num)]
    norm_num
  have hcase : ∀ e ∈ exchange.entries, e = usd ∨ e = spent := by
    intro e he
    have he : e ∈ [usd, spent] := he
    simpa using he
  refine ⟨str "USD", str "EUR", 9 / 10, _, by decide, ⟨usd, [spent], rfl, rfl⟩, ?_, ?_, ?_, ?_, by norm_num, ?_, ?_, ?_,
    .cons (Or.inl ⟨rfl, _, eur false 9 0, rfl, rfl, ?_, rfl⟩) (.cons (Or.inr ⟨by decide, rfl⟩) .nil), rfl⟩
  · intro e he hc
    rcases hcase e he with rfl | rfl
    · refine ⟨rfl, fun a ha => ?_⟩
      injection ha with ha
      subst ha
      refine ⟨representable 9 (by norm_num) _ (by rw [hv]; norm_num), ?_⟩
      rintro lot pr (h | ⟨w, hw, e, he, h1, rfl⟩) hp
      · cases h
      · rw [List.mem_singleton.mp hw] at he
        rcases hcase e he with rfl | rfl <;> cases hp
    · exact absurd hc (by decide)
  · intro e he hc
    rcases hcase e he with rfl | rfl
    · exact absurd rfl hc
    · exact ⟨by decide, rfl, (by intro a k _ h; cases h), by intro a u k _ h; cases h⟩
  · change entriesSum [usd, spent] _ ≠ 0
    rw [sA]; norm_num
  · change entriesSum [usd, spent] _ = - (_ * entriesSum [usd, spent] _)
    rw [sA, sB]; norm_num
  · exact ⟨⟨false, 9, 1⟩, ⟨by norm_num, by norm_num⟩, by simp only [Dec.val_mk, Dec.sgn]; norm_num⟩
  · refine ⟨0, by norm_num, by decide, ?_⟩
    change (List.map (fun e => |e.worth|) [usd, spent]).sum * 10 ^ 0 < 2 ^ 96
    rw [sm]; norm_num
  · change (2 + 9 / 10) * (List.map (fun e => |e.worth|) [usd, spent]).sum + 2 * ((2 : Nat) : ℚ) ≤ 10 ^ 28
    rw [sm]; norm_num
  · change Dec.val ⟨false, 9, 0⟩ = 9 / 10 * Dec.val ⟨false, 10, 0⟩
    rw [hv, h9]; norm_num

/-- The example meets the hypotheses of C72. -/
example : ∃ ws', List.Forall₂ (Completed (LotsOf Journal.new.pool [shop, broker])) [shop, broker] ws' ∧
      (InRange (writtenBelow ws' []) → ∃ out, run files 1 [str "bal", str "-f", str "x"] = .ok out ∧
          ReportOf [shop, broker] ws' out) :=
  C72_report_as_written_partial files 1 (fs := [str "x"]) (wss := [[shop, broker]])
    (.cons ⟨_, _, rfl, textLines, lines⟩ .nil) completed (verb := str "bal") (rest := [])
    (by decide) (by unfold BalanceVerb; decide)

/-- What is printed. -/
example : ∃ out, run files 1 [str "bal", str "-f", str "x"] = .ok out ∧
      out = [str "Account  has balance -250.00 EUR10 VEUR", str "Account Assets has balance -270.50 EUR10 VEUR",
        str "Account Assets:Cash has balance -270.50 EUR", str "Account Assets:Stocks has balance 10 VEUR",
        str "Account Expenses has balance 20.50 EUR", str "Account Expenses:Food has balance 20.50 EUR"] :=
  ok_and (by decide +kernel)

end LinesExample

end Ledger
