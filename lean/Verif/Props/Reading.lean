import Verif.Lemmas.Ready
import Verif.Lemmas.Failures
/-
C90: what every posting line and header line is taken for, or why it is refused.
-/
namespace Ledger
open Ledger.Parser Ledger.Scanner

/-- C53: a text is read as a day if and only if it is this day: no other text is. -/
theorem C53_date_text (s : Str) (d : Date) : Chrono.parseDate s = some d ↔ DayText s d := parseDate_iff s d

/-- C55: a text is read as a time if and only if it is this time of day: no other text is. -/
theorem C55_time_text (s : Str) (t : Time) : Chrono.parseTime s = some t ↔ ClockText s t := parseTime_iff s t

/-- C90: the scanner takes every line for one thing, and this is it. -/
theorem C90_line (text : Str) (o : Res PostTokens) : PostPart text o ↔ scanPost text = o := postPart_iff text o

/-- C90: every line is taken for exactly one thing. -/
theorem C90_one (text : Str) : ∃! o, PostPart text o :=
  ⟨scanPost text, (postPart_iff _ _).mpr rfl, fun _ h => ((postPart_iff _ _).mp h).symm⟩

/-- C90: the scanner takes every header line for one thing, and this is it. -/
theorem C90_header_line {text : Str} (h : HeaderLine text) (d a p n : Str) :
    HeaderPart text d a p n ↔ tokenizeXactHeader text = .ok (d, a, p, n) := headerPart_iff (headerLine_ne h) d a p n

theorem tokenizeXactHeader_total {text : Str} (h : text ≠ []) : ∃ d a p n, tokenizeXactHeader text = .ok (d, a, p, n) := by
  unfold tokenizeXactHeader
  rw [if_neg h]
  have : ∀ r, ∃ n, tokenizeNote (tokenizePayee r).2 = .ok n := by
    intro r
    by_cases hm : NoteMark r
    · obtain ⟨x, y, rfl, hx⟩ := noteMark_split hm
      exact ⟨_, ((tokenizePayee_note _ _ _).mp (Or.inr ⟨x, y, rfl, hx, trim_split x, trim_split y⟩)).2⟩
    · exact ⟨_, ((tokenizePayee_note _ _ _).mp (Or.inl ⟨hm, trim_split r, rfl⟩)).2⟩
  obtain ⟨n, hn⟩ := this (tokenizeAuxDate (scanDate text).2).2
  refine ⟨(scanDate text).1, (tokenizeAuxDate (scanDate text).2).1, (tokenizePayee (tokenizeAuxDate (scanDate text).2).2).1, n, ?_⟩
  simp only [hn, bind, Except.bind]

theorem bind_fails {α β : Type} {x : Res α} {f : α → Res β} (hf : ∀ a, ∃ b, f a = .ok b) (k : Panic) :
    (x >>= f) = .error k ↔ x = .error k := by
  cases x with
  | error e =>
    show (Except.error e : Res β) = _ ↔ _
    simp
  | ok a =>
    obtain ⟨b, hb⟩ := hf a
    show f a = _ ↔ _
    rw [hb]
    simp

/-- C90: exactly which posting lines are refused, and with which panic, in whatever journal. -/
theorem C90_refused {j : Journal} (hj : InOrder j) (text : Str) (i : Nat) (k : Panic) :
    parsePost text i j = .error k ↔ PostRefused text k := by
  have hscan := fun o => postPart_iff text o
  cases hs : scanPost text with
  | error k' =>
    have h1 : parsePost text i j = .error k' := by unfold parsePost; rw [hs]; rfl
    rw [h1]
    constructor
    · intro h
      injection h with h
      exact .scan ((hscan _).mpr (by rw [hs, h]))
    · intro h
      cases h with
      | scan h => rw [hscan, hs] at h; injection h with h; rw [h]
      | date h => rw [hscan, hs] at h; cases h
      | product h => rw [hscan, hs] at h; cases h
  | ok t =>
    have ht : PostPart text (.ok t) := (hscan _).mpr hs
    obtain ⟨m, path, hr⟩ := fails_registerAccount hj (postPart_account_ne ht)
    have h1 : parsePost text i j = .error k ↔ parsePostAmounts t j.pool = .error k := by
      unfold parsePost
      rw [hs, res_bind_ok, hr, res_bind_ok]
      exact bind_fails (fun _ => ⟨_, rfl⟩) k
    have hone : ∀ {t'}, PostPart text (.ok t') → t' = t := by
      intro t' h
      rw [hscan, hs] at h
      injection h with h
      exact h.symm
    have hno : ¬ PostPart text (.error k) := by rw [hscan, hs]; simp
    rw [h1]
    obtain ⟨am, st, ham⟩ := NumberSays.total t.quantity t.symbol
    by_cases hd : t.priceDate = [] ∨ ∃ d, DayText t.priceDate d
    · have h2 : ∀ p, ∃ p' an, parseAnnotation t.priceDate t.priceQuantity t.priceCommodity p = .ok (p', an) := by
        intro p
        unfold parseAnnotation
        rcases hd with h | ⟨d, h⟩
        · simp only [h, if_true, bind, Except.bind]; exact ⟨_, _, rfl⟩
        · simp only [dayText_ne h, if_false, (parseDate_iff _ _).mpr h, bind, Except.bind]; exact ⟨_, _, rfl⟩
      unfold parsePostAmounts
      rw [ham.parts]
      simp only
      obtain ⟨p', an, h2⟩ := h2 (j.pool.findOrCreate t.symbol none).1
      rw [h2, res_bind_ok]
      simp only
      generalize (p'.findOrCreate t.symbol (some an)).1 = p3
      rw [bind_fails (fun _ => ⟨_, rfl⟩) k]
      unfold parseCost
      rcases ham with ⟨a, ha, rfl, _⟩ | ⟨hna, rfl, _⟩
      · obtain ⟨ck, cst, hck⟩ := NumberSays.total t.costQuantity t.costSymbol
        simp only
        rw [hck.parts]
        rcases hck with ⟨c, hc, rfl, _⟩ | ⟨hnc, rfl, _⟩
        · rw [if_neg (numeral_ne hc)]
          simp only
          cases hu : t.isPerUnit with
          | false =>
            simp only [Bool.false_eq_true, if_false]
            constructor
            · intro h; cases h
            · intro h
              cases h with
              | scan h => exact absurd h hno
              | date h hd' hn =>
                obtain rfl := hone h
                rcases hd with h | ⟨d, h⟩
                · exact absurd h hd'
                · exact absurd h (hn d)
              | product h _ hu' =>
                obtain rfl := hone h
                rw [hu] at hu'; cases hu'
          | true =>
            simp only [if_true, Amount.mulAssign, bind, Except.bind]
            have hm := Dec.mul_ok_iff c a
            cases hmul : c.mul a with
            | ok r =>
              have : Moderate (c.val * a.val) := hm.mp ⟨r, hmul⟩
              simp only
              constructor
              · intro h; cases h
              · intro h
                cases h with
                | scan h => exact absurd h hno
                | date h hd' hn =>
                  obtain rfl := hone h
                  rcases hd with h | ⟨d, h⟩
                  · exact absurd h hd'
                  · exact absurd h (hn d)
                | product h _ _ ha' hk' hm' =>
                  obtain rfl := hone h
                  have e1 := (C02_parse_exact _ _).mpr ha
                  rw [(C02_parse_exact _ _).mpr ha'] at e1
                  have e2 := (C02_parse_exact _ _).mpr hc
                  rw [(C02_parse_exact _ _).mpr hk'] at e2
                  injection e1 with e1
                  injection e2 with e2
                  rw [e1, e2] at hm'
                  exact absurd this hm'
            | error e =>
              have hm' : ¬ Moderate (c.val * a.val) := fun h => by
                obtain ⟨r, hr⟩ := hm.mpr h
                rw [hmul] at hr; cases hr
              have he : e = .decimalOverflow := by
                have := fails_amount_mulAssign ⟨c, none⟩ ⟨a, none⟩
                have := this e (by simp only [Amount.mulAssign, hmul, bind, Except.bind])
                simpa using this
              subst he
              simp only [Except.error.injEq]
              constructor
              · rintro rfl
                exact .product ht hd hu ha hc hm'
              · intro h
                cases h with
                | scan h => exact absurd h hno
                | date h hd' hn =>
                  obtain rfl := hone h
                  rcases hd with h | ⟨d, h⟩
                  · exact absurd h hd'
                  · exact absurd h (hn d)
                | product => rfl
        · simp only
          constructor
          · intro h; split at h <;> cases h
          · intro h
            cases h with
            | scan h => exact absurd h hno
            | date h hd' hn =>
              obtain rfl := hone h
              rcases hd with h | ⟨d, h⟩
              · exact absurd h hd'
              · exact absurd h (hn d)
            | product h _ _ _ hk' =>
              obtain rfl := hone h
              exact absurd hk' (hnc _)
      · constructor
        · intro h; cases h
        · intro h
          cases h with
          | scan h => exact absurd h hno
          | date h hd' hn =>
            obtain rfl := hone h
            rcases hd with h | ⟨d, h⟩
            · exact absurd h hd'
            · exact absurd h (hn d)
          | product h _ _ ha' =>
            obtain rfl := hone h
            exact absurd ha' (hna _)
    · have hd1 : t.priceDate ≠ [] := fun h => hd (Or.inl h)
      have hd2 : ∀ d, ¬ DayText t.priceDate d := fun d h => hd (Or.inr ⟨d, h⟩)
      have h2 : ∀ p, parseAnnotation t.priceDate t.priceQuantity t.priceCommodity p = .error .dateParse := by
        intro p
        unfold parseAnnotation
        have : Chrono.parseDate t.priceDate = none := by
          cases h : Chrono.parseDate t.priceDate with
          | none => rfl
          | some d => exact absurd ((parseDate_iff _ _).mp h) (hd2 d)
        simp only [hd1, if_false, this, bind, Except.bind]
      unfold parsePostAmounts
      rw [ham.parts]
      simp only [h2, bind, Except.bind, Except.error.injEq]
      constructor
      · rintro rfl
        exact .date ht hd1 hd2
      · intro h
        cases h with
        | scan h => exact absurd h hno
        | date => rfl
        | product h hd' =>
          obtain rfl := hone h
          exact absurd hd' hd

/-- C90: exactly which header lines are refused. -/
theorem C90_header_refused {line : Str} (h : HeaderLine line) (j : Journal) (k : Panic) :
    createXact line j = .error k ↔ HeaderRefused line k := by
  obtain ⟨d, a, p, n, ht⟩ := tokenizeXactHeader_total (headerLine_ne h)
  have hp := (headerPart_iff (headerLine_ne h) d a p n).mpr ht
  have hone : ∀ {d' a' p' n'}, HeaderPart line d' a' p' n' → d' = d ∧ a' = a := by
    intro d' a' p' n' h'
    rw [headerPart_iff (headerLine_ne h), ht] at h'
    simp only [Except.ok.injEq, Prod.mk.injEq] at h'
    exact ⟨h'.1.symm, h'.2.1.symm⟩
  have hdne : d ≠ [] := by
    obtain ⟨_, _, ⟨e, _, h2⟩, _⟩ := hp
    obtain ⟨c, r, rfl, hc⟩ := h
    rintro rfl
    rw [List.nil_append] at e
    have := h2 c (by rw [← e]; rfl)
    apply this
    constructor
    · rintro rfl; exact absurd hc (by decide)
    · rintro rfl; exact absurd hc (by decide)
  have hread : ∀ s, Chrono.parseDate s = none ↔ ∀ x, ¬ DayText s x := by
    intro s
    cases hs : Chrono.parseDate s with
    | none => simp only [true_iff]; intro x hx; rw [(parseDate_iff _ _).mpr hx] at hs; cases hs
    | some x =>
      simp only [reduceCtorEq, false_iff]
      intro hn
      exact hn x ((parseDate_iff _ _).mp hs)
  have hrun : createXact line j = .error k ↔
      k = .dateParse ∧ ((∀ x, ¬ DayText d x) ∨ (a ≠ [] ∧ ∀ x, ¬ DayText a x)) := by
    unfold createXact
    rw [ht]
    simp only [bind, Except.bind, Xact.create, Xact.parseDate, hdne, if_false, ← hread]
    cases hd : Chrono.parseDate d with
    | none => simp [eq_comm]
    | some x =>
      by_cases ha : a = []
      · simp [ha]
      · cases hax : Chrono.parseDate a with
        | none => simp [ha, eq_comm]
        | some y => simp [ha]
  rw [hrun]
  unfold HeaderRefused
  constructor
  · rintro ⟨rfl, h⟩; exact ⟨rfl, d, a, p, n, hp, h⟩
  · rintro ⟨rfl, d', a', p', n', hp', h⟩
    obtain ⟨rfl, rfl⟩ := hone hp'
    exact ⟨rfl, h⟩

theorem partsSay_total {t : PostTokens} (hd : t.priceDate = [] ∨ ∃ d, DayText t.priceDate d) : ∃ e, PartsSay t e := by
  obtain ⟨a, st, ha⟩ := NumberSays.total t.quantity t.symbol
  obtain ⟨p, pst, hp⟩ := NumberSays.total t.priceQuantity t.priceCommodity
  obtain ⟨k, kst, hk⟩ := NumberSays.total t.costQuantity t.costSymbol
  have hd' : ∃ d, (t.priceDate = [] ∧ d = none) ∨ ∃ x, DayText t.priceDate x ∧ d = some x := by
    rcases hd with h | ⟨d, h⟩
    · exact ⟨none, Or.inl ⟨h, rfl⟩⟩
    · exact ⟨some d, Or.inr ⟨d, h, rfl⟩⟩
  obtain ⟨d, hd⟩ := hd'
  by_cases hc : a = none ∨ t.costQuantity = []
  · exact ⟨⟨t.account, a, ⟨p, d⟩, none, [], ⟨st, pst, none⟩⟩, rfl, ha, hp, hd, Or.inl ⟨hc, rfl, rfl⟩, rfl⟩
  · exact ⟨⟨t.account, a, ⟨p, d⟩, k.map (t.isPerUnit, ·), [], ⟨st, pst, kst⟩⟩, rfl, ha, hp, hd,
      Or.inr ⟨fun h => hc (Or.inl h), fun h => hc (Or.inr h), k, hk, rfl⟩, rfl⟩

theorem dayText_unique {s : Str} {d d' : Date} (h : DayText s d) (h' : DayText s d') : d = d' := by
  have := (parseDate_iff _ _).mpr h
  rw [(parseDate_iff _ _).mpr h'] at this
  injection this with this
  exact this.symm

/-- A line says only one thing. -/
theorem entryText_unique {text : Str} {e e' : Entry} (h : EntryText text e) (h' : EntryText text e') : e = e' := by
  obtain ⟨t, h1, h⟩ := h
  obtain ⟨t', h1', h'⟩ := h'
  rw [postPart_iff] at h1 h1'
  rw [h1] at h1'
  injection h1' with h1'
  subst h1'
  obtain ⟨acct, am, ⟨lp, ld⟩, cost, cmts, ⟨sa, sp, sc⟩⟩ := e
  obtain ⟨acct', am', ⟨lp', ld'⟩, cost', cmts', ⟨sa', sp', sc'⟩⟩ := e'
  obtain ⟨e1, e2⟩ := h.amount.unique h'.amount
  obtain ⟨e3, e4⟩ := h.price.unique h'.price
  have e5 : ld = ld' := by
    have hd := h.date
    have hd' := h'.date
    simp only at hd hd'
    rcases hd with ⟨a, b⟩ | ⟨d, a, b⟩ <;> rcases hd' with ⟨a', b'⟩ | ⟨d', a', b'⟩
    · rw [b, b']
    · exact absurd a (dayText_ne a')
    · exact absurd a' (dayText_ne a)
    · rw [b, b', dayText_unique a a']
  have e6 : cost = cost' ∧ sc = sc' := by
    have hc := h.cost
    have hc' := h'.cost
    simp only at hc hc' e1
    rcases hc with ⟨a, b, c⟩ | ⟨a1, a2, k, a3, a4⟩ <;> rcases hc' with ⟨a', b', c'⟩ | ⟨a1', a2', k', a3', a4'⟩
    · exact ⟨by rw [b, b'], by rw [c, c']⟩
    · rcases a with a | a
      · exact absurd (e1 ▸ a) a1'
      · exact absurd a a2'
    · rcases a' with a | a
      · exact absurd (e1 ▸ a) a1
      · exact absurd a a2
    · obtain ⟨f1, f2⟩ := a3.unique a3'
      exact ⟨by rw [a4, a4', f1], f2⟩
  have e7 := h.account.trans h'.account.symm
  have e8 := h.comments.trans h'.comments.symm
  simp only at e1 e2 e3 e4 e5 e7 e8
  obtain ⟨e6, e9⟩ := e6
  subst e1 e2 e3 e4 e5 e6 e7 e8 e9
  rfl

/-- C90: a line that is not refused says exactly one thing, and the journal gets the posting it says: its account, its
amount if there is a number, its cost if both are numbers. -/
theorem C90_taken {j : Journal} (hj : InOrder j) {xs : List Xact} {x : Xact} (hx : j.xacts = xs ++ [x]) (text : Str)
    (hr : ∀ k, ¬ PostRefused text k) :
    ∃ e p pool, EntryText text e ∧ (∀ e', EntryText text e' → e' = e) ∧
      parsePost text xs.length j = .ok
        ⟨(Account.ensure (pathOf e.account) j.master).pushPost (pathOf e.account) (xs.length, x.posts.length), pool,
          xs ++ [{ x with posts := x.posts ++ [p] }]⟩ ∧
      p.account = pathOf e.account ∧ p.amount = e.amount ∧ p.note = none ∧
      ((e.amount = none ∧ p.cost = none) ∨ ∃ a, e.amount = some a ∧ CostTaken a e.cost p.cost) ∧
      PoolAfter e j.pool pool := by
  cases hs : scanPost text with
  | error k => exact absurd (.scan ((postPart_iff _ _).mpr hs)) (hr k)
  | ok t =>
    have ht : PostPart text (.ok t) := (postPart_iff _ _).mpr hs
    have hd : t.priceDate = [] ∨ ∃ d, DayText t.priceDate d := by
      by_contra hd
      exact hr _ (.date ht (fun h => hd (Or.inl h)) (fun d h => hd (Or.inr ⟨d, h⟩)))
    obtain ⟨e, he⟩ := partsSay_total hd
    have hte : EntryText text e := ⟨t, ht, he⟩
    have hm : ∀ a k, e.amount = some a → e.cost = some (true, k) → ∃ r, k.mulAssign a = .ok r := by
      intro a k ha hk
      have h1 := he.amount
      rw [ha] at h1
      rcases h1 with ⟨a', h1, h1', _⟩ | ⟨_, h1, _⟩
      swap
      · cases h1
      rcases he.cost with ⟨_, h2, _⟩ | ⟨_, _, k', h2, h3⟩
      · rw [h2] at hk; cases hk
      rw [h3] at hk
      rcases h2 with ⟨q, h2, rfl, _⟩ | ⟨_, rfl, _⟩
      swap
      · cases hk
      simp only [Option.map_some, Option.some.injEq, Prod.mk.injEq] at hk
      injection h1' with h1'
      subst h1'
      obtain ⟨hu, rfl⟩ := hk
      by_contra hn
      refine hr _ (.product ht hd hu h1 h2 (fun hmod => hn ?_))
      obtain ⟨r, hr⟩ := (Dec.mul_ok_iff q a').mpr hmod
      exact ⟨_, by simp only [Amount.mulAssign, hr, bind, Except.bind]; rfl⟩
    obtain ⟨pool, c, h3, h4, h5⟩ := parsePostAmounts_run he hm j.pool
    refine ⟨e, ⟨pathOf e.account, e.amount, c, none⟩, pool, hte, fun e' h' => entryText_unique h' hte, ?_, rfl, rfl, rfl, ?_, h5⟩
    · unfold parsePost
      rw [hs]
      simp only [bind, Except.bind, Journal.registerAccount, ← he.account]
      rw [if_neg (entry_account_ne hte), Account.findOrCreate_create _ _ hj.1]
      simp only [h3]
      simp only [Journal.updateXact, hx]
      simp [modify_mid]
    · rcases h4 with h | ⟨a, h, hc⟩
      · exact Or.inl h
      · refine Or.inr ⟨a, h, ?_⟩
        simp only
        cases hec : e.cost with
        | none => rw [hec] at hc; exact hc
        | some uk =>
          obtain ⟨u, k⟩ := uk
          rw [hec] at hc
          cases u with
          | false => exact hc
          | true =>
            obtain ⟨r, rfl, hr⟩ := hc
            unfold Amount.mulAssign at hr
            cases hq : k.qty.mul a.qty with
            | error => rw [hq] at hr; cases hr
            | ok q =>
              rw [hq, res_bind_ok] at hr
              injection hr with hr
              refine ⟨r, rfl, ?_, ?_⟩
              · rw [← hr]; exact Dec.mul_precise _ _ _ hq
              · rw [← hr]
                cases hk : k.comm with
                | none => cases ha : a.comm <;> simp
                | some s => simp

/-- C90: a posting whose amount is not a number is taken for one without amount, whatever its cost is.  -/
theorem C90_lost_amount {text : Str} {t : PostTokens} {e : Entry} (h : PostPart text (.ok t)) (he : EntryText text e)
    (hn : ∀ d, ¬ Numeral t.quantity d) : e.amount = none ∧ e.cost = none := by
  obtain ⟨t', h', he'⟩ := he
  have : t' = t := by
    rw [postPart_iff] at h h'
    rw [h] at h'
    injection h' with h'
    exact h'.symm
  subst this
  have ha : e.amount = none := by
    rcases he'.amount with ⟨d, hd, _⟩ | ⟨_, ha, _⟩
    · exact absurd hd (hn d)
    · exact ha
  refine ⟨ha, ?_⟩
  rcases he'.cost with ⟨_, h, _⟩ | ⟨h, _⟩
  · exact h
  · exact absurd ha h

namespace ReadingExample

/-- Lines that are refused: a cost sign at the end, a second lot price, a brace that is not closed, nothing after two
spaces, an expression, a lot date that is not a day, a product that is too large. -/
theorem refused :
    PostRefused (str "A  1 EUR @") .sliceBoundary ∧ PostRefused (str "A  1 EUR @ ") .noAmountChar ∧
    PostRefused (str "A  1 EUR @é2 USD") .sliceBoundary ∧
    PostRefused (str "A  1 EUR {2 USD} {3 USD}") .secondLotPrice ∧
    PostRefused (str "A  1 EUR {2 USD") .separatorMissing ∧ PostRefused (str "A  1 EUR {}") .noAmountChar ∧
    PostRefused (str "A  ") .noAmountChar ∧ PostRefused (str "A  1 EUR (x)") .valuationExpr ∧
    PostRefused (str "A  1 EUR [2023-02-30]") .dateParse := by
  have key : ∀ text k, parsePost text 0 Journal.new = .error k → PostRefused text k :=
    fun text k h => (C90_refused (Journal.Reachable.new).inOrder text 0 k).mp h
  refine ⟨key _ _ ?_, key _ _ ?_, key _ _ ?_, key _ _ ?_, key _ _ ?_, key _ _ ?_, key _ _ ?_, key _ _ ?_, key _ _ ?_⟩ <;>
    decide +kernel

/-- Lines that are not: a lot price without number before another one, an empty lot date before another one, a cost
without number, something after the amount, a number with a comma. -/
theorem accepted :
    PostPart (str "A  1 EUR {USD} {2 USD}") (.ok ⟨['A'], ['1'], str "EUR", ['2'], str "USD", [], [], [], false⟩) ∧
    PostPart (str "A  1 EUR [] [x]") (.ok ⟨['A'], ['1'], str "EUR", [], [], ['x'], [], [], false⟩) ∧
    PostPart (str "A  1 EUR @ USD") (.ok ⟨['A'], ['1'], str "EUR", [], [], [], [], str "USD", true⟩) ∧
    PostPart (str "A  1 EUR 2 USD") (.ok ⟨['A'], ['1'], str "EUR", [], [], [], [], [], false⟩) ∧
    PostPart (str "A  1,000 EUR") (.ok ⟨['A'], str "1,000", str "EUR", [], [], [], [], [], false⟩) := by
  simp only [C90_line]
  decide +kernel

/-- The amount with a comma is lost, and the posting is one without amount. -/
theorem comma : ∃ e, EntryText (str "A  1,000 EUR") e ∧ e.amount = none ∧ e.strays.amount = some (str "EUR") := by
  refine ⟨⟨['A'], none, ⟨none, none⟩, none, [], ⟨some (str "EUR"), none, none⟩⟩, ⟨_, accepted.2.2.2.2, rfl, ?_, .nothing,
    Or.inl ⟨rfl, rfl⟩, Or.inl ⟨Or.inl rfl, rfl, rfl⟩, rfl⟩, rfl, rfl⟩
  refine Or.inr ⟨fun d hd => ?_, rfl, by decide⟩
  rw [← C02_parse_exact] at hd
  exact absurd hd (by rw [show Dec.fromStr (str "1,000") = none from by decide +kernel]; simp)

/-- Dates: blanks, signs and short numbers are fine, text after the day is not. -/
theorem dates : DayText (str "2023-5-1") ⟨2023, 5, 1⟩ ∧ DayText (str " +2023- 05- 01") ⟨2023, 5, 1⟩ ∧
    DayText (str "-0004-02-29") ⟨-4, 2, 29⟩ ∧ (∀ d, ¬ DayText (str "2023-05-01\n") d) ∧ ∀ d, ¬ DayText (str "2023-02-29") d := by
  simp only [← C53_date_text]
  refine ⟨by decide +kernel, by decide +kernel, by decide +kernel, ?_, ?_⟩
  · intro d; rw [show Chrono.parseDate (str "2023-05-01\n") = none from by decide +kernel]; simp
  · intro d; rw [show Chrono.parseDate (str "2023-02-29") = none from by decide +kernel]; simp

end ReadingExample

end Ledger
