import Verif.Props.Scanner
import Verif.Props.Pool
import Verif.Lemmas.Price
/-
C53, C54, C55: dates, date-only headers and price lines.
-/
namespace Ledger
open Ledger.Parser Ledger.Scanner

/-! ### C53 -/

/-- C53: a text of the shape `YYYY-MM-DD` is read as the calendar day it states, and refused if there is no such day. -/
theorem C53_dates_exact {a b c d e f g h : Char} (hd : ∀ x ∈ [a, b, c, d, e, f, g, h], isDig x = true) :
    let y := (((a.toNat - 48) * 10 + (b.toNat - 48)) * 10 + (c.toNat - 48)) * 10 + (d.toNat - 48)
    let m := (e.toNat - 48) * 10 + (f.toNat - 48)
    let x := (g.toNat - 48) * 10 + (h.toNat - 48)
    Chrono.parseDate [a, b, c, d, '-', e, f, '-', g, h] = if CalendarDay y m x then some ⟨y, m, x⟩ else none :=
  parseDate_digits (hd a (by simp)) (hd b (by simp)) (hd c (by simp)) (hd d (by simp)) (hd e (by simp)) (hd f (by simp))
    (hd g (by simp)) (hd h (by simp))

/-- C53, from the day to its text. -/
theorem C53_day_read (y m d : Nat) (hy : y ≤ 9999) (h : CalendarDay y m d) :
    Chrono.parseDate (isoDate y m d) = some ⟨y, m, d⟩ := by
  have hm : m ≤ 99 := by
    obtain ⟨n, h1, h2, _⟩ := h
    have := (List.getElem?_eq_some_iff.mp h2).1
    simp [monthLengths] at this; omega
  have hd : d ≤ 99 := by
    obtain ⟨n, h1, h2, _, h4⟩ := h
    have : n ∈ monthLengths y := List.mem_of_getElem? h2
    simp only [monthLengths, List.mem_cons, List.not_mem_nil, or_false] at this
    split at this <;> omega
  rw [parseDate_iso y m d hy hm hd, if_pos h]

/-- C53: the date of a header is read as that day, and a header whose date is not a day is refused; likewise for the
auxiliary date. -/
theorem C53_header_date {text aux p n : Str} (y m d : Nat) (hy : y ≤ 9999) (hm : m ≤ 99) (hd : d ≤ 99)
    (h : HeaderText text (isoDate y m d) aux p n) (j : Journal) :
    (¬ CalendarDay y m d → createXact text j = .error .dateParse) ∧
    (∀ j' i, createXact text j = .ok (j', i) →
      ∃ x, j'.xacts = j.xacts ++ [x] ∧ x.date = some ⟨y, m, d⟩ ∧ HeaderDate aux x.auxDate) := by
  have ht := tokenizeXactHeader_text h
  have hne : isoDate y m d ≠ [] := by simp [isoDate]
  have hp := parseDate_iso y m d hy hm hd
  constructor
  · intro hc
    rw [if_neg hc] at hp
    simp [createXact, ht, bind, Except.bind, Xact.create, hne, Xact.parseDate, hp]
  · intro j' i hx
    simp only [createXact, ht, bind, Except.bind, Xact.create, hne, if_false, Xact.parseDate, hp] at hx
    by_cases hc : CalendarDay y m d
    · simp only [hc, if_true] at hx
      by_cases ha : aux = []
      · simp only [ha, if_true] at hx
        simp only [Journal.addXact, Except.ok.injEq, Prod.mk.injEq] at hx
        rw [← hx.1]
        exact ⟨_, rfl, rfl, by simp [HeaderDate, ha]⟩
      · simp only [ha, if_false] at hx
        cases hpa : Chrono.parseDate aux with
        | none => rw [hpa] at hx; simp at hx
        | some v =>
          rw [hpa] at hx
          simp only [Journal.addXact, Except.ok.injEq, Prod.mk.injEq] at hx
          rw [← hx.1]
          exact ⟨_, rfl, rfl, by simp [HeaderDate, ha, hpa]⟩
    · simp [hc] at hx

example : CalendarDay 2024 2 29 ∧ ¬ CalendarDay 2023 2 29 ∧ ¬ CalendarDay 1900 2 29 ∧ CalendarDay 2000 2 29 ∧
    ¬ CalendarDay 2023 13 1 ∧ ¬ CalendarDay 2023 4 31 ∧ ¬ CalendarDay 2023 0 1 ∧ ¬ CalendarDay 2023 1 0 := by decide

example : isoDate 2023 5 1 = str "2023-05-01" := by decide

/-! ### C54 -/

/-- C54 is violated: a line with just a date is refused. -/
theorem C54_date_only_violated :
    parsed "2023-05-01\n A  1 EUR\n B\n" = .error .dateParse ∧ parsed "2023-05-01\r\n A  1 EUR\n B\n" = .error .dateParse :=
  ⟨by decide +kernel, by decide +kernel⟩

/-- Every line that consists of just a date and a line ending is refused, whatever the date. -/
theorem C54_line_ending_violated (d : Str) (hd : DateText d) (eol : Str) (he : eol = ['\n'] ∨ eol = ['\r', '\n']) (j : Journal) :
    createXact (d ++ eol) j = .error .dateParse := by
  have hp : ∀ x ∈ d ++ eol, (fun c : Char => c == '=' || c == ' ') x = false := by
    intro x hx
    rcases List.mem_append.mp hx with hx | hx
    · simp [(hd.2 x hx).1, (hd.2 x hx).2]
    · rcases he with rfl | rfl
      · simp at hx; subst hx; decide
      · simp at hx; rcases hx with rfl | rfl <;> decide
  have hne : d ++ eol ≠ [] := by simp [hd.1]
  have e1 : scanDate (d ++ eol) = (d ++ eol, []) := splitAtFirst_none _ _ hp
  have e2 : tokenizeXactHeader (d ++ eol) = .ok (d ++ eol, [], [], []) := by
    simp only [tokenizeXactHeader, hne, if_false, e1]
    rfl
  have e3 : Chrono.parseDate (d ++ eol) = none := by
    cases h : Chrono.parseDate (d ++ eol) with
    | none => rfl
    | some v =>
      obtain ⟨c, h1, h2⟩ := parseDate_last h
      have : c = '\n' := by
        rcases he with rfl | rfl <;> simpa using h1.symm
      subst this
      exact absurd h2 (by decide)
  simp only [createXact, e2, bind, Except.bind, Xact.create, hne, if_false, Xact.parseDate, e3]

/-- C54: a date alone opens a transaction with that date and the payee `Unknown Payee` if nothing follows it, or if the
blanks that follow it start with a space.  Missing: a date directly followed by the end of the line, for which the claim
is false. -/
theorem C54_date_only_partial (y m d : Nat) (hy : y ≤ 9999) (h : CalendarDay y m d) (tail : Str) (ht : Blank tail)
    (hs : ∀ c, tail.head? = some c → c = ' ') (j : Journal) :
    ∃ i, createXact (isoDate y m d ++ tail) j =
      .ok ({ j with xacts := j.xacts ++ [⟨some ⟨y, m, d⟩, none, str "Unknown Payee", [], none⟩] }, i) := by
  have hdt : DateText (isoDate y m d) := by
    refine ⟨by simp [isoDate], ?_⟩
    have e : ∀ {n : Nat}, n % 10 < 10 := fun {n} => Nat.mod_lt _ (by omega)
    have hdig : ∀ n : Nat, digitChar (n % 10) ≠ '=' ∧ digitChar (n % 10) ≠ ' ' := by
      intro n
      have hd := digitChar_dig (e (n := n))
      constructor <;> (intro h; rw [h] at hd; revert hd; decide)
    intro c hc
    simp only [isoDate, four, two, List.cons_append, List.nil_append, List.mem_cons, List.not_mem_nil, or_false] at hc
    rcases hc with rfl | rfl | rfl | rfl | rfl | rfl | rfl | rfl | rfl | rfl <;>
      first | exact hdig _ | decide
  have hh : HeaderText (isoDate y m d ++ tail) (isoDate y m d) [] [] [] := by
    have := @HeaderText.mk (isoDate y m d) [] [] [] [] [] [] tail hdt (Or.inl ⟨rfl, rfl⟩) (by simp [Blank]) (by simp [Trimmed])
      (by rintro ⟨a, b, e⟩; simp at e) (by simp [Trimmed]) (Or.inl ⟨rfl, rfl⟩) ht hs
    simpa using this
  have hne : isoDate y m d ≠ [] := by simp [isoDate]
  refine ⟨j.xacts.length, ?_⟩
  simp [createXact, tokenizeXactHeader_text hh, bind, Except.bind, Xact.create, hne, Xact.parseDate,
    C53_day_read y m d hy h, Journal.addXact]

example : ∃ j, parsed "2023-05-01 \n A  1 EUR\n B\n" = .ok j ∧
    j.xacts.map (fun x => (x.date, x.payee)) = [(some ⟨2023, 5, 1⟩, str "Unknown Payee")] := ok_and (by decide +kernel)

/-! ### C55 -/

/-- A word of a price line. -/
def PriceWord (w : Str) : Prop := w ≠ [] ∧ (∀ c ∈ w, c ≠ ' ' ∧ c ≠ '\t') ∧ ∀ c, w.head? = some c → isWs c = false

/-- The blanks between the words of a price line: they start with a space or a tab. -/
def PriceGap (g : Str) : Prop := Blank g ∧ ∃ c rest, g = c :: rest ∧ (c = ' ' ∨ c = '\t')

/-- A price line `P DATE [TIME] SYM QTY SYM2`. -/
inductive PriceLine : (line date time sym qty sym2 : Str) → Prop
  | mk {g0 date gd timeText time sym gs qty gq sym2 tail : Str} (h0 : Blank g0) (hd : PriceWord date) (hgd : PriceGap gd)
      (ht : (time = [] ∧ timeText = [] ∧ ∀ c, sym.head? = some c → isDig c = false) ∨
        (PriceWord time ∧ (∀ c, time.head? = some c → isDig c = true) ∧ ∃ gt, PriceGap gt ∧ timeText = time ++ gt))
      (hs : PriceWord sym) (hgs : PriceGap gs) (hq : PriceWord qty) (hgq : PriceGap gq) (hs2 : PriceWord sym2)
      (htail : tail = [] ∨ PriceGap tail) :
    PriceLine ('P' :: g0 ++ date ++ gd ++ timeText ++ sym ++ gs ++ qty ++ gq ++ sym2 ++ tail) date time sym qty sym2

theorem scanPriceElement_word {w g rest : Str} (hw : PriceWord w) (hg : PriceGap g) :
    scanPriceElement (w ++ g ++ rest) = (w, g ++ rest) := by
  obtain ⟨_, c, g', rfl, hc⟩ := hg
  have h1 : ∀ x ∈ w, (fun c : Char => c == ' ' || c == '\t') x = false := by
    intro x hx; simp [(hw.2.1 x hx).1, (hw.2.1 x hx).2]
  rw [List.append_assoc, List.cons_append]
  exact splitAtFirst_stop _ w c _ h1 (by rcases hc with rfl | rfl <;> decide)

theorem PriceWord.trimStart {w : Str} (hw : PriceWord w) (rest : Str) : trimStart (w ++ rest) = w ++ rest :=
  trimStart_id (fun c hc => hw.2.2 c (by rwa [head_append hw.1] at hc))

theorem PriceGap.trimStart {g w : Str} (hg : PriceGap g) (hw : PriceWord w) (rest : Str) :
    Ledger.trimStart (g ++ (w ++ rest)) = w ++ rest := by
  rw [trimStart_blank hg.1, hw.trimStart]

theorem scanPriceDirective_line {line date time sym qty sym2 : Str} (h : PriceLine line date time sym qty sym2) :
    scanPriceDirective line = .ok (date, time, sym, qty, sym2) := by
  cases h with
  | @mk g0 date gd timeText time sym gs qty gq sym2 tail h0 hd hgd ht hs hgs hq hgq hs2 htail =>
    have e : 'P' :: g0 ++ date ++ gd ++ timeText ++ sym ++ gs ++ qty ++ gq ++ sym2 ++ tail =
        'P' :: (g0 ++ (date ++ gd ++ (timeText ++ (sym ++ gs ++ (qty ++ gq ++ (sym2 ++ tail)))))) := by simp
    have l2 : scanPriceElement (sym2 ++ tail) = (sym2, tail) := by
      rcases htail with rfl | htail
      · have h1 : ∀ x ∈ sym2, (fun c : Char => c == ' ' || c == '\t') x = false := by
          intro x hx; simp [(hs2.2.1 x hx).1, (hs2.2.1 x hx).2]
        rw [List.append_nil]
        exact splitAtFirst_none _ sym2 h1
      · have := scanPriceElement_word (rest := []) hs2 htail
        simpa using this
    have lq := scanPriceElement_word (rest := sym2 ++ tail) hq hgq
    have ls := scanPriceElement_word (rest := qty ++ gq ++ (sym2 ++ tail)) hs hgs
    have tq : Ledger.trimStart (gs ++ (qty ++ gq ++ (sym2 ++ tail))) = qty ++ gq ++ (sym2 ++ tail) := by
      rw [List.append_assoc]; exact hgs.trimStart hq _
    have t2 : Ledger.trimStart (gq ++ (sym2 ++ tail)) = sym2 ++ tail := hgq.trimStart hs2 _
    have ts : Ledger.trimStart (sym ++ gs ++ (qty ++ gq ++ (sym2 ++ tail))) = sym ++ gs ++ (qty ++ gq ++ (sym2 ++ tail)) := by
      rw [List.append_assoc]; exact hs.trimStart _
    rw [e]
    simp only [scanPriceDirective, dropBytes_one 'P' _ (by decide), bind, Except.bind]
    rw [trimStart_blank h0, List.append_assoc, hd.trimStart, ← List.append_assoc, scanPriceElement_word hd hgd]
    simp only
    rcases ht with ⟨rfl, rfl, hdig⟩ | ⟨hw, hdig, gt, hgt, rfl⟩
    · rw [List.nil_append, trimStart_blank hgd.1, ts]
      obtain ⟨c, cs, rfl⟩ := List.exists_cons_of_ne_nil hs.1
      have hc := hdig c rfl
      simp only [List.cons_append] at ls ts ⊢
      simp only [hc, Bool.false_eq_true, if_false, ts, ls, tq, lq, t2, l2]
    · have lt := scanPriceElement_word (rest := sym ++ gs ++ (qty ++ gq ++ (sym2 ++ tail))) hw hgt
      have tt : Ledger.trimStart (gd ++ (time ++ gt ++ (sym ++ gs ++ (qty ++ gq ++ (sym2 ++ tail))))) =
          time ++ gt ++ (sym ++ gs ++ (qty ++ gq ++ (sym2 ++ tail))) := by
        rw [List.append_assoc time]; exact hgd.trimStart hw _
      have tg : Ledger.trimStart (gt ++ (sym ++ gs ++ (qty ++ gq ++ (sym2 ++ tail)))) = sym ++ gs ++ (qty ++ gq ++ (sym2 ++ tail)) := by
        rw [trimStart_blank hgt.1, ts]
      rw [tt]
      obtain ⟨c, cs, rfl⟩ := List.exists_cons_of_ne_nil hw.1
      have hc := hdig c rfl
      simp only [List.cons_append] at lt ⊢
      simp only [hc, if_true, lt, tg, ls, tq, lq, t2, l2]

/-- C55: a price line creates its two commodities where needed and then records the quantity as the price of the first
in the second at that date and time, at midnight if no time is given.  (Recording the price of a commodity in itself is
refused, as in `add_price`.) -/
theorem C55_price_line {line date time sym qty sym2 : Str} (h : PriceLine line date time sym qty sym2)
    {d : Date} {t : Time} {q : Dec} (hd : Chrono.parseDate date = some d)
    (ht : (time = [] ∧ t = ⟨0, 0, 0⟩) ∨ (time ≠ [] ∧ Chrono.parseTime time = some t)) (hq : Dec.fromStr qty = some q) (p : Pool) :
    p.parsePriceDirective line =
      runOps p [.findOrCreate sym none, .findOrCreate sym2 none, .addPrice sym ⟨d, t⟩ ⟨q, some sym2⟩] := by
  have ne1 : sym ≠ [] ∧ sym2 ≠ [] := by cases h with | mk _ _ _ _ hs _ _ _ hs2 _ => exact ⟨hs.1, hs2.1⟩
  have ht' : (if time = [] then some Time.midnight else Chrono.parseTime time) = some t := by
    rcases ht with ⟨h, rfl⟩ | ⟨h, h2⟩
    · rw [if_pos h]; rfl
    · rw [if_neg h, h2]
  simp only [Pool.parsePriceDirective, scanPriceDirective_line h, bind, Except.bind, hd, ht', hq, runOps, PoolOp.run]
  have e1 : (p.findOrCreate sym none) = ((p.findOrCreate sym none).1, some sym) :=
    Prod.ext rfl (by rw [findOrCreate_pointer, if_neg ne1.1])
  have e2 : ∀ p : Pool, (p.findOrCreate sym2 none) = ((p.findOrCreate sym2 none).1, some sym2) := fun p =>
    Prod.ext rfl (by rw [findOrCreate_pointer, if_neg ne1.2])
  rw [e1]
  simp only
  rw [e2]
  simp only
  cases Pool.addPrice _ _ _ _ <;> rfl

/-- C55, its effect on a pool in use: the line is accepted if the commodities differ, and afterwards exactly this price
is recorded in addition. -/
theorem C55_price_recorded {line date time sym qty sym2 : Str} (h : PriceLine line date time sym qty sym2)
    {d : Date} {t : Time} {q : Dec} (hd : Chrono.parseDate date = some d)
    (ht : (time = [] ∧ t = ⟨0, 0, 0⟩) ∨ (time ≠ [] ∧ Chrono.parseTime time = some t)) (hq : Dec.fromStr qty = some q)
    (hne : sym ≠ sym2) (ops : List PoolOp) (p : Pool) (hp : runOps Pool.empty ops = .ok p) :
    ∃ p' ops', p.parsePriceDirective line = .ok p' ∧ runOps Pool.empty ops' = .ok p' ∧
      recordings ops' = recordings ops ++ [⟨sym, sym2, ⟨d, t⟩, q⟩] := by
  have ne1 : sym ≠ [] ∧ sym2 ≠ [] := by cases h with | mk _ _ _ _ hs _ _ _ hs2 _ => exact ⟨hs.1, hs2.1⟩
  have hmem : ∀ (p : Pool) (s : Str), p.Inv → s ≠ [] → ∃ c, (p.findOrCreate s none).1.find s = some c := by
    intro p s hi hs
    refine (Pool.inv_findOrCreate hi s none).find_some ?_
    cases hf : p.find s with
    | some c =>
      rw [(Pool.findOrCreate_old hs hf none).2.2.1]
      exact Classical.byContradiction fun hc => by rw [hi.find_none.mpr hc] at hf; cases hf
    | none => rw [(Pool.findOrCreate_new hs hf none).2.2.1]; simp
  have hi := Pool.inv_runOps Pool.inv_empty ops hp
  obtain ⟨c1, f1⟩ := hmem p sym hi ne1.1
  have hi1 := Pool.inv_findOrCreate hi sym none
  obtain ⟨c2, f2⟩ := hmem _ sym2 hi1 ne1.2
  have f1' := Pool.find_findOrCreate none (s := sym2) f1
  have key := C55_price_line h hd ht hq p
  have hr : ∃ p', runOps p [.findOrCreate sym none, .findOrCreate sym2 none, .addPrice sym ⟨d, t⟩ ⟨q, some sym2⟩] = .ok p' := by
    simp only [runOps, PoolOp.run, bind, Except.bind]
    rw [Pool.addPrice_eq f1' f2 hne]
    exact ⟨_, rfl⟩
  obtain ⟨p', hr⟩ := hr
  refine ⟨p', ops ++ [.findOrCreate sym none, .findOrCreate sym2 none, .addPrice sym ⟨d, t⟩ ⟨q, some sym2⟩], key.trans hr, ?_, ?_⟩
  · rw [Pool.runOps_append, hp]
    exact hr
  · simp only [recordings, List.filterMap_append]
    rfl

/-- C55, times: `HH:MM:SS` is read as written and anything that is not a time of day is refused.  Second 60 is a leap
second, which the code accepts at the end of any minute. -/
theorem C55_times_exact (h m s : Nat) (hh : h ≤ 99) (hm : m ≤ 99) (hs : s ≤ 99) (t : Time) :
    Chrono.parseTime (isoTime h m s) = some t ↔ (h ≤ 23 ∧ m ≤ 59 ∧ s ≤ 60) ∧ t = ⟨h, m, s⟩ := by
  rw [Ledger.parseTime_iso h m s hh hm hs]
  split
  · rename_i hc
    simp only [Option.some.injEq, hc, true_and]
    exact ⟨fun e => e.symm, fun e => e.symm⟩
  · rename_i hc
    simp only [hc, false_and, iff_false]
    intro e; cases e

/-- The moment written on a price line: a day, and a time of day or none. -/
def WrittenMoment (date time : Str) (at_ : DateTime) : Prop :=
  ∃ y m d, y ≤ 9999 ∧ CalendarDay y m d ∧ date = isoDate y m d ∧ at_.date = ⟨y, m, d⟩ ∧
    ((time = [] ∧ at_.time = ⟨0, 0, 0⟩) ∨
      ∃ h n s, h ≤ 23 ∧ n ≤ 59 ∧ s ≤ 59 ∧ time = isoTime h n s ∧ at_.time = ⟨h, n, s⟩)

/-- C55, stated on what is written: a price line with a day, a time or none, a decimal number and two different symbols
records exactly that number as the price of the first symbol in the second at that moment. -/
theorem C55_written_price {line date time sym qty sym2 : Str} (h : PriceLine line date time sym qty sym2)
    {at_ : DateTime} (hd : WrittenMoment date time at_) {q : Dec} (hq : Numeral qty q)
    (hne : sym ≠ sym2) (ops : List PoolOp) (p : Pool) (hp : runOps Pool.empty ops = .ok p) :
    ∃ p' ops', p.parsePriceDirective line = .ok p' ∧ runOps Pool.empty ops' = .ok p' ∧
      recordings ops' = recordings ops ++ [⟨sym, sym2, at_, q⟩] := by
  obtain ⟨y, m, d, hy, hc, rfl, hdate, htime⟩ := hd
  obtain ⟨da, ti⟩ := at_
  simp only at hdate htime
  subst hdate
  have ht : (time = [] ∧ ti = ⟨0, 0, 0⟩) ∨ (time ≠ [] ∧ Chrono.parseTime time = some ti) := by
    rcases htime with h | ⟨hh, n, s, h1, h2, h3, rfl, rfl⟩
    · exact Or.inl h
    · right
      refine ⟨by simp [isoTime, two], ?_⟩
      exact (C55_times_exact hh n s (by omega) (by omega) (by omega) _).mpr ⟨⟨h1, h2, by omega⟩, rfl⟩
  exact C55_price_recorded h (C53_day_read y m d hy hc) ht ((C02_parse_exact qty q).mpr hq) hne ops p hp

theorem isLatest_snoc_new {recs : List Recording} {A B : Str} {t : DateTime} {q : Dec} :
    IsLatest (recs ++ [⟨A, B, t, q⟩]) A B t q ↔ ∀ r ∈ recs, r.src = A → r.dst = B → ¬ t.Before r.time := by
  constructor
  · rintro ⟨pre, post, e, h1, h2⟩
    rcases List.eq_nil_or_concat post with rfl | ⟨post, x, rfl⟩
    · obtain ⟨rfl, _⟩ := List.append_inj' e rfl
      exact h1
    · have e' : recs ++ [⟨A, B, t, q⟩] = (pre ++ ⟨A, B, t, q⟩ :: post) ++ [x] := by rw [e]; simp
      obtain ⟨_, ex⟩ := List.append_inj' e' rfl
      injection ex with ex
      have := h2 x (by simp) (by rw [← ex]) (by rw [← ex])
      rw [← ex] at this
      unfold DateTime.Before at this
      dsimp only at this
      omega
  · intro h
    exact ⟨recs, [], rfl, h, by simp⟩

theorem isLatest_snoc_other {recs : List Recording} {A B : Str} {t : DateTime} {q : Dec} {x : Recording} (hx : A = x.src → B ≠ x.dst) :
    IsLatest (recs ++ [x]) A B t q ↔ IsLatest recs A B t q := by
  constructor
  · rintro ⟨pre, post, e, h1, h2⟩
    rcases List.eq_nil_or_concat post with rfl | ⟨post, y, rfl⟩
    · obtain ⟨_, ex⟩ := List.append_inj' e rfl
      injection ex with ex
      exact absurd (by rw [ex]) (hx (by rw [ex]))
    · have e' : recs ++ [x] = (pre ++ ⟨A, B, t, q⟩ :: post) ++ [y] := by rw [e]; simp
      obtain ⟨e1, _⟩ := List.append_inj' e' rfl
      exact ⟨pre, post, e1, h1, fun r hr => h2 r (by simp [hr])⟩
  · rintro ⟨pre, post, e, h1, h2⟩
    refine ⟨pre, post ++ [x], by rw [e]; simp, h1, ?_⟩
    intro r hr h3 h4
    rcases List.mem_append.mp hr with hr | hr
    · exact h2 r hr h3 h4
    · rw [List.mem_singleton.mp hr] at h3 h4
      exact absurd h4.symm (hx h3.symm)

/-- C55, what is found afterwards: the new price is the direct price of the first symbol in the second, unless a later one is
recorded for them; the direct prices of all other pairs are those from before. -/
theorem C55_price_found {line date time sym qty sym2 : Str} (h : PriceLine line date time sym qty sym2)
    {at_ : DateTime} (hd : WrittenMoment date time at_) {q : Dec} (hq : Numeral qty q)
    (hne : sym ≠ sym2) (ops : List PoolOp) (p : Pool) (hp : runOps Pool.empty ops = .ok p) (hwf : ∀ r ∈ recordings ops, r.time.WF) :
    ∃ p', p.parsePriceDirective line = .ok p' ∧
      (∃ i j, p'.findIndex sym = .ok i ∧ p'.findIndex sym2 = .ok j ∧
        (p'.history.getDirectPrice i j = some (at_, q) ↔ ∀ r ∈ recordings ops, r.src = sym → r.dst = sym2 → ¬ at_.Before r.time)) ∧
      ∀ A B i j, p.findIndex A = .ok i → p.findIndex B = .ok j → (A = sym → B ≠ sym2) →
        p'.findIndex A = .ok i ∧ p'.findIndex B = .ok j ∧ p'.history.getDirectPrice i j = p.history.getDirectPrice i j := by
  obtain ⟨y, m, d, hy, hc, rfl, hdate, htime⟩ := hd
  obtain ⟨da, ti⟩ := at_
  simp only at hdate htime
  subst hdate
  have ht : (time = [] ∧ ti = ⟨0, 0, 0⟩) ∨ (time ≠ [] ∧ Chrono.parseTime time = some ti) := by
    rcases htime with h | ⟨hh, n, s, h1, h2, h3, rfl, rfl⟩
    · exact Or.inl h
    · right
      refine ⟨by simp [isoTime, two], ?_⟩
      exact (C55_times_exact hh n s (by omega) (by omega) (by omega) _).mpr ⟨⟨h1, h2, by omega⟩, rfl⟩
  have hwt : DateTime.WF ⟨⟨y, m, d⟩, ti⟩ := by
    have h12 : ∀ n ∈ monthLengths y, n ≤ 31 := by
      unfold monthLengths
      split <;> decide
    have hlen : (monthLengths y).length = 12 := by
      unfold monthLengths
      split <;> rfl
    obtain ⟨n, h1, h2, h3, h4⟩ := hc
    have h5 := h12 n (List.mem_of_getElem? h2)
    have h6 := (List.getElem?_eq_some_iff.mp h2).1
    rw [hlen] at h6
    have h7 : ti.hour ≤ 23 ∧ ti.minute ≤ 59 ∧ ti.second ≤ 60 := by
      rcases htime with ⟨_, rfl⟩ | ⟨hh, n, s, k1, k2, k3, _, rfl⟩
      · decide
      · exact ⟨k1, k2, by dsimp only; omega⟩
    unfold DateTime.WF
    dsimp only
    omega
  have hday := C53_day_read y m d hy hc
  have hnum := (C02_parse_exact qty q).mpr hq
  obtain ⟨p', ops', h1, h2, h3⟩ := C55_price_recorded h hday ht hnum hne ops p hp
  have hrun := (C55_price_line h hday ht hnum p).symm.trans h1
  have hkeep : ∀ s k, p.findIndex s = .ok k → p'.findIndex s = .ok k := by
    intro s k hk
    unfold Pool.findIndex at hk ⊢
    cases hf : p.find s with
    | none => rw [hf] at hk; cases hk
    | some c =>
      rw [Pool.find_runOps _ hrun hf]
      rw [hf] at hk
      exact hk
  have hwf' : ∀ r ∈ recordings ops', r.time.WF := by
    intro r hr
    rw [h3] at hr
    rcases List.mem_append.mp hr with hr | hr
    · exact hwf r hr
    · rw [List.mem_singleton.mp hr]; exact hwt
  refine ⟨p', h1, ?_, ?_⟩
  · have hmem : ∀ (s : Str) (k : Nat), p'.history.nodes[k]? = some s → ∃ i, p'.findIndex s = .ok i := by
      intro s k hk
      obtain ⟨c, hf, _⟩ := (Pool.inv_runOps Pool.inv_empty ops' h2).index hk
      exact ⟨c.graphIndex, by unfold Pool.findIndex; rw [hf]⟩
    obtain ⟨k1, k2, e1, e2, _⟩ := priced_names h2 (A := sym) (B := sym2) ⟨⟨sym, sym2, ⟨⟨y, m, d⟩, ti⟩, q⟩, by rw [h3]; simp, rfl, rfl⟩
    obtain ⟨i, hi⟩ := hmem sym k1 e1
    obtain ⟨j, hj⟩ := hmem sym2 k2 e2
    refine ⟨i, j, hi, hj, ?_⟩
    rw [(C13_direct_price ops' p' h2 hwf' sym sym2 i j hi hj).1, h3]
    exact isLatest_snoc_new
  · intro A B i j hA hB hAB
    refine ⟨hkeep A i hA, hkeep B j hB, ?_⟩
    have k1 := (C13_direct_price ops' p' h2 hwf' A B i j (hkeep A i hA) (hkeep B j hB)).1
    have k2 := (C13_direct_price ops p hp hwf A B i j hA hB).1
    rw [h3] at k1
    apply Option.ext
    rintro ⟨t, r⟩
    rw [k1, k2]
    exact isLatest_snoc_other hAB

example : WrittenMoment (str "2023-05-01") (str "12:30:00") ⟨⟨2023, 5, 1⟩, ⟨12, 30, 0⟩⟩ :=
  ⟨2023, 5, 1, by decide, by decide, by decide, rfl, Or.inr ⟨12, 30, 0, by decide, by decide, by decide, by decide, rfl⟩⟩

example : Numeral (str "1.12") ⟨false, 112, 2⟩ := (C02_parse_exact _ _).mp (by decide)

example : ∃ p, Pool.empty.parsePriceDirective (str "P 2023-05-01 12:30:00 EUR  1.12 USD") = .ok p ∧
    p.history.getDirectPrice 0 1 = some (⟨⟨2023, 5, 1⟩, ⟨12, 30, 0⟩⟩, ⟨false, 112, 2⟩) ∧
    p.history.nodes = [str "EUR", str "USD"] := ok_and (by decide +kernel)

/-- The hypotheses of the theorems on price lines are met by this line. -/
example : PriceLine (str "P 2023-05-01 EUR\t1.12 USD") (str "2023-05-01") [] (str "EUR") (str "1.12") (str "USD") := by
  have e : str "P 2023-05-01 EUR\t1.12 USD" =
    'P' :: [' '] ++ str "2023-05-01" ++ [' '] ++ [] ++ str "EUR" ++ ['\t'] ++ str "1.12" ++ [' '] ++ str "USD" ++ [] := by decide
  rw [e]
  refine .mk (by unfold Blank; decide) (by unfold PriceWord; decide) ⟨by unfold Blank; decide, ' ', [], rfl, Or.inl rfl⟩
    (Or.inl ⟨rfl, rfl, by decide⟩) (by unfold PriceWord; decide) ⟨by unfold Blank; decide, '\t', [], rfl, Or.inr rfl⟩
    (by unfold PriceWord; decide) ⟨by unfold Blank; decide, ' ', [], rfl, Or.inl rfl⟩ (by unfold PriceWord; decide) (Or.inl rfl)

end Ledger
