import Verif.Lemmas.Exactly
import Verif.Props.Balance
import Verif.Props.Scanner
import Verif.Props.Fresh
import Verif.Props.Dates
import Verif.Props.Memory
import Verif.Props.Cli
import Verif.Props.Found
/-
C09, C49, C51, C52, C54, C61, C62, C64, C68 and C93, which are partial: exactly when the claim holds, and what happens otherwise.
-/
namespace Ledger
open Ledger.Parser Ledger.Scanner Ledger.Memory Ledger.Options Ledger.Cli

/-! ### C09 -/

/-- Subtracting an amount in a commodity that is not there puts its inverse at the end. -/
theorem subGo_absent {l : List Amount} {a : Amount} (h : a.comm ∉ l.map (·.comm)) : Balance.subGo l a = .ok (l ++ [a.inverse]) := by
  induction l with
  | nil => rfl
  | cons x xs ih =>
    simp only [List.map_cons, List.mem_cons, not_or] at h
    unfold Balance.subGo
    rw [if_neg (Ne.symm h.1), ih h.2]
    rfl

/-- **C09** The difference is right exactly if the amount is not negative or its commodity is there; otherwise the amount
is added instead. -/
theorem C09_exactly (b : Balance) (a : Amount) (h : InRange (b.amounts ++ [a])) :
    ∃ b', b.subAssign a = .ok b' ∧ (∀ c, c ≠ a.comm → b'.totalIn c = b.totalIn c) ∧
      (b'.totalIn a.comm = b.totalIn a.comm - a.qty.val ↔ 0 ≤ a.qty.val ∨ a.comm ∈ b.amounts.map (·.comm)) ∧
      (¬ (0 ≤ a.qty.val ∨ a.comm ∈ b.amounts.map (·.comm)) → b'.totalIn a.comm = b.totalIn a.comm + a.qty.val) := by
  by_cases hok : 0 ≤ a.qty.val ∨ a.comm ∈ b.amounts.map (·.comm)
  · obtain ⟨b', h1, h2, h3⟩ := C09_subtract_partial b a h hok
    exact ⟨b', h1, h3, ⟨fun _ => hok, fun _ => h2⟩, fun hn => absurd hok hn⟩
  · have hok' := not_or.mp hok
    have hneg : a.qty.neg = true := by
      by_contra hn
      have hn : a.qty.neg = false := by simpa using hn
      apply hok'.1
      rw [Dec.val_eq, hn]
      simp only [Dec.sgn, Bool.false_eq_true, if_false, one_mul]
      positivity
    have hlt : a.qty.val < 0 := not_le.mp hok'.1
    refine ⟨⟨b.amounts ++ [a.inverse]⟩, by unfold Balance.subAssign; rw [subGo_absent hok'.2]; rfl, ?_⟩
    rw [C03_inverse_of_negative_unchanged a hneg]
    have key : ∀ c, (Balance.mk (b.amounts ++ [a])).totalIn c = b.totalIn c + a.valIn c := by
      intro c
      show sumIn c (b.amounts ++ [a]) = sumIn c b.amounts + a.valIn c
      rw [sumIn_append]
      simp [sumIn]
    have hself : a.valIn a.comm = a.qty.val := by simp [Amount.valIn]
    refine ⟨fun c hc => by rw [key]; simp [Amount.valIn, Ne.symm hc], ⟨fun e => ?_, fun e => absurd e hok⟩, fun _ => by rw [key, hself]⟩
    rw [key, hself] at e
    linarith

example : ∃ (b : Balance) (a : Amount), InRange (b.amounts ++ [a]) ∧ ¬ (0 ≤ a.qty.val ∨ a.comm ∈ b.amounts.map (·.comm)) := by
  refine ⟨⟨[⟨⟨false, 5, 0⟩, some (str "USD")⟩]⟩, ⟨⟨true, 20, 0⟩, some (str "EUR")⟩, ⟨0, by omega, by decide, ?_⟩, ?_⟩
  · simp [mass, Dec.val_mk, Dec.sgn]; norm_num
  · simp only [not_or, Dec.val_mk, Dec.sgn]
    exact ⟨by norm_num, by decide⟩

/-! ### C49 -/

/-- The number of characters that are not blank. -/
def inked (s : Str) : Nat := (s.filter (fun c => !isWs c)).length

theorem inked_append (a b : Str) : inked (a ++ b) = inked a + inked b := by simp [inked]

theorem inked_blank {s : Str} (h : Blank s) : inked s = 0 := by
  unfold inked
  rw [List.filter_eq_nil_iff.mpr (by intro c hc; simp [h c hc])]
  rfl

theorem inked_full {s : Str} (h : ∀ c ∈ s, isWs c = false) : inked s = s.length := by
  unfold inked
  rw [List.filter_eq_self.mpr (by intro c hc; simp [h c hc])]

theorem inked_longest {P : Char → Prop} {text s rest : Str} (hp : ∀ c, P c → isWs c = false) (h : Longest P text s rest) :
    inked text = s.length + inked rest := by
  rw [h.1, inked_append, inked_full (fun c hc => hp c (h.2.1 c hc))]

theorem inked_skip {text rest : Str} (h : Skip text rest) : inked text = inked rest := by
  obtain ⟨sp, h1, h2, _⟩ := h
  rw [h1, inked_append, inked_blank h2, Nat.zero_add]

theorem symbolChar_ws {c : Char} (h : SymbolChar c) : isWs c = false := h.1

/-- No character is read twice. -/
theorem amountPart_inked {text q s rest : Str} (h : AmountPart text q s rest) : q.length + s.length + inked rest = inked text := by
  rcases h with ⟨h1, hq, hne, h2, hs, h3⟩ | ⟨h1, hne, hn, hs, h2, hq, h3⟩
  · have := inked_longest (fun _ => numberChar_ws) hq
    have := inked_longest (fun _ => symbolChar_ws) hs
    have := inked_skip h1
    have := inked_skip h2
    have := inked_skip h3
    omega
  · have := inked_longest (fun _ => numberChar_ws) hq
    have := inked_longest (fun _ => symbolChar_ws) hs
    have := inked_skip h1
    have := inked_skip h2
    have := inked_skip h3
    omega

theorem amountText_inked {text q s : Str} (h : AmountText text q s) : inked text = q.length + s.length := by
  have hq : ∀ {q : Str}, QuantityText q → inked q = q.length := fun h => inked_full (fun c hc => numberChar_ws (h.2 c hc))
  have hs : ∀ {s : Str}, SymbolText s → inked s = s.length := fun h => inked_full (fun c hc => symbolChar_ws (h.2 c hc))
  cases h with
  | plain h => simp [hq h]
  | after h1 h2 h3 => simp [inked_append, hq h1, hs h3, inked_blank h2]
  | before h1 h2 h3 => simp [inked_append, hq h1, hs h3, inked_blank h2]; omega

theorem amountText_head {text q s : Str} (h : AmountText text q s) : ∃ c t, text = c :: t ∧ isWs c = false ∧ c ≠ '@' := by
  have hq : ∀ {q x : Str}, QuantityText q → ∃ c t, q ++ x = c :: t ∧ isWs c = false ∧ c ≠ '@' := by
    rintro q x ⟨hne, h⟩
    obtain ⟨c, t, rfl⟩ := List.exists_cons_of_ne_nil hne
    refine ⟨c, t ++ x, rfl, numberChar_ws (h c List.mem_cons_self), ?_⟩
    rintro rfl
    exact absurd (h '@' List.mem_cons_self) (by unfold NumberChar; decide)
  have hs : ∀ {q x : Str}, SymbolText q → ∃ c t, q ++ x = c :: t ∧ isWs c = false ∧ c ≠ '@' := by
    rintro q x ⟨hne, h⟩
    obtain ⟨c, t, rfl⟩ := List.exists_cons_of_ne_nil hne
    exact ⟨c, t ++ x, rfl, (h c List.mem_cons_self).1, (h c List.mem_cons_self).2.1⟩
  cases h with
  | plain h => simpa using hq (x := []) h
  | after h1 h2 h3 => rw [List.append_assoc]; exact hq h1
  | before h1 h2 h3 => rw [List.append_assoc]; exact hs h3

theorem costSign_unique {text r r' : Str} {u u' : Bool} (h : CostSign text r u) (h' : CostSign text r' u') : r = r' := by
  rcases h with ⟨rfl, h, _⟩ | ⟨rfl, _⟩ <;> rcases h' with ⟨e, h', _⟩ | ⟨e, _⟩ <;> simp only [List.cons.injEq, true_and] at e
  · exact e
  · rw [e] at h; exact absurd rfl h
  · rw [← e] at h'; exact absurd rfl h'
  · exact e

/-- **C49** is violated by every cost: written right after `@` or `@@` it is never read as with a space, since a character
of its number or of its commodity is lost. -/
theorem C49_always_violated {camt cq cs tail : Str} (h : AmountText camt cq cs) (ht : Blank tail) (total : Bool) :
    scanCost ((if total then ['@', '@'] else ['@']) ++ (' ' :: camt ++ tail)) = .ok ⟨cq, cs, !total⟩ ∧
    ∀ t, scanCost ((if total then ['@', '@'] else ['@']) ++ (camt ++ tail)) = .ok t →
      t.quantity.length + t.symbol.length < cq.length + cs.length := by
  obtain ⟨c, x, rfl, hw, hat⟩ := amountText_head h
  have hi := amountText_inked h
  constructor
  · have : CostPart ((if total then ['@', '@'] else ['@']) ++ (' ' :: (c :: x) ++ tail)) (.ok (cq, cs, !total)) := by
      refine .amount (t := c :: x ++ tail) (c := ' ') (r := []) ?_ (by decide) ?_
      · cases total
        · exact .inl ⟨rfl, by simp, rfl⟩
        · exact .inr ⟨rfl, rfl⟩
      · have := amountPart_blanks ht ((amountPart_iff (c :: x) cq cs []).mpr ?_)
        · simpa [addBlanks] using this
        · have := scanAmount_text h (sp := []) (rest := []) (by simp [Blank]) Stops.nil (fun _ c hc => by cases hc)
          simpa [trimStart] using this
    rw [costPart_iff] at this
    exact this
  · rintro ⟨tq, ts, tu⟩ hs
    have h' : CostPart ((if total then ['@', '@'] else ['@']) ++ (c :: (x ++ tail))) (.ok (tq, ts, tu)) := by
      rw [costPart_iff]; exact hs
    have hsign : CostSign ((if total then ['@', '@'] else ['@']) ++ (c :: (x ++ tail))) (c :: (x ++ tail)) (!total) := by
      cases total
      · exact .inl ⟨rfl, by simpa using hat, rfl⟩
      · exact .inr ⟨rfl, rfl⟩
    have hx : inked (c :: x) = 1 + inked x := by simp [inked, hw]; omega
    cases h' with
    | none h0 => cases total <;> exact absurd rfl h0
    | amount h1 h2 h3 =>
      have e : x ++ tail = _ := (List.cons.inj (costSign_unique hsign h1)).2
      rw [← e] at h3
      have := amountPart_inked h3
      rw [inked_append, inked_blank ht] at this
      simp only
      omega

example : AmountText (str "25 EUR") (str "25") (str "EUR") ∧
    scanCost (str "@@25 EUR") = .ok ⟨str "5", str "EUR", false⟩ ∧ scanCost (str "@$25") = .ok ⟨str "25", [], true⟩ :=
  ⟨@AmountText.after (str "25") [' '] (str "EUR") (quantityText_of (by decide +kernel)) (by unfold Blank; decide)
    (symbolText_of (by decide +kernel)) (Or.inl (by simp)), by decide +kernel, by decide +kernel⟩

/-! ### C51 -/

/-- **C51** Exactly which posting lines are read the same with blanks after them, for every line whatever is on it: those
that have two spaces in a row before the blanks, and those that do not have them with the blanks either.  A line that
gets them only with the blanks is refused.  A refused line stays refused. -/
theorem C51_exactly {line rest tail : Str} (hs : Skip line rest) (ht : Blank tail) :
    (∀ t, scanPost (line ++ tail) = .ok t ↔ scanPost line = .ok t ∧ (TwoSpaces rest ∨ ¬ TwoSpaces (rest ++ tail))) ∧
    (∀ t, scanPost line = .ok t → ¬ TwoSpaces rest → TwoSpaces (rest ++ tail) →
      scanPost (line ++ tail) = .error .noAmountChar) := by
  have h2 : ∀ t, scanPost line = .ok t → ¬ TwoSpaces rest → TwoSpaces (rest ++ tail) →
      scanPost (line ++ tail) = .error .noAmountChar := by
    intro t h
    simp only [← postPart_iff] at h ⊢
    exact (postPart_blanks_ok ht hs h).2
  refine ⟨fun t => ⟨fun h => ?_, fun ⟨h, hc⟩ => ?_⟩, h2⟩
  · cases hl : scanPost line with
    | error k =>
      obtain ⟨k', hk⟩ := postPart_blanks_error ht ((postPart_iff _ _).mpr hl)
      rw [postPart_iff, h] at hk
      cases hk
    | ok t' =>
      have hc : TwoSpaces rest ∨ ¬ TwoSpaces (rest ++ tail) := by
        by_contra hn
        rw [not_or, not_not] at hn
        rw [h2 t' hl hn.1 hn.2] at h
        cases h
      have := (postPart_blanks_ok ht hs ((postPart_iff _ _).mpr hl)).1 hc
      rw [postPart_iff, h] at this
      exact ⟨this.symm, hc⟩
  · rw [← postPart_iff] at h ⊢
    exact (postPart_blanks_ok ht hs h).1 hc

example : Skip (str "  Assets:Bank") (str "Assets:Bank") ∧ Blank (str " \t ") ∧ ¬ TwoSpaces (str "Assets:Bank" ++ str " \t ") ∧
    TwoSpaces (str "Assets:Bank" ++ str "  ") := by
  refine ⟨(skip_iff _ _).mpr (by decide +kernel), by unfold Blank; decide, ?_, ⟨str "Assets:Bank", [], rfl⟩⟩
  intro h
  obtain ⟨a, b, e, hn⟩ := twoSpaces_split h
  have h1 := findSub_spaces a b hn
  rw [← e, show findSub [' ', ' '] (str "Assets:Bank" ++ str " \t ") = none by decide +kernel] at h1
  cases h1

/-! ### C52 -/

theorem skip_unique {text r r' : Str} (h : Skip text r) (h' : Skip text r') : r = r' := by
  rw [skip_iff] at h h'
  rw [h, h']

theorem accountPart_unique {text a r a' r' : Str} (h : AccountPart text a r) (h' : AccountPart text a' r') : a = a' ∧ r = r' := by
  have e := skip_unique h.1 h'.1
  have e1 := findSub_spaces a r h.2.2
  rw [e, findSub_spaces a' r' h'.2.2] at e1
  simp only [Option.some.injEq, Prod.mk.injEq, List.cons.injEq, true_and] at e1
  exact ⟨e1.1.symm, e1.2.symm⟩

/-- **C52** is violated on every line without a commodity: whatever the account and the note, if there is only a number or
nothing between the two spaces and the semicolon, the posting is read, if at all, with a commodity that starts with the
semicolon; and it is read if the note has none of the signs of a lot or a cost. -/
theorem C52_semicolon_violated {line acct gap q sp note : Str}
    (h : AccountPart line acct (gap ++ (q ++ (sp ++ ';' :: note)))) (hg : Blank gap) (hq : ∀ c ∈ q, NumberChar c) (hsp : Blank sp) :
    (∀ t, scanPost line = .ok t → t.account = acct ∧ t.symbol.head? = some ';' ∧ (q ≠ [] → t.quantity = q)) ∧
    ((∀ c ∈ note, c ∉ ['{', '[', '(', '@']) → ∃ t, scanPost line = .ok t) := by
  obtain ⟨q', s', r, ha, hqq, hr⟩ := amountPart_semicolon hg hq hsp (note := note)
  constructor
  · intro t ht
    rw [← postPart_iff] at ht
    cases ht with
    | alone h' _ _ _ _ h2 =>
      have e := skip_unique h.1 h'
      exact absurd (e ▸ ⟨acct, _, rfl⟩) h2
    | full h' ha' _ _ =>
      obtain ⟨rfl, rfl⟩ := accountPart_unique h h'
      rw [amountPart_iff] at ha ha'
      rw [ha] at ha'
      cases ha'
      exact ⟨rfl, rfl, hqq⟩
  · intro hn
    have hh : ∀ c, r.head? = some c → c ∉ ['{', '[', '(', '@'] := fun c hc => hn c (hr.subset (List.mem_of_head? hc))
    refine ⟨_, (postPart_iff _ _).mp (.full h ha (.done fun c hc => ?_) (.none fun e => hh _ e (by simp)))⟩
    have := hh c hc
    simp only [List.mem_cons, List.not_mem_nil, or_false, not_or] at this
    exact ⟨this.1, this.2.1, this.2.2.1⟩

example : AccountPart (str " A  10 ;lunch, 5 EUR") (str "A") ([] ++ (str "10" ++ ([' '] ++ ';' :: str "lunch, 5 EUR"))) ∧
    scanPost (str " A  10 ;lunch, 5 EUR") = .ok ⟨str "A", str "10", str ";lunch,", [], [], [], [], [], false⟩ := by
  refine ⟨⟨(skip_iff _ _).mpr (by decide +kernel), by decide, ?_⟩, by decide +kernel⟩
  rintro ⟨a, b, e⟩
  have := congrArg List.length e
  simp only [str, List.length_append, List.length_cons] at this
  have h2 : a.length = 0 := by simp at this; omega
  rw [List.length_eq_zero_iff.mp h2] at e
  cases e

/-- Without a number, one in the note becomes the quantity: five lunches. -/
example : scanPost (str "A  ; 5 people") = .ok ⟨str "A", str "5", str ";", [], [], [], [], [], false⟩ := by decide +kernel

/-! ### C54 -/

theorem longest_prefix {P : Char → Prop} {a b s r : Str} (ha : ∀ c ∈ a, P c) (h : Longest P (a ++ b) s r) :
    ∃ s', s = a ++ s' ∧ Longest P b s' r := by
  induction a generalizing s with
  | nil => exact ⟨s, rfl, h⟩
  | cons c a ih =>
    obtain ⟨s1, rfl, h1⟩ := longest_first (ha c List.mem_cons_self) h
    obtain ⟨s2, rfl, h2⟩ := ih (fun x hx => ha x (List.mem_cons_of_mem _ hx)) h1
    exact ⟨s2, rfl, h2⟩

theorem isoDate_text (y m d : Nat) : ∀ c ∈ isoDate y m d, c ≠ '=' ∧ c ≠ ' ' := by
  have hdig : ∀ n : Nat, digitChar (n % 10) ≠ '=' ∧ digitChar (n % 10) ≠ ' ' := by
    intro n
    have hd := digitChar_dig (Nat.mod_lt n (show 10 > 0 by omega))
    constructor <;> (intro h; rw [h] at hd; revert hd; decide)
  intro c hc
  simp only [isoDate, four, two, List.cons_append, List.nil_append, List.mem_cons, List.not_mem_nil, or_false] at hc
  rcases hc with rfl | rfl | rfl | rfl | rfl | rfl | rfl | rfl | rfl | rfl <;>
    first | exact hdig _ | decide

/-- **C54** Exactly which lines with just a date and blanks open a transaction, for every day and all blanks: those whose
blanks, if any, start with a space.  All others are refused, in particular with a line feed, a carriage return or a tab
right after the date. -/
theorem C54_exactly (y m d : Nat) (hy : y ≤ 9999) (h : CalendarDay y m d) (tail : Str) (ht : Blank tail) (j : Journal) :
    ((∃ i, createXact (isoDate y m d ++ tail) j =
      .ok ({ j with xacts := j.xacts ++ [⟨some ⟨y, m, d⟩, none, str "Unknown Payee", [], none⟩] }, i)) ↔
        ∀ c, tail.head? = some c → c = ' ') ∧
    (¬ (∀ c, tail.head? = some c → c = ' ') → createXact (isoDate y m d ++ tail) j = .error .dateParse) := by
  have key : ¬ (∀ c, tail.head? = some c → c = ' ') → createXact (isoDate y m d ++ tail) j = .error .dateParse := by
    intro hn
    have hne : isoDate y m d ++ tail ≠ [] := by simp [isoDate]
    obtain ⟨d', a, p, n, hh⟩ := tokenizeXactHeader_total hne
    rw [← headerPart_iff hne] at hh
    have hl : ∃ c ∈ tail, d'.getLast? = some c := by
      obtain ⟨r1, _, h1, _⟩ := hh
      obtain ⟨s', rfl, h2⟩ := longest_prefix (fun c hc => ⟨(isoDate_text y m d c hc).1, (isoDate_text y m d c hc).2⟩) h1
      cases tail with
      | nil => exact absurd (fun c hc => by cases hc) hn
      | cons c ts =>
        have hc : c ≠ ' ' := by
          rintro rfl
          exact hn (fun c hc => by cases hc; rfl)
        have hc' : c ≠ '=' := by
          rintro rfl
          exact absurd (ht '=' List.mem_cons_self) (by decide)
        obtain ⟨s'', rfl, h3⟩ := longest_first (P := fun c => c ≠ '=' ∧ c ≠ ' ') ⟨hc', hc⟩ h2
        refine ⟨(c :: s'').getLast (by simp), ?_, by rw [List.getLast?_append_of_ne_nil _ (by simp), List.getLast?_eq_some_getLast]⟩
        rw [h2.1]
        exact List.mem_append_left _ (List.getLast_mem _)
    obtain ⟨c, hc, hl⟩ := hl
    have e3 : Chrono.parseDate d' = none := by
      cases h : Chrono.parseDate d' with
      | none => rfl
      | some v =>
        obtain ⟨c', h1, h2⟩ := parseDate_last h
        rw [hl] at h1
        cases h1
        have := isDig_ws h2
        rw [ht c hc] at this
        cases this
    have hne' : d' ≠ [] := by rintro rfl; cases hl
    rw [headerPart_iff hne] at hh
    simp only [createXact, hh, bind, Except.bind, Xact.create, hne', if_false, Xact.parseDate, e3]
  refine ⟨⟨?_, fun hs => C54_date_only_partial y m d hy h tail ht hs j⟩, key⟩
  rintro ⟨i, e⟩
  by_contra hn
  rw [key hn] at e
  cases e

example : CalendarDay 2024 2 29 ∧ Blank (str "\t \n") ∧ ¬ (∀ c, (str "\t \n").head? = some c → c = ' ') ∧
    Blank (str " \t\n") ∧ ∀ c, (str " \t\n").head? = some c → c = ' ' :=
  ⟨⟨29, by decide, by decide, by decide, by decide⟩, by unfold Blank; decide, fun h => absurd (h '\t' rfl) (by decide), by unfold Blank; decide,
    fun c hc => by cases hc; rfl⟩

/-! ### C61 -/

/-- **C61** What the program does with `b -f FILE`, by its own name: if that is b, bal or balance, or a lone dash, it prints
the balance report of the file; if it starts with an `a`, the list of accounts; with any other name that does not start
with a dash it refuses. -/
theorem C61_exactly (files : Files) (depth : Nat) (argv0 file : Str) :
    (BalanceVerb argv0 ∨ argv0 = ['-'] → main files depth [argv0, str "b", str "-f", file] =
      (parseFile files depth file Journal.new).bind Report.balanceReport) ∧
    (AccountsVerb argv0 → ∀ out, main files depth [argv0, str "b", str "-f", file] = .ok out ↔
      ∃ j, parseFile files depth file Journal.new = .ok j ∧ out.Perm (Report.reportAccounts j) ∧
        out.Pairwise (fun a b => StrBefore a b ∨ a = b)) ∧
    (¬ BalanceVerb argv0 → ¬ AccountsVerb argv0 → argv0.head? ≠ some '-' →
      ∃ e, main files depth [argv0, str "b", str "-f", file] = .error e) := by
  have hb : ArgItem.Proper (.word (str "b")) := by unfold ArgItem.Proper; decide
  have hp : argv0.head? ≠ some '-' → processArguments [argv0, str "b", str "-f", file] = .ok ([argv0, str "b"], [file]) := by
    intro hd
    refine C58_split [.word argv0, .word (str "b"), .files [file]] ?_
    intro i hi
    simp only [List.mem_cons, List.not_mem_nil, or_false] at hi
    rcases hi with rfl | rfl | rfl
    · exact hd
    · exact hb
    · trivial
  have hone : readFiles files depth [file] Journal.new = parseFile files depth file Journal.new := by
    simp only [readFiles, bind, Except.bind]
    cases parseFile files depth file Journal.new <;> rfl
  refine ⟨?_, fun ha out => ?_, fun h1 h2 h3 => ?_⟩
  · rintro (h | rfl)
    · exact C61_program_partial files depth argv0 file h
    · have hp : processArguments [['-'], str "b", str "-f", file] = .ok ([str "b"], [file]) := by
        refine C58_split [.files [], .word (str "b"), .files [file]] ?_
        intro i hi
        simp only [List.mem_cons, List.not_mem_nil, or_false] at hi
        rcases hi with rfl | rfl | rfl
        · trivial
        · exact hb
        · trivial
      rw [main, C60_balance files depth _ _ _ _ hp (Or.inl rfl), hone]
  · have hd : argv0.head? ≠ some '-' := by rw [show argv0.head? = some 'a' from ha]; decide
    rw [main, C60_accounts files depth _ _ _ _ (hp hd) ha, hone]
  · exact C60_refused files depth _ _ _ (hp h3) (fun v hv => by cases hv; exact ⟨h2, h1⟩)

example : ¬ BalanceVerb (str "target/debug/cli") ∧ ¬ AccountsVerb (str "target/debug/cli") ∧
    (str "target/debug/cli").head? ≠ some '-' ∧ AccountsVerb (str "a.out") := by
  unfold BalanceVerb AccountsVerb
  decide

/-! ### C62, C68 -/

/-- The vector is where it was when it had `n` elements. -/
theorem remains_from (stays : Nat → Bool) {n m : Nat} (h : 1 ≤ n) (hm : n ≤ m) :
    block vecNext stays n = block vecNext stays m ↔ ∀ i, n ≤ 4 * 2 ^ i → 4 * 2 ^ i < m → stays (4 * 2 ^ i) = true := by
  induction m, hm using Nat.le_induction with
  | base => exact ⟨fun _ i h1 h2 => absurd h1 (by omega), fun _ => rfl⟩
  | succ m hn ih =>
    have hmono := block_mono (next := vecNext) (stays := stays) hn
    have key : (∀ i, n ≤ 4 * 2 ^ i → 4 * 2 ^ i < m + 1 → stays (4 * 2 ^ i) = true) ↔
        (∀ i, n ≤ 4 * 2 ^ i → 4 * 2 ^ i < m → stays (4 * 2 ^ i) = true) ∧ ∀ i, m = 4 * 2 ^ i → stays m = true := by
      constructor
      · exact fun h => ⟨fun i h1 hi => h i h1 (by omega), fun i hi => by rw [hi]; exact h i (by omega) (by omega)⟩
      · rintro ⟨h1, h2⟩ i h0 hi
        rcases Nat.lt_or_ge (4 * 2 ^ i) m with h | h
        · exact h1 i h0 h
        · have : m = 4 * 2 ^ i := by omega
          rw [← this]
          exact h2 i this
    rw [key, ← ih]
    rw [show block vecNext stays (m + 1) = if m < room vecNext m then block vecNext stays m
      else if m ≠ 0 ∧ stays m then block vecNext stays m else block vecNext stays m + 1 from rfl]
    by_cases hr : m < room vecNext m
    · rw [if_pos hr]
      refine ⟨fun h => ⟨h, fun i hi => ?_⟩, fun h => h.1⟩
      rw [hi, room_doubled] at hr
      omega
    · rw [if_neg hr]
      have hroom := room_ge (next := vecNext) vecNext_gt m
      obtain ⟨i, hi⟩ := doubled_room (show 1 ≤ m by omega)
      by_cases hs : stays m = true
      · rw [if_pos ⟨by omega, hs⟩]
        exact ⟨fun h => ⟨h, fun _ _ => hs⟩, fun h => h.1⟩
      · rw [if_neg (fun h => hs h.2)]
        refine ⟨fun h => ?_, fun h => absurd (h.2 i (by omega)) hs⟩
        omega

/-- **C62** A reference kept by an account is the address of its posting exactly if the allocator has extended the
transaction's vector in place each time it was full since the posting was put there: at 4, 8, 16 and so on postings. -/
theorem C62_exactly (stays : Nat → Bool) {j : Journal} (hj : Journal.Reachable j) {p : Path} {ps : List PostRef}
    (hp : j.master.postsAt p = some ps) {r : PostRef} (hr : r ∈ ps) :
    ∃ x post, j.xacts[r.1]? = some x ∧ x.posts[r.2]? = some post ∧ post.account = p ∧
      (postAddr stays j r = some (storedPost stays r) ↔
        ∀ i, r.2 < 4 * 2 ^ i → 4 * 2 ^ i < x.posts.length → stays (4 * 2 ^ i) = true) := by
  obtain ⟨x, post, h1, h2, h3, _⟩ := C62_references_partial stays hj hp hr
  have hlt : r.2 < x.posts.length := (List.getElem?_eq_some_iff.mp h2).1
  refine ⟨x, post, h1, h2, h3, ?_⟩
  simp only [postAddr, h1, if_pos hlt, storedPost, Option.some.injEq, Addr.mk.injEq, and_true]
  rw [eq_comm, remains_from stays (n := r.2 + 1) (by omega) hlt]
  rfl

/-- **C68** The reference from a posting to its transaction is the address of that transaction exactly if the allocator
has extended the journal's vector in place each time it was full since then. -/
theorem C68_exactly (stays : Nat → Bool) (j : Journal) (i : Nat) (hi : i < j.xacts.length) :
    xactAddr stays j i = some (storedXact stays i) ↔
      ∀ k, i < 4 * 2 ^ k → 4 * 2 ^ k < j.xacts.length → stays (4 * 2 ^ k) = true := by
  simp only [xactAddr, if_pos hi, storedXact, Option.some.injEq, Addr.mk.injEq, and_true]
  rw [eq_comm, remains_from stays (n := i + 1) (by omega) hi]
  rfl

example : ∃ j, parsed "2023-05-01 x\n A  1 EUR\n B  1 EUR\n C  1 EUR\n D  1 EUR\n E\n" = .ok j ∧
    (j.master.postsAt [str "A"] = some [(0, 0)] ∧ 4 * 2 ^ 0 < (j.xacts.map (·.posts.length)).sum) :=
  ok_and (by decide +kernel)

/-! ### C64 -/

/-- **C64** What adding to a balance does, for all pointers to commodities of which those with the same symbol are equal: it panics exactly if the first entry with an equal commodity
is there with another pointer; otherwise it works as with symbols in place of pointers. -/
theorem C64_exactly (h : Heap) (l : List PAmount) (a : PAmount) (hsym : ∀ x ∈ l, ∀ p q, x.ptr = some p → a.ptr = some q →
      (h p).symbol = (h q).symbol → h p = h q) :
    ((∃ pre x post, l = pre ++ x :: post ∧ (∀ y ∈ pre, y.commodity h ≠ a.commodity h) ∧ x.commodity h = a.commodity h ∧
        x.ptr ≠ a.ptr) → balanceAdd h l a = .error .differentCommodities) ∧
    (¬ (∃ pre x post, l = pre ++ x :: post ∧ (∀ y ∈ pre, y.commodity h ≠ a.commodity h) ∧ x.commodity h = a.commodity h ∧
        x.ptr ≠ a.ptr) →
      (balanceAdd h l a).map (·.map (PAmount.named h)) = Balance.addGo (l.map (PAmount.named h)) (a.named h)) := by
  refine ⟨?_, ?_⟩
  · rintro ⟨pre, x, post, rfl, h1, h2, h3⟩
    exact C64_other_pointer_violated h pre post x a h1 h2 h3
  · intro hn
    induction l with
    | nil => rfl
    | cons x xs ih =>
      have h2 : (x.named h).comm = (a.named h).comm ↔ x.commodity h = a.commodity h := by
        have hx := hsym x (by simp)
        cases hxp : x.ptr <;> cases hap : a.ptr <;> simp only [PAmount.commodity, PAmount.named, hxp, hap, Option.map_some,
          Option.map_none, Option.some.injEq, reduceCtorEq]
        exact ⟨fun e => hx _ _ hxp hap e, fun e => by rw [e]⟩
      by_cases he : x.commodity h = a.commodity h
      · have hp : x.ptr = a.ptr := by
          by_contra hp
          exact hn ⟨[], x, xs, rfl, by simp, he, hp⟩
        have := C64_one_pool_partial h [x] a (by
          intro y hy p q h1 h2 _
          rw [List.mem_singleton.mp hy, hp, h2] at h1
          exact (Option.some.inj h1).symm)
        simp only [balanceAdd, List.map_cons, Balance.addGo, if_pos he, if_pos (h2.mpr he), List.map_nil] at this ⊢
        cases e1 : x.add a with
        | error e =>
          rw [e1] at this
          cases e2 : (x.named h).add (a.named h) with
          | error e' => rw [e2] at this; exact this
          | ok v => rw [e2] at this; cases this
        | ok v =>
          rw [e1] at this
          cases e2 : (x.named h).add (a.named h) with
          | error e' => rw [e2] at this; cases this
          | ok v' =>
            rw [e2] at this
            simp only [bind, Except.bind, Except.map, List.map_cons, List.map_nil, Except.ok.injEq, List.cons.injEq, and_true] at this ⊢
            exact this
      · have ih' := ih (fun y hy => hsym y (by simp [hy])) (by
          rintro ⟨pre, z, post, rfl, h3, h4, h5⟩
          refine hn ⟨x :: pre, z, post, rfl, ?_, h4, h5⟩
          intro y hy
          rcases List.mem_cons.mp hy with rfl | hy
          · exact he
          · exact h3 y hy)
        simp only [balanceAdd, List.map_cons, Balance.addGo, if_neg he, if_neg (mt h2.mp he)]
        rw [← ih']
        cases balanceAdd h xs a <;> rfl

example : (∀ x ∈ [PAmount.mk Dec.one none, ⟨Dec.one, some 0⟩], ∀ p q, x.ptr = some p → (PAmount.mk Dec.one (some 1)).ptr = some q →
    (twoEuros p).symbol = (twoEuros q).symbol → twoEuros p = twoEuros q) ∧
    balanceAdd twoEuros [⟨Dec.one, none⟩, ⟨Dec.one, some 0⟩] ⟨Dec.one, some 1⟩ = .error .differentCommodities ∧
    balanceAdd twoEuros [⟨Dec.one, none⟩, ⟨Dec.one, some 1⟩, ⟨Dec.one, some 0⟩] ⟨Dec.one, some 1⟩ =
      .ok [⟨Dec.one, none⟩, ⟨⟨false, 2, 0⟩, some 1⟩, ⟨Dec.one, some 0⟩] :=
  ⟨fun _ _ _ _ _ _ _ => rfl, by decide +kernel, by decide +kernel⟩

/-! ### C93 -/

theorem priceElement_any {text s rest : Str} (h : PriceElement text s rest) (hr : rest ≠ []) (x : Str) :
    PriceElement (text ++ x) s (rest ++ x) := by
  obtain ⟨t, h1, rfl, h2, h3⟩ := h
  refine ⟨_, skip_more h1 (by simp [hr]) x, by simp, h2, ?_⟩
  cases rest with
  | nil => exact absurd rfl hr
  | cons c cs => exact h3

theorem priceElement_nil {s rest : Str} (h : PriceElement [] s rest) : s = [] := by
  obtain ⟨t, ⟨sp, h1, _⟩, rfl, _⟩ := h
  have := congrArg List.length h1
  simp at this
  exact List.length_eq_zero_iff.mp (by omega)

theorem skip_nil {rest : Str} (h : Skip [] rest) : rest = [] := by
  obtain ⟨sp, h1, _⟩ := h
  exact (List.append_eq_nil_iff.mp h1.symm).2

/-- **C93** Every price line is of one of two kinds.  Either something follows the name of the commodity of its price, and
then it says the same whatever is put after it; or it ends with that name, and then whatever is put after it belongs to
the name, up to a space or tab: with a line feed it never says what it said. -/
theorem C93_exactly {line : Str} {r : Recording} (h : PriceSays line r) :
    (∀ x, PriceSays (line ++ x) r) ∨
    ((∀ x w rest, Longest (fun c => c ≠ ' ' ∧ c ≠ '\t') x w rest → r.src ≠ r.dst ++ w →
        PriceSays (line ++ x) { r with dst := r.dst ++ w }) ∧
      ∀ x, ¬ PriceSays (line ++ '\n' :: x) r) := by
  obtain ⟨d, t, q, ⟨a, text, rfl, ha, r1, r2, r3, r4, r5, e1, e2, e3, e4, e5, e6, r6, e7⟩, hd, ht, hq, hne, hdst⟩ := h
  have hqne : q ≠ [] := by
    rintro rfl
    exact absurd ((C02_parse_exact _ _).mpr hq) (by simp [show Dec.fromStr [] = none from by decide])
  have n5 : r5 ≠ [] := by rintro rfl; exact hdst (priceElement_nil e7)
  have n4 : r4 ≠ [] := by rintro rfl; exact hqne (priceElement_nil e6)
  have n3 : r3 ≠ [] := by
    rintro rfl
    obtain ⟨t', s1, s2, _⟩ := e5
    have := skip_nil s1
    subst this
    exact n4 (List.append_eq_nil_iff.mp s2.symm).2
  have n1 : r1 ≠ [] := by rintro rfl; exact e3 (skip_nil e2)
  have parts : ∀ x p r6', PriceElement (r5 ++ x) p r6' → PriceLineParts (a :: text ++ x) d t r.src q p := by
    intro x p r6' hp
    refine ⟨a, text ++ x, rfl, ha, r1 ++ x, r2 ++ x, r3 ++ x, r4 ++ x, r5 ++ x, priceElement_any e1 n1 x, skip_more e2 e3 x,
      by simp [e3], ?_, priceElement_any e5 n4 x, priceElement_any e6 n5 x, r6', hp⟩
    have hh : (r2 ++ x).head? = r2.head? := by
      cases r2 with
      | nil => exact absurd rfl e3
      | cons c cs => rfl
    rw [hh]
    rcases e4 with ⟨f1, f2, f3⟩ | ⟨f1, f2⟩
    · exact Or.inl ⟨f1, f2, by rw [f3]⟩
    · exact Or.inr ⟨f1, priceElement_any f2 n3 x⟩
  by_cases h6 : r6 = []
  · right
    subst h6
    obtain ⟨u, s1, s2, s3, _⟩ := e7
    rw [List.append_nil] at s2
    subst s2
    have longer : ∀ x w rest, Longest (fun c => c ≠ ' ' ∧ c ≠ '\t') x w rest → PriceElement (r5 ++ x) (r.dst ++ w) rest := by
      rintro x w rest ⟨rfl, l2, l3⟩
      refine ⟨r.dst ++ (w ++ rest), skip_more s1 hdst _, by simp, ?_, l3⟩
      intro c hc
      rcases List.mem_append.mp hc with hc | hc
      · exact s3 c hc
      · exact l2 c hc
    refine ⟨fun x w rest hl hn => ⟨d, t, q, parts x _ _ (longer x w rest hl), hd, ht, hq, hn, by simp [hdst]⟩, ?_⟩
    rintro x ⟨d', t', q', hp, _⟩
    obtain ⟨w, rest, hl⟩ := longest_exists (P := fun c => c ≠ ' ' ∧ c ≠ '\t') (fun c => !(c == ' ' || c == '\t')) (by simp) ('\n' :: x)
    have hp' := parts _ _ _ (longer _ _ _ hl)
    obtain ⟨w', rfl, _⟩ := longest_first (P := fun c => c ≠ ' ' ∧ c ≠ '\t') (by decide) hl
    rw [priceLineParts_iff] at hp hp'
    rw [hp] at hp'
    simp only [Except.ok.injEq, Prod.mk.injEq] at hp'
    have := congrArg List.length hp'.2.2.2.2
    simp at this
  · exact Or.inl (fun x => ⟨d, t, q, parts x _ _ (priceElement_any e7 h6 x), hd, ht, hq, hne, hdst⟩)

example : PriceSays (str "i 2023-05-02 VEUR 26 EUR") ⟨str "VEUR", str "EUR", ⟨⟨2023, 5, 2⟩, Time.midnight⟩, ⟨false, 26, 0⟩⟩ ∧
    PriceSays (str "i 2023-05-02 VEUR 26 EUR at noon") ⟨str "VEUR", str "EUR", ⟨⟨2023, 5, 2⟩, Time.midnight⟩, ⟨false, 26, 0⟩⟩ := by
  have d : DayText (str "2023-05-02") ⟨2023, 5, 2⟩ := (C53_date_text _ _).mp (by decide +kernel)
  have n : Numeral (str "26") ⟨false, 26, 0⟩ := (C02_parse_exact _ _).mp (by decide +kernel)
  exact ⟨⟨_, [], _, (priceLineParts_iff _ _ _ _ _ _).mpr (by decide +kernel), d, Or.inl ⟨rfl, rfl⟩, n, by decide, by decide⟩,
    ⟨_, [], _, (priceLineParts_iff _ _ _ _ _ _).mpr (by decide +kernel), d, Or.inl ⟨rfl, rfl⟩, n, by decide, by decide⟩⟩

end Ledger
