import Verif.Lemmas.DateText
import Verif.Props.Journal
/-
C46 to C52: the scanner reads back what is written.
-/
namespace Ledger
open Ledger.Parser Ledger.Scanner

/-! ### C46 -/

/-- C46: tokenizing a header gives back its date, auxiliary date, payee and note. -/
theorem C46_header_round_trip {text d a p n : Str} (h : HeaderText text d a p n) :
    tokenizeXactHeader text = .ok (d, a, p, n) := tokenizeXactHeader_text h

theorem headerExample : HeaderText (str "2023-05-01=2023-05-02 Café; Paris  ; on the way\r\n") (str "2023-05-01")
    (str "2023-05-02") (str "Café; Paris") (str "on the way") := by
  have h := @HeaderText.mk (str "2023-05-01") (str "2023-05-02") (str "=2023-05-02") [' '] (str "Café; Paris")
    (str "on the way") (str "  ; on the way") (str "\r\n") (by unfold DateText; decide)
    (Or.inr ⟨by unfold DateText; decide, by decide⟩) (by unfold Blank; decide) (by constructor <;> decide)
    (by rintro ⟨a, b, e⟩
        have : findSub [' ', ' ', ';'] ([' '] ++ str "Café; Paris") = none := by decide
        have h2 : ∀ (x y : Str), findSub [' ', ' ', ';'] (x ++ ' ' :: ' ' :: ';' :: y) ≠ none := by
          intro x y
          induction x with
          | nil => simp [findSub, List.isPrefixOf]
          | cons c cs ih =>
            rw [List.cons_append]
            simp only [findSub]
            split
            · simp
            · cases hx : findSub [' ', ' ', ';'] (cs ++ ' ' :: ' ' :: ';' :: y) with
              | none => exact absurd hx ih
              | some v => simp
        exact h2 a b (e ▸ this))
    (by constructor <;> decide) (Or.inr ⟨[], [' '], by unfold Blank; decide, by unfold Blank; decide, by decide⟩)
    (by unfold Blank; decide) (by decide)
  exact h

/-! ### C47 -/

/-- C47: scanning a posting gives back its account, quantity, symbol, lot price, lot date, cost and the kind of the
cost.  A lot needs a symbol before it. -/
theorem C47_posting_round_trip {lead acct gap amt q s lot pq ps d cost cq cs tail : Str} {u : Bool}
    (hl : Blank lead) (ha : AccountText acct) (hg : Blank gap) (hamt : AmountText amt q s)
    (hlot : LotText lot pq ps d) (hcost : CostText cost cq cs u) (ht : Blank tail) (h1 : s = [] → lot = []) :
    scanPost (lead ++ acct ++ ' ' :: ' ' :: gap ++ amt ++ lot ++ cost ++ tail) =
      .ok ⟨acct, q, s, pq, ps, d, cq, cs, u⟩ :=
  scanPost_text hl ha hg hamt hlot hcost (.blank ht) h1 (fun _ _ => rfl) (fun h => absurd h (by simp))

/-- C47, a posting without an amount. -/
theorem C47_account_round_trip {lead acct tail : Str} (hl : Blank lead) (ha : AccountText acct) (ht : Blank tail)
    (h2 : ¬ TwoSpaces tail) : scanPost (lead ++ acct ++ tail) = .ok ⟨acct, [], [], [], [], [], [], [], false⟩ :=
  scanPost_account hl ha ht h2

theorem findSub_two (x y : Str) : findSub [' ', ' '] (x ++ ' ' :: ' ' :: y) ≠ none := by
  induction x with
  | nil => simp [findSub, List.isPrefixOf]
  | cons c cs ih =>
    rw [List.cons_append]
    simp only [findSub]
    split
    · simp
    · cases hx : findSub [' ', ' '] (cs ++ ' ' :: ' ' :: y) with
      | none => exact absurd hx ih
      | some v => simp

theorem not_twoSpaces {s : Str} (h : findSub [' ', ' '] s = none) : ¬ TwoSpaces s := by
  rintro ⟨a, b, e⟩
  exact findSub_two a b (e ▸ h)

theorem amountExample (q s : Str) (hq : QuantityText q) (hs : SymbolText s) : AmountText (q ++ [' '] ++ s) q s :=
  .after hq (by unfold Blank; decide) hs (Or.inl (by simp))

theorem quantityText_of {q : Str} (h : q ≠ [] ∧ ∀ c ∈ q, isQtyChar c = true) : QuantityText q :=
  ⟨h.1, fun c hc => (numberChar_iff c).mpr (h.2 c hc)⟩

theorem symbolText_of {s : Str} (h : s ≠ [] ∧ ∀ c ∈ s, isSymEnd c = false) : SymbolText s :=
  ⟨h.1, fun c hc => (symbolChar_iff c).mpr (h.2 c hc)⟩

theorem accountText_of {a : Str} (h : (∃ c, a.head? = some c ∧ isWs c = false ∧ c ≠ ';') ∧
    (∀ c, a.getLast? = some c → isWs c = false) ∧ findSub [' ', ' '] a = none) : AccountText a := by
  obtain ⟨⟨c, h1, h2, h3⟩, h4, h5⟩ := h
  refine ⟨?_, h4, not_twoSpaces h5⟩
  cases a with
  | nil => simp at h1
  | cons x xs => simp at h1; subst h1; exact ⟨x, xs, rfl, h2, h3⟩

/-- A posting with all parts. -/
example : scanPost (str "  Assets:My Broker   -10.5 VEUR {20 EUR} [2023-04-01] @@ EUR250\r\n") =
    .ok ⟨str "Assets:My Broker", str "-10.5", str "VEUR", str "20", str "EUR", str "2023-04-01", str "250", str "EUR", false⟩ := by
  have e : str "  Assets:My Broker   -10.5 VEUR {20 EUR} [2023-04-01] @@ EUR250\r\n" =
      str "  " ++ str "Assets:My Broker" ++ ' ' :: ' ' :: str " " ++ (str "-10.5" ++ [' '] ++ str "VEUR") ++
      ([' '] ++ ('{' :: [] ++ (str "20" ++ [' '] ++ str "EUR") ++ [] ++ ['}']) ++ [' '] ++ ('[' :: str "2023-04-01" ++ [']'])) ++
      ([' '] ++ '@' :: '@' :: ' ' :: [] ++ (str "EUR" ++ [] ++ str "250")) ++ str "\r\n" := by decide
  rw [e]
  have b0 : Blank [] := by unfold Blank; decide
  have b1 : Blank [' '] := by unfold Blank; decide
  refine C47_posting_round_trip (by unfold Blank; decide) (accountText_of ⟨⟨'A', by decide, by decide, by decide⟩, by decide, by decide⟩)
    (by unfold Blank; decide) (amountExample _ _ (quantityText_of (by decide)) (symbolText_of (by decide)))
    (LotText.priceDate b1 (by simp)
      (LotPrice.mk b0 (amountExample _ _ (quantityText_of (by decide)) (symbolText_of (by decide))) b0 (by decide))
      b1 (LotDate.mk (by decide) (by decide)))
    (CostText.total b1 b0
      (AmountText.before (quantityText_of (by decide)) b0 (symbolText_of (by decide))
        (by intro c hc; rw [numberChar_iff]; revert c; decide) (Or.inr (by intro c hc; rw [symbolChar_iff]; revert c; decide))))
    (by unfold Blank; decide) (by decide)

/-! ### C48 -/

/-- C48: `25 EUR`, `25EUR`, `EUR 25` and `EUR25` scan to the same quantity and symbol.  Without a blank the number starts
with a digit or a minus sign; the symbol starts with neither a point nor a comma. -/
theorem C48_symbol_position {q s sp : Str} (hq : QuantityText q) (hs : SymbolText s)
    (h1 : ∀ c, s.head? = some c → c ≠ '.' ∧ c ≠ ',') (h2 : ∀ c, q.head? = some c → isDig c = true ∨ c = '-')
    (hb : Blank sp) :
    scanAmount (q ++ sp ++ s) = .ok (⟨q, s⟩, []) ∧ scanAmount (s ++ sp ++ q) = .ok (⟨q, s⟩, []) := by
  have hn : ∀ c, s.head? = some c → ¬ NumberChar c := by
    intro c hc hn
    have hm := hs.2 c (head_mem hc)
    rcases hn with hn | hn
    · rw [hm.2.2.1] at hn; simp at hn
    · simp at hn
      rcases hn with hn | hn | hn
      · exact hm.2.2.2 hn
      · exact (h1 c hc).1 hn
      · exact (h1 c hc).2 hn
  have hm : ∀ c, q.head? = some c → ¬ SymbolChar c := by
    intro c hc hm
    rcases h2 c hc with h | h
    · rw [hm.2.2.1] at h; simp at h
    · exact hm.2.2.2 h
  have t1 := scanAmount_text (.after hq hb hs (Or.inr hn)) (sp := []) (rest := []) (by simp [Blank]) Stops.nil (by simp [trimStart])
  have t2 := scanAmount_text (.before hq hb hs hn (Or.inr hm)) (sp := []) (rest := []) (by simp [Blank]) Stops.nil (by simp [trimStart])
  simp only [List.nil_append, List.append_nil] at t1 t2
  exact ⟨t1, t2⟩

example : scanAmount (str "25EUR") = .ok (⟨str "25", str "EUR"⟩, []) ∧ scanAmount (str "EUR 25") = .ok (⟨str "25", str "EUR"⟩, []) :=
  ⟨(C48_symbol_position (q := str "25") (s := str "EUR") (sp := []) (quantityText_of (by decide)) (symbolText_of (by decide)) (by decide)
      (by decide) (by unfold Blank; decide)).1,
   (C48_symbol_position (q := str "25") (s := str "EUR") (sp := [' ']) (quantityText_of (by decide)) (symbolText_of (by decide)) (by decide)
      (by decide) (by unfold Blank; decide)).2⟩

/-! ### C49 -/

/-- C49 is violated: without the space the cost loses its first character, `@25 EUR` becomes 5 EUR and `@@10 EUR`
becomes 0 EUR. -/
theorem C49_spacing_violated :
    scanPost (str "A  1 X @ 25 EUR") = .ok ⟨str "A", str "1", str "X", [], [], [], str "25", str "EUR", true⟩ ∧
    scanPost (str "A  1 X @25 EUR") = .ok ⟨str "A", str "1", str "X", [], [], [], str "5", str "EUR", true⟩ ∧
    scanPost (str "A  1 X @@ 10 EUR") = .ok ⟨str "A", str "1", str "X", [], [], [], str "10", str "EUR", false⟩ ∧
    scanPost (str "A  1 X @@10 EUR") = .ok ⟨str "A", str "1", str "X", [], [], [], str "0", str "EUR", false⟩ := by
  refine ⟨by decide +kernel, by decide +kernel, by decide +kernel, by decide +kernel⟩

/-- The character after the sign never counts: any other one-byte character in its place gives the same. -/
theorem C49_first_lost_violated (c c' : Char) (rest : Str) (hc : c.utf8Size = 1) (hc' : c'.utf8Size = 1) :
    (c ≠ '@' → c' ≠ '@' → scanCost ('@' :: c :: rest) = scanCost ('@' :: c' :: rest)) ∧
    scanCost ('@' :: '@' :: c :: rest) = scanCost ('@' :: '@' :: c' :: rest) := by
  refine ⟨fun h h' => by rw [scanCost_unit c rest h hc, scanCost_unit c' rest h' hc'], ?_⟩
  rw [scanCost_total c rest hc, scanCost_total c' rest hc']

/-- C49: with a space after the sign, neither further blanks before or after it nor the absence of blanks before it
change anything.  Missing: a sign without a space after it, for which the claim is false. -/
theorem C49_spacing_partial {lead acct gap amt q s lot pq ps d tail : Str} (hl : Blank lead) (ha : AccountText acct)
    (hg : Blank gap) (hamt : AmountText amt q s) (hlot : LotText lot pq ps d) (ht : Blank tail) (h1 : s = [] → lot = [])
    (total : Bool) {camt cq cs sp sp' : Str} (hc : AmountText camt cq cs) (hsp : Blank sp) (hsp' : Blank sp') :
    scanPost (lead ++ acct ++ ' ' :: ' ' :: gap ++ amt ++ lot ++
        (sp ++ (if total then ['@', '@'] else ['@']) ++ ' ' :: sp' ++ camt) ++ tail) =
      scanPost (lead ++ acct ++ ' ' :: ' ' :: gap ++ amt ++ lot ++
        (' ' :: (if total then ['@', '@'] else ['@']) ++ ' ' :: camt) ++ tail) ∧
    scanPost (lead ++ acct ++ ' ' :: ' ' :: gap ++ amt ++ lot ++
        (sp ++ (if total then ['@', '@'] else ['@']) ++ ' ' :: sp' ++ camt) ++ tail) =
      .ok ⟨acct, q, s, pq, ps, d, cq, cs, !total⟩ := by
  have key : ∀ {sp sp' : Str}, Blank sp → Blank sp' → CostText (sp ++ (if total then ['@', '@'] else ['@']) ++ ' ' :: sp' ++ camt) cq cs (!total) := by
    intro sp sp' hsp hsp'
    cases total
    · simpa using CostText.unit hsp hsp' hc
    · simpa using CostText.total hsp hsp' hc
  have b1 : Blank [' '] := by unfold Blank; decide
  have b0 : Blank [] := by simp [Blank]
  have r1 := C47_posting_round_trip hl ha hg hamt hlot (key hsp hsp') ht h1
  have r2 := C47_posting_round_trip hl ha hg hamt hlot (key b1 b0) ht h1
  exact ⟨by rw [r1, ← r2]; simp, r1⟩

/-! ### C50 -/

/-- C50 is violated: the thousand euros are dropped silently and -5 EUR is booked in their place. -/
theorem C50_unreadable_violated :
    ∃ j, parsed "2023-05-01 x\n A  1,000 EUR\n B  5 EUR\n" = .ok j ∧
      j.xacts.map (fun x => x.posts.map (fun p => p.amount)) =
        [[some ⟨⟨true, 5, 0⟩, some (str "EUR")⟩, some ⟨⟨false, 5, 0⟩, some (str "EUR")⟩]] :=
  ok_and (by decide +kernel)

/-- The cost is dropped just as silently: a posting of ten shares at 1,000 euros each is read as ten shares without a
cost. -/
theorem C50_unreadable_cost_violated :
    ∃ j, parsed "2023-05-01 x\n A  10 X @ 1,000 EUR\n B  -10 X\n" = .ok j ∧
      j.xacts.map (fun x => x.posts.map (fun p => (p.amount, p.cost))) =
        [[(some ⟨⟨false, 10, 0⟩, some (str "X")⟩, none), (some ⟨⟨true, 10, 0⟩, some (str "X")⟩, none)]] :=
  ok_and (by decide +kernel)

theorem findOrCreate_pointer (p : Pool) (s : Str) (ann : Option Annotation) :
    (p.findOrCreate s ann).2 = if s = [] then none else some s := by
  by_cases hs : s = []
  · rw [hs, Pool.findOrCreate_empty]; rfl
  · rw [if_neg hs]
    cases hf : p.find s with
    | none => exact (Pool.findOrCreate_new hs hf ann).1
    | some c => exact (Pool.findOrCreate_old hs hf ann).1

theorem parsePostAmounts_amount {t : PostTokens} {p pool : Pool} {am c : Option Amount}
    (h : parsePostAmounts t p = .ok (pool, am, c)) :
    am = (Dec.fromStr t.quantity).map (fun q => ⟨q, if t.symbol = [] then none else some t.symbol⟩) ∧
    (am = none ∨ Dec.fromStr t.costQuantity = none → c = none) := by
  unfold parsePostAmounts at h
  have ha : (parseAmountParts t.quantity t.symbol p).2 =
      (Dec.fromStr t.quantity).map (fun q => (⟨q, if t.symbol = [] then none else some t.symbol⟩ : Amount)) := by
    simp only [parseAmountParts, findOrCreate_pointer]
  generalize parseAmountParts t.quantity t.symbol p = w at h ha
  obtain ⟨p1, a1⟩ := w
  simp only at h ha
  cases h1 : parseAnnotation t.priceDate t.priceQuantity t.priceCommodity p1 with
  | error e => rw [h1] at h; simp [bind, Except.bind] at h
  | ok v =>
    obtain ⟨p2, ann⟩ := v
    rw [h1] at h
    simp only [bind, Except.bind] at h
    generalize hp3 : p2.findOrCreate t.symbol (some ann) = p3 at h
    cases h2 : parseCost t a1 p3.1 with
    | error e => rw [h2] at h; simp at h
    | ok v =>
      obtain ⟨p4, c4⟩ := v
      rw [h2] at h
      simp only [Except.ok.injEq, Prod.mk.injEq] at h
      obtain ⟨rfl, rfl, rfl⟩ := h
      refine ⟨ha, ?_⟩
      intro hn
      unfold parseCost at h2
      cases a1 with
      | none => simp only [Except.ok.injEq, Prod.mk.injEq] at h2; exact h2.2.symm
      | some a =>
        simp only at h2
        split at h2
        · simp only [Except.ok.injEq, Prod.mk.injEq] at h2; exact h2.2.symm
        · have hq : Dec.fromStr t.costQuantity = none := by
            rcases hn with h | h
            · simp at h
            · exact h
          simp only [parseAmountParts, hq, Option.map_none, Except.ok.injEq, Prod.mk.injEq] at h2
          exact h2.2.symm

/-- C50: never does an unreadable number make `parse_post` fail: whatever the text of the number, the posting gets the
amount of a readable number and none for any other text. -/
theorem C50_never_fails_violated {input : Str} {j j' : Journal} {xs : List Xact} {x : Xact} {t : PostTokens}
    (hx : j.xacts = xs ++ [x]) (ht : scanPost input = .ok t) (hq : Dec.fromStr t.quantity = none)
    (h : parsePost input xs.length j = .ok j') :
    ∃ path, j'.xacts = xs ++ [{ x with posts := x.posts ++ [⟨path, none, none, none⟩] }] := by
  obtain ⟨t', m, path, pool, am, c, h1, _, _, h4, rfl⟩ := parsePost_ok hx h
  rw [ht] at h1; cases h1
  obtain ⟨e1, e2⟩ := parsePostAmounts_amount h4
  rw [hq] at e1
  simp only [Option.map_none] at e1
  subst e1
  rw [e2 (Or.inl rfl)]
  exact ⟨path, rfl⟩

/-- C50 for readable numbers: the posting that is added has exactly the amount written.  Missing: texts that are not
numbers, for which the claim is false. -/
theorem C50_readable_partial {input : Str} {j j' : Journal} {xs : List Xact} {x : Xact} {t : PostTokens} {q : Dec}
    (hx : j.xacts = xs ++ [x]) (ht : scanPost input = .ok t) (hq : Dec.fromStr t.quantity = some q)
    (h : parsePost input xs.length j = .ok j') :
    ∃ path cost, j'.xacts = xs ++ [{ x with posts := x.posts ++
      [⟨path, some ⟨q, if t.symbol = [] then none else some t.symbol⟩, cost, none⟩] }] := by
  obtain ⟨t', m, path, pool, am, c, h1, _, _, h4, rfl⟩ := parsePost_ok hx h
  rw [ht] at h1; cases h1
  obtain ⟨e1, e2⟩ := parsePostAmounts_amount h4
  rw [hq] at e1
  simp only [Option.map_some] at e1
  subst e1
  exact ⟨path, c, rfl⟩

example : ∃ j', parsePost (str "A  10 EUR") 0 { Journal.new with xacts := [⟨none, none, str "p", [], none⟩] } = .ok j' ∧
    j'.xacts.map (fun x => x.posts.map (fun p => p.amount)) = [[some ⟨⟨false, 10, 0⟩, some (str "EUR")⟩]] :=
  ok_and (by decide +kernel)

example : ∃ j', parsePost (str "A  1,000 EUR") 0 { Journal.new with xacts := [⟨none, none, str "p", [], none⟩] } = .ok j' ∧
    j'.xacts.map (fun x => x.posts.map (fun p => p.amount)) = [[none]] :=
  ok_and (by decide +kernel)

/-! ### C51 -/

/-- C51 is violated: two spaces after an account without an amount make the parser panic. -/
theorem C51_trailing_violated :
    (∃ j, parsed "2023-05-01 x\n A  5 EUR\n Assets\n" = .ok j ∧ j.xacts.length = 1) ∧
    parsed "2023-05-01 x\n A  5 EUR\n Assets  \n" = .error .noAmountChar :=
  ⟨ok_and (by decide +kernel), by decide +kernel⟩

/-- Every account with two trailing spaces is refused. -/
theorem C51_two_spaces_violated {acct sp : Str} (ha : AccountText acct) (hs : Blank sp) :
    scanPost (acct ++ ' ' :: ' ' :: sp) = .error .noAmountChar := by
  have hf := ha.find sp
  obtain ⟨c, cs, rfl, hw, hc⟩ := ha.1
  rw [List.cons_append] at hf ⊢
  rw [scanPost_start hw hc, hf]
  have : scanAmount sp = .error .noAmountChar := by
    simp only [scanAmount, trimStart_allBlank hs]
  simp only [dropBytes_two ' ' ' ' _ (by decide) (by decide), bind, Except.bind, this]

/-- C51: blanks at the end of a posting line that is read with an amount or a commodity change nothing; nor do blanks
after an account alone that do not come in pairs of spaces.  Missing: two spaces after an account alone, for which the
claim is false. -/
theorem C51_trailing_partial {line : Str} {t : PostTokens} (h : scanPost line = .ok t) {tail : Str} (ht : Blank tail)
    (hc : (t.quantity ≠ [] ∨ t.symbol ≠ []) ∨ ¬ TwoSpaces (trimStart line ++ tail)) : scanPost (line ++ tail) = .ok t :=
  scanPost_blanks h ht hc

example : scanPost (str "A  10 EUR {2 X} @ 5 EUR" ++ str "   \t \r\n") = scanPost (str "A  10 EUR {2 X} @ 5 EUR") := by
  have h : scanPost (str "A  10 EUR {2 X} @ 5 EUR") =
    .ok ⟨str "A", str "10", str "EUR", str "2", str "X", [], str "5", str "EUR", true⟩ := by decide +kernel
  rw [h]
  exact C51_trailing_partial h (by unfold Blank; decide) (Or.inl (Or.inl (by decide)))

/-! ### C52 -/

/-- C52 is violated: with a number without commodity, or no number at all, the semicolon of the note becomes the
commodity. -/
theorem C52_note_violated :
    scanPost (str "A  10 ; lunch") = .ok ⟨str "A", str "10", str ";", [], [], [], [], [], false⟩ ∧
    (∃ j, parsed "2023-05-01 x\n A  10 ; lunch\n B\n" = .ok j ∧
      j.xacts.map (fun x => x.posts.map (fun p => p.amount)) =
        [[some ⟨⟨false, 10, 0⟩, some (str ";")⟩, some ⟨⟨true, 10, 0⟩, some (str ";")⟩]]) :=
  ⟨by decide +kernel, ok_and (by decide +kernel)⟩

/-- C52: after an amount with a commodity, and a cost with a commodity if there is a cost, a note changes nothing.
Missing: amounts without commodity and postings without amount, for which the claim is false. -/
theorem C52_note_partial {lead acct gap amt q s lot pq ps d cost cq cs sp note : Str} {u : Bool}
    (hl : Blank lead) (ha : AccountText acct) (hg : Blank gap) (hamt : AmountText amt q s)
    (hlot : LotText lot pq ps d) (hcost : CostText cost cq cs u) (hsp : Blank sp) (hne : sp ≠ [])
    (hs : s ≠ []) (hcs : cost ≠ [] → cs ≠ []) :
    scanPost (lead ++ acct ++ ' ' :: ' ' :: gap ++ amt ++ lot ++ cost ++ (sp ++ ';' :: note)) =
      scanPost (lead ++ acct ++ ' ' :: ' ' :: gap ++ amt ++ lot ++ cost) ∧
    scanPost (lead ++ acct ++ ' ' :: ' ' :: gap ++ amt ++ lot ++ cost ++ (sp ++ ';' :: note)) =
      .ok ⟨acct, q, s, pq, ps, d, cq, cs, u⟩ := by
  have r1 := scanPost_text hl ha hg hamt hlot hcost (.note (rest := note) hsp hne) (fun h => absurd h hs)
    (fun h => absurd h hs) (fun _ h => hcs h)
  have r2 := scanPost_text hl ha hg hamt hlot hcost (.blank (sp := []) (by simp [Blank])) (fun h => absurd h hs)
    (fun h => absurd h hs) (fun h => absurd h (by simp))
  rw [List.append_nil] at r2
  exact ⟨r1.trans r2.symm, r1⟩

end Ledger
