import Verif.Spec.Posting
import Verif.Lemmas.Notes
/-
The scanner on texts built from fields.
-/
namespace Ledger
open Ledger.Scanner

theorem takeWhile_stop {α : Type} (p : α → Bool) (a b : List α) (ha : ∀ x ∈ a, p x = true)
    (hb : ∀ c, b.head? = some c → p c = false) : (a ++ b).takeWhile p = a := by
  induction a with
  | nil => cases b with
    | nil => rfl
    | cons x xs => simp [hb x rfl]
  | cons x xs ih =>
    simp only [List.cons_append, List.takeWhile, ha x (by simp)]
    rw [ih (fun y hy => ha y (by simp [hy]))]

theorem dropWhile_stop {α : Type} (p : α → Bool) (a b : List α) (ha : ∀ x ∈ a, p x = true)
    (hb : ∀ c, b.head? = some c → p c = false) : (a ++ b).dropWhile p = b := by
  rw [dropWhile_skip p a b ha]
  cases b with
  | nil => rfl
  | cons x xs => simp [List.dropWhile, hb x rfl]

theorem numberChar_iff (c : Char) : NumberChar c ↔ isQtyChar c = true := by
  simp [NumberChar, isQtyChar, or_assoc]

theorem symbolChar_iff (c : Char) : SymbolChar c ↔ isSymEnd c = false := by
  simp [SymbolChar, isSymEnd, and_assoc]

theorem isWs_qty {c : Char} (h : isWs c = true) : isQtyChar c = false := by
  by_contra hn
  have hn : isQtyChar c = true := by simpa using hn
  simp only [isQtyChar, isDig, Bool.or_eq_true, beq_iff_eq, Bool.and_eq_true, decide_eq_true_eq] at hn
  simp only [isWs, Bool.or_eq_true, beq_iff_eq, Bool.and_eq_true, decide_eq_true_eq] at h
  rcases hn with ((hn | hn) | hn) | hn
  · omega
  all_goals (subst hn; revert h; decide)

theorem isWs_symEnd {c : Char} (h : isWs c = true) : isSymEnd c = true := by simp [isSymEnd, h]

theorem trimStart_blank {sp : Str} (h : Blank sp) (x : Str) : trimStart (sp ++ x) = trimStart x := dropWhile_skip _ _ _ h

theorem trimStart_allBlank {sp : Str} (h : Blank sp) : trimStart sp = [] := (dropWhile_nil_iff _ _).mpr h

theorem trimStart_id {x : Str} (h : ∀ c, x.head? = some c → isWs c = false) : trimStart x = x := by
  cases x with
  | nil => rfl
  | cons c cs => simp [trimStart, List.dropWhile, h c rfl]

theorem trimStart_head (x : Str) (c : Char) (h : (trimStart x).head? = some c) : isWs c = false := by
  induction x with
  | nil => simp [trimStart] at h
  | cons a as ih =>
    by_cases ha : isWs a = true
    · exact ih (by simpa [trimStart, List.dropWhile, ha] using h)
    · have ha : isWs a = false := by simpa using ha
      simp [trimStart, List.dropWhile, ha] at h
      exact h ▸ ha

theorem trimStart_idem (x : Str) : trimStart (trimStart x) = trimStart x := trimStart_id (trimStart_head x)

/-- What may follow an amount: nothing, a blank or `@`. -/
def Stops (rest : Str) : Prop := ∀ c, rest.head? = some c → isWs c = true ∨ c = '@'

theorem Stops.nil : Stops [] := fun c h => by simp at h

theorem Stops.qty {rest : Str} (h : Stops rest) : ∀ c, rest.head? = some c → isQtyChar c = false := by
  intro c hc
  rcases h c hc with h | h
  · exact isWs_qty h
  · subst h; decide

theorem Stops.sym {rest : Str} (h : Stops rest) : ∀ c, rest.head? = some c → (!isSymEnd c) = false := by
  intro c hc
  rcases h c hc with h | h
  · simp [isWs_symEnd h]
  · subst h; decide

theorem QuantityText.bool {q : Str} (h : QuantityText q) : ∀ c ∈ q, isQtyChar c = true :=
  fun c hc => (numberChar_iff c).mp (h.2 c hc)

theorem SymbolText.bool {s : Str} (h : SymbolText s) : ∀ c ∈ s, (!isSymEnd c) = true :=
  fun c hc => by simp [(symbolChar_iff c).mp (h.2 c hc)]

theorem QuantityText.not_ws {q : Str} (h : QuantityText q) : ∀ c ∈ q, isWs c = false := by
  intro c hc
  by_contra hn
  have := isWs_qty (c := c) (by simpa using hn)
  simp [h.bool c hc] at this

theorem SymbolText.not_ws {s : Str} (h : SymbolText s) : ∀ c ∈ s, isWs c = false := fun c hc => (h.2 c hc).1

theorem head_mem {α : Type} {l : List α} {c : α} (h : l.head? = some c) : c ∈ l := by
  cases l with
  | nil => simp at h
  | cons a as => simp at h; simp [h]

theorem head_append {α : Type} {a b : List α} (h : a ≠ []) : (a ++ b).head? = a.head? := by
  cases a with
  | nil => exact absurd rfl h
  | cons x xs => rfl

theorem scanAmount_number (c : Char) (cs : Str) (hc : isQtyChar c = true) :
    scanAmount (c :: cs) = .ok (⟨(scanQuantity (c :: cs)).1, (scanSymbol (scanQuantity (c :: cs)).2).1⟩,
      (scanSymbol (scanQuantity (c :: cs)).2).2) := by
  have hw : isWs c = false := by
    by_contra hn
    have := isWs_qty (c := c) (by simpa using hn)
    simp [hc] at this
  have : trimStart (c :: cs) = c :: cs := by simp [trimStart, List.dropWhile, hw]
  simp [scanAmount, this, hc]

theorem scanAmount_symbol (c : Char) (cs : Str) (hw : isWs c = false) (hc : isQtyChar c = false) :
    scanAmount (c :: cs) = .ok (⟨(scanQuantity (scanSymbol (c :: cs)).2).1, (scanSymbol (c :: cs)).1⟩,
      (scanQuantity (scanSymbol (c :: cs)).2).2) := by
  have : trimStart (c :: cs) = c :: cs := by simp [trimStart, List.dropWhile, hw]
  simp [scanAmount, this, hc]

theorem scanAmount_blank {sp : Str} (h : Blank sp) (x : Str) : scanAmount (sp ++ x) = scanAmount x := by
  simp [scanAmount, trimStart_blank h]

theorem scanQuantity_text {q : Str} (hq : QuantityText q) {rest : Str}
    (h : ∀ c, rest.head? = some c → isQtyChar c = false) : scanQuantity (q ++ rest) = (q, trimStart rest) := by
  simp [scanQuantity, takeWhile_stop _ q rest hq.bool h, dropWhile_stop _ q rest hq.bool h]

theorem scanSymbol_text {s : Str} (hs : SymbolText s) {rest : Str}
    (h : ∀ c, rest.head? = some c → (!isSymEnd c) = false) : scanSymbol (s ++ rest) = (s, trimStart rest) := by
  have ht : trimStart (s ++ rest) = s ++ rest := by
    refine trimStart_id ?_
    intro c hc
    rw [head_append hs.1] at hc
    exact hs.not_ws c (head_mem hc)
  simp only [scanSymbol, ht, takeWhile_stop _ s rest hs.bool h, dropWhile_stop _ s rest hs.bool h]

theorem scanSymbol_none {rest : Str} (h : ∀ c, (trimStart rest).head? = some c → c = '@') :
    scanSymbol rest = ([], trimStart rest) := by
  have hs : ∀ c, (trimStart rest).head? = some c → (!isSymEnd c) = false := by
    intro c hc; rw [h c hc]; decide
  have h1 := takeWhile_stop (fun c => !isSymEnd c) [] (trimStart rest) (by simp) hs
  have h2 := dropWhile_stop (fun c => !isSymEnd c) [] (trimStart rest) (by simp) hs
  simp only [List.nil_append] at h1 h2
  simp only [scanSymbol, h1, h2, trimStart_idem]

/-- A written amount is scanned as its quantity and symbol. -/
theorem scanAmount_text {text q s : Str} (h : AmountText text q s) {sp rest : Str} (hsp : Blank sp) (hr : Stops rest)
    (hs : s = [] → ∀ c, (trimStart rest).head? = some c → c = '@') :
    scanAmount (sp ++ text ++ rest) = .ok (⟨q, s⟩, trimStart rest) := by
  rw [List.append_assoc, scanAmount_blank hsp]
  cases h with
  | plain hq =>
    obtain ⟨c, cs, rfl⟩ := List.exists_cons_of_ne_nil hq.1
    have e := scanQuantity_text hq hr.qty
    rw [List.cons_append] at e ⊢
    rw [scanAmount_number c _ (hq.bool c (by simp)), e]
    simp only
    rw [scanSymbol_none (by rw [trimStart_idem]; exact hs rfl), trimStart_idem]
  | @after q sp' s hq hsp' hs' hne =>
    obtain ⟨c, cs, rfl⟩ := List.exists_cons_of_ne_nil hq.1
    have h1 : ∀ x, (sp' ++ (s ++ rest)).head? = some x → isQtyChar x = false := by
      intro x hx
      cases sp' with
      | cons w ws =>
        simp at hx; subst hx; exact isWs_qty (hsp' _ (by simp))
      | nil =>
        simp only [List.nil_append] at hx
        rw [head_append hs'.1] at hx
        have := (hne.resolve_left (by simp)) x hx
        rw [numberChar_iff] at this; simpa using this
    have e := scanQuantity_text hq h1
    have e2 : trimStart (sp' ++ (s ++ rest)) = s ++ rest := by
      rw [trimStart_blank hsp']
      refine trimStart_id ?_
      intro x hx; rw [head_append hs'.1] at hx; exact hs'.not_ws x (head_mem hx)
    simp only [List.append_assoc, List.cons_append] at e ⊢
    rw [scanAmount_number c _ (hq.bool c (by simp)), e, e2]
    simp only
    rw [scanSymbol_text hs' hr.sym]
  | @before q sp' s hq hsp' hs' hn hne =>
    obtain ⟨c, cs, rfl⟩ := List.exists_cons_of_ne_nil hs'.1
    have h1 : ∀ x, (sp' ++ (q ++ rest)).head? = some x → (!isSymEnd x) = false := by
      intro x hx
      cases sp' with
      | cons w ws =>
        simp at hx; subst hx; simp [isWs_symEnd (hsp' _ (List.mem_cons_self))]
      | nil =>
        simp only [List.nil_append] at hx
        rw [head_append hq.1] at hx
        have := (hne.resolve_left (by simp)) x hx
        rw [symbolChar_iff] at this; simpa using this
    have e := scanSymbol_text hs' h1
    have e2 : trimStart (sp' ++ (q ++ rest)) = q ++ rest := by
      rw [trimStart_blank hsp']
      refine trimStart_id ?_
      intro x hx; rw [head_append hq.1] at hx; exact hq.not_ws x (head_mem hx)
    have hc : isQtyChar c = false := by
      have := hn c rfl
      rw [numberChar_iff] at this; simpa using this
    simp only [List.append_assoc, List.cons_append] at e ⊢
    rw [scanAmount_symbol c _ (hs'.not_ws c (by simp)) hc, e, e2]
    simp only
    rw [scanQuantity_text hq hr.qty]

/- Lots -/

theorem dropBytes_one (c : Char) (x : Str) (h : c.utf8Size = 1) : dropBytes (c :: x) 1 = .ok x := by
  simp [dropBytes, h]

theorem dropBytes_two (c d : Char) (x : Str) (h : c.utf8Size = 1) (h' : d.utf8Size = 1) :
    dropBytes (c :: d :: x) 2 = .ok x := by
  simp [dropBytes, h, h']

theorem dropBytes_three (c d e : Char) (x : Str) (h : c.utf8Size = 1) (h' : d.utf8Size = 1) (h'' : e.utf8Size = 1) :
    dropBytes (c :: d :: e :: x) 3 = .ok x := by
  simp [dropBytes, h, h', h'']

theorem splitAtFirst_stop (p : Char → Bool) (a : Str) (c : Char) (b : Str) (ha : ∀ x ∈ a, p x = false) (hc : p c = true) :
    splitAtFirst p (a ++ c :: b) = (a, c :: b) := by
  have h1 : ∀ x ∈ a, (!p x) = true := fun x hx => by simp [ha x hx]
  have h2 : ∀ x, (c :: b).head? = some x → (!p x) = false := by intro x hx; simp at hx; subst hx; simp [hc]
  simp [splitAtFirst, takeWhile_stop _ a _ h1 h2, dropWhile_stop _ a _ h1 h2]

theorem splitAtFirst_none (p : Char → Bool) (a : Str) (ha : ∀ x ∈ a, p x = false) : splitAtFirst p a = (a, []) := by
  have h1 : ∀ x ∈ a, (!p x) = true := fun x hx => by simp [ha x hx]
  have := takeWhile_stop (fun x => !p x) a [] h1 (by simp)
  have h := dropWhile_stop (fun x => !p x) a [] h1 (by simp)
  simp only [List.append_nil] at this h
  simp [splitAtFirst, this, h]

theorem scanUntil_stop (a : Str) (c : Char) (b : Str) (ha : c ∉ a) : scanUntil (a ++ c :: b) c = .ok (a, c :: b) := by
  have : c ∈ a ++ c :: b := by simp
  rw [scanUntil, if_pos this, splitAtFirst_stop _ a c b _ (by simp)]
  intro x hx
  have : x ≠ c := fun e => ha (e ▸ hx)
  simpa using this

theorem Blank.not_mem {sp : Str} (h : Blank sp) (c : Char) (hc : isWs c = false) : c ∉ sp := by
  intro hm; simp [h c hm] at hc

theorem Blank.stops {sp : Str} (h : Blank sp) : Stops sp := fun c hc => Or.inl (h c (head_mem hc))

theorem Blank.head {sp : Str} (h : Blank sp) (c : Char) : (trimStart sp).head? = some c → c = '@' := by
  simp [trimStart_allBlank h]

theorem LotPrice.go {p q s : Str} (h : LotPrice p q s) (n : Nat) (r : AnnotationTokens) (hr : r.quantity = []) (rest : Str) :
    scanAnnotationsGo (n + 1) r (p ++ rest) =
      scanAnnotationsGo n { r with quantity := q, symbol := s } (trimStart rest) := by
  cases h with
  | @mk sp amt sp' q s hsp ha hsp' hb =>
    have hm : '}' ∉ sp ++ amt ++ sp' := by
      simp only [List.mem_append, not_or]
      exact ⟨⟨hsp.not_mem _ (by decide), hb⟩, hsp'.not_mem _ (by decide)⟩
    have e1 := scanUntil_stop (sp ++ amt ++ sp') '}' rest hm
    have e2 := scanAmount_text ha hsp hsp'.stops (fun _ => hsp'.head)
    have e3 : ('{' :: sp ++ amt ++ sp' ++ ['}']) ++ rest = '{' :: (sp ++ amt ++ sp' ++ '}' :: rest) := by simp
    rw [e3]
    simp only [scanAnnotationsGo, hr, dropBytes_one '{' _ (by decide), e1, e2, dropBytes_one '}' _ (by decide),
      bind, Except.bind, if_true, ne_eq, not_true_eq_false, if_false]

theorem LotDate.go {t d : Str} (h : LotDate t d) (n : Nat) (r : AnnotationTokens) (hr : r.date = []) (rest : Str) :
    scanAnnotationsGo (n + 1) r (t ++ rest) = scanAnnotationsGo n { r with date := d } (trimStart rest) := by
  cases h with
  | @mk d hne h =>
    have hm : ']' ∉ d := fun hm => (h _ hm).1 rfl
    have e1 := scanUntil_stop d ']' rest hm
    have e2 : scanDate d = (d, []) := splitAtFirst_none _ d (fun x hx => by simp [(h x hx).2.1, (h x hx).2.2])
    have e3 : ('[' :: d ++ [']']) ++ rest = '[' :: (d ++ ']' :: rest) := by simp
    rw [e3]
    have hb : ¬ ('[' : Char) = '{' := by decide
    simp only [scanAnnotationsGo, hr, dropBytes_one '[' _ (by decide), e1, e2, dropBytes_one ']' _ (by decide),
      bind, Except.bind, if_true, ne_eq, not_true_eq_false, if_false, hb]

/-- No lot starts here. -/
def NoLot (rest : Str) : Prop := ∀ c, rest.head? = some c → c ≠ '{' ∧ c ≠ '[' ∧ c ≠ '('

theorem NoLot.go {rest : Str} (h : NoLot rest) (n : Nat) (r : AnnotationTokens) :
    scanAnnotationsGo (n + 1) r rest = .ok (r, rest) := by
  cases rest with
  | nil => rfl
  | cons c cs =>
    obtain ⟨h1, h2, h3⟩ := h c rfl
    simp [scanAnnotationsGo, h1, h2, h3]

theorem LotPrice.head {p q s : Str} (h : LotPrice p q s) : ∃ x, p = '{' :: x ∧ x ≠ [] := by
  cases h with
  | @mk sp amt sp' => exact ⟨sp ++ amt ++ sp' ++ ['}'], by simp only [List.cons_append], by simp⟩

theorem LotDate.head {t d : Str} (h : LotDate t d) : ∃ x, t = '[' :: x ∧ x ≠ [] := by
  cases h with
  | mk => exact ⟨d ++ [']'], by simp only [List.cons_append], by simp⟩

theorem trimStart_lot {sp : Str} (h : Blank sp) {c : Char} (hc : isWs c = false) (x : Str) :
    trimStart (sp ++ c :: x) = c :: x := trimStart_skip sp c x h hc

/-- The lot of a posting is scanned as its parts. -/
theorem scanAnnotations_text {text q s d : Str} (h : LotText text q s d) {rest : Str} (hr : NoLot (trimStart rest)) :
    scanAnnotations (text ++ rest) = .ok (⟨q, s, d⟩, trimStart rest) := by
  cases h with
  | none => simp only [scanAnnotations, List.nil_append]; exact hr.go _ _
  | @price sp p q s hsp _ hp =>
    obtain ⟨x, rfl, hx⟩ := hp.head
    have e : trimStart (sp ++ '{' :: x ++ rest) = '{' :: x ++ rest := by
      rw [List.append_assoc, List.cons_append]; exact trimStart_lot hsp (by decide) _
    simp only [scanAnnotations, e]
    rw [hp.go _ _ rfl]
    exact hr.go _ _
  | @date sp t d hsp _ hd =>
    obtain ⟨x, rfl, hx⟩ := hd.head
    have e : trimStart (sp ++ '[' :: x ++ rest) = '[' :: x ++ rest := by
      rw [List.append_assoc, List.cons_append]; exact trimStart_lot hsp (by decide) _
    simp only [scanAnnotations, e]
    rw [hd.go _ _ rfl]
    exact hr.go _ _
  | @priceDate sp sp' p q s t d hsp _ hp hsp' hd =>
    obtain ⟨x, rfl, hx⟩ := hp.head
    obtain ⟨y, rfl, hy⟩ := hd.head
    have e : trimStart (sp ++ '{' :: x ++ sp' ++ '[' :: y ++ rest) = '{' :: x ++ (sp' ++ ('[' :: y ++ rest)) := by
      simp only [List.append_assoc, List.cons_append]; exact trimStart_lot hsp (by decide) _
    simp only [scanAnnotations, e]
    rw [hp.go _ _ rfl]
    rw [show trimStart (sp' ++ ('[' :: y ++ rest)) = '[' :: y ++ rest from trimStart_lot hsp' (by decide) _]
    have hl : ∃ n, ('{' :: x ++ (sp' ++ ('[' :: y ++ rest))).length = n + 1 + 1 :=
      ⟨(x ++ (sp' ++ (y ++ rest))).length, by simp; omega⟩
    obtain ⟨n, hn⟩ := hl
    rw [hn, hd.go _ _ rfl]
    exact hr.go _ _
  | @datePrice sp sp' p q s t d hsp _ hd hsp' hp =>
    obtain ⟨x, rfl, hx⟩ := hp.head
    obtain ⟨y, rfl, hy⟩ := hd.head
    have e : trimStart (sp ++ '[' :: y ++ sp' ++ '{' :: x ++ rest) = '[' :: y ++ (sp' ++ ('{' :: x ++ rest)) := by
      simp only [List.append_assoc, List.cons_append]; exact trimStart_lot hsp (by decide) _
    simp only [scanAnnotations, e]
    rw [hd.go _ _ rfl]
    rw [show trimStart (sp' ++ ('{' :: x ++ rest)) = '{' :: x ++ rest from trimStart_lot hsp' (by decide) _]
    have hl : ∃ n, ('[' :: y ++ (sp' ++ ('{' :: x ++ rest))).length = n + 1 + 1 :=
      ⟨(y ++ (sp' ++ (x ++ rest))).length, by simp; omega⟩
    obtain ⟨n, hn⟩ := hl
    rw [hn, hp.go _ _ rfl]
    exact hr.go _ _

/- Costs and the end of the line -/

theorem PostEnd.trim {t : Str} {b : Bool} (h : PostEnd t b) :
    (b = false ∧ trimStart t = []) ∨ (b = true ∧ ∃ x, trimStart t = ';' :: x) := by
  cases h with
  | blank h => exact Or.inl ⟨rfl, trimStart_allBlank h⟩
  | @note sp rest h hne => exact Or.inr ⟨rfl, rest, trimStart_lot h (by decide) _⟩

theorem PostEnd.stops {t : Str} {b : Bool} (h : PostEnd t b) : Stops t := by
  cases h with
  | blank h => exact h.stops
  | @note sp rest h hne =>
    intro c hc
    rw [head_append hne] at hc
    exact h.stops c hc

theorem scanCost_unit (c : Char) (r : Str) (hc : c ≠ '@') (h : c.utf8Size = 1) :
    scanCost ('@' :: c :: r) = (scanAmount r).map (fun t => ⟨t.1.quantity, t.1.symbol, true⟩) := by
  simp only [scanCost]
  split
  · rename_i heq; simp at heq; exact absurd heq.1 hc
  · simp only [dropBytes_two '@' c _ (by decide) h, bind, Except.bind]
    rw [show scanAmount (trimStart r) = scanAmount r by simp [scanAmount, trimStart_idem]]
    cases scanAmount r <;> rfl

theorem scanCost_total (c : Char) (r : Str) (h : c.utf8Size = 1) :
    scanCost ('@' :: '@' :: c :: r) = (scanAmount r).map (fun t => ⟨t.1.quantity, t.1.symbol, false⟩) := by
  simp only [scanCost, dropBytes_three '@' '@' c _ (by decide) (by decide) h, bind, Except.bind]
  rw [show scanAmount (trimStart r) = scanAmount r by simp [scanAmount, trimStart_idem]]
  cases scanAmount r <;> rfl

/-- The cost of a posting is scanned as its parts. -/
theorem scanCost_text {text q s : Str} {u : Bool} (h : CostText text q s u) {fin : Str} {b : Bool} (he : PostEnd fin b)
    (hb : b = true → text ≠ [] → s ≠ []) :
    (if trimStart (text ++ fin) = [] then .ok ⟨[], [], false⟩ else scanCost (trimStart (text ++ fin))) =
      .ok (⟨q, s, u⟩ : CostTokens) := by
  have hsym : text ≠ [] → s = [] → ∀ c, (trimStart fin).head? = some c → c = '@' := by
    intro ht hs c hc
    rcases he.trim with ⟨_, h⟩ | ⟨h, _⟩
    · simp [h] at hc
    · exact absurd hs (hb h ht)
  cases h with
  | none =>
    rcases he.trim with ⟨_, h⟩ | ⟨_, x, h⟩
    · simp [h]
    · simp [h, scanCost]
  | @unit sp sp' amt q s hsp hsp' ha =>
    have e : trimStart (sp ++ '@' :: ' ' :: sp' ++ amt ++ fin) = '@' :: ' ' :: (sp' ++ amt ++ fin) := by
      simp only [List.append_assoc, List.cons_append]; exact trimStart_lot hsp (by decide) _
    rw [e, if_neg (by simp), scanCost_unit ' ' _ (by decide) (by decide),
      scanAmount_text ha hsp' he.stops (hsym (by simp))]
    rfl
  | @total sp sp' amt q s hsp hsp' ha =>
    have e : trimStart (sp ++ '@' :: '@' :: ' ' :: sp' ++ amt ++ fin) = '@' :: '@' :: ' ' :: (sp' ++ amt ++ fin) := by
      simp only [List.append_assoc, List.cons_append]; exact trimStart_lot hsp (by decide) _
    rw [e, if_neg (by simp), scanCost_total ' ' _ (by decide), scanAmount_text ha hsp' he.stops (hsym (by simp))]
    rfl

theorem CostText.head {text q s : Str} {u : Bool} (h : CostText text q s u) :
    text = [] ∨ ∃ sp x, text = sp ++ '@' :: x ∧ Blank sp := by
  cases h with
  | none => exact Or.inl rfl
  | @unit sp sp' amt q s hsp hsp' ha => exact Or.inr ⟨sp, ' ' :: sp' ++ amt, by simp, hsp⟩
  | @total sp sp' amt q s hsp hsp' ha => exact Or.inr ⟨sp, '@' :: ' ' :: sp' ++ amt, by simp, hsp⟩

theorem LotText.head {text q s d : Str} (h : LotText text q s d) :
    text = [] ∨ ∃ sp x, text = sp ++ x ∧ Blank sp ∧ sp ≠ [] := by
  cases h with
  | none => exact Or.inl rfl
  | @price sp p q s hsp hne hp => exact Or.inr ⟨sp, p, rfl, hsp, hne⟩
  | @date sp p q hsp hne hp => exact Or.inr ⟨sp, p, rfl, hsp, hne⟩
  | @priceDate sp sp' p q s t d hsp hne hp hsp' hd => exact Or.inr ⟨sp, p ++ sp' ++ t, by simp, hsp, hne⟩
  | @datePrice sp sp' p q s t d hsp hne hd hsp' hp => exact Or.inr ⟨sp, t ++ sp' ++ p, by simp, hsp, hne⟩

/- Finding a separator -/

theorem findSub_at (pat : Str) (a b : Str) (hb : pat <+: b) (h : ∀ x y, a = x ++ y → y ≠ [] → ¬ pat <+: y ++ b) :
    findSub pat (a ++ b) = some (a, b) := by
  induction a with
  | nil =>
    have : pat.isPrefixOf b = true := List.isPrefixOf_iff_prefix.mpr hb
    cases b with
    | nil => simp only [List.nil_append, findSub, this, if_true]
    | cons c cs => simp only [List.nil_append, findSub, this, if_true]
  | cons c cs ih =>
    have h0 : ¬ pat.isPrefixOf (c :: (cs ++ b)) = true := by
      rw [List.isPrefixOf_iff_prefix]; exact h [] (c :: cs) rfl (by simp)
    rw [List.cons_append]
    simp only [findSub]
    rw [if_neg h0, ih (fun x y e hy => h (c :: x) y (by rw [e]; rfl) hy)]

theorem findSub_none (pat : Str) (s : Str) (h : ∀ x y, s = x ++ y → ¬ pat <+: y) : findSub pat s = none := by
  induction s with
  | nil =>
    have : ¬ pat.isPrefixOf [] = true := by rw [List.isPrefixOf_iff_prefix]; exact h [] [] rfl
    simp only [findSub]; rw [if_neg this]
  | cons c cs ih =>
    have h0 : ¬ pat.isPrefixOf (c :: cs) = true := by
      rw [List.isPrefixOf_iff_prefix]; exact h [] (c :: cs) rfl
    simp only [findSub]
    rw [if_neg h0, ih (fun x y e => h (c :: x) y (by rw [e]; rfl))]

theorem findSub_some {pat s a b : Str} (h : findSub pat s = some (a, b)) : s = a ++ b ∧ pat <+: b := by
  induction s generalizing a b with
  | nil =>
    simp only [findSub] at h
    split at h
    · rename_i hp; simp at h; obtain ⟨rfl, rfl⟩ := h; exact ⟨rfl, List.isPrefixOf_iff_prefix.mp hp⟩
    · simp at h
  | cons c cs ih =>
    simp only [findSub] at h
    split at h
    · rename_i hp; simp at h; obtain ⟨rfl, rfl⟩ := h; exact ⟨rfl, List.isPrefixOf_iff_prefix.mp hp⟩
    · cases hx : findSub pat cs with
      | none => rw [hx] at h; simp at h
      | some v =>
        rw [hx] at h; simp at h
        obtain ⟨rfl, rfl⟩ := h
        obtain ⟨e, hp⟩ := ih hx
        exact ⟨by rw [e]; rfl, hp⟩

theorem findSub_append {pat s a b : Str} (h : findSub pat s = some (a, b)) (t : Str) :
    findSub pat (s ++ t) = some (a, b ++ t) := by
  induction s generalizing a b with
  | nil =>
    simp only [findSub] at h
    split at h
    · rename_i hp
      simp at h; obtain ⟨rfl, rfl⟩ := h
      have hp := List.isPrefixOf_iff_prefix.mp hp
      simp at hp; subst hp
      cases t <;> simp [findSub, List.isPrefixOf]
    · simp at h
  | cons c cs ih =>
    simp only [findSub] at h
    rw [List.cons_append]
    split at h
    · rename_i hp; simp at h; obtain ⟨rfl, rfl⟩ := h
      have hp := List.isPrefixOf_iff_prefix.mp hp
      have : pat.isPrefixOf (c :: (cs ++ t)) = true :=
        List.isPrefixOf_iff_prefix.mpr (hp.trans (by rw [← List.cons_append]; exact List.prefix_append _ _))
      simp only [findSub]; rw [if_pos this]; rfl
    · rename_i hp
      cases hx : findSub pat cs with
      | none => rw [hx] at h; simp at h
      | some v =>
        rw [hx] at h; simp at h
        obtain ⟨rfl, rfl⟩ := h
        obtain ⟨e, hpre⟩ := findSub_some hx
        have hlen : pat.length ≤ (c :: cs).length := by
          have := hpre.length_le; rw [e]; simp; omega
        have : ¬ pat.isPrefixOf (c :: (cs ++ t)) = true := by
          rw [List.isPrefixOf_iff_prefix]
          intro hq
          rw [List.isPrefixOf_iff_prefix] at hp
          exact hp (List.prefix_of_prefix_length_le hq (by rw [← List.cons_append]; exact List.prefix_append _ _) hlen)
        simp only [findSub]; rw [if_neg this, ih hx]

/- Postings -/

theorem trimEnd_blank {s tail : Str} (hs : ∀ c, s.getLast? = some c → isWs c = false) (ht : Blank tail) :
    trimEnd (s ++ tail) = s := by
  have h1 : ∀ x ∈ tail.reverse, isWs x = true := fun x hx => ht x (by simpa using hx)
  have h2 : ∀ c, s.reverse.head? = some c → isWs c = false := by simpa using hs
  simp only [trimEnd, List.reverse_append]
  rw [dropWhile_stop isWs _ _ h1 h2, List.reverse_reverse]

theorem trim_text {sp s tail : Str} (hsp : Blank sp) (hs : Trimmed s) (ht : Blank tail) : trim (sp ++ s ++ tail) = s := by
  rw [trim, List.append_assoc, trimStart_blank hsp]
  by_cases h : s = []
  · subst h; simp [trimStart_allBlank ht, trimEnd]
  · rw [trimStart_id (fun c hc => hs.1 c (by rwa [head_append h] at hc)), trimEnd_blank hs.2 ht]

theorem AccountText.no_two {a : Str} (h : AccountText a) {tail : Str} (h2 : ¬ TwoSpaces tail) :
    ¬ TwoSpaces (a ++ tail) := by
  rintro ⟨x, b, e⟩
  rcases List.append_eq_append_iff.mp e with ⟨y, e1, e2⟩ | ⟨y, e1, e2⟩
  · exact h2 ⟨y, b, e2⟩
  · match y, e1, e2 with
    | [], e1, e2 => exact h2 ⟨[], b, by simpa using e2.symm⟩
    | [c], e1, e2 =>
      simp at e2
      have := h.2.1 c (by rw [e1]; simp)
      rw [← e2.1] at this; revert this; decide
    | c :: d :: y, e1, e2 =>
      simp at e2
      exact h.2.2 ⟨x, y, by rw [e1, ← e2.1, ← e2.2.1]⟩

theorem AccountText.find_none {a : Str} (h : AccountText a) {tail : Str} (h2 : ¬ TwoSpaces tail) :
    findSub [' ', ' '] (a ++ tail) = none := by
  refine findSub_none _ _ ?_
  intro x y e hp
  obtain ⟨z, rfl⟩ := hp
  exact h.no_two h2 ⟨x, z, by simpa using e⟩

theorem AccountText.find {a : Str} (h : AccountText a) (rest : Str) :
    findSub [' ', ' '] (a ++ ' ' :: ' ' :: rest) = some (a, ' ' :: ' ' :: rest) := by
  refine findSub_at _ _ _ ⟨rest, rfl⟩ ?_
  intro x y e hy hp
  match y, hy, e, hp with
  | [c], _, e, hp =>
    obtain ⟨z, hz⟩ := hp
    simp at hz
    have := h.2.1 c (by rw [e]; simp)
    rw [← hz.1] at this; revert this; decide
  | c :: d :: y, _, e, hp =>
    obtain ⟨z, hz⟩ := hp
    simp at hz
    exact h.2.2 ⟨x, y, by rw [e, ← hz.1, ← hz.2.1]⟩

theorem scanPost_blank {sp : Str} (h : Blank sp) (x : Str) : scanPost (sp ++ x) = scanPost x := by
  simp only [scanPost, trimStart_blank h]

theorem scanPost_start {c : Char} (hw : isWs c = false) (hc : c ≠ ';') (cs : Str) :
    scanPost (c :: cs) = (match findSub [' ', ' '] (c :: cs) with
      | none => .ok { PostTokens.empty with account := trimEnd (c :: cs) }
      | some (account, rest) => do
        let input ← dropBytes rest 2
        let (amountTokens, input) ← scanAmount input
        let (annotationTokens, input) ← scanAnnotations input
        let costTokens ← if input = [] then .ok ⟨[], [], false⟩ else scanCost input
        .ok ⟨account, amountTokens.quantity, amountTokens.symbol, annotationTokens.quantity,
          annotationTokens.symbol, annotationTokens.date, costTokens.quantity, costTokens.symbol,
          costTokens.isPerUnit⟩) := by
  have : trimStart (c :: cs) = c :: cs := by simp [trimStart, List.dropWhile, hw]
  simp only [scanPost, this, hc, if_false]
  cases findSub [' ', ' '] (c :: cs) <;> rfl

theorem scanPost_account {lead a tail : Str} (hl : Blank lead) (h : AccountText a) (ht : Blank tail)
    (h2 : ¬ TwoSpaces tail) : scanPost (lead ++ a ++ tail) = .ok { PostTokens.empty with account := a } := by
  rw [List.append_assoc, scanPost_blank hl]
  have e := h.find_none h2
  have e2 : trimEnd (a ++ tail) = a := trimEnd_blank h.2.1 ht
  obtain ⟨c, cs, rfl, hw, hc⟩ := h.1
  rw [List.cons_append] at e e2 ⊢
  rw [scanPost_start hw hc]
  simp only [e, e2]

/-- A written posting is scanned as its fields. -/
theorem scanPost_text {lead acct gap amt q s lot pq ps d cost cq cs fin : Str} {u note : Bool}
    (hl : Blank lead) (ha : AccountText acct) (hg : Blank gap) (hamt : AmountText amt q s)
    (hlot : LotText lot pq ps d) (hcost : CostText cost cq cs u) (hend : PostEnd fin note)
    (h1 : s = [] → lot = []) (h2 : s = [] → cost = [] → note = false)
    (h3 : note = true → cost ≠ [] → cs ≠ []) :
    scanPost (lead ++ acct ++ ' ' :: ' ' :: gap ++ amt ++ lot ++ cost ++ fin) = .ok ⟨acct, q, s, pq, ps, d, cq, cs, u⟩ := by
  have e0 : lead ++ acct ++ ' ' :: ' ' :: gap ++ amt ++ lot ++ cost ++ fin =
      lead ++ (acct ++ ' ' :: ' ' :: (gap ++ amt ++ (lot ++ (cost ++ fin)))) := by simp
  rw [e0, scanPost_blank hl]
  have ef := ha.find (gap ++ amt ++ (lot ++ (cost ++ fin)))
  -- what follows the cost, the lot and the amount
  have hct : trimStart (cost ++ fin) = [] ∨ ∃ c x, trimStart (cost ++ fin) = c :: x ∧ (c = '@' ∨ (c = ';' ∧ cost = [] ∧ note = true)) := by
    rcases hcost.head with rfl | ⟨sp, x, rfl, hsp⟩
    · rcases hend.trim with ⟨_, h⟩ | ⟨hn, x, h⟩
      · exact Or.inl (by simpa using h)
      · exact Or.inr ⟨';', x, by simpa using h, Or.inr ⟨rfl, rfl, hn⟩⟩
    · refine Or.inr ⟨'@', x ++ fin, ?_, Or.inl rfl⟩
      rw [List.append_assoc, List.cons_append]; exact trimStart_lot hsp (by decide) _
  have hnl : NoLot (trimStart (cost ++ fin)) := by
    rcases hct with h | ⟨c, x, h, rfl | ⟨rfl, _⟩⟩
    · rw [h]; intro c hc; simp at hc
    · rw [h]; intro c hc; simp at hc; subst hc; decide
    · rw [h]; intro c hc; simp at hc; subst hc; decide
  have hst1 : Stops (cost ++ fin) := by
    rcases hcost.head with rfl | ⟨sp, x, rfl, hsp⟩
    · exact hend.stops
    · intro c hc
      cases sp with
      | nil => simp at hc; exact Or.inr hc.symm
      | cons w ws => simp at hc; subst hc; exact Or.inl (hsp _ (by simp))
  have hst : Stops (lot ++ (cost ++ fin)) := by
    rcases hlot.head with rfl | ⟨sp, x, rfl, hsp, hne⟩
    · exact hst1
    · intro c hc
      rw [List.append_assoc, head_append hne] at hc
      exact Or.inl (hsp c (head_mem hc))
  have hs0 : s = [] → ∀ c, (trimStart (lot ++ (cost ++ fin))).head? = some c → c = '@' := by
    intro hs c hc
    rw [h1 hs, List.nil_append] at hc
    rcases hct with h | ⟨c', x, h, rfl | ⟨rfl, hce, hn⟩⟩
    · simp [h] at hc
    · rw [h] at hc; simp at hc; exact hc.symm
    · rw [h2 hs hce] at hn; simp at hn
  have ea := scanAmount_text hamt hg hst hs0
  have el : scanAnnotations (trimStart (lot ++ (cost ++ fin))) = .ok (⟨pq, ps, d⟩, trimStart (cost ++ fin)) := by
    rw [show scanAnnotations (trimStart (lot ++ (cost ++ fin))) = scanAnnotations (lot ++ (cost ++ fin)) by
      simp only [scanAnnotations, trimStart_idem]]
    exact scanAnnotations_text hlot hnl
  have ec := scanCost_text hcost hend h3
  obtain ⟨c, cs', rfl, hw, hc⟩ := ha.1
  rw [List.cons_append] at ef ⊢
  rw [scanPost_start hw hc, ef]
  simp only [dropBytes_two ' ' ' ' _ (by decide) (by decide), bind, Except.bind, ea, el]
  by_cases h : trimStart (cost ++ fin) = []
  · rw [if_pos h] at ec ⊢; simp at ec; simp [ec]
  · rw [if_neg h] at ec ⊢; rw [ec]

/- Headers -/

theorem NoteMark.cons {c : Char} {s : Str} (h : NoteMark (c :: s)) : (∃ b, c :: s = ' ' :: ' ' :: ';' :: b) ∨ NoteMark s := by
  obtain ⟨a, b, e⟩ := h
  cases a with
  | nil => exact Or.inl ⟨b, e⟩
  | cons x xs => simp at e; exact Or.inr ⟨xs, b, e.2⟩

theorem NoteMark.blank {p tail : Str} (ht : Blank tail) (h : NoteMark (p ++ tail)) : NoteMark p := by
  have hsc : ';' ∉ tail := ht.not_mem _ (by decide)
  obtain ⟨a, b, e⟩ := h
  rcases List.append_eq_append_iff.mp e with ⟨y, e1, e2⟩ | ⟨y, e1, e2⟩
  · exact absurd (by rw [e2]; simp) hsc
  · match y, e1, e2 with
    | [], e1, e2 => exact absurd (by simp at e2; rw [← e2]; simp) hsc
    | [c], e1, e2 => exact absurd (by simp at e2; rw [← e2.2]; simp) hsc
    | [c, d], e1, e2 => exact absurd (by simp at e2; rw [← e2.2.2]; simp) hsc
    | c :: d :: x :: y, e1, e2 =>
      simp at e2
      exact ⟨a, y, by rw [e1, ← e2.1, ← e2.2.1, ← e2.2.2.1]⟩

theorem tokenizePayee_text {sp p n nt tail : Str} (hsp : Blank sp) (hp : Trimmed p) (hpm : ¬ NoteMark (sp ++ p))
    (hn : Trimmed n)
    (hnt : (n = [] ∧ nt = []) ∨ ∃ gap sp', Blank gap ∧ Blank sp' ∧ nt = gap ++ ' ' :: ' ' :: ';' :: sp' ++ n)
    (ht : Blank tail) :
    ∃ rest, tokenizePayee (sp ++ p ++ nt ++ tail) = (p, rest) ∧ tokenizeNote rest = .ok n := by
  rcases hnt with ⟨rfl, rfl⟩ | ⟨gap, sp', hg, hsp', rfl⟩
  · have : findSub [' ', ' ', ';'] (sp ++ p ++ [] ++ tail) = none := by
      refine findSub_none _ _ ?_
      intro x y e hpre
      obtain ⟨z, rfl⟩ := hpre
      refine hpm (NoteMark.blank ht ⟨x, z, ?_⟩)
      simpa using e
    refine ⟨[], ?_, rfl⟩
    simp only [tokenizePayee, this]
    rw [List.append_nil, trim_text hsp hp ht]
  · have hm : ¬ NoteMark (sp ++ p ++ gap) := fun h => hpm (NoteMark.blank hg h)
    have : findSub [' ', ' ', ';'] ((sp ++ p ++ gap) ++ (' ' :: ' ' :: ';' :: (sp' ++ n ++ tail))) =
        some (sp ++ p ++ gap, ' ' :: ' ' :: ';' :: (sp' ++ n ++ tail)) := by
      refine findSub_at _ _ _ ⟨sp' ++ n ++ tail, rfl⟩ ?_
      intro x y e hy hpre
      obtain ⟨z, hz⟩ := hpre
      match y, hy, e, hz with
      | [c], _, e, hz => simp at hz
      | [c, d], _, e, hz => simp at hz
      | c :: d :: f :: y, _, e, hz =>
        simp at hz
        exact hm ⟨x, y, by rw [e, ← hz.1, ← hz.2.1, ← hz.2.2.1]⟩
    have e : sp ++ p ++ (gap ++ ' ' :: ' ' :: ';' :: sp' ++ n) ++ tail =
        (sp ++ p ++ gap) ++ (' ' :: ' ' :: ';' :: (sp' ++ n ++ tail)) := by simp
    refine ⟨' ' :: ' ' :: ';' :: (sp' ++ n ++ tail), ?_, ?_⟩
    · rw [e]
      simp only [tokenizePayee, this, trim_text hsp hp hg]
    · simp only [tokenizeNote, reduceCtorEq, if_false,
        dropBytes_three ' ' ' ' ';' _ (by decide) (by decide) (by decide), bind, Except.bind, trim_text hsp' hn ht]

/-- A written header is scanned as its fields. -/
theorem tokenizeXactHeader_text {text d a p n : Str} (h : HeaderText text d a p n) :
    tokenizeXactHeader text = .ok (d, a, p, n) := by
  cases h with
  | @mk d a aux sp p n nt tail hd ha hsp hp hpm hn hnt ht hs =>
    obtain ⟨rest, e1, e2⟩ := tokenizePayee_text hsp hp hpm hn hnt ht
    have hdp : ∀ x ∈ d, (fun c : Char => c == '=' || c == ' ') x = false := by
      intro x hx; simp [(hd.2 x hx).1, (hd.2 x hx).2]
    have hne : d ++ aux ++ sp ++ p ++ nt ++ tail ≠ [] := by simp [hd.1]
    have e : d ++ aux ++ sp ++ p ++ nt ++ tail = d ++ (aux ++ (sp ++ p ++ nt ++ tail)) := by simp
    generalize sp ++ p ++ nt ++ tail = w at *
    -- the text after the dates is empty or starts with a space
    have hrest : w = [] ∨ ∃ x, w = ' ' :: x := by
      cases w with
      | nil => exact Or.inl rfl
      | cons c cs => rw [hs c rfl]; exact Or.inr ⟨cs, rfl⟩
    have e0 : scanDate (d ++ (aux ++ w)) = (d, aux ++ w) := by
      rcases ha with ⟨_, rfl⟩ | ⟨_, rfl⟩
      · rcases hrest with h | ⟨x, h⟩
        · rw [h]; simpa [scanDate] using splitAtFirst_none _ d hdp
        · rw [h]; exact splitAtFirst_stop _ d ' ' x hdp (by decide)
      · exact splitAtFirst_stop _ d '=' _ hdp (by decide)
    have e3 : tokenizeAuxDate (aux ++ w) = (a, w) := by
      rcases ha with ⟨rfl, rfl⟩ | ⟨hda, rfl⟩
      · rcases hrest with h | ⟨x, h⟩
        · rw [h]; rfl
        · rw [h]; rfl
      · obtain ⟨c, cs, rfl⟩ := List.exists_cons_of_ne_nil hda.1
        have hc : (c == '=') = false := by simpa using (hda.2 c (by simp)).1
        have hap : ∀ x ∈ c :: cs, (fun c : Char => c == ' ') x = false := by
          intro x hx; simpa using (hda.2 x hx).2
        have e : ('=' :: (c :: cs) ++ w).dropWhile (fun c => c == '=') = (c :: cs) ++ w := by
          simp [List.dropWhile, hc]
        simp only [List.cons_append] at e ⊢
        simp only [tokenizeAuxDate, e]
        rcases hrest with h | ⟨x, h⟩
        · rw [h]; simpa using splitAtFirst_none _ _ hap
        · rw [h]; exact splitAtFirst_stop _ (c :: cs) ' ' x hap (by decide)
    rw [e] at hne ⊢
    simp only [tokenizeXactHeader, hne, if_false, e0, e3, e1, e2, bind, Except.bind]

/- Blanks at the end -/

/-- Blanks added to a text that starts with its first character that is not blank. -/
def addBlanks (r tr : Str) : Str := if r = [] then [] else r ++ tr

theorem takeWhile_blanks (p : Char → Bool) (hp : ∀ c, isWs c = true → p c = false) (x : Str) {tr : Str} (ht : Blank tr) :
    (x ++ tr).takeWhile p = x.takeWhile p ∧ (x ++ tr).dropWhile p = x.dropWhile p ++ tr := by
  induction x with
  | nil =>
    cases tr with
    | nil => exact ⟨rfl, rfl⟩
    | cons c cs =>
      have := hp c (ht c (by simp))
      simp [this]
  | cons c cs ih =>
    cases h : p c
    · simp [List.takeWhile, List.dropWhile, h]
    · simp [List.takeWhile, List.dropWhile, h, ih.1, ih.2]

theorem trimStart_blanks (x : Str) {tr : Str} (ht : Blank tr) : trimStart (x ++ tr) = addBlanks (trimStart x) tr := by
  induction x with
  | nil => rw [List.nil_append, trimStart_allBlank ht]; rfl
  | cons c cs ih =>
    cases h : isWs c
    · simp [trimStart, List.dropWhile, h, addBlanks]
    · simpa [trimStart, List.dropWhile, h] using ih

theorem trimStart_addBlanks (x : Str) {tr : Str} (ht : Blank tr) : trimStart (addBlanks x tr) = addBlanks (trimStart x) tr := by
  by_cases h : x = []
  · subst h; simp [addBlanks, trimStart]
  · simp only [addBlanks, h, if_false]
    exact trimStart_blanks x ht

theorem scanQuantity_blanks (x : Str) {tr : Str} (ht : Blank tr) :
    scanQuantity (x ++ tr) = ((scanQuantity x).1, addBlanks (scanQuantity x).2 tr) := by
  have h := takeWhile_blanks isQtyChar (fun c => isWs_qty) x ht
  simp only [scanQuantity, h.1, h.2, trimStart_blanks _ ht]

theorem scanQuantity_addBlanks (x : Str) {tr : Str} (ht : Blank tr) :
    scanQuantity (addBlanks x tr) = ((scanQuantity x).1, addBlanks (scanQuantity x).2 tr) := by
  by_cases h : x = []
  · subst h; simp [addBlanks, scanQuantity, trimStart]
  · simp only [addBlanks, h, if_false]
    exact scanQuantity_blanks x ht

theorem scanSymbol_addBlanks (x : Str) {tr : Str} (ht : Blank tr) :
    scanSymbol (addBlanks x tr) = ((scanSymbol x).1, addBlanks (scanSymbol x).2 tr) := by
  simp only [scanSymbol, trimStart_addBlanks x ht]
  by_cases h : trimStart x = []
  · rw [h]; rfl
  · have h' := takeWhile_blanks (fun c => !isSymEnd c) (fun c hc => by simp [isWs_symEnd hc]) (trimStart x) ht
    have e : addBlanks (trimStart x) tr = trimStart x ++ tr := by simp [addBlanks, h]
    rw [e]
    simp only [h'.1, h'.2, trimStart_blanks _ ht]

theorem scanAmount_blanks (x : Str) {tr : Str} (ht : Blank tr) :
    scanAmount (x ++ tr) = (scanAmount x).map (fun r => (r.1, addBlanks r.2 tr)) := by
  simp only [scanAmount, trimStart_blanks x ht]
  cases h : trimStart x with
  | nil => rfl
  | cons c cs =>
    have e : addBlanks (c :: cs) tr = c :: (cs ++ tr) := rfl
    have e2 : scanQuantity (c :: (cs ++ tr)) = _ := scanQuantity_addBlanks (c :: cs) ht
    have e3 : scanSymbol (c :: (cs ++ tr)) = _ := scanSymbol_addBlanks (c :: cs) ht
    rw [e]
    simp only [e2, e3, scanQuantity_addBlanks _ ht, scanSymbol_addBlanks _ ht]
    cases isQtyChar c <;> rfl

theorem dropBytes_blanks {x y : Str} {n : Nat} (h : dropBytes x n = .ok y) (tr : Str) : dropBytes (x ++ tr) n = .ok (y ++ tr) := by
  induction x generalizing n with
  | nil =>
    cases n with
    | zero => simp only [dropBytes] at h; cases h; simp [dropBytes]
    | succ n => simp [dropBytes] at h
  | cons c cs ih =>
    cases n with
    | zero => simp only [dropBytes] at h; cases h; simp [dropBytes]
    | succ n =>
      simp only [dropBytes] at h
      split at h
      · rename_i hc
        rw [List.cons_append]
        simp only [dropBytes, hc, if_true]
        exact ih h
      · cases h

theorem takeWhile_until (p : Char → Bool) (x tr : Str) (h : ∃ c ∈ x, p c = false) :
    (x ++ tr).takeWhile p = x.takeWhile p ∧ (x ++ tr).dropWhile p = x.dropWhile p ++ tr := by
  induction x with
  | nil => obtain ⟨c, hc, _⟩ := h; simp at hc
  | cons a as ih =>
    cases ha : p a
    · simp [List.takeWhile, List.dropWhile, ha]
    · obtain ⟨c, hc, hp⟩ := h
      have : ∃ c ∈ as, p c = false := by
        rcases List.mem_cons.mp hc with rfl | hc
        · simp [ha] at hp
        · exact ⟨c, hc, hp⟩
      have ih := ih this
      simp [List.takeWhile, List.dropWhile, ha, ih.1, ih.2]

theorem scanUntil_append {x a b : Str} {c : Char} (h : scanUntil x c = .ok (a, b)) (tr : Str) :
    scanUntil (x ++ tr) c = .ok (a, b ++ tr) := by
  simp only [scanUntil] at h
  split at h
  · rename_i hm
    have hm' : c ∈ x ++ tr := by simp [hm]
    have ht := takeWhile_until (fun d => !(d == c)) x tr ⟨c, hm, by simp⟩
    simp only [splitAtFirst] at h
    cases h
    simp only [scanUntil, hm', if_true, splitAtFirst, ht.1, ht.2]
  · cases h

theorem scanUntil_length {x a b : Str} {c : Char} (h : scanUntil x c = .ok (a, b)) : b.length ≤ x.length := by
  simp only [scanUntil] at h
  split at h
  · simp only [splitAtFirst] at h
    cases h
    exact (List.dropWhile_suffix _).length_le
  · cases h

theorem dropBytes_length {x y : Str} {n : Nat} (h : dropBytes x n = .ok y) : y.length ≤ x.length ∧ (0 < n → y.length < x.length) := by
  induction x generalizing n with
  | nil =>
    cases n with
    | zero => simp only [dropBytes] at h; cases h; simp
    | succ n => simp [dropBytes] at h
  | cons c cs ih =>
    cases n with
    | zero => simp only [dropBytes] at h; cases h; simp
    | succ n =>
      simp only [dropBytes] at h
      split at h
      · have := (ih h).1
        simp; omega
      · cases h

theorem trimStart_length (x : Str) : (trimStart x).length ≤ x.length := (List.dropWhile_suffix _).length_le

/-- The fuel of the loop over the lot does not matter once it exceeds the length of the text. -/
theorem scanAnnotationsGo_fuel (n m : Nat) (r : AnnotationTokens) (x : Str) (hn : x.length < n) (hm : x.length < m) :
    scanAnnotationsGo n r x = scanAnnotationsGo m r x := by
  induction n generalizing m r x with
  | zero => omega
  | succ n ih =>
    cases m with
    | zero => omega
    | succ m =>
      cases x with
      | nil => rfl
      | cons c cs =>
        have step : ∀ {x' y z : Str} {d : Char} {a : Str}, dropBytes (c :: cs) 1 = .ok x' → scanUntil x' d = .ok (a, y) →
            dropBytes y 1 = .ok z → (trimStart z).length < n ∧ (trimStart z).length < m := by
          intro x' y z d a h1 h2 h3
          have l1 := (dropBytes_length h1).2 (by omega)
          have l2 := scanUntil_length h2
          have l3 := (dropBytes_length h3).1
          have l4 := trimStart_length z
          omega
        simp only [scanAnnotationsGo]
        split
        · split
          · rfl
          · cases h1 : dropBytes (c :: cs) 1 with
            | error e => rfl
            | ok x' =>
              simp only [bind, Except.bind]
              cases h2 : scanUntil x' '}' with
              | error e => rfl
              | ok v =>
                obtain ⟨a, y⟩ := v
                simp only
                cases h3 : scanAmount a with
                | error e => rfl
                | ok w =>
                  simp only
                  cases h4 : dropBytes y 1 with
                  | error e => rfl
                  | ok z =>
                    obtain ⟨s1, s2⟩ := step h1 h2 h4
                    exact ih _ _ _ s1 s2
        · split
          · split
            · rfl
            · cases h1 : dropBytes (c :: cs) 1 with
              | error e => rfl
              | ok x' =>
                simp only [bind, Except.bind]
                cases h2 : scanUntil x' ']' with
                | error e => rfl
                | ok v =>
                  obtain ⟨a, y⟩ := v
                  simp only
                  cases h4 : dropBytes y 1 with
                  | error e => rfl
                  | ok z =>
                    obtain ⟨s1, s2⟩ := step h1 h2 h4
                    exact ih _ _ _ s1 s2
          · rfl

theorem scanAnnotationsGo_blanks (n : Nat) (r : AnnotationTokens) (x : Str) {tr : Str} (ht : Blank tr)
    {t : AnnotationTokens} {y : Str} (h : scanAnnotationsGo n r x = .ok (t, y)) :
    scanAnnotationsGo n r (addBlanks x tr) = .ok (t, addBlanks y tr) := by
  induction n generalizing r x with
  | zero => simp [scanAnnotationsGo] at h
  | succ n ih =>
    cases x with
    | nil => simp only [scanAnnotationsGo] at h; cases h; rfl
    | cons c cs =>
      have e : addBlanks (c :: cs) tr = c :: (cs ++ tr) := rfl
      rw [e]
      have db : ∀ {x y : Str}, dropBytes x 1 = .ok y → dropBytes (x ++ tr) 1 = .ok (y ++ tr) := fun h => dropBytes_blanks h tr
      simp only [scanAnnotationsGo] at h ⊢
      split at h
      · rename_i hc
        rw [if_pos hc]
        split at h
        · cases h
        · rename_i hr
          rw [if_neg hr]
          cases h1 : dropBytes (c :: cs) 1 with
          | error e => rw [h1] at h; cases h
          | ok x' =>
            have h1' : dropBytes (c :: (cs ++ tr)) 1 = .ok (x' ++ tr) := db h1
            rw [h1] at h; rw [h1']
            simp only [bind, Except.bind] at h ⊢
            cases h2 : scanUntil x' '}' with
            | error e => rw [h2] at h; cases h
            | ok v =>
              obtain ⟨a, y'⟩ := v
              rw [h2] at h; rw [scanUntil_append h2 tr]
              simp only at h ⊢
              cases h3 : scanAmount a with
              | error e => rw [h3] at h; cases h
              | ok w =>
                rw [h3] at h
                simp only at h ⊢
                cases h4 : dropBytes y' 1 with
                | error e => rw [h4] at h; cases h
                | ok z =>
                  rw [h4] at h; rw [db h4]
                  simp only at h ⊢
                  rw [trimStart_blanks _ ht]
                  exact ih _ _ h
      · rename_i hc
        rw [if_neg hc]
        split at h
        · rename_i hc
          rw [if_pos hc]
          split at h
          · cases h
          · rename_i hr
            rw [if_neg hr]
            cases h1 : dropBytes (c :: cs) 1 with
            | error e => rw [h1] at h; cases h
            | ok x' =>
              have h1' : dropBytes (c :: (cs ++ tr)) 1 = .ok (x' ++ tr) := db h1
              rw [h1] at h; rw [h1']
              simp only [bind, Except.bind] at h ⊢
              cases h2 : scanUntil x' ']' with
              | error e => rw [h2] at h; cases h
              | ok v =>
                obtain ⟨a, y'⟩ := v
                rw [h2] at h; rw [scanUntil_append h2 tr]
                simp only at h ⊢
                cases h4 : dropBytes y' 1 with
                | error e => rw [h4] at h; cases h
                | ok z =>
                  rw [h4] at h; rw [db h4]
                  simp only at h ⊢
                  rw [trimStart_blanks _ ht]
                  exact ih _ _ h
        · rename_i hc
          rw [if_neg hc]
          split at h
          · cases h
          · rename_i hc
            rw [if_neg hc]
            cases h; rfl

theorem scanAnnotations_blanks (x : Str) {tr : Str} (ht : Blank tr) {t : AnnotationTokens} {y : Str}
    (h : scanAnnotations x = .ok (t, y)) : scanAnnotations (addBlanks x tr) = .ok (t, addBlanks y tr) := by
  simp only [scanAnnotations, trimStart_addBlanks x ht] at h ⊢
  refine scanAnnotationsGo_blanks _ _ _ ht ?_
  rw [← h]
  have : (trimStart x).length ≤ (addBlanks (trimStart x) tr).length := by
    unfold addBlanks; split
    · rename_i e; rw [e]
    · simp
  exact scanAnnotationsGo_fuel _ _ _ _ (by omega) (by omega)

theorem scanCost_blanks (x : Str) {tr : Str} (ht : Blank tr) {t : CostTokens} (h : scanCost x = .ok t) :
    scanCost (addBlanks x tr) = .ok t := by
  have am : ∀ (u : Bool) (z : Str), (do let (tokens, _) ← scanAmount (trimStart z); (.ok ⟨tokens.quantity, tokens.symbol, u⟩ : Res CostTokens)) = .ok t →
      (do let (tokens, _) ← scanAmount (trimStart (z ++ tr)); (.ok ⟨tokens.quantity, tokens.symbol, u⟩ : Res CostTokens)) = .ok t := by
    intro u z hz
    have e : ∀ w, scanAmount (trimStart w) = scanAmount w := fun w => by simp only [scanAmount, trimStart_idem]
    rw [e] at hz ⊢
    rw [scanAmount_blanks z ht]
    cases hs : scanAmount z with
    | error e => rw [hs] at hz; cases hz
    | ok v => rw [hs] at hz; exact hz
  cases x with
  | nil => exact h
  | cons c cs =>
    have e : addBlanks (c :: cs) tr = c :: (cs ++ tr) := rfl
    rw [e]
    by_cases hc : c = '@'
    · subst hc
      cases cs with
      | nil =>
        have : scanCost ['@'] = .error .sliceBoundary := by decide
        rw [this] at h; cases h
      | cons d r =>
        rw [List.cons_append]
        by_cases hd : d = '@'
        · subst hd
          simp only [scanCost] at h ⊢
          cases hb : dropBytes ('@' :: '@' :: r) 3 with
          | error e => rw [hb] at h; cases h
          | ok z =>
            have hb' : dropBytes ('@' :: '@' :: (r ++ tr)) 3 = .ok (z ++ tr) := dropBytes_blanks hb tr
            rw [hb] at h; rw [hb']
            exact am _ _ h
        · simp only [scanCost] at h ⊢
          split at h
          · rename_i heq; simp at heq; exact absurd heq.1 hd
          · split
            · rename_i heq; simp at heq; exact absurd heq.1 hd
            · cases hb : dropBytes ('@' :: d :: r) 2 with
              | error e => rw [hb] at h; cases h
              | ok z =>
                have hb' : dropBytes ('@' :: d :: (r ++ tr)) 2 = .ok (z ++ tr) := dropBytes_blanks hb tr
                rw [hb] at h; rw [hb']
                exact am _ _ h
    · unfold scanCost at h ⊢
      split at h
      · rename_i heq; simp at heq; exact absurd heq.1 hc
      · split
        · rename_i heq; simp at heq; exact absurd heq.1 hc
        · exact h

/-- Blanks after a posting that is scanned with an amount change nothing. -/
theorem scanPost_blanks {x : Str} {t : PostTokens} (h : scanPost x = .ok t) {tr : Str} (ht : Blank tr)
    (hc : (t.quantity ≠ [] ∨ t.symbol ≠ []) ∨ ¬ TwoSpaces (trimStart x ++ tr)) : scanPost (x ++ tr) = .ok t := by
  have e0 : ∀ z, scanPost z = scanPost (trimStart z) := fun z => by simp only [scanPost, trimStart_idem]
  rw [e0] at h
  rw [e0, trimStart_blanks x ht]
  have hh := trimStart_head x
  generalize trimStart x = y at *
  cases y with
  | nil => simp [scanPost, trimStart] at h
  | cons c cs =>
    have hw : isWs c = false := hh c rfl
    have e : addBlanks (c :: cs) tr = c :: (cs ++ tr) := rfl
    rw [e]
    by_cases hs : c = ';'
    · subst hs
      have : scanPost (';' :: cs) = .error .noAccount := rfl
      rw [this] at h; cases h
    rw [scanPost_start hw hs] at h ⊢
    cases hf : findSub [' ', ' '] (c :: cs) with
    | none =>
      rw [hf] at h
      simp only at h
      cases h
      have h2 : ¬ TwoSpaces (c :: (cs ++ tr)) := by
        rcases hc with hc | hc
        · rcases hc with hc | hc <;> exact absurd rfl hc
        · exact hc
      have : findSub [' ', ' '] (c :: (cs ++ tr)) = none := by
        refine findSub_none _ _ ?_
        rintro a b e ⟨z, rfl⟩
        exact h2 ⟨a, z, by simpa using e⟩
      rw [this]
      simp only
      have ee : trimEnd (c :: (cs ++ tr)) = trimEnd (c :: cs) := by
        rw [← List.cons_append]
        have h1 : ∀ w ∈ tr.reverse, isWs w = true := fun w hw => ht w (by simpa using hw)
        simp only [trimEnd, List.reverse_append]
        rw [dropWhile_skip isWs _ _ h1]
      rw [ee]
    | some v =>
      obtain ⟨a, b⟩ := v
      have hf' : findSub [' ', ' '] (c :: (cs ++ tr)) = some (a, b ++ tr) := findSub_append hf tr
      rw [hf] at h; rw [hf']
      simp only at h ⊢
      cases h1 : dropBytes b 2 with
      | error e => rw [h1] at h; cases h
      | ok z =>
        rw [h1] at h; rw [dropBytes_blanks h1 tr]
        simp only [bind, Except.bind] at h ⊢
        rw [scanAmount_blanks z ht]
        cases h2 : scanAmount z with
        | error e => rw [h2] at h; cases h
        | ok v =>
          obtain ⟨am, r⟩ := v
          rw [h2] at h
          simp only [Except.map] at h ⊢
          cases h3 : scanAnnotations r with
          | error e => rw [h3] at h; cases h
          | ok v =>
            obtain ⟨an, r2⟩ := v
            rw [h3] at h; rw [scanAnnotations_blanks r ht h3]
            simp only at h ⊢
            by_cases hr : r2 = []
            · subst hr; exact h
            · have hr' : addBlanks r2 tr ≠ [] := by simp [addBlanks, hr]
              rw [if_neg hr] at h; rw [if_neg hr']
              cases h4 : scanCost r2 with
              | error e => rw [h4] at h; cases h
              | ok ct => rw [h4] at h; rw [scanCost_blanks r2 ht h4]; exact h

end Ledger
