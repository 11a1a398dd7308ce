import Verif.Spec.Reading
import Verif.Lemmas.DateText
/-
The scanner and the readers of dates and times agree with the descriptions in `Spec/Reading.lean`.
-/
namespace Ledger
open Ledger.Scanner

theorem mem_takeWhile_all {α : Type} {p : α → Bool} {l : List α} {x : α} (h : x ∈ l.takeWhile p) : p x = true :=
  (List.all_eq_true.mp (List.all_takeWhile (l := l) (p := p))) x h

theorem longest_iff {P : Char → Prop} {p : Char → Bool} (hp : ∀ c, P c ↔ p c = true) (text s rest : Str) :
    Longest P text s rest ↔ s = text.takeWhile p ∧ rest = text.dropWhile p := by
  constructor
  · rintro ⟨rfl, h1, h2⟩
    have a1 : ∀ x ∈ s, p x = true := fun x hx => (hp x).mp (h1 x hx)
    have a2 : ∀ c, rest.head? = some c → p c = false := fun c hc => by
      have := h2 c hc
      rw [hp] at this
      simpa using this
    rw [takeWhile_stop p s rest a1 a2, dropWhile_stop p s rest a1 a2]
    exact ⟨rfl, rfl⟩
  · rintro ⟨rfl, rfl⟩
    refine ⟨(List.takeWhile_append_dropWhile).symm, fun c hc => (hp c).mpr ?_, fun c hc => ?_⟩
    · have := List.all_takeWhile (l := text) (p := p)
      exact (List.all_eq_true.mp this) c hc
    · rw [hp]
      have := List.head?_dropWhile_not p text
      rw [hc] at this
      simpa using this

theorem skip_iff (text rest : Str) : Skip text rest ↔ rest = trimStart text := by
  unfold Skip
  constructor
  · rintro ⟨sp, h⟩
    exact ((longest_iff (p := isWs) (fun c => Iff.rfl) _ _ _).mp h).2
  · rintro rfl
    exact ⟨text.takeWhile isWs, (longest_iff (p := isWs) (fun c => Iff.rfl) _ _ _).mpr ⟨rfl, rfl⟩⟩

theorem longest_number (text s rest : Str) : Longest NumberChar text s rest ↔
    s = text.takeWhile isQtyChar ∧ rest = text.dropWhile isQtyChar := longest_iff numberChar_iff _ _ _

theorem longest_symbol (text s rest : Str) : Longest SymbolChar text s rest ↔
    s = text.takeWhile (fun c => !isSymEnd c) ∧ rest = text.dropWhile (fun c => !isSymEnd c) :=
  longest_iff (fun c => by rw [symbolChar_iff]; simp) _ _ _

theorem res_bind_ok {α β : Type} (a : α) (f : α → Res β) : (Except.ok a >>= f) = f a := rfl

theorem amountPart_iff (text q s rest : Str) : AmountPart text q s rest ↔ scanAmount text = .ok (⟨q, s⟩, rest) := by
  constructor
  · rintro (⟨h1, hq, hne, h2, hs, h3⟩ | ⟨h1, hne, hn, hs, h2, hq, h3⟩)
    · rw [skip_iff] at h1 h2 h3
      rw [longest_number] at hq
      rw [longest_symbol] at hs
      obtain ⟨rfl, rfl⟩ := hq
      subst h1 h2
      obtain ⟨rfl, rfl⟩ := hs
      subst h3
      unfold scanAmount
      simp only
      cases ht : trimStart text with
      | nil => rw [ht] at hne; exact absurd rfl hne
      | cons c cs =>
        have hc : isQtyChar c = true := by
          by_contra hc
          rw [ht] at hne
          simp [List.takeWhile, hc] at hne
        simp [hc, scanQuantity, scanSymbol, trimStart_idem]
    · rw [skip_iff] at h1 h2 h3
      rw [longest_number] at hq
      rw [longest_symbol] at hs
      obtain ⟨rfl, rfl⟩ := hs
      subst h1 h2
      obtain ⟨rfl, rfl⟩ := hq
      subst h3
      unfold scanAmount
      simp only
      have hh := trimStart_head text
      cases ht : trimStart text with
      | nil => exact absurd ht hne
      | cons c cs =>
        rw [ht] at hh
        have hc : isQtyChar c = false := by
          have := hn c (by rw [ht]; rfl)
          rw [numberChar_iff] at this
          simpa using this
        have e : trimStart (c :: cs) = c :: cs := trimStart_id hh
        simp [hc, scanQuantity, scanSymbol, e]
  · intro h
    unfold scanAmount at h
    simp only at h
    have hh := trimStart_head text
    cases ht : trimStart text with
    | nil => rw [ht] at h; cases h
    | cons c cs =>
      rw [ht] at h hh
      have e : trimStart (c :: cs) = c :: cs := trimStart_id hh
      have hs1 : Skip text (c :: cs) := (skip_iff _ _).mpr ht.symm
      by_cases hc : isQtyChar c = true
      · simp only [hc, if_true, scanQuantity, scanSymbol, trimStart_idem] at h
        injection h with h
        injection h with h1 h2
        injection h1 with h3 h4
        subst h2 h3 h4
        exact .number hs1 ((longest_number _ _ _).mpr ⟨rfl, rfl⟩) (by simp [List.takeWhile, hc])
          ((skip_iff _ _).mpr rfl) ((longest_symbol _ _ _).mpr ⟨rfl, rfl⟩) ((skip_iff _ _).mpr rfl)
      · have hc' : isQtyChar c = false := by simpa using hc
        simp only [hc', Bool.false_eq_true, if_false, scanQuantity, scanSymbol, e] at h
        injection h with h
        injection h with h1 h2
        injection h1 with h3 h4
        subst h2 h3 h4
        refine .symbol hs1 (by simp) ?_ ((longest_symbol _ _ _).mpr ⟨rfl, rfl⟩) ((skip_iff _ _).mpr rfl)
          ((longest_number _ _ _).mpr ⟨rfl, rfl⟩) ((skip_iff _ _).mpr rfl)
        intro c' hc'
        simp at hc'
        subst hc'
        rw [numberChar_iff]
        simpa using hc

theorem amount_blank_iff (text : Str) : Blank text ↔ scanAmount text = .error .noAmountChar := by
  have : Blank text ↔ trimStart text = [] := (dropWhile_nil_iff _ _).symm
  rw [this]
  unfold scanAmount
  simp only
  cases trimStart text with
  | nil => simp
  | cons c cs => simp only; split <;> simp

/-- Every text is blank or begins with an amount. -/
theorem scanAmount_cases (text : Str) : Blank text ∨ ∃ q s rest, AmountPart text q s rest := by
  cases h : scanAmount text with
  | error e =>
    left
    rw [amount_blank_iff, h]
    unfold scanAmount at h
    simp only at h
    split at h
    · exact h.symm
    · split at h <;> cases h
  | ok v => exact .inr ⟨v.1.quantity, v.1.symbol, v.2, (amountPart_iff _ _ _ _).mpr h⟩

/-- The result of a lot as the loop gives it. -/
def lotRes (o : Res (Str × Str × Str × Str)) : Res (AnnotationTokens × Str) :=
  o.map (fun x => (⟨x.1, x.2.1, x.2.2.1⟩, x.2.2.2))

theorem lotRes_inj {o o' : Res (Str × Str × Str × Str)} (h : lotRes o = lotRes o') : o = o' := by
  cases o with
  | error e => cases o' with
    | error e' => simpa [lotRes, Except.map] using h
    | ok v => cases h
  | ok u => cases o' with
    | error e' => cases h
    | ok v =>
      obtain ⟨a, b, c, d⟩ := u
      obtain ⟨a', b', c', d'⟩ := v
      simp [lotRes, Except.map] at h
      obtain ⟨⟨rfl, rfl, rfl⟩, rfl⟩ := h
      rfl

theorem scanUntil_missing (t : Str) (c : Char) (h : c ∉ t) : scanUntil t c = .error .separatorMissing := by
  simp [scanUntil, h]

theorem scanDate_longest {inner d r : Str} (h : Longest (fun c => c ≠ '=' ∧ c ≠ ' ') inner d r) : scanDate inner = (d, r) := by
  have := (longest_iff (p := fun c => !(c == '=' || c == ' ')) (fun c => by simp) _ _ _).mp h
  rw [this.1, this.2]
  rfl

theorem lotPart_scan {q s d text : Str} {o : Res (Str × Str × Str × Str)} (h : LotPart q s d text o) (fuel : Nat)
    (hf : text.length < fuel) : scanAnnotationsGo fuel ⟨q, s, d⟩ text = lotRes o := by
  induction h generalizing fuel with
  | @done q s d text h =>
    cases fuel with
    | zero => omega
    | succ fuel =>
      cases text with
      | nil => rfl
      | cons c cs =>
        obtain ⟨h1, h2, h3⟩ := h c rfl
        simp [scanAnnotationsGo, h1, h2, h3, lotRes, Except.map]
  | @price s d inner after rest q' s' r o hin ha hs h ih =>
    cases fuel with
    | zero => omega
    | succ fuel =>
      rw [skip_iff] at hs
      subst hs
      rw [amountPart_iff] at ha
      have hl := trimStart_length after
      have hb : dropBytes ('}' :: after) 1 = .ok after := dropBytes_one _ _ (by decide)
      simp only [scanAnnotationsGo, if_true, dropBytes_one '{' _ (by decide)]
      simp only [ne_eq, not_true_eq_false, if_false]
      rw [res_bind_ok, scanUntil_stop inner '}' after hin, res_bind_ok, ha, res_bind_ok, hb, res_bind_ok]
      exact ih fuel (by simp at hf; omega)
  | @date q s inner after rest d' r o hin hd hs h ih =>
    cases fuel with
    | zero => omega
    | succ fuel =>
      rw [skip_iff] at hs
      subst hs
      have hl := trimStart_length after
      have hb : dropBytes (']' :: after) 1 = .ok after := dropBytes_one _ _ (by decide)
      have hc : ¬ ('[' : Char) = '{' := by decide
      simp only [scanAnnotationsGo, if_true, hc, if_false, dropBytes_one '[' _ (by decide)]
      simp only [ne_eq, not_true_eq_false, if_false]
      rw [res_bind_ok, scanUntil_stop inner ']' after hin, res_bind_ok, hb, res_bind_ok, scanDate_longest hd]
      exact ih fuel (by simp at hf; omega)
  | secondPrice h =>
    cases fuel with
    | zero => omega
    | succ fuel => simp [scanAnnotationsGo, h, lotRes, Except.map]
  | secondDate h =>
    cases fuel with
    | zero => omega
    | succ fuel => simp [scanAnnotationsGo, h, lotRes, Except.map]
  | openBrace h =>
    cases fuel with
    | zero => omega
    | succ fuel =>
      simp only [scanAnnotationsGo, if_true, dropBytes_one '{' _ (by decide)]
      simp only [ne_eq, not_true_eq_false, if_false]
      rw [res_bind_ok, scanUntil_missing _ _ h]
      rfl
  | openBracket h =>
    cases fuel with
    | zero => omega
    | succ fuel =>
      have hc : ¬ ('[' : Char) = '{' := by decide
      simp only [scanAnnotationsGo, if_true, hc, if_false, dropBytes_one '[' _ (by decide)]
      simp only [ne_eq, not_true_eq_false, if_false]
      rw [res_bind_ok, scanUntil_missing _ _ h]
      rfl
  | @emptyBraces s d inner after hin hb =>
    cases fuel with
    | zero => omega
    | succ fuel =>
      simp only [scanAnnotationsGo, if_true, dropBytes_one '{' _ (by decide)]
      simp only [ne_eq, not_true_eq_false, if_false]
      rw [res_bind_ok, scanUntil_stop inner '}' after hin, res_bind_ok, (amount_blank_iff _).mp hb]
      rfl
  | expression =>
    cases fuel with
    | zero => omega
    | succ fuel => simp [scanAnnotationsGo, lotRes, Except.map]

theorem split_first {c : Char} {t : Str} (h : c ∈ t) : ∃ a b, t = a ++ c :: b ∧ c ∉ a := by
  induction t with
  | nil => cases h
  | cons x xs ih =>
    by_cases hx : x = c
    · exact ⟨[], xs, by rw [hx]; rfl, by simp⟩
    · rcases List.mem_cons.mp h with rfl | h
      · exact absurd rfl hx
      · obtain ⟨a, b, rfl, hn⟩ := ih h
        refine ⟨x :: a, b, rfl, ?_⟩
        intro hm
        rcases List.mem_cons.mp hm with rfl | hm
        · exact hx rfl
        · exact hn hm

/-- Whatever follows an amount is taken for a lot or refused. -/
theorem lotPart_total (q s d text : Str) : ∃ o, LotPart q s d text o := by
  generalize hn : text.length = n
  induction n using Nat.strong_induction_on generalizing q s d text with
  | _ n ih =>
    cases text with
    | nil => exact ⟨_, .done (by intro c hc; cases hc)⟩
    | cons c t =>
      by_cases h1 : c = '{'
      · subst h1
        by_cases hq : q = []
        · subst hq
          by_cases hm : '}' ∈ t
          · obtain ⟨inner, after, rfl, hin⟩ := split_first hm
            rcases scanAmount_cases inner with hb | ⟨q', s', r, ha⟩
            · exact ⟨_, .emptyBraces hin hb⟩
            · have hl := trimStart_length after
              obtain ⟨o, ho⟩ := ih (trimStart after).length (by simp at hn; omega) q' s' d (trimStart after) rfl
              exact ⟨o, .price hin ha ((skip_iff _ _).mpr rfl) ho⟩
          · exact ⟨_, .openBrace hm⟩
        · exact ⟨_, .secondPrice hq⟩
      · by_cases h2 : c = '['
        · subst h2
          by_cases hd : d = []
          · subst hd
            by_cases hm : ']' ∈ t
            · obtain ⟨inner, after, rfl, hin⟩ := split_first hm
              have hl := trimStart_length after
              obtain ⟨o, ho⟩ := ih (trimStart after).length (by simp at hn; omega) q s
                (inner.takeWhile (fun c => !(c == '=' || c == ' '))) (trimStart after) rfl
              exact ⟨o, .date hin ((longest_iff (p := fun c => !(c == '=' || c == ' ')) (fun c => by simp) _ _ _).mpr ⟨rfl, rfl⟩)
                ((skip_iff _ _).mpr rfl) ho⟩
            · exact ⟨_, .openBracket hm⟩
          · exact ⟨_, .secondDate hd⟩
        · by_cases h3 : c = '('
          · subst h3; exact ⟨_, .expression⟩
          · refine ⟨_, .done ?_⟩
            intro x hx
            simp at hx
            subst hx
            exact ⟨h1, h2, h3⟩

theorem lotPart_iff (text : Str) (hb : trimStart text = text) (o : Res (Str × Str × Str × Str)) :
    LotPart [] [] [] text o ↔ scanAnnotations text = lotRes o := by
  unfold scanAnnotations
  simp only [hb]
  constructor
  · intro h; exact lotPart_scan h _ (Nat.lt_succ_self _)
  · intro h
    obtain ⟨o', ho⟩ := lotPart_total [] [] [] text
    have := lotPart_scan ho _ (Nat.lt_succ_self _)
    rw [h] at this
    rw [lotRes_inj this]
    exact ho

/-- The result of a cost as the scanner gives it. -/
def costRes (o : Res (Str × Str × Bool)) : Res CostTokens := o.map (fun x => ⟨x.1, x.2.1, x.2.2⟩)

theorem costRes_inj {o o' : Res (Str × Str × Bool)} (h : costRes o = costRes o') : o = o' := by
  cases o with
  | error e => cases o' with
    | error e' => simpa [costRes, Except.map] using h
    | ok v => cases h
  | ok u => cases o' with
    | error e' => cases h
    | ok v =>
      obtain ⟨a, b, c⟩ := u
      obtain ⟨a', b', c'⟩ := v
      simp [costRes, Except.map] at h
      obtain ⟨rfl, rfl, rfl⟩ := h
      rfl

theorem utf8Size_one (c : Char) : c.utf8Size = 1 ↔ c.toNat < 128 := by
  unfold Char.utf8Size
  simp only
  have : c.val.toNat = c.toNat := rfl
  constructor
  · intro h
    split at h
    · rename_i h1
      have : c.val.toNat ≤ 127 := h1
      omega
    · split at h
      · omega
      · split at h <;> omega
  · intro h
    have : c.val ≤ 127 := by
      show c.val.toNat ≤ 127
      omega
    simp [this]

theorem scanCost_sign {text rest : Str} {u : Bool} (h : CostSign text rest u) : scanCost text = (do
    let input ← dropBytes rest 1
    let (tokens, _) ← scanAmount (trimStart input)
    .ok ⟨tokens.quantity, tokens.symbol, u⟩) := by
  have hu : ('@' : Char).utf8Size = 1 := by decide
  rcases h with ⟨rfl, h, rfl⟩ | ⟨rfl, rfl⟩
  · cases rest with
    | nil => simp [scanCost, dropBytes, hu]
    | cons c cs =>
      have hc : c ≠ '@' := by simpa using h
      have e : dropBytes ('@' :: c :: cs) 2 = dropBytes (c :: cs) 1 := by rw [dropBytes, hu, if_pos (by omega)]
      simp only [scanCost]
      split
      · rename_i e'; injection e' with e'; exact absurd e' hc
      · rw [e]
  · simp [scanCost, dropBytes, hu]

theorem scanAmount_trim (x : Str) : scanAmount (trimStart x) = scanAmount x := by
  unfold scanAmount; simp only [trimStart_idem]

theorem costPart_scan {text : Str} {o : Res (Str × Str × Bool)} (h : CostPart text o) : scanCost text = costRes o := by
  cases h with
  | none h =>
    unfold scanCost
    split
    · simp at h
    · rfl
  | amount hs hc ha =>
    rw [scanCost_sign hs, dropBytes_one _ _ ((utf8Size_one _).mpr hc), res_bind_ok, scanAmount_trim,
      (amountPart_iff _ _ _ _).mp ha]
    rfl
  | nothing hs hc hb =>
    rw [scanCost_sign hs, dropBytes_one _ _ ((utf8Size_one _).mpr hc), res_bind_ok, scanAmount_trim,
      (amount_blank_iff _).mp hb]
    rfl
  | @wide t c u hs hc =>
    rw [scanCost_sign hs]
    have : ¬ c.utf8Size ≤ 1 := by
      have := (utf8Size_one c)
      have := c.utf8Size_pos
      omega
    simp [dropBytes, this]
    rfl
  | ends hs => rw [scanCost_sign hs]; rfl

theorem costPart_total (text : Str) : ∃ o, CostPart text o := by
  have key : ∀ rest u, CostSign text rest u → ∃ o, CostPart text o := by
    intro rest u hs
    cases rest with
    | nil => exact ⟨_, .ends hs⟩
    | cons c t =>
      by_cases hc : c.toNat < 128
      · rcases scanAmount_cases t with hb | ⟨q, s, r, ha⟩
        · exact ⟨_, .nothing hs hc hb⟩
        · exact ⟨_, .amount hs hc ha⟩
      · exact ⟨_, .wide hs (by omega)⟩
  by_cases h : text.head? = some '@'
  · cases text with
    | nil => cases h
    | cons c t =>
      simp at h
      subst h
      by_cases h2 : t.head? = some '@'
      · cases t with
        | nil => cases h2
        | cons c t =>
          simp at h2
          subst h2
          exact key t false (.inr ⟨rfl, rfl⟩)
      · exact key t true (.inl ⟨rfl, h2, rfl⟩)
  · exact ⟨_, .none h⟩

theorem costPart_iff (text : Str) (o : Res (Str × Str × Bool)) : CostPart text o ↔ scanCost text = costRes o := by
  constructor
  · exact costPart_scan
  · intro h
    obtain ⟨o', ho⟩ := costPart_total text
    rw [costPart_scan ho] at h
    rw [← costRes_inj h]
    exact ho

/-! ### postings -/

theorem twoSpaces_prefix (x y : Str) (h : [' ', ' '] <+: y) : TwoSpaces (x ++ y) := by
  obtain ⟨t, rfl⟩ := h
  exact ⟨x, t, rfl⟩

theorem findSub_spaces (acct rest : Str) (h : ¬ TwoSpaces (acct ++ [' '])) :
    findSub [' ', ' '] (acct ++ ' ' :: ' ' :: rest) = some (acct, ' ' :: ' ' :: rest) := by
  refine findSub_at _ _ _ ⟨rest, rfl⟩ ?_
  rintro x y rfl hy ⟨t, ht⟩
  refine h ?_
  cases y with
  | nil => exact absurd rfl hy
  | cons c y =>
    cases y with
    | nil =>
      simp at ht
      refine ⟨x, [], ?_⟩
      simp [← ht.1]
    | cons d y =>
      simp at ht
      refine ⟨x, y ++ [' '], ?_⟩
      simp [← ht.1, ← ht.2.1]

theorem findSub_two_none (s : Str) (h : ¬ TwoSpaces s) : findSub [' ', ' '] s = none :=
  findSub_none _ _ (fun x y e hp => h (e ▸ twoSpaces_prefix x y hp))

/-- The first two spaces in a row. -/
theorem twoSpaces_split {s : Str} (h : TwoSpaces s) : ∃ a b, s = a ++ ' ' :: ' ' :: b ∧ ¬ TwoSpaces (a ++ [' ']) := by
  obtain ⟨a, b, rfl⟩ := h
  generalize hn : a.length = n
  induction n using Nat.strong_induction_on generalizing a b with
  | _ n ih =>
    by_cases h : TwoSpaces (a ++ [' '])
    · obtain ⟨x, y, e⟩ := h
      have hl : x.length < n := by
        have := congrArg List.length e
        simp at this; omega
      have e2 : a ++ ' ' :: ' ' :: b = x ++ ' ' :: ' ' :: (y ++ ' ' :: b) := by
        have : a ++ ' ' :: ' ' :: b = (a ++ [' ']) ++ ' ' :: b := by simp
        rw [this, e]; simp
      rw [e2]
      exact ih x.length hl x (y ++ ' ' :: b) rfl
    · exact ⟨a, b, rfl, h⟩

theorem trimEnd_spec {acct tail : Str} (hl : ∀ c, acct.getLast? = some c → isWs c = false) (ht : Blank tail) :
    trimEnd (acct ++ tail) = acct := by
  unfold trimEnd
  rw [List.reverse_append, dropWhile_skip isWs tail.reverse acct.reverse (fun x hx => ht x (List.mem_reverse.mp hx))]
  have : acct.reverse.dropWhile isWs = acct.reverse := by
    cases hr : acct.reverse with
    | nil => rfl
    | cons c cs =>
      have : acct.getLast? = some c := by rw [List.getLast?_eq_head?_reverse, hr]; rfl
      simp [List.dropWhile, hl c this]
  rw [this, List.reverse_reverse]

theorem amountPart_trimmed {text q s rest : Str} (h : AmountPart text q s rest) : trimStart rest = rest := by
  cases h with
  | number _ _ _ _ _ h => rw [(skip_iff _ _).mp h, trimStart_idem]
  | symbol _ _ _ _ _ _ h => rw [(skip_iff _ _).mp h, trimStart_idem]

theorem scanPost_after {text acct rest : Str} (h : AccountPart text acct rest) : scanPost text = (do
    let (amountTokens, input) ← scanAmount rest
    let (annotationTokens, input) ← scanAnnotations input
    let costTokens ← scanCost input
    .ok ⟨acct, amountTokens.quantity, amountTokens.symbol, annotationTokens.quantity,
      annotationTokens.symbol, annotationTokens.date, costTokens.quantity, costTokens.symbol, costTokens.isPerUnit⟩) := by
  obtain ⟨hs, hc, h2⟩ := h
  rw [skip_iff] at hs
  unfold scanPost
  simp only
  rw [← hs]
  have hd : dropBytes (' ' :: ' ' :: rest) 2 = .ok rest := dropBytes_two _ _ _ (by decide) (by decide)
  cases ha : acct with
  | nil =>
    have := trimStart_head text ' ' (by rw [← hs, ha]; rfl)
    exact absurd this (by decide)
  | cons c cs =>
    have hc' := hc c (by rw [ha]; rfl)
    have hf := findSub_spaces acct rest h2
    rw [ha] at hf
    simp only [List.cons_append] at hf ⊢
    rw [if_neg hc', hf]
    simp only [hd]
    rw [res_bind_ok]
    cases scanAmount rest with
    | error e => rfl
    | ok v =>
      rw [res_bind_ok, res_bind_ok]
      cases scanAnnotations v.2 with
      | error e => rfl
      | ok u =>
        rw [res_bind_ok, res_bind_ok]
        simp only
        split
        · rename_i h; rw [res_bind_ok, h]; rfl
        · rfl

theorem postPart_scan {text : Str} {o : Res PostTokens} (h : PostPart text o) : scanPost text = o := by
  cases h with
  | @missing rest h hr =>
    rw [skip_iff] at h
    unfold scanPost
    simp only
    rw [← h]
    rcases hr with rfl | hr
    · rfl
    · cases rest with
      | nil => rfl
      | cons c cs => simp at hr; subst hr; rfl
  | @alone acct tail h hc ha hl ht h2 =>
    rw [skip_iff] at h
    unfold scanPost
    simp only
    rw [← h, trimEnd_spec hl ht, findSub_two_none _ h2]
    cases acct with
    | nil => exact absurd rfl ha
    | cons c cs =>
      have hc' := hc c rfl
      simp only [List.cons_append]
      rw [if_neg hc']
      rfl
  | noAmount h hb => rw [scanPost_after h, (amount_blank_iff _).mp hb]; rfl
  | badLot h ha hl =>
    rw [scanPost_after h, (amountPart_iff _ _ _ _).mp ha, res_bind_ok]
    simp only
    rw [(lotPart_iff _ (amountPart_trimmed ha) _).mp hl]
    rfl
  | badCost h ha hl hc =>
    rw [scanPost_after h, (amountPart_iff _ _ _ _).mp ha, res_bind_ok]
    simp only
    rw [(lotPart_iff _ (amountPart_trimmed ha) _).mp hl]
    simp only [lotRes, Except.map]
    rw [res_bind_ok]
    simp only
    rw [(costPart_iff _ _).mp hc]
    rfl
  | full h ha hl hc =>
    rw [scanPost_after h, (amountPart_iff _ _ _ _).mp ha, res_bind_ok]
    simp only
    rw [(lotPart_iff _ (amountPart_trimmed ha) _).mp hl]
    simp only [lotRes, Except.map]
    rw [res_bind_ok]
    simp only
    rw [(costPart_iff _ _).mp hc]
    rfl

theorem postPart_total (text : Str) : ∃ o, PostPart text o := by
  have hs : Skip text (trimStart text) := (skip_iff _ _).mpr rfl
  by_cases hm : trimStart text = [] ∨ (trimStart text).head? = some ';'
  · exact ⟨_, .missing hs hm⟩
  · have hne : trimStart text ≠ [] := fun e => hm (.inl e)
    have hsc : (trimStart text).head? ≠ some ';' := fun e => hm (.inr e)
    have hh := trimStart_head text
    by_cases h2 : TwoSpaces (trimStart text)
    · obtain ⟨a, b, e, hn⟩ := twoSpaces_split h2
      have hacc : AccountPart text a b := by
        refine ⟨e ▸ hs, ?_, hn⟩
        rintro c hc rfl
        apply hsc
        rw [e]
        cases a with
        | nil => cases hc
        | cons x xs => simpa using hc
      rcases scanAmount_cases b with hb | ⟨q, s, r, ha⟩
      · exact ⟨_, .noAmount hacc hb⟩
      · obtain ⟨o, ho⟩ := lotPart_total [] [] [] r
        cases o with
        | error k => exact ⟨_, .badLot hacc ha ho⟩
        | ok v =>
          obtain ⟨pq, ps, pd, r'⟩ := v
          obtain ⟨o, hc⟩ := costPart_total r'
          cases o with
          | error k => exact ⟨_, .badCost hacc ha ho hc⟩
          | ok v => exact ⟨_, .full hacc ha ho hc⟩
    · have htrim : trimStart text = trimEnd (trimStart text) ++ ((trimStart text).reverse.takeWhile isWs).reverse := by
        unfold trimEnd
        rw [← List.reverse_append, List.takeWhile_append_dropWhile, List.reverse_reverse]
      have hlast : ∀ c, (trimEnd (trimStart text)).getLast? = some c → isWs c = false := by
        intro c hc
        unfold trimEnd at hc
        rw [List.getLast?_reverse] at hc
        have := List.head?_dropWhile_not isWs (trimStart text).reverse
        rw [hc] at this
        simpa using this
      have hblank : Blank ((trimStart text).reverse.takeWhile isWs).reverse := by
        intro c hc
        exact mem_takeWhile_all (List.mem_reverse.mp hc)
      have hne' : trimEnd (trimStart text) ≠ [] := by
        intro e
        rw [e, List.nil_append] at htrim
        cases ht : trimStart text with
        | nil => exact hne ht
        | cons c cs =>
          have h1 := hh c (by rw [ht]; rfl)
          have h2 := hblank c (by rw [← htrim, ht]; simp)
          rw [h1] at h2; cases h2
      rw [htrim] at hs h2 hsc
      refine ⟨_, .alone hs ?_ hne' hlast hblank h2⟩
      rintro c hc rfl
      apply hsc
      cases hx : trimEnd (trimStart text) with
      | nil => exact absurd hx hne'
      | cons x xs => rw [hx] at hc; simpa using hc

/-- Every posting line is taken for exactly one thing, and it is what the scanner makes of it. -/
theorem postPart_iff (text : Str) (o : Res PostTokens) : PostPart text o ↔ scanPost text = o := by
  constructor
  · exact postPart_scan
  · rintro rfl
    obtain ⟨o', ho⟩ := postPart_total text
    rw [postPart_scan ho]
    exact ho

/-! ### dates and times -/

theorem takeDigits_spec (n : Nat) (s : Str) : ∃ t r, Chrono.takeDigits n s = (t, r) ∧ s = t ++ r ∧
    (∀ c ∈ t, isDig c = true) ∧ t.length ≤ n := by
  induction n generalizing s with
  | zero => exact ⟨[], s, rfl, rfl, by simp, by simp⟩
  | succ n ih =>
    cases s with
    | nil => exact ⟨[], [], rfl, rfl, by simp, by simp⟩
    | cons c cs =>
      by_cases hc : isDig c = true
      · obtain ⟨t, r, h1, h2, h3, h4⟩ := ih cs
        refine ⟨c :: t, r, by simp [Chrono.takeDigits, hc, h1], by rw [h2]; rfl, ?_, by simp; omega⟩
        intro x hx
        rcases List.mem_cons.mp hx with rfl | hx
        · exact hc
        · exact h3 x hx
      · exact ⟨[], c :: cs, by simp [Chrono.takeDigits, hc], rfl, by simp, by simp⟩

theorem takeDigits_stop (n : Nat) (t r : Str) (ht : ∀ c ∈ t, isDig c = true) (hl : t.length ≤ n)
    (hr : ∀ c, r.head? = some c → isDig c = false) : Chrono.takeDigits n (t ++ r) = (t, r) := by
  induction t generalizing n with
  | nil =>
    cases n with
    | zero => rfl
    | succ n =>
      cases r with
      | nil => rfl
      | cons c cs => simp [Chrono.takeDigits, hr c rfl]
  | cons x xs ih =>
    cases n with
    | zero => simp at hl
    | succ n =>
      have := ih n (fun c hc => ht c (by simp [hc])) (by simpa using hl)
      simp [Chrono.takeDigits, ht x (by simp), this]

theorem number_spec {max : Nat} {s : Str} {n : Nat} {r : Str} (h : Chrono.number max s = some (n, r)) :
    ∃ t, s = t ++ r ∧ Digits t ∧ t.length ≤ max ∧ n = natOf t := by
  obtain ⟨t, r', h1, h2, h3, h4⟩ := takeDigits_spec max s
  simp only [Chrono.number, h1] at h
  split at h
  · cases h
  · rename_i hne
    injection h with h
    injection h with e1 e2
    subst e1 e2
    exact ⟨t, h2, ⟨hne, h3⟩, h4, rfl⟩

theorem number_stop {max : Nat} {t r : Str} (ht : Digits t) (hl : t.length ≤ max)
    (hr : ∀ c, r.head? = some c → isDig c = false) : Chrono.number max (t ++ r) = some (natOf t, r) := by
  simp only [Chrono.number, takeDigits_stop max t r ht.2 hl hr, if_neg ht.1]
  rfl

theorem trimStart_split (s : Str) : ∃ sp, s = sp ++ trimStart s ∧ Blank sp :=
  ⟨s.takeWhile isWs, (List.takeWhile_append_dropWhile).symm, fun _ hc => mem_takeWhile_all hc⟩

theorem digits_trim {sp t : Str} (r : Str) (hb : Blank sp) (ht : Digits t) : trimStart (sp ++ (t ++ r)) = t ++ r := by
  rw [trimStart_blank hb]
  apply trimStart_id
  intro c hc
  obtain ⟨hne, hd⟩ := ht
  cases t with
  | nil => exact absurd rfl hne
  | cons x xs =>
    simp at hc
    subst hc
    exact isDig_ws (hd x (by simp))

theorem two_spec {s : Str} {n : Nat} {r : Str} (h : Chrono.two s = some (n, r)) : ∃ t, s = t ++ r ∧ TwoText t n := by
  obtain ⟨sp, e, hb⟩ := trimStart_split s
  obtain ⟨t, h1, h2, h3, h4⟩ := number_spec h
  exact ⟨sp ++ t, by rw [List.append_assoc, ← h1]; exact e, sp, t, rfl, hb, h2, h3, h4⟩

theorem two_stop {t : Str} {n : Nat} {r : Str} (h : TwoText t n) (hr : ∀ c, r.head? = some c → isDig c = false) :
    Chrono.two (t ++ r) = some (n, r) := by
  obtain ⟨sp, x, rfl, hb, hd, hl, rfl⟩ := h
  unfold Chrono.two
  rw [List.append_assoc, digits_trim r hb hd]
  exact number_stop hd hl hr

theorem year_spec {s : Str} {y : Int} {r : Str} (h : Chrono.year s = some (y, r)) :
    ∃ sp t, s = sp ++ t ++ r ∧ Blank sp ∧ YearText t y := by
  obtain ⟨sp, e, hb⟩ := trimStart_split s
  unfold Chrono.year at h
  split at h
  · rename_i u hu
    cases hn : Chrono.number u.length u with
    | none => rw [hn] at h; cases h
    | some v =>
      obtain ⟨n, r'⟩ := v
      rw [hn] at h
      simp at h
      obtain ⟨rfl, rfl⟩ := h
      obtain ⟨t, h1, h2, h3, rfl⟩ := number_spec hn
      exact ⟨sp, '-' :: t, by rw [e, hu, h1]; simp, hb, .minus h2⟩
  · rename_i u hu
    cases hn : Chrono.number u.length u with
    | none => rw [hn] at h; cases h
    | some v =>
      obtain ⟨n, r'⟩ := v
      rw [hn] at h
      simp at h
      obtain ⟨rfl, rfl⟩ := h
      obtain ⟨t, h1, h2, h3, rfl⟩ := number_spec hn
      exact ⟨sp, '+' :: t, by rw [e, hu, h1]; simp, hb, .plus h2⟩
  · cases hn : Chrono.number 4 (trimStart s) with
    | none => rw [hn] at h; cases h
    | some v =>
      obtain ⟨n, r'⟩ := v
      rw [hn] at h
      simp at h
      obtain ⟨rfl, rfl⟩ := h
      obtain ⟨t, h1, h2, h3, rfl⟩ := number_spec hn
      exact ⟨sp, t, by rw [List.append_assoc, ← h1]; exact e, hb, .plain h2 h3⟩

theorem year_stop {sp t : Str} {y : Int} {r : Str} (hb : Blank sp) (h : YearText t y)
    (hr : ∀ c, r.head? = some c → isDig c = false) : Chrono.year (sp ++ t ++ r) = some (y, r) := by
  unfold Chrono.year
  rw [List.append_assoc]
  cases h with
  | plain hd hl =>
    rw [digits_trim r hb hd]
    have hx := hd
    obtain ⟨hne, hdig⟩ := hx
    cases t with
    | nil => exact absurd rfl hne
    | cons x xs =>
      have hx := hdig x (by simp)
      split
      · rename_i e; injection e with e; subst e; exact absurd hx (by decide)
      · rename_i e; injection e with e; subst e; exact absurd hx (by decide)
      · rw [number_stop hd hl hr]; rfl
  | @minus t hd =>
    have : trimStart (sp ++ ('-' :: t ++ r)) = '-' :: (t ++ r) := by
      rw [trimStart_blank hb]; exact trimStart_id (by intro c hc; simp at hc; subst hc; decide)
    rw [this]
    simp only
    rw [number_stop hd (by simp) hr]; rfl
  | @plus t hd =>
    have : trimStart (sp ++ ('+' :: t ++ r)) = '+' :: (t ++ r) := by
      rw [trimStart_blank hb]; exact trimStart_id (by intro c hc; simp at hc; subst hc; decide)
    rw [this]
    simp only
    rw [number_stop hd (by simp) hr]; rfl

theorem lit_spec {c : Char} {s r : Str} (h : Chrono.lit c s = some r) : s = c :: r := by
  cases s with
  | nil => cases h
  | cons d ds =>
    simp only [Chrono.lit] at h
    split at h
    · rename_i e; simp at h; rw [e, h]
    · cases h

theorem valid_calendar (d : Date) : d.Valid ↔
    -262143 ≤ d.year ∧ d.year ≤ 262142 ∧ CalendarDay (d.year % 400).toNat d.month d.day := by
  obtain ⟨y, m, x⟩ := d
  have h0 : 0 ≤ y % 400 := Int.emod_nonneg _ (by decide)
  have h1 : y % 400 < 400 := Int.emod_lt_of_pos _ (by decide)
  have hl : Date.isLeap ((y % 400).toNat : Int) = Date.isLeap y := by
    rw [Int.toNat_of_nonneg h0]
    rw [Bool.eq_iff_iff]
    simp only [Date.isLeap, Bool.or_eq_true, Bool.and_eq_true, beq_iff_eq, bne_iff_ne, ne_eq]
    omega
  have hd : Date.daysIn ((y % 400).toNat : Int) m = Date.daysIn y m := by simp only [Date.daysIn, hl]
  have := valid_iff (y % 400).toNat m x (by omega)
  unfold Date.Valid at this ⊢
  simp only [hd] at this ⊢
  rw [← this]
  constructor
  · rintro ⟨a, b, c, e⟩; exact ⟨a, b, by omega, by omega, c, e⟩
  · rintro ⟨a, b, _, _, c, e⟩; exact ⟨a, b, c, e⟩

/-- A text is read as a date exactly if it is one. -/
theorem parseDate_iff (s : Str) (d : Date) : Chrono.parseDate s = some d ↔ DayText s d := by
  have hyp : ∀ (c : Char) (x : Str), isDig c = false → ∀ k, (c :: x).head? = some k → isDig k = false := by
    intro c x hc k hk; simp at hk; exact hk ▸ hc
  constructor
  · intro h
    have hv := parseDate_valid h
    simp only [Chrono.parseDate] at h
    split at h
    · cases h
    · rename_i y s1 e1
      split at h
      · cases h
      · rename_i s2 e2
        split at h
        · cases h
        · rename_i m s3 e3
          split at h
          · cases h
          · rename_i s4 e4
            split at h
            · cases h
            · rename_i x s5 e5
              split at h
              · rename_i hc
                injection h with h
                subst h
                obtain ⟨sp, Y, rfl, hb, hY⟩ := year_spec e1
                have := lit_spec e2; subst this
                obtain ⟨M, rfl, hM⟩ := two_spec e3
                have := lit_spec e4; subst this
                obtain ⟨X, rfl, hX⟩ := two_spec e5
                rw [hc.1, List.append_nil]
                exact ⟨⟨sp, Y, M, X, by simp, hb, hY, hM, hX⟩, (valid_calendar _).mp hv⟩
              · cases h
  · rintro ⟨⟨sp, Y, M, X, rfl, hb, hY, hM, hX⟩, hv⟩
    have hv' := (valid_calendar d).mpr hv
    have e1 := year_stop (r := '-' :: (M ++ '-' :: X)) hb hY (hyp _ _ (by decide))
    have e2 := two_stop (r := '-' :: X) hM (hyp _ _ (by decide))
    have e3 := two_stop (r := []) hX (by intro c hc; cases hc)
    rw [List.append_nil] at e3
    have e : sp ++ Y ++ '-' :: M ++ '-' :: X = sp ++ Y ++ '-' :: (M ++ '-' :: X) := by simp
    rw [e]
    simp only [Chrono.parseDate, e1, Chrono.lit, if_true, e2, e3]
    rw [if_pos ⟨trivial, hv'⟩]

/-- A text is read as a time exactly if it is one. -/
theorem parseTime_iff (s : Str) (t : Time) : Chrono.parseTime s = some t ↔ ClockText s t := by
  have hyp : ∀ (c : Char) (x : Str), isDig c = false → ∀ k, (c :: x).head? = some k → isDig k = false := by
    intro c x hc k hk; simp at hk; exact hk ▸ hc
  constructor
  · intro h
    simp only [Chrono.parseTime] at h
    split at h
    · cases h
    · rename_i y s1 e1
      split at h
      · cases h
      · rename_i s2 e2
        split at h
        · cases h
        · rename_i m s3 e3
          split at h
          · cases h
          · rename_i s4 e4
            split at h
            · cases h
            · rename_i x s5 e5
              split at h
              · rename_i hc
                injection h with h
                subst h
                obtain ⟨Y, rfl, hY⟩ := two_spec e1
                have := lit_spec e2; subst this
                obtain ⟨M, rfl, hM⟩ := two_spec e3
                have := lit_spec e4; subst this
                obtain ⟨X, rfl, hX⟩ := two_spec e5
                rw [hc.1, List.append_nil]
                exact ⟨⟨Y, M, X, by simp, hY, hM, hX⟩, hc.2⟩
              · cases h
  · rintro ⟨⟨Y, M, X, rfl, hY, hM, hX⟩, hv⟩
    have e1 := two_stop (r := ':' :: (M ++ ':' :: X)) hY (hyp _ _ (by decide))
    have e2 := two_stop (r := ':' :: X) hM (hyp _ _ (by decide))
    have e3 := two_stop (r := []) hX (by intro c hc; cases hc)
    rw [List.append_nil] at e3
    have e : Y ++ ':' :: M ++ ':' :: X = Y ++ ':' :: (M ++ ':' :: X) := by simp
    rw [e]
    simp only [Chrono.parseTime, e1, Chrono.lit, if_true, e2, e3]
    rw [if_pos ⟨trivial, hv⟩]

/-! ### header lines -/

theorem trim_split (s : Str) : TrimOf s (trim s) := by
  have h1 : s = s.takeWhile isWs ++ trimStart s := (List.takeWhile_append_dropWhile).symm
  have h2 : trimStart s = trim s ++ ((trimStart s).reverse.takeWhile isWs).reverse := by
    unfold trim trimEnd
    rw [← List.reverse_append, List.takeWhile_append_dropWhile, List.reverse_reverse]
  have hl : ∀ c, (trim s).getLast? = some c → isWs c = false := by
    intro c hc
    unfold trim trimEnd at hc
    rw [List.getLast?_reverse] at hc
    have := List.head?_dropWhile_not isWs (trimStart s).reverse
    rw [hc] at this
    simpa using this
  refine ⟨s.takeWhile isWs, ((trimStart s).reverse.takeWhile isWs).reverse, ?_, ?_, ?_, ?_, hl⟩
  · rw [List.append_assoc, ← h2]; exact h1
  · intro c hc; exact mem_takeWhile_all hc
  · intro c hc; exact mem_takeWhile_all (List.mem_reverse.mp hc)
  · intro c hc
    have h3 : (trimStart s).head? = some c := by
      rw [h2]
      cases ht : trim s with
      | nil => rw [ht] at hc; cases hc
      | cons x xs => rw [ht] at hc; simpa using hc
    have := List.head?_dropWhile_not isWs s
    unfold trimStart at h3
    rw [h3] at this
    simpa using this

theorem trimOf_iff (s t : Str) : TrimOf s t ↔ t = trim s := by
  constructor
  · rintro ⟨a, b, rfl, h1, h2, h3⟩; exact (trim_text h1 h3 h2).symm
  · rintro rfl; exact trim_split s

theorem noteMark_prefix {s x y : Str} (e : s = x ++ y) (h : [' ', ' ', ';'] <+: y) : NoteMark s := by
  obtain ⟨t, rfl⟩ := h
  exact ⟨x, t, e⟩

theorem findSub_mark (before after : Str) (h : ¬ NoteMark (before ++ [' ', ' '])) :
    findSub [' ', ' ', ';'] (before ++ ' ' :: ' ' :: ';' :: after) = some (before, ' ' :: ' ' :: ';' :: after) := by
  refine findSub_at _ _ _ ⟨after, rfl⟩ ?_
  rintro x y rfl hy ⟨t, ht⟩
  refine h ?_
  match y, hy with
  | [c], _ => simp at ht
  | [c, d], _ => simp at ht
  | c :: d :: e :: y, _ =>
    simp at ht
    exact ⟨x, y ++ [' ', ' '], by simp [← ht.1, ← ht.2.1, ← ht.2.2.1]⟩

theorem noteMark_split {s : Str} (h : NoteMark s) :
    ∃ a b, s = a ++ ' ' :: ' ' :: ';' :: b ∧ ¬ NoteMark (a ++ [' ', ' ']) := by
  obtain ⟨a, b, rfl⟩ := h
  generalize hn : a.length = n
  induction n using Nat.strong_induction_on generalizing a b with
  | _ n ih =>
    by_cases h : NoteMark (a ++ [' ', ' '])
    · obtain ⟨x, y, e⟩ := h
      have hl : x.length < n := by
        have := congrArg List.length e
        simp at this
        omega
      have e2 : a ++ ' ' :: ' ' :: ';' :: b = x ++ ' ' :: ' ' :: ';' :: (y ++ ';' :: b) := by
        have : a ++ ' ' :: ' ' :: ';' :: b = (a ++ [' ', ' ']) ++ ';' :: b := by simp
        rw [this, e]; simp
      rw [e2]
      exact ih x.length hl x _ rfl
    · exact ⟨a, b, rfl, h⟩

theorem tokenizePayee_note (r2 p n : Str) :
    ((¬ NoteMark r2 ∧ TrimOf r2 p ∧ n = []) ∨
      ∃ before after, r2 = before ++ ' ' :: ' ' :: ';' :: after ∧ ¬ NoteMark (before ++ [' ', ' ']) ∧
        TrimOf before p ∧ TrimOf after n) ↔
      p = (tokenizePayee r2).1 ∧ tokenizeNote (tokenizePayee r2).2 = .ok n := by
  by_cases h : NoteMark r2
  · obtain ⟨a, b, rfl, hn⟩ := noteMark_split h
    have e : tokenizePayee (a ++ ' ' :: ' ' :: ';' :: b) = (trim a, ' ' :: ' ' :: ';' :: b) := by
      unfold tokenizePayee; rw [findSub_mark a b hn]
    have e2 : tokenizeNote (' ' :: ' ' :: ';' :: b) = .ok (trim b) := by
      unfold tokenizeNote
      rw [if_neg (by simp)]
      have : dropBytes (' ' :: ' ' :: ';' :: b) 3 = .ok b := by
        have h1 : Char.utf8Size ' ' = 1 := rfl
        have h2 : Char.utf8Size ';' = 1 := rfl
        simp [dropBytes, h1, h2]
      rw [this]; rfl
    rw [e]
    simp only [e2]
    constructor
    · rintro (⟨h', _⟩ | ⟨x, y, e3, hx, h1, h2⟩)
      · exact absurd h h'
      · have e4 := findSub_mark x y hx
        rw [← e3, findSub_mark a b hn] at e4
        simp only [Option.some.injEq, Prod.mk.injEq, List.cons.injEq, true_and] at e4
        obtain ⟨rfl, rfl⟩ := e4
        exact ⟨(trimOf_iff _ _).mp h1, by rw [(trimOf_iff _ _).mp h2]⟩
    · rintro ⟨rfl, h2⟩
      injection h2 with h2
      exact Or.inr ⟨a, b, rfl, hn, trim_split _, h2 ▸ trim_split _⟩
  · have e : tokenizePayee r2 = (trim r2, []) := by
      unfold tokenizePayee; rw [findSub_none _ _ (fun x y e hp => h (noteMark_prefix e hp))]
    rw [e]
    simp only [tokenizeNote, if_true]
    constructor
    · rintro (⟨_, h1, rfl⟩ | ⟨x, y, rfl, _⟩)
      · exact ⟨(trimOf_iff _ _).mp h1, rfl⟩
      · exact absurd ⟨x, y, rfl⟩ h
    · rintro ⟨rfl, h2⟩
      injection h2 with h2
      exact Or.inl ⟨h, trim_split _, h2.symm⟩

theorem tokenizeAuxDate_part (r1 a r2 : Str) :
    ((r1.head? ≠ some '=' ∧ a = [] ∧ r2 = r1) ∨
      ∃ eqs r, eqs ≠ [] ∧ Longest (· = '=') r1 eqs r ∧ Longest (· ≠ ' ') r a r2) ↔ tokenizeAuxDate r1 = (a, r2) := by
  have l1 := fun x y z => longest_iff (P := (· = '=')) (p := fun c => c == '=') (by simp) x y z
  have l2 := fun x y z => longest_iff (P := (· ≠ ' ')) (p := fun c => !(c == ' ')) (by simp) x y z
  simp only [l1, l2]
  by_cases h : r1.head? = some '='
  · cases r1 with
    | nil => cases h
    | cons c r =>
      simp only [List.head?_cons, Option.some.injEq] at h
      subst h
      simp only [tokenizeAuxDate, splitAtFirst, Prod.mk.injEq]
      constructor
      · rintro (⟨h, _⟩ | ⟨_, _, _, ⟨rfl, rfl⟩, rfl, rfl⟩)
        · exact absurd rfl h
        · exact ⟨rfl, rfl⟩
      · rintro ⟨rfl, rfl⟩
        exact Or.inr ⟨_, _, by simp [List.takeWhile], ⟨rfl, rfl⟩, rfl, rfl⟩
  · have e : tokenizeAuxDate r1 = ([], r1) := by
      unfold tokenizeAuxDate
      split
      · exact absurd rfl h
      · rfl
    rw [e, Prod.mk.injEq]
    constructor
    · rintro (⟨_, rfl, rfl⟩ | ⟨_, _, hne, ⟨rfl, _⟩, _⟩)
      · exact ⟨rfl, rfl⟩
      · exfalso
        cases r1 with
        | nil => exact hne rfl
        | cons c r =>
          have : ¬ c = '=' := fun hc => h (by rw [hc]; rfl)
          exact hne (List.takeWhile_cons_of_neg (by simpa using this))
    · rintro ⟨rfl, rfl⟩
      exact Or.inl ⟨h, rfl, rfl⟩

/-- The scanner takes a header line for this. -/
theorem headerPart_iff {text : Str} (hne : text ≠ []) (d a p n : Str) :
    HeaderPart text d a p n ↔ tokenizeXactHeader text = .ok (d, a, p, n) := by
  have l1 := fun x y z => longest_iff (P := fun c => c ≠ '=' ∧ c ≠ ' ') (p := fun c => !(c == '=' || c == ' ')) (by simp) x y z
  unfold HeaderPart tokenizeXactHeader
  rw [if_neg hne]
  simp only [tokenizePayee_note, tokenizeAuxDate_part, l1, scanDate, splitAtFirst]
  generalize text.takeWhile (fun c => !(c == '=' || c == ' ')) = d'
  generalize text.dropWhile (fun c => !(c == '=' || c == ' ')) = r1
  constructor
  · rintro ⟨_, r2, ⟨rfl, rfl⟩, h1, rfl, h2⟩
    rw [h1]
    simp only [h2, bind, Except.bind]
  · intro h
    refine ⟨r1, (tokenizeAuxDate r1).2, ⟨?_, rfl⟩, ?_⟩
    · revert h
      cases tokenizeNote _ with
      | error => intro h; cases h
      | ok n' => intro h; simp only [bind, Except.bind, Except.ok.injEq, Prod.mk.injEq] at h; exact h.1.symm
    · revert h
      cases hn : tokenizeNote (tokenizePayee (tokenizeAuxDate r1).2).2 with
      | error => intro h; cases h
      | ok n' =>
        intro h
        simp only [bind, Except.bind, Except.ok.injEq, Prod.mk.injEq] at h
        exact ⟨Prod.ext h.2.1 rfl, h.2.2.1.symm, by rw [h.2.2.2]⟩

end Ledger
