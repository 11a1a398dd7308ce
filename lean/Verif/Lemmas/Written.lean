import Verif.Lemmas.Figures
import Verif.Spec.Written
import Verif.Props.Dates
import Verif.Lemmas.Reading
/-
Postings as they are written.
-/
namespace Ledger
open Ledger.Parser Ledger.Scanner

theorem fromStr_nil : Dec.fromStr [] = none := by decide

theorem numeral_ne {q : Str} {d : Dec} (h : Numeral q d) : q ≠ [] := by
  rintro rfl
  have := (C02_parse_exact [] d).mpr h
  rw [fromStr_nil] at this
  cases this

/-! ### the pool -/

theorem foc_edges (p : Pool) (s : Str) (ann : Option Annotation) :
    (p.findOrCreate s ann).1.history.edges = p.history.edges := by
  by_cases hs : s = []
  · subst hs; rw [Pool.findOrCreate_empty]
  · cases hf : p.find s with
    | some c => rw [(Pool.findOrCreate_old hs hf ann).2.2.1]
    | none => rw [(Pool.findOrCreate_new hs hf ann).2.2.1]

theorem foc_known (p : Pool) (s : Str) (ann : Option Annotation) (x : Str) :
    ((p.findOrCreate s ann).1.find x).isSome ↔ (p.find x).isSome ∨ symbolOf s = some x := by
  unfold symbolOf
  by_cases hs : s = []
  · subst hs; rw [Pool.findOrCreate_empty]; simp
  · rw [if_neg hs]
    cases hf : p.find s with
    | some c =>
      unfold Pool.find at hf ⊢
      rw [(Pool.findOrCreate_old hs hf ann).2.1]
      constructor
      · exact Or.inl
      · rintro (h | h)
        · exact h
        · injection h with h; subst h; rw [hf]; rfl
    | none =>
      have hf' := hf
      unfold Pool.find at hf ⊢
      rw [(Pool.findOrCreate_new hs hf' ann).2.1, assocGet_append]
      by_cases hx : s = x
      · subst hx; rw [hf]; simp [assocGet]
      · cases hg : assocGet x p.commodities with
        | some c => simp
        | none => simp [assocGet, hx]

theorem foc_none_annotated (p : Pool) (s : Str) : (p.findOrCreate s none).1.annotated = p.annotated := by
  by_cases hs : s = []
  · subst hs; rw [Pool.findOrCreate_empty]
  · cases hf : p.find s with
    | some c => rw [(Pool.findOrCreate_old hs hf none).2.2.2]
    | none => rw [(Pool.findOrCreate_new hs hf none).2.2.2]

theorem foc_some_annotated (p : Pool) (s : Str) (a : Annotation) (h : s ≠ [] → (p.find s).isSome) (x : Str) :
    assocGet x (p.findOrCreate s (some a)).1.annotated =
      if symbolOf s = some x ∧ assocGet x p.annotated = none then some a else assocGet x p.annotated := by
  unfold symbolOf
  by_cases hs : s = []
  · subst hs; rw [Pool.findOrCreate_empty]; simp
  · rw [if_neg hs]
    obtain ⟨c, hf⟩ := Option.isSome_iff_exists.mp (h hs)
    rw [(Pool.findOrCreate_old hs hf (some a)).2.2.2]
    simp only [Option.some.injEq]
    cases hg : assocGet s p.annotated with
    | some b =>
      rw [if_neg (by simp)]
      rw [if_neg]
      rintro ⟨rfl, h2⟩
      rw [hg] at h2; cases h2
    | none =>
      rw [if_pos (by simp), assocGet_insert]
      by_cases hx : s = x
      · subst hx; simp [hg]
      · rw [if_neg (Ne.symm hx), if_neg (by rintro ⟨h1, _⟩; exact hx h1)]

/-! ### tokens -/

theorem NumberSays.parts {q s : Str} {a : Option Amount} {st : Option Str} (h : NumberSays q s a st) (p : Pool) :
    parseAmountParts q s p = ((p.findOrCreate s none).1, a) := by
  unfold parseAmountParts
  have e1 : p.findOrCreate s none = ((p.findOrCreate s none).1, symbolOf s) :=
    Prod.ext rfl (findOrCreate_pointer _ _ _)
  rw [e1]
  simp only
  rcases h with ⟨d, hd, rfl, _⟩ | ⟨hd, rfl, _⟩
  · rw [(C02_parse_exact _ _).mpr hd]; rfl
  · cases hq : Dec.fromStr q with
    | none => rfl
    | some d => exact absurd ((C02_parse_exact _ _).mp hq) (hd d)

theorem NumberSays.symbol {q s : Str} {a : Option Amount} {st : Option Str} (h : NumberSays q s a st) :
    symbolOf s = (a.bind (·.comm)).or st := by
  rcases h with ⟨d, hd, rfl, rfl⟩ | ⟨hd, rfl, rfl⟩
  · cases symbolOf s <;> rfl
  · rfl

theorem NumberSays.total (q s : Str) : ∃ a st, NumberSays q s a st := by
  by_cases h : ∃ d, Numeral q d
  · obtain ⟨d, h⟩ := h; exact ⟨_, _, Or.inl ⟨d, h, rfl, rfl⟩⟩
  · exact ⟨_, _, Or.inr ⟨fun d hd => h ⟨d, hd⟩, rfl, rfl⟩⟩

theorem NumberSays.unique {q s : Str} {a a' : Option Amount} {st st' : Option Str} (h : NumberSays q s a st)
    (h' : NumberSays q s a' st') : a = a' ∧ st = st' := by
  have e := congrArg Prod.snd ((h.parts Pool.empty).symm.trans (h'.parts Pool.empty))
  simp only at e
  refine ⟨e, ?_⟩
  subst e
  rcases h with ⟨d, _, ha, h⟩ | ⟨_, ha, h⟩ <;> rcases h' with ⟨d', _, ha', h'⟩ | ⟨_, ha', h'⟩
  · rw [h, h']
  · rw [ha] at ha'; cases ha'
  · rw [ha] at ha'; cases ha'
  · rw [h, h']

theorem NumberSays.amount {q s : Str} {a : Amount} (hq : Numeral q a.qty) (hs : a.comm = symbolOf s) :
    NumberSays q s (some a) none := Or.inl ⟨a.qty, hq, by rw [← hs], rfl⟩

theorem NumberSays.nothing : NumberSays [] [] none none :=
  Or.inr ⟨fun _ h => numeral_ne h rfl, rfl, rfl⟩

theorem dayText_ne {s : Str} {d : Date} (h : DayText s d) : s ≠ [] := by
  rintro rfl
  have := (parseDate_iff [] d).mpr h
  exact absurd this (by rw [show Chrono.parseDate [] = none from by decide]; simp)

/-- The annotation is read. -/
theorem PartsSay.annotation {t : PostTokens} {e : Entry} (ht : PartsSay t e) (p : Pool) :
    parseAnnotation t.priceDate t.priceQuantity t.priceCommodity p =
      .ok ((p.findOrCreate t.priceCommodity none).1, e.lot) := by
  have h := ht.price.parts p
  unfold parseAmountParts at h
  unfold parseAnnotation
  simp only [Prod.mk.injEq] at h
  simp only [h.2, bind, Except.bind]
  rcases ht.date with ⟨h, hd⟩ | ⟨d, hp, hd⟩
  · simp only [h, if_true]; rw [← hd]
  · simp only [dayText_ne hp, if_false, (parseDate_iff _ _).mpr hp]; rw [← hd]

theorem isoDate_ne (y m d : Nat) : isoDate y m d ≠ [] := by simp [isoDate]

theorem lotText_empty {text q s d : Str} (h : LotText text q s d) (hq : q = []) : s = [] := by
  have ne : ∀ {t q s : Str}, LotPrice t q s → q ≠ [] := by
    intro t q s h
    cases h with
    | mk _ ha _ _ =>
      cases ha with
      | plain hq => exact hq.1
      | after hq _ _ _ => exact hq.1
      | before hq _ _ _ _ => exact hq.1
  cases h with
  | none => rfl
  | price _ _ hp => exact absurd hq (ne hp)
  | date _ _ _ => rfl
  | priceDate _ _ hp _ _ => exact absurd hq (ne hp)
  | datePrice _ _ _ _ hp => exact absurd hq (ne hp)

theorem costText_empty {text q s : Str} {u : Bool} (h : CostText text q s u) (hq : q = []) : s = [] := by
  have ne : ∀ {t q s : Str}, AmountText t q s → q ≠ [] := by
    intro t q s ha
    cases ha with
    | plain hq => exact hq.1
    | after hq _ _ _ => exact hq.1
    | before hq _ _ _ _ => exact hq.1
  cases h with
  | none => rfl
  | unit _ _ ha => exact absurd hq (ne ha)
  | total _ _ ha => exact absurd hq (ne ha)

theorem costText_none {text q s : Str} {u : Bool} (h : CostText text q s u) (hq : q = []) : text = [] := by
  have ne : ∀ {t q s : Str}, AmountText t q s → q ≠ [] := by
    intro t q s ha
    cases ha with
    | plain hq => exact hq.1
    | after hq _ _ _ => exact hq.1
    | before hq _ _ _ _ => exact hq.1
  cases h with
  | none => rfl
  | unit _ _ ha => exact absurd hq (ne ha)
  | total _ _ ha => exact absurd hq (ne ha)

theorem EntryText.scan {text : Str} {e : Entry} (h : EntryText text e) :
    ∃ t, scanPost text = .ok t ∧ PartsSay t e := by
  obtain ⟨t, h1, h2⟩ := h
  exact ⟨t, (postPart_iff _ _).mp h1, h2⟩

theorem EntryText.of_scan {text : Str} {e : Entry} {t : PostTokens} (h : scanPost text = .ok t) (ht : PartsSay t e) :
    EntryText text e := ⟨t, (postPart_iff _ _).mpr h, ht⟩

theorem dayText_iso {y m d : Nat} (hy : y ≤ 9999) (h : CalendarDay y m d) : DayText (isoDate y m d) ⟨y, m, d⟩ :=
  (parseDate_iff _ _).mp (C53_day_read y m d hy h)

theorem WrittenDay.dayText {s : Str} {d : Date} (h : WrittenDay s d) : DayText s d := by
  obtain ⟨y, m, x, h1, h2, rfl, rfl⟩ := h
  exact dayText_iso h1 h2

/-- An account alone. -/
theorem EntryText.blank {lead acct tail : Str} (hl : Blank lead) (ha : AccountText acct) (ht : Blank tail)
    (h2 : ¬ TwoSpaces tail) : EntryText (lead ++ acct ++ tail) ⟨acct, none, ⟨none, none⟩, none, [], {}⟩ :=
  .of_scan (C47_account_round_trip hl ha ht h2) ⟨rfl, .nothing, .nothing, Or.inl ⟨rfl, rfl⟩, Or.inl ⟨Or.inl rfl, rfl, rfl⟩, rfl⟩

/-- An account, two spaces, an amount and possibly a lot (if the amount has a commodity) and a cost; with blanks around.
If the amount and the cost have commodities, a note can follow. -/
theorem EntryText.full {lead acct gap amt lot cost tail : Str} {a : Amount} {l : Annotation} {c : Option (Bool × Amount)}
    {note : Bool} (hl : Blank lead) (ha : AccountText acct) (hg : Blank gap) (hamt : WrittenAmount amt a)
    (hlot : WrittenLot lot l) (hcost : WrittenCost cost c) (ht : PostEnd tail note) (h1 : a.comm = none → lot = [])
    (h2 : note = true → a.comm ≠ none ∧ ∀ u k, c = some (u, k) → k.comm ≠ none) :
    EntryText (lead ++ acct ++ ' ' :: ' ' :: gap ++ amt ++ lot ++ cost ++ tail) ⟨acct, some a, l, c, [], {}⟩ := by
  obtain ⟨q, s, ha1, ha2, ha3⟩ := hamt
  obtain ⟨pq, ps, d, hl1, hl2, hl3⟩ := hlot
  obtain ⟨cq, cs, u, hc1, hc2⟩ := hcost
  refine .of_scan (scanPost_text hl ha hg ha1 hl1 hc1 ht ?_ ?_ ?_) ⟨rfl, ?_, ?_, ?_, ?_, rfl⟩
  · intro hs; apply h1; rw [ha3, hs]; rfl
  · intro hs _
    cases hn : note with
    | false => rfl
    | true => exact absurd (by rw [ha3, hs]; rfl) (h2 hn).1
  · intro hn hne hs
    rcases hc2 with ⟨h, _⟩ | ⟨k, h, _, h3⟩
    · exact hne (costText_none hc1 h)
    · exact (h2 hn).2 _ _ h (by rw [h3, hs]; rfl)
  · exact .amount ha2 ha3
  · rcases hl2 with ⟨h, h'⟩ | ⟨p, h1, h2, h3⟩
    · simp only [h', h, lotText_empty hl1 h]; exact .nothing
    · simp only [h1]; exact .amount h2 h3
  · rcases hl3 with h | ⟨x, h1, h2⟩
    · exact Or.inl h
    · exact Or.inr ⟨x, h2.dayText, h1⟩
  · rcases hc2 with ⟨h, h'⟩ | ⟨k, h1, h2, h3⟩
    · exact Or.inl ⟨Or.inr h, h', rfl⟩
    · exact Or.inr ⟨by simp, numeral_ne h2, some k, .amount h2 h3, h1⟩

/-! ### amounts -/

/-- The cost that the program computes. -/
def CostRun (a : Amount) : Option (Bool × Amount) → Option Amount → Prop
  | none, c => c = none
  | some (false, k), c => c = some k
  | some (true, k), c => ∃ r, c = some r ∧ k.mulAssign a = .ok r

theorem parsePostAmounts_run {t : PostTokens} {e : Entry} (ht : PartsSay t e)
    (hf : ∀ a k, e.amount = some a → e.cost = some (true, k) → ∃ r, k.mulAssign a = .ok r) (p : Pool) :
    ∃ p' c, parsePostAmounts t p = .ok (p', e.amount, c) ∧
      ((e.amount = none ∧ c = none) ∨ ∃ a, e.amount = some a ∧ CostRun a e.cost c) ∧ PoolAfter e p p' := by
  have h1 := ht.amount.parts p
  have h2 := ht.annotation
  -- the cost
  have h3 : ∀ p, ∃ c, parseCost t e.amount p =
      .ok (if e.cost = none ∧ e.strays.cost = none then p else (p.findOrCreate t.costSymbol none).1, c) ∧
      ((e.amount = none ∧ c = none) ∨ ∃ a, e.amount = some a ∧ CostRun a e.cost c) := by
    intro p
    unfold parseCost
    rcases ht.cost with ⟨hz, hc, hs⟩ | ⟨ha, hq, k, hk, hc⟩
    · rw [hc, hs]
      cases ha : e.amount with
      | none => exact ⟨none, by simp, Or.inl ⟨rfl, rfl⟩⟩
      | some a =>
        have hq : t.costQuantity = [] := by
          rcases hz with h | h
          · rw [ha] at h; cases h
          · exact h
        exact ⟨none, by simp [hq], Or.inr ⟨a, rfl, rfl⟩⟩
    · obtain ⟨a, h⟩ := Option.ne_none_iff_exists'.mp ha
      rw [h]
      simp only
      rw [if_neg hq, hk.parts]
      cases k with
      | none =>
        refine ⟨none, ?_, Or.inr ⟨a, rfl, by rw [hc]; rfl⟩⟩
        simp only [hc, Option.map_none, true_and]
        split
        · rename_i hs
          have := hk.symbol
          rw [hs] at this
          unfold symbolOf at this
          split at this
          · rename_i hs; rw [hs, Pool.findOrCreate_empty]
          · cases this
        · rfl
      | some k =>
        simp only
        simp only [Option.map_some] at hc
        have hcn : ¬ (e.cost = none ∧ e.strays.cost = none) := by rw [hc]; simp
        cases hu : t.isPerUnit with
        | false => exact ⟨some k, by simp [hcn], Or.inr ⟨a, rfl, by rw [hc, hu]; rfl⟩⟩
        | true =>
          rw [hu] at hc
          obtain ⟨r, hr⟩ := hf a k h hc
          exact ⟨some r, by simp [hr, hcn, bind, Except.bind], Or.inr ⟨a, rfl, by rw [hc]; exact ⟨r, rfl, hr⟩⟩⟩
  obtain ⟨c, h3, hcost⟩ := h3 ((((p.findOrCreate t.symbol none).1.findOrCreate t.priceCommodity none).1.findOrCreate t.symbol
    (some e.lot)).1)
  have hrun : parsePostAmounts t p = (do
      let (pool, cost) ← parseCost t e.amount ((((p.findOrCreate t.symbol none).1.findOrCreate t.priceCommodity none).1.findOrCreate
        t.symbol (some e.lot)).1)
      .ok (pool, e.amount, cost)) := by
    unfold parsePostAmounts
    rw [h1]
    simp only [h2, bind, Except.bind]
  rw [h3] at hrun
  refine ⟨_, c, hrun, hcost, ?_⟩
  · generalize hp1 : (p.findOrCreate t.symbol none).1 = p1
    generalize hp2 : (p1.findOrCreate t.priceCommodity none).1 = p2
    generalize hp3 : (p2.findOrCreate t.symbol (some e.lot)).1 = p3
    have k1 : ∀ x, (p1.find x).isSome ↔ _ := fun x => hp1 ▸ foc_known p t.symbol none x
    have k2 : ∀ x, (p2.find x).isSome ↔ _ := fun x => hp2 ▸ foc_known p1 t.priceCommodity none x
    have k3 : ∀ x, (p3.find x).isSome ↔ _ := fun x => hp3 ▸ foc_known p2 t.symbol (some e.lot) x
    have k4 : ∀ x, ((if e.cost = none ∧ e.strays.cost = none then p3 else (p3.findOrCreate t.costSymbol none).1).find x).isSome ↔
        (p3.find x).isSome ∨ (¬ (e.cost = none ∧ e.strays.cost = none) ∧ symbolOf t.costSymbol = some x) := by
      intro x
      by_cases hc : e.cost = none ∧ e.strays.cost = none
      · simp [hc]
      · rw [if_neg hc, foc_known]; simp [hc]
    have m1 : symbolOf t.symbol = e.holder := ht.amount.symbol
    have m2 : ∀ x, symbolOf t.priceCommodity = some x ↔
        (∃ a, e.lot.price = some a ∧ a.comm = some x) ∨ e.strays.price = some x := by
      intro x
      rcases ht.price with ⟨d, _, h, h'⟩ | ⟨_, h, h'⟩
      · rw [h, h']; simp
      · rw [h, h']; simp
    have m3 : ∀ x, (¬ (e.cost = none ∧ e.strays.cost = none) ∧ symbolOf t.costSymbol = some x) ↔
        (∃ u k, e.cost = some (u, k) ∧ k.comm = some x) ∨ e.strays.cost = some x := by
      intro x
      rcases ht.cost with ⟨_, h, h'⟩ | ⟨_, _, k, hk, h⟩
      · rw [h, h']; simp
      · rcases hk with ⟨d, _, rfl, h'⟩ | ⟨_, rfl, h'⟩
        · rw [h, h']; simp
        · rw [h, h']
          cases symbolOf t.costSymbol <;> simp
    refine ⟨?_, ?_, ?_⟩
    · intro x
      rw [k4, k3, k2, k1, m1, m2, m3]
      unfold Entry.Mentions
      constructor
      · rintro ((((h | h) | h) | h) | h)
        · exact Or.inl h
        · exact Or.inr (Or.inl h)
        · exact Or.inr (Or.inr (Or.inl h))
        · exact Or.inr (Or.inl h)
        · exact Or.inr (Or.inr (Or.inr h))
      · rintro (h | h | h | h)
        · exact Or.inl (Or.inl (Or.inl (Or.inl h)))
        · exact Or.inl (Or.inr h)
        · exact Or.inl (Or.inl (Or.inr h))
        · exact Or.inr h
    · intro x
      have a4 : (if e.cost = none ∧ e.strays.cost = none then p3 else (p3.findOrCreate t.costSymbol none).1).annotated = p3.annotated := by
        split
        · rfl
        · rw [foc_none_annotated]
      rw [a4, ← hp3, foc_some_annotated, m1, ← hp2, foc_none_annotated, ← hp1, foc_none_annotated]
      · intro hs
        rw [k2, k1]
        unfold symbolOf
        rw [if_neg hs]
        exact Or.inl (Or.inr rfl)
    · have a4 : (if e.cost = none ∧ e.strays.cost = none then p3 else (p3.findOrCreate t.costSymbol none).1).history.edges = p3.history.edges := by
        split
        · rfl
        · rw [foc_edges]
      rw [a4, ← hp3, foc_edges, ← hp2, foc_edges, ← hp1, foc_edges]

theorem parsePostAmounts_written {t : PostTokens} {e : Entry} (ht : PartsSay t e) (hf : e.Fits) (p : Pool) :
    ∃ p' c, parsePostAmounts t p = .ok (p', e.amount, c) ∧
      ((e.amount = none ∧ c = none) ∨ ∃ a, e.amount = some a ∧ CostOf a e.cost c) ∧ PoolAfter e p p' := by
  obtain ⟨p', c, h1, h2, h3⟩ := parsePostAmounts_run ht (fun a k ha hk => by
    obtain ⟨r, _, r2, _⟩ := C06_mul k a (hf a k ha hk)
    exact ⟨r, r2⟩) p
  refine ⟨p', c, h1, ?_, h3⟩
  rcases h2 with h | ⟨a, h, hc⟩
  · exact Or.inl h
  · refine Or.inr ⟨a, h, ?_⟩
    cases he : e.cost with
    | none => rw [he] at hc; exact hc
    | some uk =>
      obtain ⟨u, k⟩ := uk
      rw [he] at hc
      cases u with
      | false => exact hc
      | true =>
        obtain ⟨r', rfl, hr'⟩ := hc
        obtain ⟨r, r1, r2, r3, r4⟩ := C06_mul k a (hf a k h he)
        obtain ⟨q, q1, _, q3, q4⟩ := Dec.mul_exact k.qty a.qty (hf a k h he)
        rw [hr'] at r2
        injection r2 with r2
        subst r2
        have hq' : r'.qty = q := by
          unfold Amount.mul at r1
          rw [q1] at r1
          simp only [bind, Except.bind, Except.ok.injEq] at r1
          rw [← r1]
        refine ⟨r', rfl, r3, ?_, by rw [hq']; exact q3, by rw [hq']; exact q4, ?_⟩
        · rw [r4]; unfold resultComm; cases k.comm <;> rfl
        · intro hv
          rw [Dec.mul_times hv] at q1
          injection q1 with q1
          rw [hq', ← q1]

/-! ### the posting -/

theorem postPart_account_ne {text : Str} {t : PostTokens} (h : PostPart text (.ok t)) : t.account ≠ [] := by
  cases h with
  | alone _ _ ha => exact ha
  | full h =>
    obtain ⟨⟨sp, _, _, h⟩, _⟩ := h
    intro ha
    simp only at ha
    subst ha
    exact h ' ' rfl (by decide)

theorem entry_account_ne {text : Str} {e : Entry} (h : EntryText text e) : e.account ≠ [] := by
  obtain ⟨t, h1, h2⟩ := h
  rw [h2.account]
  exact postPart_account_ne h1

theorem EntryText.no_comments {text : Str} {e : Entry} (h : EntryText text e) : e.comments = [] := by
  obtain ⟨_, _, h⟩ := h
  exact h.comments

/-- The journal after a written posting. -/
theorem parsePost_written {text : Str} {e : Entry} (h : EntryText text e) (hf : e.Fits) {j : Journal} (hw : j.master.WF)
    {xs : List Xact} {x : Xact} (hx : j.xacts = xs ++ [x]) :
    ∃ p pool, parsePost text xs.length j = .ok
        ⟨(Account.ensure (pathOf e.account) j.master).pushPost (pathOf e.account) (xs.length, x.posts.length), pool,
          xs ++ [{ x with posts := x.posts ++ [p] }]⟩ ∧
      PostOf e p ∧ PoolAfter e j.pool pool := by
  obtain ⟨t, h1, h2⟩ := h.scan
  obtain ⟨pool, c, h3, h4, h5⟩ := parsePostAmounts_written h2 hf j.pool
  refine ⟨⟨pathOf e.account, e.amount, c, none⟩, pool, ?_, ⟨rfl, rfl, h4, by rw [h.no_comments]; rfl⟩, h5⟩
  unfold parsePost
  rw [h1]
  simp only [bind, Except.bind, Journal.registerAccount, ← h2.account]
  rw [if_neg (entry_account_ne h), Account.findOrCreate_create _ _ hw]
  simp only [h3]
  simp only [Journal.updateXact, hx]
  simp [modify_mid]

end Ledger
