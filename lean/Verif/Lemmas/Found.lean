import Verif.Spec.Found
import Verif.Lemmas.Outcome
import Verif.Props.Reading
/-
What every text says: the descriptions in `Spec/Found.lean` agree with the scanner and the parser.
-/
namespace Ledger
open Ledger.Parser Ledger.Scanner

/-! ### lines outside transactions -/

theorem firstWord_iff (text w rest : Str) : FirstWord text w rest ↔ w ≠ [] ∧ nextWord text = (w, rest) := by
  have hl : ∀ t, Longest (fun c => isWs c = false) t w rest ↔ splitAtFirst isWs t = (w, rest) := by
    intro t
    rw [longest_iff (p := fun c => !isWs c) (by simp)]
    simp only [splitAtFirst, Prod.mk.injEq]
    constructor
    · rintro ⟨h1, h2⟩; exact ⟨h1.symm, h2.symm⟩
    · rintro ⟨h1, h2⟩; exact ⟨h1.symm, h2.symm⟩
  unfold nextWord
  rw [← hl]
  constructor
  · rintro ⟨sp, rfl, h1, h2, h3, h4⟩
    refine ⟨h2, ?_⟩
    cases w with
    | nil => exact absurd rfl h2
    | cons c w =>
      rw [List.append_assoc, List.cons_append, trimStart_skip sp c _ h1 (h3 c List.mem_cons_self)]
      exact ⟨rfl, h3, fun c hc => by simp [h4 c hc]⟩
  · rintro ⟨h1, h2, h3, h4⟩
    refine ⟨text.takeWhile isWs, ?_, fun c hc => mem_takeWhile_all hc, h1, h3, fun c hc => by simpa using h4 c hc⟩
    rw [List.append_assoc, ← h2]
    exact (List.takeWhile_append_dropWhile).symm

theorem trimStart_nil_iff (s : Str) : trimStart s = [] ↔ Blank s := by
  simp [trimStart, List.dropWhile_eq_nil_iff, Blank]

theorem nextWord_nil_iff (s : Str) : (nextWord s).1 = [] ↔ Blank s := by
  rw [← trimStart_nil_iff]
  unfold nextWord
  cases h : trimStart s with
  | nil => simp [splitAtFirst]
  | cons c r =>
    have : isWs c = false := by
      have := List.head?_dropWhile_not isWs s
      unfold trimStart at h
      rw [h] at this
      simpa using this
    simp [splitAtFirst, this]

theorem rootPath_iff (cs : Str) : RootPath ('/' :: cs) ↔ rootRest cs = true := by
  unfold RootPath
  simp only [List.head?_cons, true_and]
  induction cs using rootRest.induct with
  | case1 =>
    simp only [rootRest, iff_true]
    rintro (_ | ⟨a, as⟩) part b h _ _
    · simp at h; exact Or.inl h.1
    · simp at h
  | case2 =>
    simp only [rootRest, iff_true]
    rintro (_ | ⟨a, as⟩) part b h _ _
    · simp only [List.nil_append, List.cons.injEq, true_and] at h
      cases part with
      | nil => exact Or.inl rfl
      | cons x part =>
        simp only [List.cons_append, List.cons.injEq] at h
        obtain ⟨rfl, h⟩ := h
        simp at h
        exact Or.inr (by rw [h.1])
    · simp only [List.cons_append, List.cons.injEq] at h
      rcases as with _ | ⟨_, _⟩ <;> simp at h
  | case3 cs ih =>
    rw [rootRest, ← ih]
    constructor
    · intro h a part b e
      exact h ('/' :: '.' :: a) part b (by simp [e])
    · rintro h (_ | ⟨a, as⟩) part b e h1 h2
      · simp only [List.nil_append, List.cons.injEq, true_and] at e
        cases part with
        | nil => exact Or.inl rfl
        | cons x part =>
          simp only [List.cons_append, List.cons.injEq] at e
          obtain ⟨rfl, e⟩ := e
          cases part with
          | nil => exact Or.inr rfl
          | cons y part =>
            simp only [List.cons_append, List.cons.injEq] at e
            exact absurd e.1 (by rintro rfl; simp at h1)
      · simp only [List.cons_append, List.cons.injEq] at e
        obtain ⟨rfl, e⟩ := e
        cases as with
        | nil => simp at e
        | cons y as =>
          simp only [List.cons_append, List.cons.injEq] at e
          exact h as part b e.2 h1 h2
  | case4 cs ih =>
    rw [rootRest, ← ih]
    constructor
    · intro h a part b e
      exact h ('/' :: a) part b (by simp [e])
    · rintro h (_ | ⟨a, as⟩) part b e h1 h2
      · simp only [List.nil_append, List.cons.injEq, true_and] at e
        cases part with
        | nil => exact Or.inl rfl
        | cons x part =>
          simp only [List.cons_append, List.cons.injEq] at e
          exact absurd e.1 (by rintro rfl; simp at h1)
      · simp only [List.cons_append, List.cons.injEq] at e
        exact h as part b e.2 h1 h2
  | case5 cs h1 h2 h3 h4 =>
    have hf : rootRest cs = false := by rw [rootRest] <;> assumption
    rw [hf]
    simp only [Bool.false_eq_true, iff_false]
    intro h
    have hl := (longest_iff (P := (· ≠ '/')) (p := (· ≠ '/')) (by simp) cs _ _).mpr ⟨rfl, rfl⟩
    obtain ⟨e, g1, g2⟩ := hl
    have := h [] _ _ (by rw [List.nil_append, ← e]) (fun hm => g1 _ hm rfl) (fun c hc => by simpa using g2 c hc)
    rcases this with h | h
    · rw [h, List.nil_append] at e
      generalize cs.dropWhile _ = b at *
      cases b with
      | nil => exact h1 e
      | cons c b =>
        have := g2 c rfl
        simp only [ne_eq, not_not] at this
        subst this
        exact h4 b e
    · rw [h] at e
      generalize cs.dropWhile _ = b at *
      cases b with
      | nil => exact h2 e
      | cons c b =>
        have := g2 c rfl
        simp only [ne_eq, not_not] at this
        subst this
        exact h3 b e

theorem includePath_root {f : Str} (h : RootPath f) : includePath f = .fails .includeRoot := by
  cases f with
  | nil => cases h.1
  | cons c cs =>
    obtain rfl : c = '/' := by simpa using h.1
    simp [includePath, (rootPath_iff cs).mp h]

theorem includePath_loose {f : Str} (h : LooseName f) : includePath f = .skipped := by
  obtain ⟨h1, h2⟩ := h
  cases f with
  | nil => simp at h1
  | cons c cs =>
    have h3 : '/' ∉ cs := fun h => h2 (List.mem_cons_of_mem _ h)
    rcases h1 with h1 | h1
    · obtain rfl : c = '~' := by simpa using h1
      simp [includePath, h3]
    · obtain rfl : c = '\\' := by simpa using h1
      simp [includePath, h3]

theorem includePath_file {f : Str} (h : ¬ RootPath f) (h' : ¬ LooseName f) : includePath f = .includeFile f := by
  unfold includePath
  split
  · rename_i cs
    rw [rootPath_iff] at h
    rw [if_neg h]
  · rename_i cs
    rw [if_pos]
    by_contra hn
    exact h' ⟨Or.inl rfl, by simp [hn]⟩
  · rename_i cs
    rw [if_pos]
    by_contra hn
    exact h' ⟨Or.inr rfl, by simp [hn]⟩
  · rfl

theorem topLine_general {line : Str} (h : GeneralLine line) : topLine line = generalDirective line := by
  obtain ⟨h1, h2, h3⟩ := h
  unfold topLine
  rw [if_neg (fun h => h1 (h.elim (fun e => Or.inr (Or.inl e)) Or.inl))]
  split
  · rfl
  · rename_i c rest
    have i1 : ∀ d, d ∈ [';', '#', '*', '|', '-'] → c ≠ d := by
      rintro d hd rfl
      exact h1 (Or.inr (Or.inr ⟨c, rest, rfl, hd⟩))
    have i2 : isDig c ≠ true := fun hd => h2 ⟨c, rest, rfl, hd⟩
    have i3 := h3 c rfl
    rw [if_neg (by simp [i1]), if_neg (i1 _ (by decide)), if_neg i2, if_neg (by simp [i3])]

theorem topLine_indented (line : Str) (h : line.head? = some ' ' ∨ line.head? = some '\t') : topLine line = .indented := by
  cases line with
  | nil => simp at h
  | cons c r =>
    have : c = ' ' ∨ c = '\t' := by simpa using h
    rcases this with rfl | rfl <;> simp [topLine, isDig]

/-- What the parser takes a line for outside a transaction. -/
theorem topPart_iff (line : Str) (t : TopLine) : TopPart line t ↔ topLine line = t := by
  constructor
  · intro h
    cases h with
    | ignored h => exact (topLine_ignored line).mpr h
    | xact h => exact (topLine_xact line).mpr h
    | indented h => exact topLine_indented line h
    | nothing h hb =>
      rw [topLine_general h, generalDirective]
      have : nextWord line = ([], (nextWord line).2) := Prod.ext ((nextWord_nil_iff line).mpr hb) rfl
      rw [this]
    | price h hw h1 h2 =>
      rw [topLine_general h, generalDirective, ((firstWord_iff _ _ _).mp hw).2]
      simp only [h1, h2, if_true, if_false]
    | imports h hw =>
      rw [topLine_general h, generalDirective, ((firstWord_iff _ _ _).mp hw).2]
      rfl
    | other h hw hc =>
      rw [topLine_general h, generalDirective, ((firstWord_iff _ _ _).mp hw).2]
      simp only [hc, if_false]
    | @noName rest h hw hb =>
      rw [topLine_general h, generalDirective, ((firstWord_iff _ _ _).mp hw).2]
      show (match (nextWord rest).1 with | [] => _ | file => _) = _
      rw [(nextWord_nil_iff rest).mpr hb]
    | @root rest f rest' h hw hf hr =>
      rw [topLine_general h, generalDirective, ((firstWord_iff _ _ _).mp hw).2]
      obtain ⟨f1, f2⟩ := (firstWord_iff _ _ _).mp hf
      show (match (nextWord rest).1 with | [] => _ | file => includePath file) = _
      rw [f2]
      cases f with
      | nil => exact absurd rfl f1
      | cons c f => exact includePath_root hr
    | @skipped rest f rest' h hw hf hr =>
      rw [topLine_general h, generalDirective, ((firstWord_iff _ _ _).mp hw).2]
      obtain ⟨f1, f2⟩ := (firstWord_iff _ _ _).mp hf
      show (match (nextWord rest).1 with | [] => _ | file => includePath file) = _
      rw [f2]
      cases f with
      | nil => exact absurd rfl f1
      | cons c f => exact includePath_loose hr
    | @file rest f rest' h hw hf hr hl =>
      rw [topLine_general h, generalDirective, ((firstWord_iff _ _ _).mp hw).2]
      obtain ⟨f1, f2⟩ := (firstWord_iff _ _ _).mp hf
      show (match (nextWord rest).1 with | [] => _ | file => includePath file) = _
      rw [f2]
      cases f with
      | nil => exact absurd rfl f1
      | cons c f => exact includePath_file hr hl
  · rintro rfl
    by_cases h1 : IgnoredLine line
    · rw [(topLine_ignored line).mpr h1]; exact .ignored h1
    by_cases h2 : HeaderLine line
    · rw [(topLine_xact line).mpr h2]; exact .xact h2
    by_cases h3 : line.head? = some ' ' ∨ line.head? = some '\t'
    · rw [topLine_indented line h3]; exact .indented h3
    have hg : GeneralLine line := ⟨h1, h2, fun c hc =>
      ⟨fun e => h3 (Or.inl (e ▸ hc)), fun e => h3 (Or.inr (e ▸ hc))⟩⟩
    rw [topLine_general hg, generalDirective]
    obtain ⟨w, rest, hw⟩ : ∃ w rest, nextWord line = (w, rest) := ⟨_, _, rfl⟩
    rw [hw]
    simp only
    cases w with
    | nil => exact .nothing hg ((nextWord_nil_iff line).mp (by rw [hw]))
    | cons c w =>
      have hf := (firstWord_iff _ _ _).mpr ⟨by simp, hw⟩
      simp only
      split
      · rename_i hc
        subst hc
        split
        · rename_i hi
          rw [hi] at hf
          split
          · rename_i hn
            exact .noName hg hf ((nextWord_nil_iff rest).mp hn)
          · rename_i file hn
            have hff : FirstWord rest (nextWord rest).1 (nextWord rest).2 := (firstWord_iff _ _ _).mpr ⟨hn, rfl⟩
            by_cases hr : RootPath (nextWord rest).1
            · rw [includePath_root hr]; exact .root hg hf hff hr
            · by_cases hl : LooseName (nextWord rest).1
              · rw [includePath_loose hl]; exact .skipped hg hf hff hl
              · rw [includePath_file hr hl]; exact .file hg hf hff hr hl
        · rename_i hi
          split
          · rename_i hm
            rw [hm] at hf
            exact .imports hg hf
          · rename_i hm
            exact .price hg hf hi hm
      · rename_i hc
        exact .other hg hf hc

/-! ### price lines -/

theorem priceElement_iff (text s rest : Str) : PriceElement text s rest ↔ scanPriceElement (trimStart text) = (s, rest) := by
  unfold PriceElement
  simp only [skip_iff, exists_eq_left]
  rw [longest_iff (p := fun c => !(c == ' ' || c == '\t')) (by simp)]
  simp only [scanPriceElement, splitAtFirst, Prod.mk.injEq]
  constructor
  · rintro ⟨h1, h2⟩; exact ⟨h1.symm, h2.symm⟩
  · rintro ⟨h1, h2⟩; exact ⟨h1.symm, h2.symm⟩

theorem priceParts_iff {x : Char} {text : Str} (hx : x.toNat < 128) (d t c q p : Str) :
    PriceParts text d t c q p ↔ scanPriceDirective (x :: text) = .ok (d, t, c, q, p) := by
  unfold scanPriceDirective PriceParts
  simp only [dropBytes_one x _ ((utf8Size_one x).mpr hx), bind, Except.bind, priceElement_iff, skip_iff]
  obtain ⟨d0, r1, e1⟩ : ∃ d0 r1, scanPriceElement (trimStart text) = (d0, r1) := ⟨_, _, rfl⟩
  rw [e1]
  simp only
  cases h2 : trimStart r1 with
  | nil =>
    simp only [reduceCtorEq, iff_false]
    rintro ⟨r1', r2, r3, r4, r5, g1, g2, g3, _⟩
    simp only [Prod.mk.injEq] at g1
    rw [← g1.2, h2] at g2
    exact g3 g2
  | cons y r2 =>
    simp only
    have hi : trimStart (y :: r2) = y :: r2 := by rw [← h2, trimStart_idem]
    constructor
    · rintro ⟨r1', r2', r3, r4, r5, g1, g2, g3, g4, g5, g6, r6, g7⟩
      simp only [Prod.mk.injEq] at g1
      obtain ⟨rfl, rfl⟩ := g1
      rw [h2] at g2
      subst g2
      rcases g4 with ⟨g4, rfl, rfl⟩ | ⟨g4, g8⟩
      · have := g4 y rfl
        simp only [this, Bool.false_eq_true, if_false, g5, g6, g7]
      · have := g4 y rfl
        rw [hi] at g8
        simp only [this, if_true, g8, g5, g6, g7]
    · intro h
      cases hy : isDig y with
      | false =>
        simp only [hy, Bool.false_eq_true, if_false, Except.ok.injEq, Prod.mk.injEq] at h
        obtain ⟨rfl, rfl, rfl, rfl, rfl⟩ := h
        exact ⟨_, _, _, _, _, rfl, h2.symm, by simp, Or.inl ⟨by simp [hy], rfl, rfl⟩, rfl, rfl, _, rfl⟩
      | true =>
        simp only [hy, if_true, Except.ok.injEq, Prod.mk.injEq] at h
        obtain ⟨rfl, rfl, rfl, rfl, rfl⟩ := h
        exact ⟨_, _, _, _, _, rfl, h2.symm, by simp, Or.inr ⟨by simp [hy], by rw [hi]⟩, rfl, rfl, _, rfl⟩

theorem priceLineParts_iff (line d t c q p : Str) :
    PriceLineParts line d t c q p ↔ scanPriceDirective line = .ok (d, t, c, q, p) := by
  constructor
  · rintro ⟨x, text, rfl, hx, h⟩
    exact (priceParts_iff hx d t c q p).mp h
  · intro h
    cases line with
    | nil => cases h
    | cons x text =>
      by_cases hx : x.toNat < 128
      · exact ⟨x, text, rfl, hx, (priceParts_iff hx d t c q p).mpr h⟩
      · unfold scanPriceDirective at h
        have : ¬ x.utf8Size ≤ 1 := by
          have h1 := utf8Size_one x
          have h2 := x.utf8Size_pos
          omega
        simp [dropBytes, this, bind, Except.bind] at h

theorem priceTime_iff (t : Str) (x : Time) :
    PriceTime t x ↔ (if t = [] then some Time.midnight else Chrono.parseTime t) = some x := by
  unfold PriceTime
  rw [← parseTime_iff]
  by_cases h : t = []
  · simp [h, eq_comm]
  · simp [h]

/-- A price line is one line of calls to the pool. -/
theorem price_run {line d t c q p : Str} {x : Date} {y : Time} {n : Dec} (h : PriceLineParts line d t c q p)
    (hd : DayText d x) (ht : PriceTime t y) (hq : Numeral q n) (pool : Pool) :
    c ≠ [] ∧ ∃ k, ((pool.findOrCreate c none).1.findOrCreate p none).1.find c = some k ∧
      pool.parsePriceDirective line = ((pool.findOrCreate c none).1.findOrCreate p none).1.addPrice (some c) ⟨x, y⟩
        ⟨n, symbolOf p⟩ := by
  have hs := (priceLineParts_iff _ _ _ _ _ _).mp h
  have hc : c ≠ [] := by
    intro hc
    have := (C02_parse_exact _ _).mpr hq
    rw [scanPrice_commodity hs hc, show Dec.fromStr [] = none by decide] at this
    cases this
  obtain ⟨k, hk⟩ := Option.isSome_iff_exists.mp (find_findOrCreate_self pool hc none)
  refine ⟨hc, k, (Pool.quiet_findOrCreate (pool.findOrCreate c none).1 p none).later.find hk, ?_⟩
  unfold Pool.parsePriceDirective
  rw [hs, res_bind_ok]
  simp only [(parseDate_iff _ _).mpr hd, (priceTime_iff _ _).mp ht, (C02_parse_exact _ _).mpr hq]
  have e1 : pool.findOrCreate c none = ((pool.findOrCreate c none).1, some c) :=
    Prod.ext rfl (by rw [findOrCreate_pointer, if_neg hc])
  have e2 : ∀ p' : Pool, p'.findOrCreate p none = ((p'.findOrCreate p none).1, symbolOf p) := fun p' =>
    Prod.ext rfl (findOrCreate_pointer _ _ _)
  rw [e1]
  simp only
  rw [e2]

def Recording.ops (r : Recording) : List PoolOp :=
  [.findOrCreate r.src none, .findOrCreate r.dst none, .addPrice r.src r.time ⟨r.qty, some r.dst⟩]

theorem priceSays_run {line : Str} {r : Recording} (h : PriceSays line r) (pool : Pool) :
    ∃ pool', pool.parsePriceDirective line = .ok pool' ∧ runOps pool r.ops = .ok pool' := by
  obtain ⟨d, t, q, h1, h2, h3, h4, h5, h6⟩ := h
  obtain ⟨hc, k, hk, e⟩ := price_run h1 h2 h3 h4 pool
  obtain ⟨k', hk'⟩ := Option.isSome_iff_exists.mp (find_findOrCreate_self (pool.findOrCreate r.src none).1 h6 none)
  rw [e, symbolOf, if_neg h6]
  refine ⟨_, Pool.addPrice_eq hk hk' h5 _ _, ?_⟩
  simp only [Recording.ops, runOps, PoolOp.run, bind, Except.bind]
  rw [Pool.addPrice_eq hk hk' h5]

theorem priceRefused_run {line : Str} {k : Panic} (h : PriceRefused line k) (pool : Pool) :
    pool.parsePriceDirective line = .error k := by
  have hdate : ∀ s, (∀ x, ¬ DayText s x) → Chrono.parseDate s = none := by
    intro s h
    cases hs : Chrono.parseDate s with
    | none => rfl
    | some x => exact absurd ((parseDate_iff _ _).mp hs) (h x)
  cases h with
  | @wide x text h =>
    have : ¬ x.utf8Size ≤ 1 := by
      have h1 := utf8Size_one x
      have h2 := x.utf8Size_pos
      omega
    simp [Pool.parsePriceDirective, scanPriceDirective, dropBytes, this, bind, Except.bind]
  | @short x text d r1 h hd hb =>
    rw [priceElement_iff] at hd
    unfold Pool.parsePriceDirective scanPriceDirective
    rw [dropBytes_one x _ ((utf8Size_one x).mpr h), res_bind_ok, hd]
    simp only [(trimStart_nil_iff r1).mpr hb, bind, Except.bind]
  | date h hd =>
    unfold Pool.parsePriceDirective
    rw [(priceLineParts_iff _ _ _ _ _ _).mp h, res_bind_ok]
    simp only [hdate _ hd]
  | @time _ d t _ _ _ _ h hd ht =>
    unfold Pool.parsePriceDirective
    rw [(priceLineParts_iff _ _ _ _ _ _).mp h, res_bind_ok]
    have : (if t = [] then some Time.midnight else Chrono.parseTime t) = none := by
      cases hs : (if t = [] then some Time.midnight else Chrono.parseTime t) with
      | none => rfl
      | some y => exact absurd ((priceTime_iff _ _).mpr hs) (ht y)
    simp only [(parseDate_iff _ _).mpr hd, this]
  | @number _ d t c q p _ _ h hd ht hq =>
    unfold Pool.parsePriceDirective
    rw [(priceLineParts_iff _ _ _ _ _ _).mp h, res_bind_ok]
    have : Dec.fromStr q = none := by
      cases hs : Dec.fromStr q with
      | none => rfl
      | some y => exact absurd ((C02_parse_exact _ _).mp hs) (hq y)
    simp only [(parseDate_iff _ _).mpr hd, (priceTime_iff _ _).mp ht, this]
  | itself h hd ht hq =>
    obtain ⟨hc, k, hk, e⟩ := price_run h hd ht hq pool
    rw [e, Pool.addPrice]
    simp only [Pool.deref, hk, bind, Except.bind, symbolOf, if_neg hc, if_true]
  | bare h hd ht hq =>
    obtain ⟨hc, k, hk, e⟩ := price_run h hd ht hq pool
    rw [e, Pool.addPrice]
    simp only [Pool.deref, hk, bind, Except.bind, symbolOf, if_true, reduceCtorEq, if_false]

/-- Every price line says a price or is refused. -/
theorem price_total {line : Str} (hne : line ≠ []) : (∃ r, PriceSays line r) ∨ ∃ k, PriceRefused line k := by
  cases line with
  | nil => exact absurd rfl hne
  | cons x text =>
    by_cases hx : x.toNat < 128
    rotate_left
    · exact Or.inr ⟨_, .wide (by omega)⟩
    cases hs : scanPriceDirective (x :: text) with
    | error e =>
      right
      refine ⟨_, .short hx ((priceElement_iff text _ _).mpr rfl) ?_⟩
      rw [← trimStart_nil_iff]
      unfold scanPriceDirective at hs
      rw [dropBytes_one x _ ((utf8Size_one x).mpr hx), res_bind_ok] at hs
      revert hs
      simp only
      split
      · rename_i h; intro _; exact h
      · intro h; cases h
    | ok r =>
      obtain ⟨d, t, c, q, p⟩ := r
      have hp := (priceLineParts_iff _ _ _ _ _ _).mpr hs
      by_cases hd : ∃ x, DayText d x
      rotate_left
      · exact Or.inr ⟨_, .date hp (fun x h => hd ⟨x, h⟩)⟩
      obtain ⟨x, hd⟩ := hd
      by_cases ht : ∃ y, PriceTime t y
      rotate_left
      · exact Or.inr ⟨_, .time hp hd (fun y h => ht ⟨y, h⟩)⟩
      obtain ⟨y, ht⟩ := ht
      by_cases hq : ∃ n, Numeral q n
      rotate_left
      · exact Or.inr ⟨_, .number hp hd ht (fun y h => hq ⟨y, h⟩)⟩
      obtain ⟨n, hq⟩ := hq
      by_cases hc : c = p
      · subst hc
        exact Or.inr ⟨_, .itself hp hd ht hq⟩
      by_cases hp0 : p = []
      · subst hp0
        exact Or.inr ⟨_, .bare hp hd ht hq⟩
      exact Or.inl ⟨⟨c, p, ⟨x, y⟩, n⟩, d, t, q, hp, hd, ht, hq, hc, hp0⟩

theorem priceSays_unique {line : Str} {r r' : Recording} (h : PriceSays line r) (h' : PriceSays line r') : r = r' := by
  obtain ⟨d, t, q, h1, h2, h3, h4, _⟩ := h
  obtain ⟨d', t', q', h1', h2', h3', h4', _⟩ := h'
  rw [priceLineParts_iff] at h1 h1'
  rw [h1] at h1'
  simp only [Except.ok.injEq, Prod.mk.injEq] at h1'
  obtain ⟨rfl, rfl, e1, rfl, e2⟩ := h1'
  have e3 := dayText_unique h2 h2'
  have e4 := (priceTime_iff _ _).mp h3
  rw [(priceTime_iff _ _).mp h3'] at e4
  have e5 := (C02_parse_exact _ _).mpr h4
  rw [(C02_parse_exact _ _).mpr h4'] at e5
  obtain ⟨a, b, ⟨dd, tt⟩, n⟩ := r
  obtain ⟨a', b', ⟨dd', tt'⟩, n'⟩ := r'
  simp only [Option.some.injEq] at e1 e2 e3 e4 e5
  subst e1 e2 e3 e4 e5
  rfl

/-! ### lines of transactions -/

theorem noDay_iff (s : Str) : Chrono.parseDate s = none ↔ ∀ x, ¬ DayText s x := by
  cases hs : Chrono.parseDate s with
  | none => simp only [true_iff]; intro x hx; rw [(parseDate_iff _ _).mpr hx] at hs; cases hs
  | some x =>
    simp only [reduceCtorEq, false_iff]
    intro hn
    exact hn x ((parseDate_iff _ _).mp hs)

/-- Every posting line says something or is refused. -/
theorem entry_or_unread (text : Str) : (∃ e, EntryText text e) ∨ ∃ k, PostUnread text k := by
  cases hs : scanPost text with
  | error k => exact Or.inr ⟨k, .scan ((postPart_iff _ _).mpr hs)⟩
  | ok t =>
    have ht := (postPart_iff _ _).mpr hs
    by_cases hd : t.priceDate = [] ∨ ∃ d, DayText t.priceDate d
    · obtain ⟨e, he⟩ := partsSay_total hd
      exact Or.inl ⟨e, t, ht, he⟩
    · exact Or.inr ⟨_, .date ht (fun h => hd (Or.inl h)) (fun d h => hd (Or.inr ⟨d, h⟩))⟩

theorem unread_unique {text : Str} {k k' : Panic} (h : PostUnread text k) (h' : PostUnread text k') : k = k' := by
  cases h with
  | scan h =>
    cases h' with
    | scan h' => rw [postPart_iff] at h h'; rw [h] at h'; injection h'
    | date h' => rw [postPart_iff] at h h'; rw [h] at h'; cases h'
  | date h =>
    cases h' with
    | scan h' => rw [postPart_iff] at h h'; rw [h] at h'; cases h'
    | date h' => rfl

theorem entry_not_unread {text : Str} {e : Entry} {k : Panic} (h : EntryText text e) (h' : PostUnread text k) : False := by
  obtain ⟨t, h1, h2⟩ := h
  rw [postPart_iff] at h1
  cases h' with
  | scan h' => rw [postPart_iff] at h'; rw [h'] at h1; cases h1
  | date h' hd hn =>
    rw [postPart_iff] at h'
    rw [h'] at h1
    injection h1 with h1
    subst h1
    rcases h2.date with ⟨a, _⟩ | ⟨d, a, _⟩
    · exact hd a
    · exact hn d a

theorem unread_trim {text : Str} {k : Panic} : PostUnread (trimStart text) k ↔ PostUnread text k := by
  constructor
  · intro h
    cases h with
    | scan h => exact .scan (postPart_trim.mp h)
    | date h hd hn => exact .date (postPart_trim.mp h) hd hn
  · intro h
    cases h with
    | scan h => exact .scan (postPart_trim.mpr h)
    | date h hd hn => exact .date (postPart_trim.mpr h) hd hn

theorem parsePost_unread {text : Str} {k : Panic} (h : PostUnread text k) (i : Nat) {j : Journal} (hw : j.master.WF) :
    parsePost text i j = .error k := by
  unfold parsePost
  cases h with
  | scan h => rw [(postPart_iff _ _).mp h]; rfl
  | @date t h hd hn =>
    rw [(postPart_iff _ _).mp h, res_bind_ok]
    unfold Journal.registerAccount
    rw [if_neg (postPart_account_ne h), Account.findOrCreate_create _ _ hw]
    have h2 : ∀ p, parseAnnotation t.priceDate t.priceQuantity t.priceCommodity p = .error .dateParse := by
      intro p
      unfold parseAnnotation
      simp only [hd, if_false, (noDay_iff _).mpr hn, bind, Except.bind]
    obtain ⟨a, st, ha⟩ := NumberSays.total t.quantity t.symbol
    unfold parsePostAmounts
    simp only [ha.parts, h2, bind, Except.bind]

theorem postingLine_classify {text : Str} (h : PostingLine (' ' :: text)) :
    classify (' ' :: text) = .post (trimStart text) := by
  obtain ⟨sp, c, rest, e, h1, h2, h3⟩ := h
  have e1 : trimStart (' ' :: text) = c :: rest := by
    rw [e, List.cons_append]
    exact trimStart_skip (' ' :: sp) c rest (by
      intro x hx
      rcases List.mem_cons.mp hx with rfl | hx
      · decide
      · exact h1 x hx) h2
  have e2 : trimStart text = c :: rest := by rw [← e1]; rfl
  simp only [classify, e1, if_neg h3, e2]

theorem BodyRefused.classify {line : Str} {k : Panic} (h : BodyRefused line k) :
    (Parser.classify line = .bad ∧ k = .badXactLine) ∨ ∃ text, Parser.classify line = .post text ∧ PostUnread text k := by
  cases h with
  | outside h =>
    left
    refine ⟨?_, rfl⟩
    unfold Parser.classify
    split
    · exact absurd rfl (h _ rfl).1
    · exact absurd rfl (h _ rfl).2.1
    · exact absurd rfl (h _ rfl).2.2
    · rfl
  | @posting text _ hp h => exact Or.inr ⟨trimStart text, postingLine_classify hp, unread_trim.mpr h⟩

theorem readBody_refused {line : Str} {k : Panic} (h : BodyRefused line k) (i : Nat) (rest : Source) {j : Journal}
    (hw : j.master.WF) : readBody i (some line :: rest) j = .error k := by
  rw [readBody]
  rcases h.classify with ⟨h1, rfl⟩ | ⟨text, h1, h'⟩
  · rw [h1]
  · rw [h1]
    simp only [parsePost_unread h' i hw, bind, Except.bind]

theorem bodyRefused_unique {line : Str} {k k' : Panic} (h : BodyRefused line k) (h' : BodyRefused line k') : k = k' := by
  rcases h.classify with ⟨a, rfl⟩ | ⟨text, a, b⟩ <;> rcases h'.classify with ⟨a', rfl⟩ | ⟨text', a', b'⟩ <;>
    rw [a] at a'
  · cases a'
  · cases a'
  · injection a' with a'
    subst a'
    exact unread_unique b b'

/-- Every line in a transaction ends it, is a comment or a posting, or is refused. -/
theorem bodyLine_total (line : Str) :
    EndLine line ∨ (∃ t, CommentLine line t) ∨ (∃ e, EntryLine line e) ∨ ∃ k, BodyRefused line k := by
  cases hc : classify line with
  | fin => exact Or.inl ((classify_fin line).mp hc)
  | note =>
    refine Or.inr (Or.inl ?_)
    cases line with
    | nil => cases hc
    | cons c text =>
      have h1 : c = ' ' := by
        by_contra hne
        by_cases hr : c = '\r'
        · subst hr; cases hc
        by_cases hn : c = '\n'
        · subst hn; cases hc
        simp only [classify] at hc
        split at hc <;> simp_all
      subst h1
      obtain ⟨cs, ht⟩ := classify_note hc
      have ht' : trimStart text = ';' :: cs := by rw [← ht]; rfl
      refine ⟨trim cs, text.takeWhile isWs, cs, ?_, fun c hc => mem_takeWhile_all hc, rfl⟩
      rw [← ht', List.cons_append]
      exact congrArg _ (List.takeWhile_append_dropWhile).symm
  | bad =>
    refine Or.inr (Or.inr (Or.inr ⟨_, .outside fun c hc' => ?_⟩))
    cases line with
    | nil => cases hc'
    | cons d text =>
      obtain rfl : d = c := by simpa using hc'
      refine ⟨?_, ?_, ?_⟩
      · rintro rfl
        simp only [classify] at hc
        split at hc
        · cases hc
        · split at hc <;> cases hc
      · rintro rfl; cases hc
      · rintro rfl; cases hc
  | post input =>
    cases line with
    | nil => cases hc
    | cons c text =>
      have h1 : c = ' ' := by
        by_contra hne
        by_cases hr : c = '\r'
        · subst hr; cases hc
        by_cases hn : c = '\n'
        · subst hn; cases hc
        simp only [classify] at hc
        split at hc <;> simp_all
      subst h1
      have hp : PostingLine (' ' :: text) := by
        obtain ⟨c, cs, rfl, h1, h2⟩ := classify_post hc
        have ht : trimStart text = c :: cs := by
          simp only [classify] at hc
          split at hc
          · cases hc
          · rename_i c' cs' ht
            split at hc
            · cases hc
            · injection hc with hc
              rw [← hc, ← ht]; rfl
        refine ⟨text.takeWhile isWs, c, cs, ?_, fun c hc => mem_takeWhile_all hc, h1, h2⟩
        rw [← ht, List.cons_append]
        exact congrArg _ (List.takeWhile_append_dropWhile).symm
      rcases entry_or_unread text with ⟨e, h⟩ | ⟨k, h⟩
      · exact Or.inr (Or.inr (Or.inl ⟨e, text, rfl, h⟩))
      · exact Or.inr (Or.inr (Or.inr ⟨k, .posting hp h⟩))

theorem commentLine_unique {line t t' : Str} (h : CommentLine line t) (h' : CommentLine line t') : t = t' := by
  obtain ⟨r, h1, h2, _⟩ := h.trim
  obtain ⟨r', h1', h2', _⟩ := h'.trim
  rw [h1] at h1'
  injection h1' with _ h1'
  rw [h2, h2', h1']

theorem entryLine_unique {line : Str} {e e' : Entry} (h : EntryLine line e) (h' : EntryLine line e') : e = e' := by
  obtain ⟨t, rfl, h⟩ := h
  obtain ⟨t', e1, h'⟩ := h'
  injection e1 with _ e1
  subst e1
  exact entryText_unique h h'

theorem afterXact_unique {tail r r' : Source} (h : AfterXact tail r) (h' : AfterXact tail r') : r = r' := by
  rcases h with ⟨rfl, rfl⟩ | ⟨l, rfl, _⟩ | rfl <;> rcases h' with ⟨a, rfl⟩ | ⟨l', a, _⟩ | a <;> simp_all

theorem afterXact_not_refused {tail r rest : Source} {line : Str} {k : Panic} (h : AfterXact tail r)
    (h' : tail = some line :: rest) (hr : BodyRefused line k) : False := by
  rcases h with ⟨rfl, _⟩ | ⟨l, rfl, he⟩ | rfl
  · cases h'
  · injection h' with h' _
    injection h' with h'
    subst h'
    have := (classify_fin l).mpr he
    rcases hr.classify with ⟨h, _⟩ | ⟨_, h, _⟩ <;> rw [this] at h <;> cases h
  · cases h'

/-- The lines after a header say one thing. -/
theorem bodyReads_total (src : Source) : ∃ ts es tail, BodyReads src ts es tail := by
  induction src with
  | nil => exact ⟨_, _, _, .stop (Or.inl ⟨[], Or.inl ⟨rfl, rfl⟩⟩)⟩
  | cons l src ih =>
    cases l with
    | none => exact ⟨_, _, _, .stop (Or.inl ⟨src, Or.inr (Or.inr rfl)⟩)⟩
    | some line =>
      obtain ⟨ts, es, tail, ih⟩ := ih
      rcases bodyLine_total line with h | ⟨t, h⟩ | ⟨e, h⟩ | ⟨k, h⟩
      · exact ⟨_, _, _, .stop (Or.inl ⟨src, Or.inr (Or.inl ⟨line, rfl, h⟩)⟩)⟩
      · exact ⟨_, _, _, .comment h ih⟩
      · exact ⟨_, _, _, .posting h ih⟩
      · exact ⟨_, _, _, .stop (Or.inr ⟨line, src, k, rfl, h⟩)⟩

/-- What the parser takes the line for at which the lines of a transaction stop. -/
theorem stop_classify {line : Str} {src : Source}
    (h : (∃ rest, AfterXact (some line :: src) rest) ∨ ∃ l rest k, some line :: src = some l :: rest ∧ BodyRefused l k) :
    classify line = .fin ∨ classify line = .bad ∨ ∃ text k, classify line = .post text ∧ PostUnread text k := by
  rcases h with ⟨rest, ⟨h, _⟩ | ⟨l, h, he⟩ | h⟩ | ⟨l, rest, k, h, hr⟩
  · cases h
  · injection h with h _
    injection h with h
    subst h
    exact Or.inl ((classify_fin line).mpr he)
  · cases h
  · injection h with h _
    injection h with h
    subst h
    rcases hr.classify with ⟨a, _⟩ | ⟨t, a, b⟩
    · exact Or.inr (Or.inl a)
    · exact Or.inr (Or.inr ⟨t, k, a, b⟩)

theorem stop_not_comment {line t : Str} {src : Source}
    (h : (∃ rest, AfterXact (some line :: src) rest) ∨ ∃ l rest k, some line :: src = some l :: rest ∧ BodyRefused l k)
    (hc : CommentLine line t) : False := by
  obtain ⟨_, _, _, hn⟩ := hc.trim
  rcases stop_classify h with a | a | ⟨_, _, a, _⟩ <;> rw [hn] at a <;> cases a

theorem stop_not_entry {line : Str} {e : Entry} {src : Source}
    (h : (∃ rest, AfterXact (some line :: src) rest) ∨ ∃ l rest k, some line :: src = some l :: rest ∧ BodyRefused l k)
    (he : EntryLine line e) : False := by
  obtain ⟨text, hc, ht⟩ := he.classify
  rcases stop_classify h with a | a | ⟨_, _, a, b⟩ <;> rw [hc] at a
  · cases a
  · cases a
  · injection a with a
    subst a
    exact entry_not_unread ht b

theorem comment_not_entry {line t : Str} {e : Entry} (hc : CommentLine line t) (he : EntryLine line e) : False := by
  obtain ⟨text, h, _⟩ := he.classify
  obtain ⟨_, _, _, hn⟩ := hc.trim
  rw [hn] at h; cases h

theorem bodyReads_unique {src tail tail' : Source} {ts ts' : List Str} {es es' : List Entry} (h : BodyReads src ts es tail)
    (h' : BodyReads src ts' es' tail') : ts = ts' ∧ es = es' ∧ tail = tail' := by
  induction h generalizing ts' es' tail' with
  | stop h =>
    cases h' with
    | stop => exact ⟨rfl, rfl, rfl⟩
    | comment hc => exact (stop_not_comment h hc).elim
    | posting he => exact (stop_not_entry h he).elim
  | comment hc _ ih =>
    cases h' with
    | stop h => exact (stop_not_comment h hc).elim
    | comment hc' h' =>
      obtain ⟨rfl, rfl, rfl⟩ := ih h'
      exact ⟨by rw [commentLine_unique hc hc'], rfl, rfl⟩
    | posting he => exact (comment_not_entry hc he).elim
  | posting he _ ih =>
    cases h' with
    | stop h => exact (stop_not_entry h he).elim
    | comment hc => exact (comment_not_entry hc he).elim
    | posting he' h' =>
      obtain ⟨rfl, rfl, rfl⟩ := ih h'
      exact ⟨rfl, by rw [entryLine_unique he he'], rfl⟩

theorem BodyReads.stops {src tail : Source} {ts : List Str} {es : List Entry} (h : BodyReads src ts es tail) :
    (∃ rest, AfterXact tail rest) ∨ ∃ line rest k, tail = some line :: rest ∧ BodyRefused line k := by
  induction h with
  | stop h => exact h
  | comment _ _ ih => exact ih
  | posting _ _ ih => exact ih

theorem BodyReads.suffix {src tail : Source} {ts : List Str} {es : List Entry} (h : BodyReads src ts es tail) :
    tail.length ≤ src.length := by
  induction h with
  | stop h => exact Nat.le_refl _
  | comment _ _ ih => simp; omega
  | posting _ _ ih => simp; omega

/-- The same in blocks of lines, as in `XactLines`. -/
theorem BodyReads.blocks {src tail : Source} {ts : List Str} {es : List Entry} (h : BodyReads src ts es tail) :
    ∃ cs blocks, src = (cs ++ blocks.flatten).map some ++ tail ∧ List.Forall₂ CommentLine cs ts ∧
      List.Forall₂ EntryBlock blocks es := by
  induction h with
  | stop h => exact ⟨[], [], rfl, .nil, .nil⟩
  | @comment line t _ _ _ _ hc _ ih =>
    obtain ⟨cs, blocks, rfl, h1, h2⟩ := ih
    exact ⟨line :: cs, blocks, rfl, .cons hc h1, h2⟩
  | @posting line e _ _ _ _ he _ ih =>
    obtain ⟨cs, blocks, rfl, h1, h2⟩ := ih
    refine ⟨[], (line :: cs) :: blocks, by simp, .nil, .cons ⟨line, cs, rfl, ?_, h1⟩ h2⟩
    have : e.comments = [] := by
      obtain ⟨_, _, h⟩ := he
      exact h.no_comments
    have e1 : ({ e with comments := [] } : Entry) = e := by rw [← this]
    simp only
    rw [e1]
    exact he

theorem bodyReads_of_blocks {cs ts : List Str} {blocks : List (List Str)} {es : List Entry} {tail rest : Source}
    (h1 : List.Forall₂ CommentLine cs ts) (h2 : List.Forall₂ EntryBlock blocks es) (ht : AfterXact tail rest) :
    BodyReads ((cs ++ blocks.flatten).map some ++ tail) ts es tail := by
  have lead : ∀ {cs ts : List Str}, List.Forall₂ CommentLine cs ts → ∀ {src tail : Source} {ts' : List Str}
      {es : List Entry}, BodyReads src ts' es tail → BodyReads (cs.map some ++ src) (ts ++ ts') es tail := by
    intro cs ts h
    induction h with
    | nil => intro _ _ _ _ h; exact h
    | cons hc _ ih => intro _ _ _ _ h; exact .comment hc (ih h)
  have body : BodyReads (blocks.flatten.map some ++ tail) [] es tail := by
    clear h1
    induction h2 with
    | nil => exact .stop (Or.inl ⟨rest, ht⟩)
    | @cons block e blocks es he _ ih =>
      obtain ⟨line, cs', rfl, hl, hc⟩ := he
      have := lead hc ih
      rw [List.append_nil] at this
      have := BodyReads.posting hl this
      simpa using this
  have := lead h1 body
  rw [List.append_nil] at this
  simpa using this

/-! ### texts -/

theorem header_total {line : Str} (h : HeaderLine line) :
    (∃ d a p n, ∀ cs es, HeaderSays line ⟨d, a, p, n, cs, es⟩) ∨ ∃ k, HeaderRefused line k := by
  obtain ⟨d, a, p, n, ht⟩ := tokenizeXactHeader_total (headerLine_ne h)
  have hp := (headerPart_iff (headerLine_ne h) d a p n).mpr ht
  by_cases h1 : ∃ x, DayText d x
  rotate_left
  · exact Or.inr ⟨_, rfl, d, a, p, n, hp, Or.inl fun x hx => h1 ⟨x, hx⟩⟩
  obtain ⟨x, h1⟩ := h1
  by_cases h2 : a = []
  · exact Or.inl ⟨x, none, p, n, fun cs es => ⟨h, d, a, hp, h1, Or.inl ⟨h2, rfl⟩⟩⟩
  by_cases h3 : ∃ y, DayText a y
  · obtain ⟨y, h3⟩ := h3
    exact Or.inl ⟨x, some y, p, n, fun cs es => ⟨h, d, a, hp, h1, Or.inr ⟨y, rfl, h3⟩⟩⟩
  · exact Or.inr ⟨_, rfl, d, a, p, n, hp, Or.inr ⟨h2, fun y hy => h3 ⟨y, hy⟩⟩⟩

theorem headerSays_unique {line : Str} {w w' : Writing} (h : HeaderSays line w) (h' : HeaderSays line w') :
    w.date = w'.date ∧ w.aux = w'.aux ∧ w.payee = w'.payee ∧ w.note = w'.note := by
  obtain ⟨h0, d, a, h1, h2, h3⟩ := h
  obtain ⟨_, d', a', h1', h2', h3'⟩ := h'
  rw [headerPart_iff (headerLine_ne h0)] at h1 h1'
  rw [h1] at h1'
  simp only [Except.ok.injEq, Prod.mk.injEq] at h1'
  obtain ⟨rfl, rfl, e1, e2⟩ := h1'
  refine ⟨dayText_unique h2 h2', ?_, e1, e2⟩
  rcases h3 with ⟨b, c⟩ | ⟨x, b, c⟩ <;> rcases h3' with ⟨b', c'⟩ | ⟨x', b', c'⟩
  · rw [c, c']
  · exact absurd b (dayText_ne c')
  · exact absurd b' (dayText_ne c)
  · rw [b, b', dayText_unique c c']

theorem header_not_refused {line : Str} {w : Writing} {k : Panic} (h : HeaderSays line w) (h' : HeaderRefused line k) : False := by
  have h1 := (C90_header_refused h.1 Journal.new k).mpr h'
  rw [createXact_written h] at h1
  cases h1

theorem topPart_unique {line : Str} {t t' : TopLine} (h : TopPart line t) (h' : TopPart line t') : t = t' := by
  rw [topPart_iff] at h h'
  rw [← h, ← h']

theorem topPart_price_ne {line : Str} (h : TopPart line .price) : line ≠ [] := by
  rintro rfl
  rw [topPart_iff] at h
  cases h

theorem HeaderSays.top {line : Str} {w : Writing} (h : HeaderSays line w) : TopPart line .xact := .xact h.1

/-- Every source says something. -/
theorem sourceSays_total {inc : Str → List Item → Ending → Prop} (hinc : ∀ f, ∃ is e, inc f is e) (src : Source) :
    ∃ is e, SourceSays inc src is e := by
  induction hn : src.length using Nat.strong_induction_on generalizing src with
  | _ n ih =>
    cases src with
    | nil => exact ⟨_, _, .nil⟩
    | cons l rest =>
      cases l with
      | none => exact ⟨_, _, .unreadable⟩
      | some line =>
        have hl : rest.length < n := by rw [← hn]; simp
        obtain ⟨is, e, hr⟩ := ih _ hl rest rfl
        obtain ⟨t, ht⟩ : ∃ t, TopPart line t := ⟨_, (topPart_iff _ _).mpr rfl⟩
        cases t with
        | ignored => exact ⟨_, _, .ignored ht hr⟩
        | skipped => exact ⟨_, _, .skipped ht hr⟩
        | indented => exact ⟨_, _, .indented ht⟩
        | fails k => exact ⟨_, _, .refused ht⟩
        | price =>
          rcases price_total (topPart_price_ne ht) with ⟨r, h⟩ | ⟨k, h⟩
          · exact ⟨_, _, .price ht h hr⟩
          · exact ⟨_, _, .badPrice ht h⟩
        | includeFile f =>
          obtain ⟨is', e', hi⟩ := hinc f
          by_cases he : e' = .done
          · subst he; exact ⟨_, _, .included ht hi hr⟩
          · exact ⟨_, _, .includedStop ht hi he⟩
        | xact =>
          have hh : HeaderLine line := (topLine_xact line).mp ((topPart_iff _ _).mp ht)
          rcases header_total hh with ⟨d, a, p, m, h⟩ | ⟨k, h⟩
          rotate_left
          · exact ⟨_, _, .badHeader ht h⟩
          obtain ⟨ts, es, tail, hb⟩ := bodyReads_total rest
          rcases hb.stops with ⟨rest', h2⟩ | ⟨bad, rest', k, rfl, h2⟩
          · have hle : rest'.length ≤ tail.length := by
              rcases h2 with ⟨rfl, rfl⟩ | ⟨_, rfl, _⟩ | rfl <;> simp
            have := hb.suffix
            obtain ⟨is', e', hr'⟩ := ih rest'.length (by omega) rest' rfl
            exact ⟨_, _, .xact (h ts es) hb h2 hr'⟩
          · exact ⟨_, _, .broken (h ts es) hb h2⟩

/-- What follows from the first line of a source. -/
theorem SourceSays.inv {inc : Str → List Item → Ending → Prop} {line : Str} {rest : Source} {is : List Item} {e : Ending}
    (h : SourceSays inc (some line :: rest) is e) :
    match topLine line with
    | .ignored => SourceSays inc rest is e
    | .skipped => SourceSays inc rest is e
    | .fails k => is = [] ∧ e = .stop k
    | .indented => is = [] ∧ e = .stop .indentedTopLevel
    | .price => (∃ r is', PriceSays line r ∧ SourceSays inc rest is' e ∧ is = .price r :: is') ∨
        ∃ k, PriceRefused line k ∧ is = [] ∧ e = .stop k
    | .includeFile f => (∃ i1 i2, inc f i1 .done ∧ SourceSays inc rest i2 e ∧ is = i1 ++ i2) ∨ (inc f is e ∧ e ≠ .done)
    | .xact => (∃ k, HeaderRefused line k ∧ is = [] ∧ e = .stop k) ∨
        ∃ w tail, HeaderSays line w ∧ BodyReads rest w.comments w.entries tail ∧
          ((∃ rest' is', AfterXact tail rest' ∧ SourceSays inc rest' is' e ∧ is = gapIn tail ++ .xact w :: is') ∨
            ∃ bad r k, tail = some bad :: r ∧ BodyRefused bad k ∧ is = [] ∧ e = .inside w k) := by
  have top := fun {t} (h : TopPart line t) => (topPart_iff line t).mp h
  cases h with
  | ignored h hr => rw [top h]; exact hr
  | skipped h hr => rw [top h]; exact hr
  | refused h => rw [top h]; exact ⟨rfl, rfl⟩
  | indented h => rw [top h]; exact ⟨rfl, rfl⟩
  | price h hp hr => rw [top h]; exact Or.inl ⟨_, _, hp, hr, rfl⟩
  | badPrice h hp => rw [top h]; exact Or.inr ⟨_, hp, rfl, rfl⟩
  | badHeader h hh => rw [top h]; exact Or.inl ⟨_, hh, rfl, rfl⟩
  | xact hh hb ht hr => rw [top hh.top]; exact Or.inr ⟨_, _, hh, hb, Or.inl ⟨_, _, ht, hr, rfl⟩⟩
  | broken hh hb ht => rw [top hh.top]; exact Or.inr ⟨_, _, hh, hb, Or.inr ⟨_, _, _, rfl, ht, rfl, rfl⟩⟩
  | included h hi hr => rw [top h]; exact Or.inl ⟨_, _, hi, hr, rfl⟩
  | includedStop h hi he => rw [top h]; exact Or.inr ⟨hi, he⟩

theorem priceSays_not_refused {line : Str} {r : Recording} {k : Panic} (h : PriceSays line r) (h' : PriceRefused line k) :
    False := by
  obtain ⟨p, h1, _⟩ := priceSays_run h Pool.empty
  rw [priceRefused_run h' Pool.empty] at h1
  cases h1

theorem priceRefused_unique {line : Str} {k k' : Panic} (h : PriceRefused line k) (h' : PriceRefused line k') : k = k' := by
  have h1 := priceRefused_run h Pool.empty
  rw [priceRefused_run h' Pool.empty] at h1
  injection h1 with h1
  exact h1.symm

/-- Every source says only one thing. -/
theorem sourceSays_unique {inc : Str → List Item → Ending → Prop}
    (hinc : ∀ f is is' e e', inc f is e → inc f is' e' → is = is' ∧ e = e') {src : Source} {is is' : List Item}
    {e e' : Ending} (h : SourceSays inc src is e) (h' : SourceSays inc src is' e') : is = is' ∧ e = e' := by
  induction hn : src.length using Nat.strong_induction_on generalizing src is is' e e' with
  | _ n ih =>
    cases src with
    | nil => cases h; cases h'; exact ⟨rfl, rfl⟩
    | cons l rest =>
      cases l with
      | none => cases h; cases h'; exact ⟨rfl, rfl⟩
      | some line =>
        have hl : rest.length < n := by rw [← hn]; simp
        have g := h.inv
        have g' := h'.inv
        revert g g'
        cases topLine line with
        | ignored => exact fun g g' => ih _ hl g g' rfl
        | skipped => exact fun g g' => ih _ hl g g' rfl
        | fails k => rintro ⟨rfl, rfl⟩ ⟨rfl, rfl⟩; exact ⟨rfl, rfl⟩
        | indented => rintro ⟨rfl, rfl⟩ ⟨rfl, rfl⟩; exact ⟨rfl, rfl⟩
        | price =>
          rintro (⟨r, i, a, b, rfl⟩ | ⟨k, a, rfl, rfl⟩) (⟨r', i', a', b', rfl⟩ | ⟨k', a', rfl, rfl⟩)
          · obtain ⟨rfl, rfl⟩ := ih _ hl b b' rfl
            exact ⟨by rw [priceSays_unique a a'], rfl⟩
          · exact (priceSays_not_refused a a').elim
          · exact (priceSays_not_refused a' a).elim
          · exact ⟨rfl, by rw [priceRefused_unique a a']⟩
        | includeFile f =>
          rintro (⟨i1, i2, a, b, rfl⟩ | ⟨a, b⟩) (⟨i1', i2', a', b', rfl⟩ | ⟨a', b'⟩)
          · obtain ⟨rfl, rfl⟩ := ih _ hl b b' rfl
            exact ⟨by rw [(hinc f _ _ _ _ a a').1], rfl⟩
          · exact absurd (hinc f _ _ _ _ a a').2.symm b'
          · exact absurd (hinc f _ _ _ _ a a').2 b
          · exact hinc f _ _ _ _ a a'
        | xact =>
          rintro (⟨k, a, rfl, rfl⟩ | ⟨w, tail, a, b, c⟩) (⟨k', a', rfl, rfl⟩ | ⟨w', tail', a', b', c'⟩)
          · exact ⟨rfl, by rw [a.1, a'.1]⟩
          · exact (header_not_refused a' a).elim
          · exact (header_not_refused a a').elim
          · obtain ⟨e1, e2, rfl⟩ := bodyReads_unique b b'
            obtain ⟨e4, e5, e6, e7⟩ := headerSays_unique a a'
            have ew : w = w' := by
              obtain ⟨a1, a2, a3, a4, a5, a6⟩ := w
              obtain ⟨b1, b2, b3, b4, b5, b6⟩ := w'
              simp only at e1 e2 e4 e5 e6 e7
              subst e1 e2 e4 e5 e6 e7
              rfl
            subst ew
            rcases c with ⟨r, i, c1, c2, rfl⟩ | ⟨bad, r, k, rfl, c2, rfl, rfl⟩ <;>
              rcases c' with ⟨r', i', c1', c2', rfl⟩ | ⟨bad', r', k', c0, c2', rfl, rfl⟩
            · obtain rfl := afterXact_unique c1 c1'
              have : r.length ≤ tail.length := by
                rcases c1 with ⟨rfl, rfl⟩ | ⟨_, rfl, _⟩ | rfl <;> simp
              have := b.suffix
              obtain ⟨rfl, rfl⟩ := ih r.length (by omega) c2 c2' rfl
              exact ⟨rfl, rfl⟩
            · exact (afterXact_not_refused c1 c0 c2').elim
            · exact (afterXact_not_refused c1' rfl c2).elim
            · injection c0 with c0 _
              injection c0 with c0
              subst c0
              exact ⟨rfl, by rw [bodyRefused_unique c2 c2']⟩

theorem saysUpTo_total (files : Files) (depth : Nat) (src : Source) : ∃ is e, SaysUpTo files depth src is e := by
  induction depth generalizing src with
  | zero =>
    refine sourceSays_total (fun f => ?_) src
    cases h : files f with
    | none => exact ⟨[], .done, rfl, Or.inl ⟨rfl, rfl⟩⟩
    | some s => exact ⟨[], _, rfl, Or.inr ⟨by simp, rfl⟩⟩
  | succ d ih =>
    refine sourceSays_total (fun f => ?_) src
    cases h : files f with
    | none => exact ⟨[], .done, Or.inl ⟨rfl, rfl, rfl⟩⟩
    | some s =>
      obtain ⟨is, e, h1⟩ := ih s
      exact ⟨is, e, Or.inr ⟨s, rfl, h1⟩⟩

theorem saysUpTo_unique (files : Files) (depth : Nat) {src : Source} {is is' : List Item} {e e' : Ending}
    (h : SaysUpTo files depth src is e) (h' : SaysUpTo files depth src is' e') : is = is' ∧ e = e' := by
  induction depth generalizing src is is' e e' with
  | zero =>
    refine sourceSays_unique ?_ h h'
    rintro f is is' e e' ⟨rfl, ⟨h1, rfl⟩ | ⟨h1, rfl⟩⟩ ⟨rfl, ⟨h2, rfl⟩ | ⟨h2, rfl⟩⟩
    · exact ⟨rfl, rfl⟩
    · exact absurd h1 h2
    · exact absurd h2 h1
    · exact ⟨rfl, rfl⟩
  | succ d ih =>
    refine sourceSays_unique ?_ h h'
    rintro f is is' e e' (⟨h1, rfl, rfl⟩ | ⟨s, h1, h2⟩) (⟨h1', rfl, rfl⟩ | ⟨s', h1', h2'⟩)
    · exact ⟨rfl, rfl⟩
    · rw [h1] at h1'; cases h1'
    · rw [h1] at h1'; cases h1'
    · rw [h1] at h1'
      injection h1' with h1'
      subst h1'
      exact ih h2 h2'

theorem filesSay_total (files : Files) (depth : Nat) (fs : List Str) : ∃ is e, FilesSay files depth fs is e := by
  induction fs with
  | nil => exact ⟨_, _, .nil⟩
  | cons f fs ih =>
    cases h : files f with
    | none => exact ⟨_, _, .missing h⟩
    | some src =>
      obtain ⟨is, e, h1⟩ := saysUpTo_total files depth src
      by_cases he : e = .done
      · subst he
        obtain ⟨is', e', h2⟩ := ih
        exact ⟨_, _, .read h h1 h2⟩
      · exact ⟨_, _, .stop h h1 he⟩

theorem filesSay_unique (files : Files) (depth : Nat) {fs : List Str} {is is' : List Item} {e e' : Ending}
    (h : FilesSay files depth fs is e) (h' : FilesSay files depth fs is' e') : is = is' ∧ e = e' := by
  induction h generalizing is' e' with
  | nil => cases h'; exact ⟨rfl, rfl⟩
  | missing h =>
    cases h' with
    | missing => exact ⟨rfl, rfl⟩
    | read h1 => rw [h] at h1; cases h1
    | stop h1 => rw [h] at h1; cases h1
  | read h hs _ ih =>
    cases h' with
    | missing h1 => rw [h] at h1; cases h1
    | read h1 hs' hr' =>
      rw [h] at h1
      injection h1 with h1
      subst h1
      obtain ⟨rfl, rfl⟩ := ih hr'
      exact ⟨by rw [(saysUpTo_unique files depth hs hs').1], rfl⟩
    | stop h1 hs' he =>
      rw [h] at h1
      injection h1 with h1
      subst h1
      exact absurd (saysUpTo_unique files depth hs hs').2.symm he
  | stop h hs he =>
    cases h' with
    | missing h1 => rw [h] at h1; cases h1
    | read h1 hs' hr' =>
      rw [h] at h1
      injection h1 with h1
      subst h1
      exact absurd (saysUpTo_unique files depth hs hs').2 he
    | stop h1 hs' he' =>
      rw [h] at h1
      injection h1 with h1
      subst h1
      exact saysUpTo_unique files depth hs hs'

end Ledger
