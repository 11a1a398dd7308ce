import Verif.Lemmas.Outcome
import Verif.Props.Lines
/-
C81 and C82: which journal texts are read, what a journal holds afterwards, and which prices it knows.
-/
namespace Ledger
open Ledger.Parser Ledger.Scanner Ledger.Cli Ledger.Finalize

/-! ### C81 -/

/-- C81: a text of transactions with numbers of everyday size is read exactly if none of them is faulty. -/
theorem C81_read_iff (files : Files) (depth : Nat) {text : Str} {lines : List Str} {ws : List Writing}
    (ht : LinesOf text lines) (hs : Says files depth lines ws) (hd : ∀ w ∈ ws, Everyday w) {j : Journal}
    (hj : j.Reachable) (hl : j.pool.OrdinaryLots) :
    (∃ j', parseText files depth text j = .ok j') ↔ ∀ w ∈ ws, ¬ Faulty w := by
  rcases parseText_decides files depth ht hs hd j ⟨hj.booked.wf, hj.pools, hl⟩ with
    ⟨j', _, _, h1, _, _, h4⟩ | ⟨e, he, hf⟩
  · exact ⟨fun _ => h4, fun _ => ⟨j', h1⟩⟩
  · obtain ⟨w, hw, hf⟩ := hf.faulty
    refine ⟨?_, fun h => absurd hf (h w hw)⟩
    rintro ⟨j', h⟩
    rw [he] at h; cases h

/-- C81: what the journal holds after a text is read. -/
theorem C81_outcome (files : Files) (depth : Nat) {text : Str} {lines : List Str} {ws : List Writing}
    (ht : LinesOf text lines) (hs : Says files depth lines ws) (hd : ∀ w ∈ ws, Everyday w) {j j' : Journal}
    (hj : j.Reachable) (hl : j.pool.OrdinaryLots) (h : parseText files depth text j = .ok j') :
    ∃ ws' rs, Outcome ws ws' rs j j' := by
  rcases parseText_decides files depth ht hs hd j ⟨hj.booked.wf, hj.pools, hl⟩ with
    ⟨j'', ws', rs, h1, h2, _⟩ | ⟨e, he, _⟩
  · rw [h] at h1
    injection h1 with h1
    subst h1
    exact ⟨ws', rs, h2⟩
  · rw [h] at he; cases he

theorem mass_filterMap_append (l r : List Entry) :
    mass ((l ++ r).filterMap (·.amount)) = mass (l.filterMap (·.amount)) + mass (r.filterMap (·.amount)) := by
  rw [List.filterMap_append, mass_append]

theorem amount_size {e : Entry} {a : Amount} (h : e.amount = some a) : |a.qty.val| ≤ e.size := by
  unfold Entry.size
  rw [h]
  cases e.cost with
  | none => exact le_refl _
  | some k => simp only; have := abs_nonneg e.worth; linarith

theorem worth_size (e : Entry) : |e.worth| ≤ e.size := by
  unfold Entry.size Entry.worth
  cases e.amount with
  | none => simp
  | some a =>
    cases e.cost with
    | none => exact le_refl _
    | some k => simp only; have := abs_nonneg a.qty.val; linarith

theorem mass_sizes (es : List Entry) : mass (es.filterMap (·.amount)) ≤ (es.map (·.size)).sum := by
  induction es with
  | nil => simp [mass]
  | cons e es ih =>
    rw [List.map_cons, List.sum_cons]
    cases h : e.amount with
    | none => rw [List.filterMap_cons_none h]; have := size_nonneg e; linarith
    | some a =>
      rw [List.filterMap_cons_some h, mass]
      have := amount_size h
      linarith

theorem entriesSum_sizes (es : List Entry) (c : Option Str) : |entriesSum es c| ≤ (es.map (·.size)).sum := by
  induction es with
  | nil => simp [entriesSum]
  | cons e es ih =>
    rw [entriesSum_cons, List.map_cons, List.sum_cons]
    have h1 := worth_size e
    have h2 := size_nonneg e
    refine le_trans (abs_add_le _ _) (add_le_add ?_ ih)
    split
    · exact h1
    · simpa using h2

theorem Settles.upTo {w w' : Writing} (h : Settles w w') {D : Nat} (hd : ∀ e ∈ w.entries, e.UpTo D)
    (hv : ∀ e ∈ w.entries, e.ValidNumbers) :
    (∀ a ∈ w'.entries.filterMap (·.amount), a.qty.Valid ∧ a.qty.scale ≤ D) ∧
      mass (w'.entries.filterMap (·.amount)) ≤ 2 * (w.entries.map (·.size)).sum := by
  have hpos : 0 ≤ (w.entries.map (·.size)).sum := List.sum_nonneg (by
    intro x hx
    obtain ⟨e, _, rfl⟩ := List.mem_map.mp hx
    exact size_nonneg e)
  have base : ∀ a ∈ w.entries.filterMap (·.amount), a.qty.Valid ∧ a.qty.scale ≤ D := by
    intro a ha
    obtain ⟨e, he, ha⟩ := List.mem_filterMap.mp ha
    exact ⟨(hv e he).1 a ha, (hd e he).1 a ha⟩
  have hm := mass_sizes w.entries
  cases h with
  | kept => exact ⟨base, by linarith⟩
  | filled l r e a h he hq ha hd2 =>
    have hmem : ∀ q ∈ l ++ r, q ∈ w.entries := by
      intro q hq
      rw [h]
      rcases List.mem_append.mp hq with h | h <;> simp [h]
    refine ⟨?_, ?_⟩
    · intro b hb
      obtain ⟨q, hq', hb⟩ := List.mem_filterMap.mp hb
      have : q = { e with amount := some a } ∨ q ∈ l ++ r := by
        simp only [List.mem_append, List.mem_cons] at hq' ⊢; tauto
      rcases this with rfl | hq'
      · simp only [Option.some.injEq] at hb
        subst hb
        exact ⟨hd2.1, hd2.2 D (fun q hq => (hd q (hmem q hq)).2)⟩
      · exact base b (List.mem_filterMap.mpr ⟨q, hmem q hq', hb⟩)
    · have e1 : (l ++ { e with amount := some a } :: r).filterMap (·.amount) =
          l.filterMap (·.amount) ++ a :: r.filterMap (·.amount) := by
        rw [List.filterMap_append, List.filterMap_cons_some (by rfl)]
      have e2 : w.entries.filterMap (·.amount) = l.filterMap (·.amount) ++ r.filterMap (·.amount) := by
        rw [h, List.filterMap_append, List.filterMap_cons_none he]
      show mass ((l ++ { e with amount := some a } :: r).filterMap (·.amount)) ≤ _
      rw [e1, mass_append, mass, ha, abs_neg, abs_abs]
      rw [e2, mass_append] at hm
      have h3 := entriesSum_sizes (l ++ r) a.comm
      have h4 : ((l ++ r).map (·.size)).sum ≤ (w.entries.map (·.size)).sum := by
        rw [h]
        simp only [List.map_append, List.map_cons, List.sum_append, List.sum_cons]
        have := size_nonneg e
        linarith
      linarith
  | rated A B u es h hu hes =>
    have e1 : ∀ {l m : List Entry}, List.Forall₂ (CostedEntry A B |u.val|) l m →
        m.filterMap (·.amount) = l.filterMap (·.amount) := by
      intro l m h
      induction h with
      | nil => rfl
      | @cons e f l m h _ ih =>
        have : f.amount = e.amount := by
          rcases h with ⟨_, _, _, _, _, _, rfl⟩ | ⟨_, rfl⟩ <;> rfl
        rw [List.filterMap_cons, List.filterMap_cons, this, ih]
    show (∀ a ∈ es.filterMap (·.amount), _) ∧ mass (es.filterMap (·.amount)) ≤ _
    rw [e1 hes]
    exact ⟨base, by linarith⟩

theorem calendarDay_bounds {y m d : Nat} (h : CalendarDay y m d) : m ≤ 12 ∧ d ≤ 31 := by
  obtain ⟨n, h1, h2, h3, h4⟩ := h
  have hl : (monthLengths y).length = 12 := rfl
  have hm : m - 1 < 12 := by
    rw [← hl]
    exact (List.getElem?_eq_some_iff.mp h2).1
  have hn : n ≤ 31 := by
    have : ∀ x ∈ monthLengths y, x ≤ 31 := by
      intro x hx
      unfold monthLengths at hx
      simp only [List.mem_cons, List.not_mem_nil, or_false] at hx
      have hf : (if y % 400 = 0 ∨ y % 4 = 0 ∧ y % 100 ≠ 0 then 29 else 28 : Nat) ≤ 31 := by split <;> omega
      rcases hx with rfl | rfl | rfl | rfl | rfl | rfl | rfl | rfl | rfl | rfl | rfl | rfl <;> omega
    exact this n (List.mem_of_getElem? h2)
  omega

theorem says_each {P : Writing → Prop} (hx : ∀ {block : List Str} {w : Writing}, XactLines block w → P w) (files : Files) (depth : Nat)
    {lines : List Str} {ws : List Writing} (h : Says files depth lines ws) : ∀ w ∈ ws, P w := by
  have key : ∀ {inc : Str → List Writing → Prop}, (∀ f ws, inc f ws → ∀ w ∈ ws, P w) → ∀ {lines ws}, JournalLines inc lines ws →
      ∀ w ∈ ws, P w := by
    intro inc hi lines ws h
    induction h with
    | nil => intro w hw; cases hw
    | ignored _ _ ih => exact ih
    | xact h _ _ ih =>
      intro w hw
      rcases List.mem_cons.mp hw with rfl | hw
      · exact hx h
      · exact ih w hw
    | last h =>
      intro w hw
      rw [List.mem_singleton.mp hw]
      exact hx h
    | included _ h _ ih =>
      intro w hw
      rcases List.mem_append.mp hw with hw | hw
      · exact hi _ _ h w hw
      · exact ih w hw
  induction depth generalizing lines ws with
  | zero =>
    refine key ?_ h
    rintro f ws ⟨_, rfl⟩ w hw
    cases hw
  | succ d ih =>
    refine key ?_ h
    rintro f ws (⟨_, rfl⟩ | ⟨lines', _, hs⟩) w hw
    · cases hw
    · exact ih hs w hw

theorem says_valid (files : Files) (depth : Nat) {lines : List Str} {ws : List Writing} (h : Says files depth lines ws) :
    ∀ w ∈ ws, (∀ e ∈ w.entries, e.ValidNumbers) ∧ w.date.month ≤ 12 ∧ w.date.day ≤ 31 := by
  refine says_each ?_ files depth h
  rintro block w ⟨header, cs, blocks, _, ⟨_, d, a, _, ⟨_, _, _, hc⟩, _⟩, _, hb⟩
  refine ⟨?_, ?_⟩
  · intro e he
    obtain ⟨block, _, line, _, _, ⟨text, _, h⟩, _⟩ := forall₂_mem_right hb he
    exact h.valid
  · exact calendarDay_bounds hc

/-- A posting without an amount has no cost. -/
theorem says_plain (files : Files) (depth : Nat) {lines : List Str} {ws : List Writing} (h : Says files depth lines ws) :
    ∀ w ∈ ws, ∀ e ∈ w.entries, e.amount = none → e.cost = none := by
  refine says_each ?_ files depth h
  rintro block w ⟨header, cs, blocks, _, _, _, hb⟩ e he
  obtain ⟨block, _, line, _, _, ⟨text, _, h⟩, _⟩ := forall₂_mem_right hb he
  exact h.blank_plain

theorem filesSay_valid (files : Files) (depth : Nat) {fs : List Str} {wss : List (List Writing)}
    (h : List.Forall₂ (FileSays files depth) fs wss) :
    ∀ w ∈ wss.flatten, (∀ e ∈ w.entries, e.ValidNumbers) ∧ w.date.month ≤ 12 ∧ w.date.day ≤ 31 := by
  intro w hw
  obtain ⟨ws, h1, h2⟩ := List.mem_flatten.mp hw
  obtain ⟨f, _, text, lines, _, _, h3⟩ := forall₂_mem_right h h1
  exact says_valid files depth h3 w h2

theorem settled_inRange {ws ws' : List Writing} (h : List.Forall₂ Settles ws ws')
    (hv : ∀ w ∈ ws, ∀ e ∈ w.entries, e.ValidNumbers) (ht : Roomy (allEntries ws)) :
    InRange (writtenBelow ws' []) := by
  have e : writtenBelow ws' [] = (allEntries ws').filterMap (·.amount) := by
    unfold writtenBelow
    congr 1
    exact List.filter_eq_self.mpr (by simp)
  obtain ⟨D, hD, hd, ht⟩ := ht
  have key : (∀ a ∈ (allEntries ws').filterMap (·.amount), a.qty.Valid ∧ a.qty.scale ≤ D) ∧
      mass ((allEntries ws').filterMap (·.amount)) ≤ 2 * ((allEntries ws).map (·.size)).sum := by
    clear ht e
    induction h with
    | nil => simp [allEntries, mass]
    | @cons w w' ws ws' h1 _ ih =>
      obtain ⟨i1, i2⟩ := ih (fun v hw => hv v (List.mem_cons_of_mem _ hw))
        (fun e he => hd e (by unfold allEntries; rw [List.flatMap_cons]; exact List.mem_append_right _ he))
      obtain ⟨k1, k2⟩ := h1.upTo (fun e he => hd e (by unfold allEntries; rw [List.flatMap_cons]; exact List.mem_append_left _ he))
        (hv w List.mem_cons_self)
      unfold allEntries at i1 i2 ⊢
      rw [List.flatMap_cons, List.flatMap_cons, List.filterMap_append, mass_append, List.map_append, List.sum_append]
      refine ⟨?_, by linarith⟩
      intro a ha
      rcases List.mem_append.mp ha with h | h
      · exact k1 a h
      · exact i1 a h
  rw [e]
  refine ⟨D, hD, key.1, ?_⟩
  have := mul_le_mul_of_nonneg_right key.2 (show (0 : ℚ) ≤ 10 ^ D by positivity)
  have : (2 : ℚ) * 10 ^ 28 < 2 ^ 96 := by norm_num
  linarith

/-- C81: `bal` on files with these transactions fails if one of them is faulty, and prints the report of what is made of
them if not. -/
theorem C81_report (files : Files) (depth : Nat) {fs : List Str} {wss : List (List Writing)}
    (hf : List.Forall₂ (FileSays files depth) fs wss) (hd : ∀ w ∈ wss.flatten, Everyday w)
    (ht : Roomy (allEntries wss.flatten)) {args rest : List Str} {verb : Str}
    (ha : Options.processArguments args = .ok (verb :: rest, fs)) (hv : BalanceVerb verb) :
    ((∃ w ∈ wss.flatten, Faulty w) → ∃ e, run files depth args = .error e) ∧
    ((∀ w ∈ wss.flatten, ¬ Faulty w) → ∃ ws' out, List.Forall₂ Settles wss.flatten ws' ∧
      run files depth args = .ok out ∧ ReportOf wss.flatten ws' out) := by
  rw [C60_balance files depth args rest fs verb ha hv]
  rcases readFiles_decides files depth hf hd Journal.new ⟨Journal.Reachable.new.booked.wf, Journal.Reachable.new.pools,
      by intro s ann pr h; cases h⟩ with ⟨j', ws', rs, h1, h2, _, h4⟩ | ⟨e, he, hw⟩
  · refine ⟨fun ⟨w, hw, h⟩ => absurd h (h4 w hw), fun _ => ?_⟩
    obtain ⟨new, n1, n2⟩ := h2.xacts
    have hx : List.Forall₂ XactOf ws' j'.xacts := by rw [n1]; exact n2
    obtain ⟨out, h6, h7⟩ := report_written (readFiles_reachable files depth .new h1) (ws := wss.flatten) hx
      (fun q => by rw [h2.accounts, has_new])
      (settled_inRange h2.settled (fun w hw => (filesSay_valid files depth hf w hw).1) ht)
    exact ⟨ws', out, h2.settled, by rw [h1]; exact h6, h7⟩
  · refine ⟨fun _ => ⟨e, by rw [he]; rfl⟩, fun h => ?_⟩
    obtain ⟨w, hw, hf⟩ := hw.faulty
    exact absurd hf (h w hw)

/-- C81: likewise for `accounts`, which prints the last part of each account name. -/
theorem C81_accounts (files : Files) (depth : Nat) {fs : List Str} {wss : List (List Writing)}
    (hf : List.Forall₂ (FileSays files depth) fs wss) (hd : ∀ w ∈ wss.flatten, Everyday w) {args rest : List Str}
    {verb : Str} (ha : Options.processArguments args = .ok (verb :: rest, fs)) (hv : AccountsVerb verb) :
    ((∃ w ∈ wss.flatten, Faulty w) → ∃ e, run files depth args = .error e) ∧
    ((∀ w ∈ wss.flatten, ¬ Faulty w) → ∃ out, run files depth args = .ok out ∧
      out.Pairwise (fun a b => StrBefore a b ∨ a = b) ∧ ∃ paths : List Path, paths.Nodup ∧
        (∀ p, p ∈ paths ↔ p = [] ∨ ∃ e ∈ allEntries wss.flatten, p <+: pathOf e.account) ∧
        out.Perm (paths.map lastPart)) := by
  rcases readFiles_decides files depth hf hd Journal.new ⟨Journal.Reachable.new.booked.wf, Journal.Reachable.new.pools,
      by intro s ann pr h; cases h⟩ with ⟨j', ws', rs, h1, h2, _, h4⟩ | ⟨e, he, hw⟩
  · exact ⟨fun ⟨w, hw, h⟩ => absurd h (h4 w hw), fun _ => accounts_written files depth h1 h2.accounts ha hv⟩
  · refine ⟨fun _ => ⟨e, ?_⟩, fun h => ?_⟩
    · obtain ⟨c, cs, rfl⟩ : ∃ c cs, verb = c :: cs := by
        cases verb with
        | nil => simp [AccountsVerb] at hv
        | cons c cs => exact ⟨c, cs, rfl⟩
      have hc : c = 'a' := by simpa [AccountsVerb] using hv
      subst hc
      simp only [run, ha, bind, Except.bind]
      rw [C28_accounts_command, he]
      rfl
    · obtain ⟨w, hw, hf⟩ := hw.faulty
      exact absurd hf (h w hw)

/-! ### C82 -/

/-- The prices in what is made of these transactions. -/
def PricesIn (ws' : List Writing) (rs : List Recording) : Prop :=
  ∃ rss, List.Forall₂ (fun w r => EntryPrices w.date w.entries r) ws' rss ∧ rs = rss.flatten

theorem entryPrices_time {d : Date} {es : List Entry} {rs : List Recording} (h : EntryPrices d es rs) :
    ∀ r ∈ rs, r.time = ⟨d, Time.midnight⟩ := by
  induction h with
  | nil => intro r hr; cases hr
  | noCost _ _ ih => exact ih
  | zero _ _ _ _ _ _ ih => exact ih
  | price _ _ _ _ _ _ _ _ ih =>
    intro r hr
    rcases List.mem_cons.mp hr with rfl | hr
    · rfl
    · exact ih r hr

theorem prices_wf {ws ws' : List Writing} {rs : List Recording} (hs : List.Forall₂ Settles ws ws')
    (hv : ∀ w ∈ ws, w.date.month ≤ 12 ∧ w.date.day ≤ 31) (h : PricesIn ws' rs) : ∀ r ∈ rs, r.time.WF := by
  obtain ⟨rss, h1, rfl⟩ := h
  intro r hr
  obtain ⟨l, h2, h3⟩ := List.mem_flatten.mp hr
  obtain ⟨w', h4, h5⟩ := forall₂_mem_right h1 h2
  obtain ⟨w, h6, h7⟩ := forall₂_mem_right hs h4
  have hd : w'.date = w.date := by cases h7 <;> rfl
  obtain ⟨k1, k2⟩ := hv w h6
  rw [entryPrices_time h5 r h3, hd]
  exact ⟨k1, k2, Nat.zero_le _, Nat.zero_le _, Nat.zero_le _⟩

theorem text_history (files : Files) (depth : Nat) {text : Str} {lines : List Str} {ws : List Writing}
    (ht : LinesOf text lines) (hs : Says files depth lines ws) (hd : ∀ w ∈ ws, Everyday w) {j' : Journal}
    (h : parseText files depth text Journal.new = .ok j') :
    ∃ ws' rs ops, List.Forall₂ Settles ws ws' ∧ PricesIn ws' rs ∧ runOps Pool.empty ops = .ok j'.pool ∧
      recordings ops = rs ∧ (∀ r ∈ rs, r.time.WF) ∧
      ∀ s, (j'.pool.find s).isSome ↔ ∃ e ∈ allEntries ws, e.Mentions s := by
  obtain ⟨ws', rs, o⟩ := C81_outcome files depth ht hs hd .new (by intro s ann pr h; cases h) h
  obtain ⟨ops, h1, h2⟩ := o.history [] rfl
  refine ⟨ws', rs, ops, o.settled, o.prices, h1, h2,
    prices_wf o.settled (fun w hw => (says_valid files depth hs w hw).2) o.prices, ?_⟩
  intro s
  rw [o.commodities]
  simp [Journal.new, Pool.find, Pool.empty, assocGet]

/-- C82: after a text is read, the direct price of one commodity in another is the last of the latest costs of the first
in the second. -/
theorem C82_direct_price (files : Files) (depth : Nat) {text : Str} {lines : List Str} {ws : List Writing}
    (ht : LinesOf text lines) (hs : Says files depth lines ws) (hd : ∀ w ∈ ws, Everyday w) {j' : Journal}
    (h : parseText files depth text Journal.new = .ok j') :
    ∃ ws' rs, List.Forall₂ Settles ws ws' ∧ PricesIn ws' rs ∧
      ∀ A B, (∃ e ∈ allEntries ws, e.Mentions A) → (∃ e ∈ allEntries ws, e.Mentions B) →
        ∃ i k, j'.pool.findIndex A = .ok i ∧ j'.pool.findIndex B = .ok k ∧
          (∀ t q, j'.pool.history.getDirectPrice i k = some (t, q) ↔ IsLatest rs A B t q) ∧
          (j'.pool.history.getDirectPrice i k = none ↔ ¬ Priced rs A B) := by
  obtain ⟨ws', rs, ops, h1, h2, h3, rfl, h5, h6⟩ := text_history files depth ht hs hd h
  refine ⟨ws', _, h1, h2, ?_⟩
  intro A B hA hB
  obtain ⟨cA, fA⟩ := Option.isSome_iff_exists.mp ((h6 A).mpr hA)
  obtain ⟨cB, fB⟩ := Option.isSome_iff_exists.mp ((h6 B).mpr hB)
  have iA := ((C12_nodes ops _ h3).1 A cA fA).1
  have iB := ((C12_nodes ops _ h3).1 B cB fB).1
  exact ⟨_, _, iA, iB, C13_direct_price ops _ h3 h5 A B _ _ iA iB⟩

/-- C82: a price query finds nothing exactly if no chain of costs leads from one commodity to the other; otherwise it
multiplies the latest prices along a shortest chain. -/
theorem C82_find_price (search : History.Search) (hsearch : History.IsShortest search) (files : Files) (depth : Nat)
    {text : Str} {lines : List Str} {ws : List Writing}
    (ht : LinesOf text lines) (hs : Says files depth lines ws) (hd : ∀ w ∈ ws, Everyday w) {j' : Journal}
    (h : parseText files depth text Journal.new = .ok j') :
    ∃ ws' rs, List.Forall₂ Settles ws ws' ∧ PricesIn ws' rs ∧
      ∀ A B now m o, A ≠ B → (∃ e ∈ allEntries ws, e.Mentions A) → (∃ e ∈ allEntries ws, e.Mentions B) →
        (j'.pool.findPrice search now A B m o = .ok none ↔ ¬ ∃ cs, ChainFrom rs A B cs) ∧
        ((∃ cs, ChainFrom rs A B cs) → ∃ cs legs, ShortestChain rs A B cs ∧ Legs rs cs legs ∧
          (∀ t q, legs = [(t, q)] → j'.pool.findPrice search now A B m o = .ok (some ⟨t, ⟨q, some B⟩⟩)) ∧
          (StepsExact 1 legs → ∃ pp, j'.pool.findPrice search now A B m o = .ok (some pp) ∧ pp.price.comm = some B ∧
            pp.price.qty.val = legsProduct legs) ∧
          RateResult B legs (j'.pool.findPrice search now A B m o)) := by
  obtain ⟨ws', rs, ops, h1, h2, h3, rfl, h5, h6⟩ := text_history files depth ht hs hd h
  refine ⟨ws', _, h1, h2, ?_⟩
  intro A B now m o hne hA hB
  refine ⟨C14_none_iff search hsearch ops _ h3 h5 now m o A B hne ((h6 A).mpr hA) ((h6 B).mpr hB), fun hc => ?_⟩
  obtain ⟨cs, legs, k1, k2, k3⟩ := C14_outcome search hsearch ops _ h3 h5 now m o A B hne ((h6 A).mpr hA) ((h6 B).mpr hB) hc
  exact ⟨cs, legs, k1, k2, fun t q e => k3.single e, fun e => k3.exact e, k3⟩

/-- C82: every cost in what is made of the transactions is a price, unless it is too small. -/
theorem C82_each_cost {ws' : List Writing} {rs : List Recording} (h : PricesIn ws' rs) {w : Writing} (hw : w ∈ ws')
    {e : Entry} (he : e ∈ w.entries) {a : Amount} (ha : e.amount = some a) (hc : e.cost ≠ none) :
    ∃ q, UnitPrice q a.qty.val e.worth ∧ (q.val ≠ 0 → ∃ A B, a.comm = some A ∧ e.worthIn = some B ∧
      (⟨A, B, ⟨w.date, Time.midnight⟩, q⟩ : Recording) ∈ rs) := by
  obtain ⟨rss, h1, rfl⟩ := h
  obtain ⟨r, h2, h3⟩ := forall₂_mem_left h1 hw
  have key : ∃ q, UnitPrice q a.qty.val e.worth ∧ (q.val ≠ 0 → ∃ A B, a.comm = some A ∧ e.worthIn = some B ∧
      (⟨A, B, ⟨w.date, Time.midnight⟩, q⟩ : Recording) ∈ r) := by
    clear h1 h2
    generalize w.entries = es at h3 he
    induction h3 with
    | nil => cases he
    | noCost hn _ ih =>
      rcases List.mem_cons.mp he with rfl | he
      · exact absurd hn hc
      · exact ih he
    | zero ha' _ _ hq h0 _ ih =>
      rcases List.mem_cons.mp he with rfl | he
      · rw [ha] at ha'; injection ha' with ha'; subst ha'
        exact ⟨_, hq, fun h => absurd h0 h⟩
      · exact ih he
    | price ha' _ hA hB _ hq _ _ ih =>
      rcases List.mem_cons.mp he with rfl | he
      · rw [ha] at ha'; injection ha' with ha'; subst ha'
        exact ⟨_, hq, fun _ => ⟨_, _, hA, hB, List.mem_cons_self⟩⟩
      · obtain ⟨q, k1, k2⟩ := ih he
        refine ⟨q, k1, fun hn => ?_⟩
        obtain ⟨A, B, k3, k4, k5⟩ := k2 hn
        exact ⟨A, B, k3, k4, List.mem_cons_of_mem _ k5⟩
  obtain ⟨q, k1, k2⟩ := key
  refine ⟨q, k1, fun hn => ?_⟩
  obtain ⟨A, B, k3, k4, k5⟩ := k2 hn
  exact ⟨A, B, k3, k4, List.mem_flatten.mpr ⟨r, h2, k5⟩⟩

/-! ### examples for C81 and C82 -/

namespace FaultsExample
open LinesExample

theorem size_food : food.size = 41 / 2 := by
  change |Dec.val ⟨false, 2050, 2⟩| = _
  simp only [Dec.val_mk, Dec.sgn]; norm_num

theorem size_stocks : stocks.size = 260 := by
  change |Dec.val ⟨false, 10, 0⟩| + |stocks.worth| = _
  rw [stocksWorth.1]
  simp only [Dec.val_mk, Dec.sgn]; norm_num

theorem size_paid : paid.size = 250 := by
  change |Dec.val ⟨true, 250, 0⟩| = _
  simp only [Dec.val_mk, Dec.sgn]; norm_num

theorem size_cash : cash.size = 0 := rfl

theorem shopEveryday : Everyday shop := by
  refine .of_billion ?_ ?_ (by decide) ?_
  · have : ∀ e ∈ [food, cash], (∀ a ∈ e.amount, a.qty.scale ≤ 9) ∧ e.worthDecimals ≤ 9 := by decide
    exact this
  · change (List.map (·.size) [food, cash]).sum ≤ _
    rw [List.map_cons, List.map_cons, List.map_nil, List.sum_cons, List.sum_cons, List.sum_nil, size_food, size_cash]
    norm_num
  · intro e he pr hp
    have : ∀ e ∈ [food, cash], e.lot.price = none := by decide
    rw [this e he] at hp; cases hp

/-- Large amounts with few decimals, and without costs with many. -/
example : Everyday { shop with entries := [{ food with amount := some ⟨⟨false, 50000000000025, 2⟩, some (str "IDR")⟩ }, cash] } ∧
    Everyday { shop with entries := [{ food with amount := some ⟨⟨false, 5000000000123456789012345678, 18⟩, some (str "ETH")⟩ }, cash] } := by
  have lots : ∀ {a : Option Amount} {e : Entry}, e ∈ [{ food with amount := a }, cash] → e.lot.price = none := by
    intro a e he
    have he : e = { food with amount := a } ∨ e = cash := by simpa using he
    rcases he with rfl | rfl <;> rfl
  refine ⟨⟨⟨2, 12, Or.inl (by decide), ?_, ?_⟩, (by decide : 2 ≤ 10 ^ 9), fun e he pr hp => ?_⟩,
    ⟨⟨18, 10, Or.inr ⟨by decide, by decide, fun A B h => h.1 cash (List.mem_cons_of_mem _ List.mem_cons_self) rfl⟩, ?_, ?_⟩, (by decide : 2 ≤ 10 ^ 9), fun e he pr hp => ?_⟩⟩
  · have : ∀ e ∈ [{ food with amount := some ⟨⟨false, 50000000000025, 2⟩, some (str "IDR")⟩ }, cash],
        (∀ a ∈ e.amount, a.qty.scale ≤ 2) ∧ e.worthDecimals ≤ 2 := by decide
    exact this
  · change |Dec.val ⟨false, 50000000000025, 2⟩| + (0 + 0) ≤ _
    simp only [Dec.val_mk, Dec.sgn]
    norm_num
  · rw [lots he] at hp; cases hp
  · have : ∀ e ∈ [{ food with amount := some ⟨⟨false, 5000000000123456789012345678, 18⟩, some (str "ETH")⟩ }, cash],
        (∀ a ∈ e.amount, a.qty.scale ≤ 18) ∧ e.worthDecimals ≤ 18 := by decide
    exact this
  · change |Dec.val ⟨false, 5000000000123456789012345678, 18⟩| + (0 + 0) ≤ _
    simp only [Dec.val_mk, Dec.sgn]
    norm_num
  · rw [lots he] at hp; cases hp

theorem brokerEveryday : Everyday broker := by
  refine .of_billion ?_ ?_ (by decide) ?_
  · have : ∀ e ∈ [stocks, paid], (∀ a ∈ e.amount, a.qty.scale ≤ 9) ∧ e.worthDecimals ≤ 9 := by decide
    exact this
  · change (List.map (·.size) [stocks, paid]).sum ≤ _
    rw [List.map_cons, List.map_cons, List.map_nil, List.sum_cons, List.sum_cons, List.sum_nil, size_stocks, size_paid]
    norm_num
  · intro e he pr hp
    have : ∀ e ∈ [stocks, paid], ∀ pr ∈ e.lot.price, pr = eur false 20 0 := by decide
    rw [this e he pr hp]
    change |Dec.val ⟨false, 20, 0⟩| ≤ _
    simp only [Dec.val_mk, Dec.sgn]; norm_num

theorem everyday : ∀ w ∈ [shop, broker], Everyday w := by
  intro w hw
  rcases List.mem_cons.mp hw with rfl | hw
  · exact shopEveryday
  · rw [List.mem_singleton.mp hw]; exact brokerEveryday

/-- The text of the example for C72 is read, so that nothing in it is faulty. -/
theorem notFaulty : ∀ w ∈ [shop, broker], ¬ Faulty w := by
  refine (C81_read_iff files 1 textLines lines everyday .new (by intro s ann pr h; cases h)).mp ?_
  have : (parseText files 1 text.flatten Journal.new).isOk = true := by decide +kernel
  cases h : parseText files 1 text.flatten Journal.new with
  | error e => rw [h] at this; cases this
  | ok j => exact ⟨j, rfl⟩

/-- The report theorem applies to it. -/
example : ∃ ws' out, List.Forall₂ Settles [shop, broker] ws' ∧
    run files 1 [str "bal", str "-f", str "x"] = .ok out ∧ ReportOf [shop, broker] ws' out := by
  refine (C81_report files 1 (fs := [str "x"]) (wss := [[shop, broker]])
    (.cons ⟨_, _, rfl, textLines, lines⟩ .nil) everyday ?_ (verb := str "bal") (rest := [])
    (by decide) (by unfold BalanceVerb; decide)).2 notFaulty
  refine roomy_of (show ∀ e ∈ [food, cash, stocks, paid], (∀ a ∈ e.amount, a.qty.scale ≤ 9) ∧ e.worthDecimals ≤ 9 by decide) ?_
  change (List.map (·.size) [food, cash, stocks, paid]).sum ≤ _
  simp only [List.map_cons, List.map_nil, List.sum_cons, List.sum_nil, size_food, size_cash, size_stocks, size_paid]
  norm_num

/-- The price of the shares is what they cost. -/
example : ∃ j, parseText files 1 text.flatten Journal.new = .ok j ∧
    (j.pool.findIndex (str "VEUR"), j.pool.findIndex (str "EUR"), j.pool.history.getDirectPrice 1 0) =
      (.ok 1, .ok 0, some (⟨⟨2023, 5, 2⟩, Time.midnight⟩, ⟨false, 25, 0⟩)) := ok_and (by decide +kernel)

/-- A transaction with two blank postings is faulty, and reading it fails. -/
example : Faulty { shop with entries := [food, cash, cash] } ∧
    parsed "2023-05-01 Shop\n    Expenses:Food  20.50 EUR\n    Assets:Cash\n    Assets:Cash\n" =
      .error .secondNullPost := ⟨.blanks [food] [] [] cash cash rfl rfl rfl, by decide +kernel⟩

end FaultsExample

end Ledger
