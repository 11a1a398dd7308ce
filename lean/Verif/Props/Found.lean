import Verif.Lemmas.Ending
import Verif.Props.Figures
/-
C91: what every text says, and at which line and why it is refused.
C92: what reading any files makes of them, for transactions with numbers of everyday size.
-/
namespace Ledger
open Ledger.Parser Ledger.Finalize Ledger.Cli

/-! ### C91 -/

/-- C91: what every line outside a transaction is, and why it is refused if it is. -/
theorem C91_top_line (line : Str) (t : TopLine) : TopPart line t ↔ topLine line = t := topPart_iff line t

/-- C91: every such line is exactly one thing. -/
theorem C91_one_line (line : Str) : ∃! t, TopPart line t :=
  ⟨topLine line, (topPart_iff _ _).mpr rfl, fun _ h => ((topPart_iff _ _).mp h).symm⟩

/-- C91: a price line with a price records this price, and only this, in whatever pool. -/
theorem C91_price_line {line : Str} (hl : TopPart line .price) (pool pool' : Pool) :
    pool.parsePriceDirective line = .ok pool' ↔ ∃ r, PriceSays line r ∧
      runOps pool [.findOrCreate r.src none, .findOrCreate r.dst none, .addPrice r.src r.time ⟨r.qty, some r.dst⟩] =
        .ok pool' := by
  constructor
  · intro h
    rcases price_total (topPart_price_ne hl) with ⟨r, hr⟩ | ⟨k, hk⟩
    · obtain ⟨p, h1, h2⟩ := priceSays_run hr pool
      rw [h] at h1
      injection h1 with h1
      subst h1
      exact ⟨r, hr, h2⟩
    · rw [priceRefused_run hk] at h
      cases h
  · rintro ⟨r, hr, h⟩
    obtain ⟨p, h1, h2⟩ := priceSays_run hr pool
    rw [h1]
    exact congrArg _ (Except.ok.inj (h2.symm.trans h))

/-- C91: exactly which price lines are refused, and with which panic. -/
theorem C91_price_refused {line : Str} (hl : TopPart line .price) (pool : Pool) (k : Panic) :
    pool.parsePriceDirective line = .error k ↔ PriceRefused line k := by
  constructor
  · intro h
    rcases price_total (topPart_price_ne hl) with ⟨r, hr⟩ | ⟨k', hk⟩
    · obtain ⟨p, h1, _⟩ := priceSays_run hr pool
      rw [h1] at h
      cases h
    · rw [priceRefused_run hk] at h
      injection h with h
      exact h ▸ hk
  · exact fun h => priceRefused_run h pool

/-- C91: a price line says exactly one price or is refused for exactly one reason. -/
theorem C91_price_one {line : Str} (hl : TopPart line .price) :
    ((∃! r, PriceSays line r) ∧ ∀ k, ¬ PriceRefused line k) ∨ ((∃! k, PriceRefused line k) ∧ ∀ r, ¬ PriceSays line r) := by
  rcases price_total (topPart_price_ne hl) with ⟨r, hr⟩ | ⟨k, hk⟩
  · exact Or.inl ⟨⟨r, hr, fun _ h => priceSays_unique h hr⟩, fun _ h => priceSays_not_refused hr h⟩
  · exact Or.inr ⟨⟨k, hk, fun _ h => priceRefused_unique h hk⟩, fun _ h => priceSays_not_refused h hk⟩

/-- C91: whatever the lines of a text are, they say exactly one list of transactions, prices and unreadable lines, and
reading ends in exactly one way. -/
theorem C91_one_text (files : Files) (depth : Nat) (src : Source) : ∃! s : List Item × Ending, SaysUpTo files depth src s.1 s.2 := by
  obtain ⟨is, e, h⟩ := saysUpTo_total files depth src
  refine ⟨(is, e), h, ?_⟩
  rintro ⟨is', e'⟩ h'
  obtain ⟨rfl, rfl⟩ := saysUpTo_unique files depth h h'
  rfl

/-- C91: likewise files that are read one after another. -/
theorem C91_one_run (files : Files) (depth : Nat) (fs : List Str) : ∃! s : List Item × Ending, FilesSay files depth fs s.1 s.2 := by
  obtain ⟨is, e, h⟩ := filesSay_total files depth fs
  refine ⟨(is, e), h, ?_⟩
  rintro ⟨is', e'⟩ h'
  obtain ⟨rfl, rfl⟩ := filesSay_unique files depth h h'
  rfl

theorem writings_map (ws : List Writing) : writings (ws.map .xact) = ws := by
  induction ws with
  | nil => rfl
  | cons w ws ih => rw [List.map_cons, writings_xact, ih]

theorem xactLines_source {inc : Str → List Item → Ending → Prop} {block : List Str} {w : Writing} (h : XactLines block w)
    {tail rest : Source} (ht : AfterXact tail rest) {is : List Item} {e : Ending} (hr : SourceSays inc rest is e) :
    SourceSays inc (block.map some ++ tail) (gapIn tail ++ .xact w :: is) e := by
  obtain ⟨header, cs, blocks, rfl, hh, hc, hb⟩ := h
  exact .xact hh (bodyReads_of_blocks hc hb ht) ht hr

/-- C91: a text that is a list of transactions (C80) says these transactions, and nothing in it is refused. -/
theorem C91_transactions (files : Files) (depth : Nat) {lines : List Str} {ws : List Writing} (h : Says files depth lines ws) :
    SaysUpTo files depth (lines.map some) (ws.map .xact) .done := by
  have key : ∀ {inc : Str → List Writing → Prop} {inc' : Str → List Item → Ending → Prop},
      (∀ f ws, inc f ws → inc' f (ws.map .xact) .done) → ∀ {lines ws}, JournalLines inc lines ws →
      SourceSays inc' (lines.map some) (ws.map .xact) .done := by
    intro inc inc' hi lines ws h
    induction h with
    | nil => exact .nil
    | ignored h _ ih => exact .ignored (.ignored h) ih
    | xact h he _ ih =>
      rw [List.map_append, List.map_cons, List.map_cons]
      exact xactLines_source h (Or.inr (Or.inl ⟨_, rfl, he⟩)) ih
    | last h =>
      have := xactLines_source (inc := inc') h (Or.inl ⟨rfl, rfl⟩) .nil
      simpa [gapIn] using this
    | included h hf _ ih =>
      rw [List.map_append, List.map_cons]
      exact .included ((topPart_iff _ _).mpr (topLine_include h)) (hi _ _ hf) ih
  induction depth generalizing lines ws with
  | zero =>
    refine key ?_ h
    rintro f ws ⟨h1, rfl⟩
    exact ⟨rfl, Or.inl ⟨h1, rfl⟩⟩
  | succ d ih =>
    refine key ?_ h
    rintro f ws (⟨h1, rfl⟩ | ⟨ls, h1, h2⟩)
    · exact Or.inl ⟨h1, rfl, rfl⟩
    · exact Or.inr ⟨_, h1, ih h2⟩

/-! ### C92 -/

theorem decidesItems_error {is : List Item} {e : Ending} {run : Journal → Res Journal} (h : DecidesItems is e run)
    {j : Journal} (hj : Readable j) (k : Panic) :
    run j = .error k ↔ FirstCause (writings is) k ∨ ((∀ w ∈ writings is, ¬ Faulty w) ∧ e.panic = some k) := by
  rcases h j hj with ⟨j', _, _, rfl, h1, _, _, h4⟩ | ⟨k', he, hf⟩
  · constructor
    · intro h; rw [h1] at h; cases h
    · rintro (h | ⟨_, h⟩)
      · obtain ⟨w, hw, hf⟩ := h.faulty
        exact absurd hf (h4 w hw)
      · cases h
  · rw [he]
    constructor
    · intro h; injection h with h; subst h; exact hf
    · intro h
      congr 1
      rcases hf with hf | ⟨hn, hp⟩ <;> rcases h with h | ⟨hn', hp'⟩
      · exact hf.unique h
      · obtain ⟨w, hw, hf⟩ := hf.faulty
        exact absurd hf (hn' w hw)
      · obtain ⟨w, hw, hf⟩ := h.faulty
        exact absurd hf (hn w hw)
      · rw [hp] at hp'; exact Option.some.inj hp'

theorem decidesItems_ok {is : List Item} {e : Ending} {run : Journal → Res Journal} (h : DecidesItems is e run)
    {j j' : Journal} (hj : Readable j) (hr : run j = .ok j') :
    e = .done ∧ (∀ w ∈ writings is, ¬ Faulty w) ∧ ∃ ws' rs, ItemsOutcome is ws' rs j j' := by
  rcases h j hj with ⟨j1, ws', rs, h0, h1, h2, _, h4⟩ | ⟨k', he, hf⟩
  · rw [h1] at hr
    injection hr with hr
    subst hr
    exact ⟨h0, h4, ws', rs, h2⟩
  · rw [he] at hr; cases hr

/-- C92: reading any lines ends with a panic exactly if a transaction is faulty or a line is refused; the first fault
decides, and the refused line only if there is none. -/
theorem C92_panic (files : Files) (depth : Nat) {src : Source} {is : List Item} {e : Ending}
    (hs : SaysUpTo files depth src is e) (hd : ∀ w ∈ touched is e, Everyday w) {j : Journal} (hj : j.Reachable)
    (hl : j.pool.OrdinaryLots) (k : Panic) :
    parse files depth src j = .error k ↔
      FirstCause (writings is) k ∨ ((∀ w ∈ writings is, ¬ Faulty w) ∧ e.panic = some k) :=
  decidesItems_error (parse_items files depth hs hd) ⟨hj.booked.wf, hj.pools, hl⟩ k

/-- C92: if they are read, the journal has what they say, and nothing else. -/
theorem C92_outcome (files : Files) (depth : Nat) {src : Source} {is : List Item} {e : Ending}
    (hs : SaysUpTo files depth src is e) (hd : ∀ w ∈ touched is e, Everyday w) {j j' : Journal} (hj : j.Reachable)
    (hl : j.pool.OrdinaryLots) (h : parse files depth src j = .ok j') :
    e = .done ∧ (∀ w ∈ writings is, ¬ Faulty w) ∧ ∃ ws' rs, ItemsOutcome is ws' rs j j' :=
  decidesItems_ok (parse_items files depth hs hd) ⟨hj.booked.wf, hj.pools, hl⟩ h

/-- What is in lines: numbers that can be held and days of the calendar. -/
def ItemsValid (is : List Item) : Prop :=
  (∀ w ∈ writings is, (∀ e ∈ w.entries, e.ValidNumbers) ∧ w.date.month ≤ 12 ∧ w.date.day ≤ 31) ∧
    ∀ r, Item.price r ∈ is → r.time.WF

theorem ItemsValid.append {a b : List Item} (h : ItemsValid a) (h' : ItemsValid b) : ItemsValid (a ++ b) := by
  refine ⟨?_, ?_⟩
  · intro w hw
    rw [writings_append] at hw
    rcases List.mem_append.mp hw with hw | hw
    · exact h.1 w hw
    · exact h'.1 w hw
  · intro r hr
    rcases List.mem_append.mp hr with hr | hr
    · exact h.2 r hr
    · exact h'.2 r hr

theorem ItemsValid.nil : ItemsValid [] := ⟨by simp [writings], by simp⟩

theorem PriceSays.wf {line : Str} {r : Recording} (h : PriceSays line r) : r.time.WF := by
  obtain ⟨d, t, q, _, hd, ht, _⟩ := h
  obtain ⟨h1, h2⟩ := calendarDay_bounds hd.2.2.2
  rcases ht with ⟨_, ht⟩ | ⟨_, _, ht⟩
  · exact ⟨h1, h2, by rw [ht]; exact Nat.zero_le _, by rw [ht]; exact Nat.zero_le _, by rw [ht]; exact Nat.zero_le _⟩
  · exact ⟨h1, h2, ht⟩

theorem HeaderSays.day {line : Str} {w : Writing} (h : HeaderSays line w) : w.date.month ≤ 12 ∧ w.date.day ≤ 31 := by
  obtain ⟨_, d, a, _, ⟨_, _, _, hc⟩, _⟩ := h
  exact calendarDay_bounds hc

theorem BodyReads.valid {src tail : Source} {ts : List Str} {es : List Entry} (h : BodyReads src ts es tail) :
    ∀ e ∈ es, e.ValidNumbers := by
  induction h with
  | stop => intro e he; cases he
  | comment _ _ ih => exact ih
  | posting he _ ih =>
    intro e h
    rcases List.mem_cons.mp h with rfl | h
    · obtain ⟨text, _, h⟩ := he
      exact h.valid
    · exact ih e h

theorem ItemsValid.gap : ItemsValid [.gap] := ⟨by simp [writings], by simp⟩

theorem gapIn_valid (src : Source) : ItemsValid (gapIn src) := by
  rcases gapIn_or src with h | h <;> rw [h]
  · exact .nil
  · exact .gap

theorem sourceSays_valid {inc : Str → List Item → Ending → Prop} (hinc : ∀ f is e, inc f is e → ItemsValid is) {src : Source}
    {is : List Item} {e : Ending} (h : SourceSays inc src is e) : ItemsValid is := by
  induction h with
  | ignored _ _ ih | skipped _ _ ih => exact ih
  | price _ hp _ ih =>
    exact ItemsValid.append (a := [_]) ⟨by simp [writings], by
      intro r hr
      rw [List.mem_singleton] at hr
      injection hr with hr
      exact hr ▸ hp.wf⟩ ih
  | unreadable => exact .gap
  | xact hh hb _ _ ih =>
    refine ItemsValid.append (gapIn_valid _) (ItemsValid.append (a := [.xact _]) ⟨?_, by simp⟩ ih)
    intro w hw
    obtain rfl := List.mem_singleton.mp hw
    exact ⟨hb.valid, hh.day⟩
  | included _ hi _ ih => exact (hinc _ _ _ hi).append ih
  | includedStop _ hi _ => exact hinc _ _ _ hi
  | _ => exact .nil

theorem saysUpTo_valid (files : Files) (depth : Nat) {src : Source} {is : List Item} {e : Ending}
    (h : SaysUpTo files depth src is e) : ItemsValid is := by
  induction depth generalizing src is e with
  | zero =>
    refine sourceSays_valid ?_ h
    rintro f is e ⟨rfl, _⟩
    exact .nil
  | succ d ih =>
    refine sourceSays_valid ?_ h
    rintro f is e (⟨_, rfl, _⟩ | ⟨s, _, h⟩)
    · exact .nil
    · exact ih h

theorem filesSay_items_valid (files : Files) (depth : Nat) {fs : List Str} {is : List Item} {e : Ending}
    (h : FilesSay files depth fs is e) : ItemsValid is := by
  induction h with
  | nil | missing => exact .nil
  | read _ hs _ ih => exact (saysUpTo_valid files depth hs).append ih
  | stop _ hs => exact saysUpTo_valid files depth hs

/-- C92: `bal` on any files prints the report of what their transactions book, if none is faulty and no line is
refused. -/
theorem C92_report (files : Files) (depth : Nat) {fs : List Str} {is : List Item} (hf : FilesSay files depth fs is .done)
    (hd : ∀ w ∈ writings is, Everyday w) (ht : Roomy (allEntries (writings is)))
    {args rest : List Str} {verb : Str} (ha : Options.processArguments args = .ok (verb :: rest, fs))
    (hv : BalanceVerb verb) (hn : ∀ w ∈ writings is, ¬ Faulty w) :
    run files depth args = .ok (writtenBookings (writings is)).report := by
  rw [C60_balance files depth args rest fs verb ha hv]
  rcases readFiles_items files depth hf hd Journal.new readable_new with ⟨j', ws', rs, _, h1, h2, _, h4⟩ | ⟨k, he, hw⟩
  · obtain ⟨new, n1, n2⟩ := h2.xacts
    have hvn : ∀ w ∈ writings is, ∀ e ∈ w.entries, e.ValidNumbers :=
      fun w hw => ((filesSay_items_valid files depth hf).1 w hw).1
    have hx : List.Forall₂ XactOf ws' j'.xacts := by rw [n1]; exact n2
    have hb : j'.booked = writtenBookings (writings is) := by
      rw [← settled_bookings h2.settled (fun w hw => (hd w hw).figures (hvn w hw))]
      exact xactsOf_booked hx
    have hall : allAmounts j' = writtenBelow ws' [] := by
      rw [← xactsOf_amounts hx]
      unfold allAmounts Journal.allPosts
      rw [List.filter_eq_self.mpr (fun b _ => by simp)]
    rw [h1, ← hb]
    refine C89_journal (readFiles_reachable files depth .new h1) (by
      rw [hall]; exact settled_inRange h2.settled hvn ht) ?_
    intro q hq
    rw [h2.accounts, has_new] at hq
    rcases hq with hq | ⟨e, he, hq⟩
    · exact Or.inl hq
    · right
      rw [hb, ← settled_bookings h2.settled (fun w hw => (hd w hw).figures (hvn w hw))]
      obtain ⟨w, hw, hew⟩ := List.mem_flatMap.mp he
      obtain ⟨w', hw', hs⟩ := forall₂_mem_left h2.settled hw
      obtain ⟨x, x1, x2⟩ := hs.accounts e hew
      exact ⟨x, List.mem_flatMap.mpr ⟨w', hw', x1⟩, by rw [x2]; exact hq⟩
  · rcases hw with hw | ⟨_, hw⟩
    · obtain ⟨w, hw, hf⟩ := hw.faulty
      exact absurd hf (hn w hw)
    · cases hw

/-- C92: `accounts` on any files prints the last part of each account name, if no transaction is faulty and no line is
refused. -/
theorem C92_accounts (files : Files) (depth : Nat) {fs : List Str} {is : List Item} (hf : FilesSay files depth fs is .done)
    (hd : ∀ w ∈ writings is, Everyday w) {args rest : List Str} {verb : Str}
    (ha : Options.processArguments args = .ok (verb :: rest, fs)) (hv : AccountsVerb verb)
    (hn : ∀ w ∈ writings is, ¬ Faulty w) :
    ∃ out, run files depth args = .ok out ∧ out.Pairwise (fun a b => StrBefore a b ∨ a = b) ∧
      ∃ paths : List Path, paths.Nodup ∧
        (∀ p, p ∈ paths ↔ p = [] ∨ ∃ e ∈ allEntries (writings is), p <+: pathOf e.account) ∧
        out.Perm (paths.map lastPart) := by
  rcases readFiles_items files depth hf hd Journal.new readable_new with ⟨j', ws', rs, _, h1, h2, _, h4⟩ | ⟨k, he, hw⟩
  · exact accounts_written files depth h1 h2.accounts ha hv
  · rcases hw with hw | ⟨_, hw⟩
    · obtain ⟨w, hw, hf⟩ := hw.faulty
      exact absurd hf (hn w hw)
    · cases hw

theorem run_reading_error (files : Files) (depth : Nat) {fs args rest : List Str} {verb : Str}
    (ha : Options.processArguments args = .ok (verb :: rest, fs)) (hv : BalanceVerb verb ∨ AccountsVerb verb) {k : Panic}
    (hk : readFiles files depth fs Journal.new = .error k) : run files depth args = .error k := by
  rcases hv with hv | hv
  · rw [C60_balance files depth args rest fs verb ha hv, hk]
    rfl
  · obtain ⟨c, cs, rfl⟩ : ∃ c cs, verb = c :: cs := by
      cases verb with
      | nil => simp [AccountsVerb] at hv
      | cons c cs => exact ⟨c, cs, rfl⟩
    have hc : c = 'a' := by simpa [AccountsVerb] using hv
    subst hc
    simp only [run, ha, bind, Except.bind]
    rw [C28_accounts_command, hk]
    rfl

/-- C92: a command on any files ends with a panic exactly if a transaction is faulty or a line is refused or a file is
missing; the first fault decides. -/
theorem C92_run_panic (files : Files) (depth : Nat) {fs : List Str} {is : List Item} {e : Ending}
    (hf : FilesSay files depth fs is e) (hd : ∀ w ∈ touched is e, Everyday w)
    (ht : Roomy (allEntries (writings is))) {args rest : List Str} {verb : Str}
    (ha : Options.processArguments args = .ok (verb :: rest, fs)) (hv : BalanceVerb verb ∨ AccountsVerb verb) (k : Panic) :
    run files depth args = .error k ↔
      FirstCause (writings is) k ∨ ((∀ w ∈ writings is, ¬ Faulty w) ∧ e.panic = some k) := by
  have hread := decidesItems_error (readFiles_items files depth hf hd) readable_new
  constructor
  · intro hk
    by_cases hx : ∃ k', FirstCause (writings is) k' ∨ ((∀ w ∈ writings is, ¬ Faulty w) ∧ e.panic = some k')
    · obtain ⟨k', hk'⟩ := hx
      have := run_reading_error files depth ha hv ((hread k').mpr hk')
      rw [hk] at this
      injection this with this
      exact this ▸ hk'
    · exfalso
      rcases readFiles_items files depth hf hd Journal.new readable_new with ⟨j', ws', rs, rfl, h1, h2, _, h4⟩ | ⟨k', _, hw⟩
      · rcases hv with hv | hv
        · rw [C92_report files depth hf hd ht ha hv h4] at hk
          cases hk
        · obtain ⟨_, h, _⟩ := C92_accounts files depth hf hd ha hv h4
          rw [h] at hk
          cases hk
      · exact hx ⟨k', hw⟩
  · exact fun h => run_reading_error files depth ha hv ((hread k).mpr h)

/-- C92: the list of accounts ends with a panic exactly if a transaction is faulty or a line is refused or a file is missing,
whatever the sums. -/
theorem C92_accounts_panic (files : Files) (depth : Nat) {fs : List Str} {is : List Item} {e : Ending}
    (hf : FilesSay files depth fs is e) (hd : ∀ w ∈ touched is e, Everyday w) {args rest : List Str} {verb : Str}
    (ha : Options.processArguments args = .ok (verb :: rest, fs)) (hv : AccountsVerb verb) (k : Panic) :
    run files depth args = .error k ↔
      FirstCause (writings is) k ∨ ((∀ w ∈ writings is, ¬ Faulty w) ∧ e.panic = some k) := by
  have hread := decidesItems_error (readFiles_items files depth hf hd) readable_new
  refine ⟨fun hk => ?_, fun h => run_reading_error files depth ha (Or.inr hv) ((hread k).mpr h)⟩
  rcases readFiles_items files depth hf hd Journal.new readable_new with ⟨j', ws', rs, rfl, h1, h2, _, h4⟩ | ⟨k', hk', _⟩
  · obtain ⟨_, h, _⟩ := C92_accounts files depth hf hd ha hv h4
    rw [h] at hk
    cases hk
  · rw [run_reading_error files depth ha (Or.inr hv) hk'] at hk
    injection hk with hk
    exact hk ▸ (hread k').mp hk'

/-! ### the prices -/

theorem itemPrices_wf {is : List Item} {ws' : List Writing} {rs : List Recording} (h : ItemPrices is ws' rs)
    (hs : List.Forall₂ Settles (writings is) ws') (hv : ItemsValid is) : ∀ r ∈ rs, r.time.WF := by
  induction h with
  | nil => intro r hr; cases hr
  | @xact w w' is ws r rs h _ ih =>
    rw [writings_xact] at hs
    cases hs with
    | cons h1 hs =>
      intro x hx
      rcases List.mem_append.mp hx with hx | hx
      · have hd : w'.date = w.date := by cases h1 <;> rfl
        obtain ⟨_, k1, k2⟩ := hv.1 w (by simp [writings_xact])
        rw [entryPrices_time h x hx, hd]
        exact ⟨k1, k2, Nat.zero_le _, Nat.zero_le _, Nat.zero_le _⟩
      · exact ih hs ⟨fun w hw => hv.1 w (by simp [writings_xact, hw]), fun r hr => hv.2 r (List.mem_cons_of_mem _ hr)⟩ x hx
  | @price r is ws rs _ ih =>
    intro x hx
    rcases List.mem_cons.mp hx with rfl | hx
    · exact hv.2 _ List.mem_cons_self
    · exact ih hs ⟨hv.1, fun r hr => hv.2 r (List.mem_cons_of_mem _ hr)⟩ x hx
  | gap _ ih => exact ih hs ⟨hv.1, fun r hr => hv.2 r (List.mem_cons_of_mem _ hr)⟩

/-- A commodity that occurs in a text. -/
def Occurs (is : List Item) (s : Str) : Prop :=
  (∃ e ∈ allEntries (writings is), e.Mentions s) ∨ ∃ r, Item.price r ∈ is ∧ (s = r.src ∨ s = r.dst)

theorem items_history (files : Files) (depth : Nat) {src : Source} {is : List Item} {e : Ending}
    (hs : SaysUpTo files depth src is e) (hd : ∀ w ∈ touched is e, Everyday w) {j' : Journal}
    (h : parse files depth src Journal.new = .ok j') :
    ∃ ws' rs ops, List.Forall₂ Settles (writings is) ws' ∧ ItemPrices is ws' rs ∧ runOps Pool.empty ops = .ok j'.pool ∧
      recordings ops = rs ∧ (∀ r ∈ rs, r.time.WF) ∧ ∀ s, (j'.pool.find s).isSome ↔ Occurs is s := by
  obtain ⟨_, _, ws', rs, o⟩ := C92_outcome files depth hs hd .new (by intro s ann pr h; cases h) h
  obtain ⟨ops, h1, h2⟩ := o.history [] rfl
  refine ⟨ws', rs, ops, o.settled, o.prices, h1, h2, itemPrices_wf o.prices o.settled (saysUpTo_valid files depth hs), ?_⟩
  intro s
  rw [o.commodities]
  simp [Journal.new, Pool.find, Pool.empty, assocGet, Occurs]

/-- C92: after any lines are read, the direct price of one commodity in another is the last of the latest among the price
lines and the costs. -/
theorem C92_direct_price (files : Files) (depth : Nat) {src : Source} {is : List Item} {e : Ending}
    (hs : SaysUpTo files depth src is e) (hd : ∀ w ∈ touched is e, Everyday w) {j' : Journal}
    (h : parse files depth src Journal.new = .ok j') :
    ∃ ws' rs, List.Forall₂ Settles (writings is) ws' ∧ ItemPrices is ws' rs ∧
      ∀ A B, Occurs is A → Occurs is B →
        ∃ i k, j'.pool.findIndex A = .ok i ∧ j'.pool.findIndex B = .ok k ∧
          (∀ t q, j'.pool.history.getDirectPrice i k = some (t, q) ↔ IsLatest rs A B t q) ∧
          (j'.pool.history.getDirectPrice i k = none ↔ ¬ Priced rs A B) := by
  obtain ⟨ws', rs, ops, h1, h2, h3, rfl, h5, h6⟩ := items_history files depth hs hd h
  refine ⟨ws', _, h1, h2, ?_⟩
  intro A B hA hB
  obtain ⟨cA, fA⟩ := Option.isSome_iff_exists.mp ((h6 A).mpr hA)
  obtain ⟨cB, fB⟩ := Option.isSome_iff_exists.mp ((h6 B).mpr hB)
  have iA := ((C12_nodes ops _ h3).1 A cA fA).1
  have iB := ((C12_nodes ops _ h3).1 B cB fB).1
  exact ⟨_, _, iA, iB, C13_direct_price ops _ h3 h5 A B _ _ iA iB⟩

/-- C92: a price query finds nothing exactly if no chain of these prices leads from one commodity to the other; otherwise
it multiplies the latest prices along a shortest chain. -/
theorem C92_find_price (search : History.Search) (hsearch : History.IsShortest search) (files : Files) (depth : Nat)
    {src : Source} {is : List Item} {e : Ending} (hs : SaysUpTo files depth src is e)
    (hd : ∀ w ∈ touched is e, Everyday w) {j' : Journal} (h : parse files depth src Journal.new = .ok j') :
    ∃ ws' rs, List.Forall₂ Settles (writings is) ws' ∧ ItemPrices is ws' rs ∧
      ∀ A B now m o, A ≠ B → Occurs is A → Occurs is B →
        (j'.pool.findPrice search now A B m o = .ok none ↔ ¬ ∃ cs, ChainFrom rs A B cs) ∧
        ((∃ cs, ChainFrom rs A B cs) → ∃ cs legs, ShortestChain rs A B cs ∧ Legs rs cs legs ∧
          (∀ t q, legs = [(t, q)] → j'.pool.findPrice search now A B m o = .ok (some ⟨t, ⟨q, some B⟩⟩)) ∧
          (StepsExact 1 legs → ∃ pp, j'.pool.findPrice search now A B m o = .ok (some pp) ∧ pp.price.comm = some B ∧
            pp.price.qty.val = legsProduct legs) ∧
          RateResult B legs (j'.pool.findPrice search now A B m o)) := by
  obtain ⟨ws', rs, ops, h1, h2, h3, rfl, h5, h6⟩ := items_history files depth hs hd h
  refine ⟨ws', _, h1, h2, ?_⟩
  intro A B now m o hne hA hB
  refine ⟨C14_none_iff search hsearch ops _ h3 h5 now m o A B hne ((h6 A).mpr hA) ((h6 B).mpr hB), fun hc => ?_⟩
  obtain ⟨cs, legs, k1, k2, k3⟩ := C14_outcome search hsearch ops _ h3 h5 now m o A B hne ((h6 A).mpr hA) ((h6 B).mpr hB) hc
  exact ⟨cs, legs, k1, k2, fun t q e => k3.single e, fun e => k3.exact e, k3⟩

/-! ### C93 -/

/-- Full statement: the price on a price line is in the commodity the line names, and the line feed at its end does not
belong to the name.  The code cuts the parts of the line only at spaces and tabs and keeps the line feed: the price is in a
commodity of another name, so no query for the named one finds it. -/
theorem C93_line_feed_violated :
    ∃ line line' : Str, line' = line ++ ['\n'] ∧ TopPart line .price ∧ TopPart line' .price ∧
      PriceSays line ⟨str "VEUR", str "EUR", ⟨⟨2023, 5, 2⟩, Time.midnight⟩, ⟨false, 26, 0⟩⟩ ∧
      PriceSays line' ⟨str "VEUR", str "EUR\n", ⟨⟨2023, 5, 2⟩, Time.midnight⟩, ⟨false, 26, 0⟩⟩ := by
  have d : DayText (str "2023-05-02") ⟨2023, 5, 2⟩ := (C53_date_text _ _).mp (by decide +kernel)
  have n : Numeral (str "26") ⟨false, 26, 0⟩ := (C02_parse_exact _ _).mp (by decide +kernel)
  refine ⟨str "i 2023-05-02 VEUR 26 EUR", str "i 2023-05-02 VEUR 26 EUR\n", by decide, ?_, ?_, ?_, ?_⟩
  · exact (C91_top_line _ _).mpr (by decide +kernel)
  · exact (C91_top_line _ _).mpr (by decide +kernel)
  · exact ⟨_, [], _, (priceLineParts_iff _ _ _ _ _ _).mpr (by decide +kernel), d, Or.inl ⟨rfl, rfl⟩, n, by decide, by decide⟩
  · exact ⟨_, [], _, (priceLineParts_iff _ _ _ _ _ _).mpr (by decide +kernel), d, Or.inl ⟨rfl, rfl⟩, n, by decide, by decide⟩

theorem skip_more {text rest : Str} (h : Skip text rest) (hr : rest ≠ []) (x : Str) : Skip (text ++ x) (rest ++ x) := by
  obtain ⟨sp, rfl, h1, h2⟩ := h
  refine ⟨sp, by simp, h1, ?_⟩
  cases rest with
  | nil => exact absurd rfl hr
  | cons c cs => exact h2

theorem priceElement_more {text s rest x : Str} (h : PriceElement text s rest) (hs : s ≠ [])
    (hx : ∀ c, x.head? = some c → c = ' ' ∨ c = '\t') : PriceElement (text ++ x) s (rest ++ x) := by
  obtain ⟨t, h1, rfl, h2, h3⟩ := h
  refine ⟨_, skip_more h1 (by cases s <;> simp_all) x, by simp, h2, ?_⟩
  cases rest with
  | nil =>
    intro c hc
    rcases hx c hc with rfl | rfl <;> simp
  | cons c cs => exact h3

/-- C93: with a space or tab before its line feed, a price line says the same as without.  Missing: lines that end right
after the name, for which the claim is false. -/
theorem C93_separated_partial {line : Str} {r : Recording} (h : PriceSays line r) {x : Str}
    (hx : ∀ c, x.head? = some c → c = ' ' ∨ c = '\t') : PriceSays (line ++ x) r := by
  obtain ⟨d, t, q, ⟨a, text, rfl, ha, r1, r2, r3, r4, r5, e1, e2, e3, e4, e5, e6, r6, e7⟩, hd, ht, hq, hne, hdst⟩ := h
  have hdne : d ≠ [] := by
    rintro rfl
    obtain ⟨sp, y, m, z, h, _⟩ := hd.1
    have := congrArg List.length h
    simp at this
  have hqne : q ≠ [] := by
    rintro rfl
    exact absurd ((C02_parse_exact _ _).mpr hq) (by simp [show Dec.fromStr [] = none from by decide])
  have hsrc : r.src ≠ [] := by
    intro h0
    rw [h0] at e5
    obtain ⟨t', ⟨sp, rfl, s1, s2⟩, rfl, s3, s4⟩ := e5
    cases t' with
    | nil =>
      obtain ⟨t'', ⟨sp', h5, s5, s6⟩, rfl, s7, s8⟩ := e6
      have := congrArg List.length h5
      simp at this
      exact hqne (List.length_eq_zero_iff.mp (by omega))
    | cons c cs =>
      have := s4 c rfl
      have hw := s2 c rfl
      simp only [not_and, Decidable.not_not] at this
      by_cases hc : c = ' '
      · subst hc; simp [isWs] at hw
      · have := this hc; subst this; simp [isWs] at hw
  refine ⟨d, t, q, ⟨a, text ++ x, rfl, ha, r1 ++ x, r2 ++ x, r3 ++ x, r4 ++ x, r5 ++ x, priceElement_more e1 hdne hx,
    skip_more e2 e3 x, by simp [e3], ?_, priceElement_more e5 hsrc hx, priceElement_more e6 hqne hx,
    r6 ++ x, priceElement_more e7 hdst hx⟩, hd, ht, hq, hne, hdst⟩
  cases r2 with
  | nil => exact absurd rfl e3
  | cons c cs =>
    rcases e4 with ⟨f1, rfl, rfl⟩ | ⟨f1, f2⟩
    · exact Or.inl ⟨f1, rfl, rfl⟩
    · refine Or.inr ⟨f1, priceElement_more f2 ?_ hx⟩
      rintro rfl
      obtain ⟨t', ⟨sp, h5, s1, s2⟩, rfl, s3, s4⟩ := f2
      have hc := f1 c rfl
      cases sp with
      | nil =>
        have := s4 c (by rw [← (show c :: cs = t' from h5)]; rfl)
        simp only [not_and, Decidable.not_not] at this
        by_cases hc' : c = ' '
        · subst hc'; simp [isDig] at hc
        · have := this hc'; subst this; simp [isDig] at hc
      | cons b sp =>
        injection h5 with h5 _
        subst h5
        have := s1 c List.mem_cons_self
        simp [isDig_ws hc] at this

example : ∃ line : Str, PriceSays (line ++ str " \n") ⟨str "VEUR", str "EUR", ⟨⟨2023, 5, 2⟩, Time.midnight⟩, ⟨false, 26, 0⟩⟩ := by
  have d : DayText (str "2023-05-02") ⟨2023, 5, 2⟩ := (C53_date_text _ _).mp (by decide +kernel)
  have n : Numeral (str "26") ⟨false, 26, 0⟩ := (C02_parse_exact _ _).mp (by decide +kernel)
  refine ⟨str "i 2023-05-02 VEUR 26 EUR", C93_separated_partial ?_ (by intro c h; simp [str] at h; exact Or.inl h.symm)⟩
  exact ⟨_, [], _, (priceLineParts_iff _ _ _ _ _ _).mpr (by decide +kernel), d, Or.inl ⟨rfl, rfl⟩, n, by decide, by decide⟩

/-! ### examples -/

namespace FoundExample
open LinesExample FaultsExample CausesExample

def price : Recording := ⟨str "VEUR", str "EUR", ⟨⟨2023, 5, 2⟩, Time.midnight⟩, ⟨false, 26, 0⟩⟩

theorem priceLine : PriceSays (str "i 2023-05-02 VEUR 26 EUR \n") price :=
  ⟨str "2023-05-02", [], str "26", (priceLineParts_iff _ _ _ _ _ _).mpr (by decide +kernel),
    (C53_date_text _ _).mp (by decide +kernel), Or.inl ⟨rfl, rfl⟩, (C02_parse_exact _ _).mp (by decide +kernel), by decide, by decide⟩

/-- A price, a transaction that ends at a line that cannot be read, and a directive that is not supported. -/
def refused : Source :=
  [some (str "i 2023-05-02 VEUR 26 EUR \n"), some (str "2023-05-01 Shop  ; food\n"),
   some (str "    Expenses:Food  20.50 EUR\n"), some (str "    Assets:Cash\n"), none, some (str "account Assets\n"),
   some (str "2023-05-01 Shop\n")]

theorem refusedSays : SaysUpTo (fun _ => none) 0 refused [.price price, .gap, .xact first] (.stop .unsupportedDirective) := by
  refine .price ((topPart_iff _ _).mpr (by decide +kernel)) priceLine (.xact (w := first) (tail := none :: _) shopHeader
    (.posting (e := bread) foodLine (.posting cashLine (.stop (Or.inl ⟨_, Or.inr (Or.inr rfl)⟩)))) (Or.inr (Or.inr rfl)) ?_)
  exact .refused ((topPart_iff _ _).mpr (by decide +kernel))

/-- A transaction with a line that is not indented. -/
def broken : Source :=
  [some (str "2023-05-01 Shop  ; food\n"), some (str "    Expenses:Food  20.50 EUR\n"), some (str "Assets:Cash\n")]

theorem brokenSays : SaysUpTo (fun _ => none) 0 broken [] (.inside third .badXactLine) := by
  have hb : BodyRefused (str "Assets:Cash\n") .badXactLine := .outside (by intro c h; simp [str] at h; subst h; decide)
  exact .broken (w := third) shopHeader (.posting (e := bread) foodLine (.stop (Or.inr ⟨_, _, _, rfl, hb⟩))) hb

theorem firstSound : ¬ Faulty first := by
  intro h
  obtain ⟨k, hk⟩ := h.cause
  have h1 := (C88_first_fault (fun _ => none) 0 (text := [str "2023-05-01 Shop  ; food\n",
      str "    Expenses:Food  20.50 EUR\n", str "    Assets:Cash\n"].flatten) (lines := [str "2023-05-01 Shop  ; food\n",
      str "    Expenses:Food  20.50 EUR\n", str "    Assets:Cash\n"]) (ws := [first]) (linesOf_of (by decide))
    (.last ⟨_, [], [[_], [_]], rfl, shopHeader, .nil, .cons ⟨_, [], rfl, foodLine, .nil⟩ (.cons ⟨_, [], rfl, cashLine, .nil⟩ .nil)⟩)
    (fun w hw => CausesExample.everyday w (by simp_all)) .new (by intro s ann pr h; cases h) k).mpr ⟨[], first, [], rfl, by simp, hk⟩
  have h2 : (parseText (fun _ => none) 0 ([str "2023-05-01 Shop  ; food\n",
      str "    Expenses:Food  20.50 EUR\n", str "    Assets:Cash\n"].flatten) Journal.new).isOk = true := by decide +kernel
  rw [h1] at h2
  cases h2

/-- Reading them ends with the panic of the refused line. -/
example : parse (fun _ => none) 0 refused Journal.new = .error .unsupportedDirective ∧
    parse (fun _ => none) 0 broken Journal.new = .error .badXactLine :=
  ⟨(C92_panic _ _ refusedSays (by
      intro w hw
      exact CausesExample.everyday w (by simp [touched, writings] at hw; simp [hw])) .new (by intro s ann pr h; cases h) _).mpr
      (Or.inr ⟨by intro w hw; simp [writings] at hw; rw [hw]; exact firstSound, rfl⟩),
    (C92_panic _ _ brokenSays (by
      intro w hw
      exact CausesExample.everyday w (by simp [touched, writings] at hw; simp [hw])) .new (by intro s ann pr h; cases h) _).mpr
      (Or.inr ⟨by intro w hw; simp [writings] at hw, rfl⟩)⟩

/-- The first file is read to the end, the second is refused. -/
def shelf : Files := fun f =>
  if f = str "a" then some (refused.take 4) else if f = str "b" then some broken else none

theorem fileSays : SaysUpTo shelf 0 (refused.take 4) [.price price, .xact first] .done :=
  .price ((topPart_iff _ _).mpr (by decide +kernel)) priceLine (.xact (w := first) (tail := []) shopHeader
    (.posting (e := bread) foodLine (.posting cashLine (.stop (Or.inl ⟨_, Or.inl ⟨rfl, rfl⟩⟩)))) (Or.inl ⟨rfl, rfl⟩) .nil)

theorem otherSays : SaysUpTo shelf 0 broken [] (.inside third .badXactLine) := by
  have hb : BodyRefused (str "Assets:Cash\n") .badXactLine := .outside (by intro c h; simp [str] at h; subst h; decide)
  exact .broken (w := third) shopHeader (.posting (e := bread) foodLine (.stop (Or.inr ⟨_, _, _, rfl, hb⟩))) hb

theorem shelfSays : FilesSay shelf 0 [str "a"] [.price price, .xact first] .done :=
  .read (is' := []) (by decide) fileSays .nil

/-- The report of the first file, and the panic of both. -/
example : run shelf 0 [str "bal", str "-f", str "a"] =
      .ok [str "Account  has balance 0.00 EUR", str "Account Assets has balance -20.50 EUR",
        str "Account Assets:Cash has balance -20.50 EUR", str "Account Expenses has balance 20.50 EUR",
        str "Account Expenses:Food has balance 20.50 EUR"] ∧
    run shelf 0 [str "bal", str "-f", str "a", str "-f", str "b"] = .error .badXactLine := by
  have hd : ∀ w ∈ [first, third], Everyday w := fun w hw => CausesExample.everyday w (by simp at hw; rcases hw with rfl | rfl <;> simp)
  have hs : Roomy (allEntries [first]) := by
    refine roomy_of (show ∀ e ∈ [bread, cash], (∀ a ∈ e.amount, a.qty.scale ≤ 9) ∧ e.worthDecimals ≤ 9 by decide) ?_
    change (List.map (·.size) [bread, cash]).sum ≤ _
    simp only [List.map_cons, List.map_nil, List.sum_cons, List.sum_nil, size_bread, size_cash]
    norm_num
  have hn : ∀ w ∈ [first], ¬ Faulty w := by intro w hw; rw [List.mem_singleton.mp hw]; exact firstSound
  constructor
  · have h := C92_report shelf 0 shelfSays (fun w hw => hd w (List.mem_cons_of_mem _ (by
      simpa [writings] using hw) |> fun (h : w ∈ third :: [first]) => by simp at h ⊢; tauto)) hs
      (args := [str "bal", str "-f", str "a"]) (verb := str "bal") (rest := []) (by decide) (by unfold BalanceVerb; decide) hn
    rw [h]
    decide +kernel
  · refine (C92_run_panic shelf 0 (fs := [str "a", str "b"]) (e := .inside third .badXactLine)
      (is := [.price price, .xact first]) ?_ hd hs (args := [str "bal", str "-f", str "a", str "-f", str "b"])
      (verb := str "bal") (rest := []) (by decide) (Or.inl (by unfold BalanceVerb; decide)) _).mpr (Or.inr ⟨hn, rfl⟩)
    exact .read (is' := []) (by decide) fileSays (.stop (src := broken) (by decide) otherSays (by decide))

end FoundExample

end Ledger
