import Verif.Props.Cancel
/-
C122: what a transaction with a blank posting and its reversal leave over.
-/
namespace Ledger
open Ledger.Parser Ledger.Finalize Ledger.Cli Ledger.Output

/-- For each blank posting at or below the account the absolute sum of the others. -/
def Writing.lost (w : Writing) (p : Path) (c : Option Str) : ℚ :=
  (w.entries.map (fun e => if e.amount = none ∧ p <+: pathOf e.account then |entriesSum w.entries c| else 0)).sum

theorem figure_worth {e : Entry} {f : Amount} (h : e.figure = some f) :
    f.comm = e.worthIn ∧ f.qty.val = e.worth ∧ e.amount ≠ none := by
  obtain ⟨n1, a, n2, k, n3, n4⟩ := e
  rcases a with _ | a
  · simp [Entry.figure] at h
  · rcases k with _ | ⟨_ | _, k⟩ <;> simp [Entry.figure] at h <;> subst h <;>
      simp [Entry.worthIn, Entry.worth, Dec.times_val]

theorem figure_none {e : Entry} (h : e.figure = none) : e.amount = none ∧ e.worth = 0 := by
  obtain ⟨n1, a, n2, k, n3, n4⟩ := e
  rcases a with _ | a
  · simp [Entry.worth]
  · rcases k with _ | ⟨_ | _, k⟩ <;> simp [Entry.figure] at h

theorem figures_sum (es : List Entry) (c : Option Str) : sumIn c (es.filterMap (·.figure)) = entriesSum es c := by
  induction es with
  | nil => rfl
  | cons e es ih =>
    rw [entriesSum_cons, ← ih, List.filterMap_cons]
    cases h : e.figure with
    | none => simp [(figure_none h).2]
    | some f =>
      obtain ⟨h1, h2, _⟩ := figure_worth h
      simp only [sumIn, Amount.valIn, h1, h2]

/-- What a blank posting gets in an accepted transaction. -/
theorem blank_share {w : Writing} (hw : ¬ Faulty w) {e : Entry} (he : e ∈ w.entries) (hb : e.amount = none) :
    ∃ a, fillOf w.entries = some a ∧ (∀ c, a.valIn c = - |entriesSum w.entries c|) ∧
      ∃ q ∈ w.entries, q.amount ≠ none ∧ q.worthIn = a.comm := by
  have hother : ∃ q ∈ w.entries, q.amount ≠ none := by
    by_contra hno
    have hall : ∀ q ∈ w.entries, q.amount = none := fun q hq => by
      by_contra h
      exact hno ⟨q, hq, h⟩
    match hes : w.entries, he, hall with
    | [x], _, _ => exact hw (.single (by rw [hes]; rfl))
    | x :: y :: r, _, hall =>
      exact hw (.blanks [] [] r x y (by rw [hes]; rfl) (hall x (by simp)) (hall y (by simp)))
  obtain ⟨q, hq, hqa⟩ := hother
  obtain ⟨f, hf⟩ : ∃ f, q.figure = some f := by
    cases h : q.figure with
    | none => exact absurd (figure_none h).1 hqa
    | some f => exact ⟨f, rfl⟩
  have hc : ∀ a ∈ w.entries.filterMap (·.figure), a.comm = q.worthIn := by
    intro a ha
    obtain ⟨x, hx, hxa⟩ := List.mem_filterMap.mp ha
    obtain ⟨h1, _, h3⟩ := figure_worth hxa
    rw [h1]
    by_contra hne
    exact hw (.mixed e x q he hx hq hb h3 hqa hne)
  obtain ⟨a, t1, t2, t3⟩ := tally_single hc (List.ne_nil_of_mem (List.mem_filterMap.mpr ⟨q, hq, hf⟩))
  refine ⟨⟨⟨true, a.qty.mant, a.qty.scale⟩, a.comm⟩, by unfold fillOf; rw [t1]; rfl, fun c => ?_, q, hq, hqa, t2.symm⟩
  have hval : (⟨true, a.qty.mant, a.qty.scale⟩ : Dec).val = - |a.qty.val| := by
    rw [Dec.abs_val]
    unfold Dec.val Dec.signed
    simp
    ring
  simp only [Amount.valIn]
  by_cases h : a.comm = c
  · rw [if_pos h, hval, t3, ← t2, h, figures_sum]
  · rw [if_neg h, ← figures_sum, sumIn_absent]
    · simp
    · intro hm
      obtain ⟨x, hx, hxc⟩ := List.mem_map.mp hm
      exact h (by rw [t2, ← hc x hx, hxc])

theorem turned_valIn (a : Amount) (c : Option Str) : a.turned.valIn c = - a.valIn c := by
  simp only [Amount.valIn, turned_val]
  have : a.turned.comm = a.comm := rfl
  rw [this]
  split <;> simp

theorem below_cons (x : Path × Amount) (b : Bookings) (p : Path) (c : Option Str) :
    sumIn c (Bookings.below (x :: b) p) = (if p <+: x.1 then x.2.valIn c else 0) + sumIn c (Bookings.below b p) := by
  unfold Bookings.below
  rw [List.filter_cons]
  by_cases h : p <+: x.1
  · rw [if_pos (List.isPrefixOf_iff_prefix.mpr h), if_pos h]; rfl
  · rw [if_neg (fun g => h (List.isPrefixOf_iff_prefix.mp g)), if_neg h, zero_add]

theorem below_append (b b' : Bookings) (p : Path) (c : Option Str) :
    sumIn c (Bookings.below (b ++ b') p) = sumIn c (Bookings.below b p) + sumIn c (Bookings.below b' p) := by
  unfold Bookings.below
  rw [List.filter_append, List.map_append, sumIn_append]

theorem turned_left (es : List Entry) (F F' : Option Amount) (c : Option Str) (p : Path) (V : ℚ)
    (h : (∃ e ∈ es, e.amount = none) → ∃ a a', F = some a ∧ F' = some a' ∧ a.valIn c = - V ∧ a'.valIn c = - V) :
    sumIn c (Bookings.below (es.filterMap (fun e => (e.amount.or F).map (fun a => (pathOf e.account, a)))) p) +
      sumIn c (Bookings.below ((es.map Entry.turned).filterMap (fun e => (e.amount.or F').map (fun a => (pathOf e.account, a)))) p) =
    - 2 * (es.map (fun e => if e.amount = none ∧ p <+: pathOf e.account then V else 0)).sum := by
  induction es with
  | nil => simp [Bookings.below, sumIn]
  | cons e es ih =>
    have ih := ih fun ⟨x, hx, hxa⟩ => h ⟨x, List.mem_cons_of_mem _ hx, hxa⟩
    rw [List.map_cons, List.map_cons, List.sum_cons, List.filterMap_cons, List.filterMap_cons]
    cases ha : e.amount with
    | none =>
      obtain ⟨a, a', rfl, rfl, h1, h2⟩ := h ⟨e, List.mem_cons_self, ha⟩
      have : e.turned.amount = none := turned_none.mpr ha
      rw [this]
      simp only [Option.none_or, Option.map_some, below_cons, h1, h2, true_and]
      have : e.turned.account = e.account := rfl
      rw [this]
      split <;> linarith
    | some a =>
      have : e.turned.amount = some a.turned := by simp [Entry.turned, ha]
      rw [this]
      simp only [Option.some_or, Option.map_some, below_cons, turned_valIn, reduceCtorEq, false_and, if_false]
      have : e.turned.account = e.account := rfl
      rw [this]
      split <;> linarith

/-- A transaction and its reversal leave only blank postings over. -/
theorem bookings_left {w : Writing} (hw : ¬ Faulty w) (p : Path) (c : Option Str) :
    sumIn c (w.bookings.below p) + sumIn c (w.turned.bookings.below p) = - 2 * w.lost p c := by
  unfold Writing.bookings Writing.lost
  refine turned_left _ _ _ c p _ ?_
  rintro ⟨e, he, hb⟩
  obtain ⟨a, h1, h2, _⟩ := blank_share hw he hb
  obtain ⟨a', h3, h4, _⟩ := blank_share (w := w.turned) (fun h => hw (faulty_turned.mp h)) (List.mem_map_of_mem he)
    (turned_none.mpr hb)
  refine ⟨a, a', h1, h3, h2 c, ?_⟩
  rw [h4 c]
  show - |entriesSum (w.entries.map Entry.turned) c| = _
  rw [turned_sum, abs_neg]

theorem writings_left {us : List Writing} (hu : ∀ u ∈ us, ¬ Faulty u) (p : Path) (c : Option Str) :
    sumIn c (Bookings.below (writtenBookings (us ++ us.map Writing.turned)) p) = - 2 * (us.map (fun u => u.lost p c)).sum := by
  unfold writtenBookings
  rw [List.flatMap_append, below_append]
  induction us with
  | nil => simp [Bookings.below, sumIn]
  | cons u us ih =>
    have h := bookings_left (hu u List.mem_cons_self) p c
    have ih := ih fun v hv => hu v (List.mem_cons_of_mem _ hv)
    rw [List.map_cons, List.flatMap_cons, List.flatMap_cons, below_append, below_append, List.map_cons, List.sum_cons]
    linarith

theorem bookings_named {w : Writing} (hw : ¬ Faulty w) (p : Path) :
    (∃ x ∈ w.bookings, p <+: x.1) ↔ ∃ e ∈ w.entries, p <+: pathOf e.account := by
  unfold Writing.bookings
  constructor
  · rintro ⟨x, hx, hp⟩
    obtain ⟨e, he, hx⟩ := List.mem_filterMap.mp hx
    obtain ⟨a, _, rfl⟩ := Option.map_eq_some_iff.mp hx
    exact ⟨e, he, hp⟩
  · rintro ⟨e, he, hp⟩
    obtain ⟨a, ha⟩ : ∃ a, e.amount.or (fillOf w.entries) = some a := by
      cases hb : e.amount with
      | some a => exact ⟨a, rfl⟩
      | none =>
        obtain ⟨a, h, _⟩ := blank_share hw he hb
        exact ⟨a, by rw [h]; rfl⟩
    exact ⟨(pathOf e.account, a), List.mem_filterMap.mpr ⟨e, he, by rw [ha]; rfl⟩, hp⟩

/-- C122: what written transactions and, anywhere in the files, the same with all signs turned around come to, with blank postings
and without.  Postings with a written amount cancel; for each blank posting its account and those above are down by twice the
absolute sum of the other postings. -/
theorem C122_exactly {files files' : Files} {depth depth' : Nat} {fs fs' : List Str} {is is' : List Item}
    (hf : FilesSay files depth fs is .done) (hf' : FilesSay files' depth' fs' is' .done) {us : List Writing}
    (hw : (writings is).Perm (writings is' ++ (us ++ us.map Writing.turned)))
    (hd : ∀ w ∈ writings is' ++ us, Everyday w) (ht : Roomy (allEntries (writings is)))
    {args args' rest rest' : List Str} {verb verb' : Str}
    (ha : Options.processArguments args = .ok (verb :: rest, fs)) (hv : BalanceVerb verb)
    (ha' : Options.processArguments args' = .ok (verb' :: rest', fs')) (hv' : BalanceVerb verb') :
    ((∃ k, run files depth args = .error k) ∧ ((∃ k, run files' depth' args' = .error k) ∨ ∃ u ∈ us, Faulty u)) ∨
    ∃ (accounts accounts' : List Path) (total total' : Path → List Amount),
      run files depth args = .ok (accounts.map (fun p => lineText (colons p) ⟨total p⟩)) ∧
      run files' depth' args' = .ok (accounts'.map (fun p => lineText (colons p) ⟨total' p⟩)) ∧
      accounts.Nodup ∧ (∀ p, p ∈ accounts ↔ p ∈ accounts' ∨ ∃ u ∈ us, ∃ e ∈ u.entries, p <+: pathOf e.account) ∧
      (∀ p, p ∉ accounts' → total' p = []) ∧
      ∀ p ∈ accounts, ((total p).map (·.comm)).Nodup ∧ ((total' p).map (·.comm)).Nodup ∧
        ∀ c, sumIn c (total p) = sumIn c (total' p) - 2 * (us.map (fun u => u.lost p c)).sum := by
  have hm : ∀ w, w ∈ writings is ↔ w ∈ writings is' ∨ w ∈ us ∨ ∃ u ∈ us, u.turned = w := fun w => by
    rw [hw.mem_iff, List.mem_append, List.mem_append, List.mem_map]
  have hd0 : ∀ w ∈ writings is, Everyday w := by
    intro w h
    rcases (hm w).mp h with h | h | ⟨u, g, rfl⟩
    · exact hd w (List.mem_append_left _ h)
    · exact hd w (List.mem_append_right _ h)
    · exact (hd u (List.mem_append_right _ g)).turned
  have hd' : ∀ w ∈ writings is', Everyday w := fun w h => hd w (List.mem_append_left _ h)
  have hp : (allEntries (writings is)).Perm (allEntries (writings is') ++ allEntries (us ++ us.map Writing.turned)) := by
    have := hw.flatMap_right (·.entries)
    rwa [List.flatMap_append] at this
  have ht' : Roomy (allEntries (writings is')) := by
    refine ht.mono (fun e he => hp.mem_iff.mpr (List.mem_append_left _ he)) ?_
    rw [(hp.map _).sum_eq, List.map_append, List.sum_append]
    have := List.sum_nonneg (M := ℚ) (l := (allEntries (us ++ us.map Writing.turned)).map (·.size)) (by
      intro x hx
      obtain ⟨e, _, rfl⟩ := List.mem_map.mp hx
      exact size_nonneg e)
    linarith
  by_cases hn : ∃ w ∈ writings is, Faulty w
  · left
    obtain ⟨k, hk⟩ := firstCause_of_faulty hn
    refine ⟨⟨k, (C92_run_panic files depth hf hd0 ht ha (Or.inl hv) k).mpr (Or.inl hk)⟩, ?_⟩
    obtain ⟨w, h1, h2⟩ := hn
    rcases (hm w).mp h1 with h1 | h1 | ⟨u, g, rfl⟩
    · obtain ⟨k, hk⟩ := firstCause_of_faulty ⟨w, h1, h2⟩
      exact .inl ⟨k, (C92_run_panic files' depth' hf' hd' ht' ha' (Or.inl hv') k).mpr (Or.inl hk)⟩
    · exact .inr ⟨w, h1, h2⟩
    · exact .inr ⟨u, g, faulty_turned.mp h2⟩
  · right
    have hn0 : ∀ w ∈ writings is, ¬ Faulty w := fun w h1 h2 => hn ⟨w, h1, h2⟩
    have hn' : ∀ w ∈ writings is', ¬ Faulty w := fun w h1 => hn0 w ((hm w).mpr (.inl h1))
    have hu : ∀ u ∈ us, ¬ Faulty u := fun w h1 => hn0 w ((hm w).mpr (.inr (.inl h1)))
    have hb : (writtenBookings (writings is)).Perm (writtenBookings (writings is') ++
        writtenBookings (us ++ us.map Writing.turned)) := by
      have := hw.flatMap_right (·.bookings)
      rw [List.flatMap_append] at this
      exact this
    have hus : ∀ p, (∃ x ∈ writtenBookings (us ++ us.map Writing.turned), p <+: x.1) ↔
        ∃ u ∈ us, ∃ e ∈ u.entries, p <+: pathOf e.account := by
      intro p
      constructor
      · rintro ⟨x, hx, hpx⟩
        obtain ⟨v, h1, h2⟩ := List.mem_flatMap.mp hx
        rcases List.mem_append.mp h1 with h1 | h1
        · obtain ⟨e, h3, h4⟩ := (bookings_named (hu v h1) p).mp ⟨x, h2, hpx⟩
          exact ⟨v, h1, e, h3, h4⟩
        · obtain ⟨u, hu1, rfl⟩ := List.mem_map.mp h1
          obtain ⟨e, h3, h4⟩ := (bookings_named (w := u.turned) (fun h => hu u hu1 (faulty_turned.mp h)) p).mp ⟨x, h2, hpx⟩
          obtain ⟨e', h5, rfl⟩ := List.mem_map.mp h3
          exact ⟨u, hu1, e', h5, h4⟩
      · rintro ⟨u, h1, h3⟩
        obtain ⟨x, h4, h5⟩ := (bookings_named (hu u h1) p).mpr h3
        exact ⟨x, List.mem_flatMap.mpr ⟨u, List.mem_append_left _ h1, h4⟩, h5⟩
    refine ⟨(writtenBookings (writings is)).listed, (writtenBookings (writings is')).listed,
      (writtenBookings (writings is)).figure, (writtenBookings (writings is')).figure,
      by rw [C92_report files depth hf hd0 ht ha hv hn0, report_listed],
      by rw [C92_report files' depth' hf' hd' ht' ha' hv' hn', report_listed], listedFrom_nodup _ _ _, fun p => ?_,
      fun p => figure_unlisted, fun p hp => ⟨figure_nodup _ p hp, ?_, fun c => ?_⟩⟩
    · rw [mem_listed, mem_listed, ← hus]
      constructor
      · rintro (h | ⟨x, hx, hpx⟩)
        · exact .inl (.inl h)
        · rcases List.mem_append.mp (hb.mem_iff.mp hx) with hx | hx
          · exact .inl (.inr ⟨x, hx, hpx⟩)
          · exact .inr ⟨x, hx, hpx⟩
      · rintro ((h | ⟨x, hx, hpx⟩) | ⟨x, hx, hpx⟩)
        · exact .inl h
        · exact .inr ⟨x, hb.mem_iff.mpr (List.mem_append_left _ hx), hpx⟩
        · exact .inr ⟨x, hb.mem_iff.mpr (List.mem_append_right _ hx), hpx⟩
    · by_cases hl : p ∈ (writtenBookings (writings is')).listed
      · exact figure_nodup _ p hl
      · rw [figure_unlisted hl]
        exact List.nodup_nil
    · obtain ⟨_, _, h3⟩ := figure_add hb hp
      have := (figure_sums_any (writtenBookings (us ++ us.map Writing.turned)) c p).1
      rw [h3, this, writings_left hu]
      ring

theorem lost_nonneg (w : Writing) (p : Path) (c : Option Str) : 0 ≤ w.lost p c := by
  unfold Writing.lost
  refine List.sum_nonneg fun x hx => ?_
  obtain ⟨e, _, rfl⟩ := List.mem_map.mp hx
  split
  · exact abs_nonneg _
  · exact le_refl _

theorem sum_zero {l : List ℚ} (h : ∀ x ∈ l, 0 ≤ x) (hs : l.sum = 0) : ∀ x ∈ l, x = 0 := by
  induction l with
  | nil => simp
  | cons y l ih =>
    have h1 := h y List.mem_cons_self
    have h2 : 0 ≤ l.sum := List.sum_nonneg fun x hx => h x (List.mem_cons_of_mem _ hx)
    rw [List.sum_cons] at hs
    intro x hx
    rcases List.mem_cons.mp hx with rfl | hx
    · linarith
    · exact ih (fun x hx => h x (List.mem_cons_of_mem _ hx)) (by linarith) x hx

/-- C122: transactions and their reversals cancel in the report exactly if the postings beside each blank posting sum to zero. -/
theorem C122_when {files files' : Files} {depth depth' : Nat} {fs fs' : List Str} {is is' : List Item}
    (hf : FilesSay files depth fs is .done) (hf' : FilesSay files' depth' fs' is' .done) {us : List Writing}
    (hw : (writings is).Perm (writings is' ++ (us ++ us.map Writing.turned)))
    (hd : ∀ w ∈ writings is' ++ us, Everyday w) (ht : Roomy (allEntries (writings is)))
    {args args' rest rest' : List Str} {verb verb' : Str}
    (ha : Options.processArguments args = .ok (verb :: rest, fs)) (hv : BalanceVerb verb)
    (ha' : Options.processArguments args' = .ok (verb' :: rest', fs')) (hv' : BalanceVerb verb') {out : List Str}
    (ho : run files depth args = .ok out) :
    ∃ (accounts accounts' : List Path) (total total' : Path → List Amount),
      out = accounts.map (fun p => lineText (colons p) ⟨total p⟩) ∧
      run files' depth' args' = .ok (accounts'.map (fun p => lineText (colons p) ⟨total' p⟩)) ∧
      (∀ p, p ∉ accounts' → total' p = []) ∧
      ((∀ p ∈ accounts, ∀ c, sumIn c (total p) = sumIn c (total' p)) ↔
        ∀ u ∈ us, ∀ e ∈ u.entries, e.amount = none → ∀ c, entriesSum u.entries c = 0) := by
  rcases C122_exactly hf hf' hw hd ht ha hv ha' hv' with ⟨⟨k, hk⟩, _⟩ | ⟨as, as', t, t', h1, h2, _, h4, h5, h6⟩
  · rw [hk] at ho; cases ho
  · rw [h1] at ho
    injection ho with ho
    refine ⟨as, as', t, t', ho.symm, h2, h5, fun h u hu e he hb c => ?_, fun h p hp c => ?_⟩
    · have hroot : pathOf e.account ∈ as := (h4 _).mpr (.inr ⟨u, hu, e, he, List.prefix_refl _⟩)
      have h7 := (h6 _ hroot).2.2 c
      rw [h _ hroot c] at h7
      have h8 := sum_zero (l := us.map (fun u => u.lost (pathOf e.account) c)) (fun x hx => by
        obtain ⟨v, _, rfl⟩ := List.mem_map.mp hx
        exact lost_nonneg _ _ _) (by linarith) _ (List.mem_map_of_mem hu)
      have h9 := sum_zero (l := u.entries.map (fun x : Entry => if x.amount = none ∧ pathOf e.account <+: pathOf x.account
          then |entriesSum u.entries c| else 0)) (fun x hx => by
        obtain ⟨v, _, rfl⟩ := List.mem_map.mp hx
        split
        · exact abs_nonneg _
        · exact le_refl _) h8 _ (List.mem_map_of_mem he)
      rw [if_pos ⟨hb, List.prefix_refl _⟩] at h9
      exact abs_eq_zero.mp h9
    · rw [(h6 p hp).2.2 c]
      have : (us.map (fun u => u.lost p c)).sum = 0 := by
        refine List.sum_eq_zero fun x hx => ?_
        obtain ⟨u, hu, rfl⟩ := List.mem_map.mp hx
        refine List.sum_eq_zero fun y hy => ?_
        obtain ⟨e, he, rfl⟩ := List.mem_map.mp hy
        split
        · rename_i hb
          rw [h u hu e he hb.1 c, abs_zero]
        · rfl
      rw [this]
      ring

theorem writings_turned {us : List Writing} (hu : ∀ u ∈ us, ¬ Faulty u) (p : Path) (c : Option Str) :
    sumIn c (Bookings.below (writtenBookings (us.map Writing.turned)) p) =
      - sumIn c (Bookings.below (writtenBookings us) p) - 2 * (us.map (fun u => u.lost p c)).sum := by
  have h := writings_left hu p c
  unfold writtenBookings at h ⊢
  rw [List.flatMap_append, below_append] at h
  linarith

theorem below_perm {b b' : Bookings} (h : b.Perm b') (p : Path) (c : Option Str) :
    sumIn c (b.below p) = sumIn c (b'.below p) := by
  unfold Bookings.below
  exact sumIn_perm c ((h.filter _).map _)

/-- C120: the balance report on written transactions with all signs turned around, in any order, with blank postings and without.
It lists the same accounts; every sum is the opposite one, less twice the absolute sum of the other postings for each blank posting
at or below the account. -/
theorem C120_sums {files files' : Files} {depth depth' : Nat} {fs fs' : List Str} {is is' : List Item}
    (hf : FilesSay files depth fs is .done) (hf' : FilesSay files' depth' fs' is' .done)
    (hw : (writings is').Perm ((writings is).map Writing.turned))
    (hd : ∀ w ∈ writings is, Everyday w) (ht : Roomy (allEntries (writings is)))
    {args args' rest rest' : List Str} {verb verb' : Str}
    (ha : Options.processArguments args = .ok (verb :: rest, fs)) (hv : BalanceVerb verb)
    (ha' : Options.processArguments args' = .ok (verb' :: rest', fs')) (hv' : BalanceVerb verb') :
    ((∃ k, run files depth args = .error k) ∧ ∃ k, run files' depth' args' = .error k) ∨
    ∃ (accounts accounts' : List Path) (total total' : Path → List Amount),
      run files depth args = .ok (accounts.map (fun p => lineText (colons p) ⟨total p⟩)) ∧
      run files' depth' args' = .ok (accounts'.map (fun p => lineText (colons p) ⟨total' p⟩)) ∧
      accounts.Nodup ∧ accounts'.Perm accounts ∧
      ∀ p ∈ accounts, ((total p).map (·.comm)).Nodup ∧ ((total' p).map (·.comm)).Nodup ∧
        ∀ c, sumIn c (total' p) = - sumIn c (total p) - 2 * ((writings is).map (fun w => w.lost p c)).sum := by
  have hm : ∀ w, w ∈ writings is' ↔ ∃ u ∈ writings is, u.turned = w := fun w => by rw [hw.mem_iff, List.mem_map]
  have hd' : ∀ w ∈ writings is', Everyday w := by
    intro w h
    obtain ⟨u, hu, rfl⟩ := (hm w).mp h
    exact (hd u hu).turned
  have hp : (allEntries (writings is')).Perm ((allEntries (writings is)).map Entry.turned) := by
    have := hw.flatMap_right (·.entries)
    rw [List.flatMap_map] at this
    unfold allEntries
    rw [List.map_flatMap]
    exact this
  have ht' : Roomy (allEntries (writings is')) := by
    obtain ⟨D, h1, h2, h3⟩ := ht
    refine ⟨D, h1, fun e he => ?_, ?_⟩
    · obtain ⟨x, hx, rfl⟩ := List.mem_map.mp (hp.mem_iff.mp he)
      refine ⟨fun a ha => ?_, by rw [(turned_worth x).2.2.1]; exact (h2 x hx).2⟩
      cases hxa : x.amount with
      | none => rw [turned_none.mpr hxa] at ha; cases ha
      | some b =>
        simp only [Entry.turned, hxa, Option.map_some, Option.some.injEq] at ha
        rw [← ha]
        exact (h2 x hx).1 b hxa
    · rw [(hp.map _).sum_eq, List.map_map]
      have : ((·.size) ∘ Entry.turned : Entry → ℚ) = (·.size) := funext fun e => (turned_worth e).2.2.2.2
      rw [this]
      exact h3
  by_cases hn : ∃ w ∈ writings is, Faulty w
  · left
    obtain ⟨w, h1, h2⟩ := hn
    obtain ⟨k, hk⟩ := firstCause_of_faulty ⟨w, h1, h2⟩
    obtain ⟨k', hk'⟩ := firstCause_of_faulty ⟨w.turned, (hm _).mpr ⟨w, h1, rfl⟩, faulty_turned.mpr h2⟩
    exact ⟨⟨k, (C92_run_panic files depth hf hd ht ha (Or.inl hv) k).mpr (Or.inl hk)⟩,
      ⟨k', (C92_run_panic files' depth' hf' hd' ht' ha' (Or.inl hv') k').mpr (Or.inl hk')⟩⟩
  · right
    have hn1 : ∀ w ∈ writings is, ¬ Faulty w := fun w h1 h2 => hn ⟨w, h1, h2⟩
    have hn2 : ∀ w ∈ writings is', ¬ Faulty w := by
      intro w h
      obtain ⟨u, hu, rfl⟩ := (hm w).mp h
      exact fun h2 => hn1 u hu (faulty_turned.mp h2)
    have hb : (writtenBookings (writings is')).Perm (writtenBookings ((writings is).map Writing.turned)) :=
      hw.flatMap_right Writing.bookings
    have hnamed : ∀ {ws : List Writing}, (∀ w ∈ ws, ¬ Faulty w) → ∀ p, (∃ x ∈ writtenBookings ws, p <+: x.1) ↔
        ∃ w ∈ ws, ∃ e ∈ w.entries, p <+: pathOf e.account := by
      intro ws hws p
      constructor
      · rintro ⟨x, hx, hpx⟩
        obtain ⟨v, h1, h2⟩ := List.mem_flatMap.mp hx
        exact ⟨v, h1, (bookings_named (hws v h1) p).mp ⟨x, h2, hpx⟩⟩
      · rintro ⟨v, h1, h2⟩
        obtain ⟨x, h3, h4⟩ := (bookings_named (hws v h1) p).mpr h2
        exact ⟨x, List.mem_flatMap.mpr ⟨v, h1, h3⟩, h4⟩
    have hl : ∀ p, p ∈ (writtenBookings (writings is')).listed ↔ p ∈ (writtenBookings (writings is)).listed := by
      intro p
      rw [mem_listed, mem_listed, hnamed hn1, hnamed hn2]
      refine or_congr Iff.rfl ⟨?_, ?_⟩
      · rintro ⟨w, h1, e, h2, h3⟩
        obtain ⟨u, hu, rfl⟩ := (hm w).mp h1
        obtain ⟨x, hx, rfl⟩ := List.mem_map.mp h2
        exact ⟨u, hu, x, hx, h3⟩
      · rintro ⟨u, h1, e, h2, h3⟩
        exact ⟨u.turned, (hm _).mpr ⟨u, h1, rfl⟩, e.turned, List.mem_map_of_mem h2, h3⟩
    refine ⟨(writtenBookings (writings is)).listed, (writtenBookings (writings is')).listed,
      (writtenBookings (writings is)).figure, (writtenBookings (writings is')).figure,
      by rw [C92_report files depth hf hd ht ha hv hn1, report_listed],
      by rw [C92_report files' depth' hf' hd' ht' ha' hv' hn2, report_listed], listedFrom_nodup _ _ _,
      (List.perm_ext_iff_of_nodup (listedFrom_nodup _ _ _) (listedFrom_nodup _ _ _)).mpr hl,
      fun p hp => ⟨figure_nodup _ p hp, figure_nodup _ p ((hl p).mpr hp), fun c => ?_⟩⟩
    rw [(figure_sums_any _ c p).1, (figure_sums_any _ c p).1, below_perm hb, writings_turned hn1]

/-! ### examples -/

namespace RefundExample
open BooksExample LinesExample FaultsExample CausesExample FoundExample CancelExample

def bought : Source :=
  [some (str "2023-05-01 Shop  ; food\n"), some (str "    Expenses:Food  20.50 EUR\n"), some (str "    Assets:Cash\n")]

def refund : Source :=
  [some (str "2023-05-01 Shop  ; food\n"), some (str "    Expenses:Food  -20.50 EUR\n"), some (str "    Assets:Cash\n")]

def counter : Files := fun f =>
  if f = str "b" then some bought else if f = str "c" then some payday else if f = str "r" then some refund else none

theorem breadBack : EntryLine (str "    Expenses:Food  -20.50 EUR\n") bread.turned := by
  refine ⟨str "   Expenses:Food  -20.50 EUR\n", rfl, ?_⟩
  have e : str "   Expenses:Food  -20.50 EUR\n" =
      str "   " ++ str "Expenses:Food" ++ ' ' :: ' ' :: [] ++ (str "-20.50" ++ [' '] ++ str "EUR") ++ [] ++ [] ++ str "\n" := by
    decide
  rw [e]
  exact EntryText.full b3 (accountText_of ⟨⟨'E', by decide, by decide, by decide⟩, by decide, by decide⟩) b0
    (amount _ _ _ (by decide) (by decide) (by decide)) noLot noCost (.blank nl) (by intro h; cases h) (by intro h; cases h)

theorem boughtSays : SaysUpTo counter 0 bought [.xact first] .done :=
  .xact (w := first) (tail := []) shopHeader
    (.posting (e := bread) foodLine (.posting cashLine (.stop (Or.inl ⟨_, Or.inl ⟨rfl, rfl⟩⟩)))) (Or.inl ⟨rfl, rfl⟩) .nil

theorem refundSays : SaysUpTo counter 0 refund [.xact first.turned] .done :=
  .xact (w := first.turned) (tail := []) shopHeader
    (.posting (e := bread.turned) breadBack (.posting (e := cash.turned) cashLine (.stop (Or.inl ⟨_, Or.inl ⟨rfl, rfl⟩⟩))))
    (Or.inl ⟨rfl, rfl⟩) .nil

theorem payRead : SaysUpTo counter 0 payday [.xact pay] .done :=
  .xact (w := pay) (tail := []) shopHeader
    (.posting (e := bank) bankLine (.posting wageLine (.stop (Or.inl ⟨_, Or.inl ⟨rfl, rfl⟩⟩)))) (Or.inl ⟨rfl, rfl⟩) .nil

theorem paySays : FilesSay counter 0 [str "c"] [.xact pay] .done := .read (is' := []) (by decide) payRead .nil

theorem allSays : FilesSay counter 0 [str "c", str "b", str "r"] [.xact pay, .xact first, .xact first.turned] .done :=
  filesSay_append paySays (filesSay_append (.read (f := str "b") (is' := []) (by decide) boughtSays .nil)
    (.read (f := str "r") (is' := []) (by decide) refundSays .nil))

theorem allRoomy : Roomy (allEntries [pay, first, first.turned]) := by
  refine roomy_of (show ∀ e ∈ [bank, wage, bread, cash, bread.turned, cash.turned],
    (∀ a ∈ e.amount, a.qty.scale ≤ 9) ∧ e.worthDecimals ≤ 9 by decide) ?_
  change (List.map (·.size) [bank, wage, bread, cash, bread.turned, cash.turned]).sum ≤ _
  simp only [List.map_cons, List.map_nil, List.sum_cons, List.sum_nil, (turned_worth _).2.2.2.2, size_bank, size_wage, size_bread,
    size_cash]
  norm_num

/-- A salary, a purchase and its refund, beside the salary. -/
example : ((∃ k, run counter 0 [str "bal", str "-f", str "c", str "-f", str "b", str "-f", str "r"] = .error k) ∧
      ((∃ k, run counter 0 [str "bal", str "-f", str "c"] = .error k) ∨ ∃ u ∈ [first], Faulty u)) ∨
    ∃ (accounts accounts' : List Path) (total total' : Path → List Amount),
      run counter 0 [str "bal", str "-f", str "c", str "-f", str "b", str "-f", str "r"] =
        .ok (accounts.map (fun p => lineText (colons p) ⟨total p⟩)) ∧
      run counter 0 [str "bal", str "-f", str "c"] = .ok (accounts'.map (fun p => lineText (colons p) ⟨total' p⟩)) ∧
      accounts.Nodup ∧ (∀ p, p ∈ accounts ↔ p ∈ accounts' ∨ ∃ u ∈ [first], ∃ e ∈ u.entries, p <+: pathOf e.account) ∧
      (∀ p, p ∉ accounts' → total' p = []) ∧
      ∀ p ∈ accounts, ((total p).map (·.comm)).Nodup ∧ ((total' p).map (·.comm)).Nodup ∧
        ∀ c, sumIn c (total p) = sumIn c (total' p) - 2 * ([first].map (fun u => u.lost p c)).sum :=
  C122_exactly allSays paySays (us := [first]) (List.Perm.refl _)
    (fun w hw => everyday2 w (by
      have : w ∈ [pay, first] := hw
      simp only [List.mem_cons, List.not_mem_nil, or_false] at this ⊢
      exact this.symm))
    allRoomy (verb := str "bal") (rest := []) (by decide) (by unfold BalanceVerb; decide)
    (verb' := str "bal") (rest' := []) (by decide) (by unfold BalanceVerb; decide)

/-- The cash account and those above are down by twice 20.50 EUR. -/
example : first.lost [str "Assets", str "Cash"] (some (str "EUR")) = 41 / 2 := by
  have h1 : (bread.amount = none ∧ [str "Assets", str "Cash"] <+: pathOf bread.account) = False := by decide
  have h2 : (cash.amount = none ∧ [str "Assets", str "Cash"] <+: pathOf cash.account) = True := by decide
  have h3 : entriesSum first.entries (some (str "EUR")) = 41 / 2 := by
    rw [← figures_sum]
    show sumIn (some (str "EUR")) [⟨⟨false, 2050, 2⟩, some (str "EUR")⟩] = _
    simp only [sumIn, Amount.valIn, if_true, Dec.val_mk, Dec.sgn]
    norm_num
  unfold Writing.lost
  rw [h3]
  show (List.map _ [bread, cash]).sum = _
  simp only [List.map_cons, List.map_nil, h1, h2, if_true, if_false, List.sum_cons, List.sum_nil]
  norm_num [abs_of_pos]

theorem allReport : run counter 0 [str "bal", str "-f", str "c", str "-f", str "b", str "-f", str "r"] =
      .ok [str "Account  has balance -41.00 EUR", str "Account Assets has balance 59.00 EUR",
        str "Account Assets:Bank has balance 100 EUR", str "Account Assets:Cash has balance -41.00 EUR",
        str "Account Expenses has balance 0.00 EUR", str "Account Expenses:Food has balance 0.00 EUR",
        str "Account Income has balance -100 EUR"] := by decide +kernel

/-- So they do not cancel: the posting beside the blank one does not sum to zero. -/
example : ∃ (accounts accounts' : List Path) (total total' : Path → List Amount),
      [str "Account  has balance -41.00 EUR", str "Account Assets has balance 59.00 EUR",
        str "Account Assets:Bank has balance 100 EUR", str "Account Assets:Cash has balance -41.00 EUR",
        str "Account Expenses has balance 0.00 EUR", str "Account Expenses:Food has balance 0.00 EUR",
        str "Account Income has balance -100 EUR"] = accounts.map (fun p => lineText (colons p) ⟨total p⟩) ∧
      run counter 0 [str "bal", str "-f", str "c"] = .ok (accounts'.map (fun p => lineText (colons p) ⟨total' p⟩)) ∧
      (∀ p, p ∉ accounts' → total' p = []) ∧
      ((∀ p ∈ accounts, ∀ c, sumIn c (total p) = sumIn c (total' p)) ↔
        ∀ u ∈ [first], ∀ e ∈ u.entries, e.amount = none → ∀ c, entriesSum u.entries c = 0) :=
  C122_when allSays paySays (us := [first]) (List.Perm.refl _)
    (fun w hw => everyday2 w (by
      have : w ∈ [pay, first] := hw
      simp only [List.mem_cons, List.not_mem_nil, or_false] at this ⊢
      exact this.symm))
    allRoomy (args := [str "bal", str "-f", str "c", str "-f", str "b", str "-f", str "r"]) (verb := str "bal") (rest := [])
    (by decide) (by unfold BalanceVerb; decide)
    (verb' := str "bal") (rest' := []) (by decide) (by unfold BalanceVerb; decide) allReport

theorem boughtFile : FilesSay counter 0 [str "b"] [.xact first] .done := .read (is' := []) (by decide) boughtSays .nil

theorem refundFile : FilesSay counter 0 [str "r"] [.xact first.turned] .done := .read (is' := []) (by decide) refundSays .nil

/-- The refund beside the purchase. -/
example : ((∃ k, run counter 0 [str "bal", str "-f", str "b"] = .error k) ∧
      ∃ k, run counter 0 [str "bal", str "-f", str "r"] = .error k) ∨
    ∃ (accounts accounts' : List Path) (total total' : Path → List Amount),
      run counter 0 [str "bal", str "-f", str "b"] = .ok (accounts.map (fun p => lineText (colons p) ⟨total p⟩)) ∧
      run counter 0 [str "bal", str "-f", str "r"] = .ok (accounts'.map (fun p => lineText (colons p) ⟨total' p⟩)) ∧
      accounts.Nodup ∧ accounts'.Perm accounts ∧
      ∀ p ∈ accounts, ((total p).map (·.comm)).Nodup ∧ ((total' p).map (·.comm)).Nodup ∧
        ∀ c, sumIn c (total' p) = - sumIn c (total p) - 2 * ([first].map (fun w => w.lost p c)).sum :=
  C120_sums boughtFile refundFile (.refl _) (fun w hw => everyday2 w (List.mem_of_mem_take (i := 1) hw))
    (total2.mono (fun e he => List.mem_append_left (allEntries [pay]) he) (by
      change (List.map (·.size) [bread, cash]).sum ≤ (List.map (·.size) [bread, cash, bank, wage]).sum
      simp only [List.map_cons, List.map_nil, List.sum_cons, List.sum_nil, size_bread, size_cash, size_bank, size_wage]
      norm_num))
    (verb := str "bal") (rest := []) (by decide) (by unfold BalanceVerb; decide)
    (verb' := str "bal") (rest' := []) (by decide) (by unfold BalanceVerb; decide)

example : run counter 0 [str "bal", str "-f", str "b"] =
      .ok [str "Account  has balance 0.00 EUR", str "Account Assets has balance -20.50 EUR",
        str "Account Assets:Cash has balance -20.50 EUR", str "Account Expenses has balance 20.50 EUR",
        str "Account Expenses:Food has balance 20.50 EUR"] ∧
    run counter 0 [str "bal", str "-f", str "r"] =
      .ok [str "Account  has balance -41.00 EUR", str "Account Assets has balance -20.50 EUR",
        str "Account Assets:Cash has balance -20.50 EUR", str "Account Expenses has balance -20.50 EUR",
        str "Account Expenses:Food has balance -20.50 EUR"] := by decide +kernel

end RefundExample

end Ledger
