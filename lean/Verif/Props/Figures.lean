import Verif.Props.Causes
import Verif.Props.Output
/-
C89: the report digit by digit.
-/
namespace Ledger
open Ledger.Parser Ledger.Finalize Ledger.Cli Ledger.Output

/-! ### the report of a journal -/

/-- What the transactions of a journal book. -/
def Journal.booked (j : Journal) : Bookings := j.allPosts.filterMap (fun q => q.amount.map (fun a => (q.account, a)))

theorem own_amountsAt (ps : List Post) (p : Path) :
    Bookings.own (ps.filterMap (fun q => q.amount.map (fun a => (q.account, a)))) p =
      (ps.filter (fun q => q.account = p)).filterMap (·.amount) := by
  unfold Bookings.own
  induction ps with
  | nil => rfl
  | cons q ps ih =>
    rw [List.filterMap_cons, List.filter_cons]
    cases ha : q.amount with
    | none =>
      simp only [Option.map_none]
      split
      · rw [List.filterMap_cons, ha]; exact ih
      · exact ih
    | some a =>
      simp only [Option.map_some, List.filter_cons]
      split
      · rw [List.filterMap_cons, ha, List.map_cons, ih]
      · exact ih

theorem depth_le (b : Bookings) {x : Path × Amount} (h : x ∈ b) : x.1.length ≤ b.depth := by
  unfold Bookings.depth
  induction b with
  | nil => cases h
  | cons y b ih =>
    rw [List.map_cons, List.foldr_cons]
    rcases List.mem_cons.mp h with rfl | h
    · exact Nat.le_max_left _ _
    · exact Nat.le_trans (ih h) (Nat.le_max_right _ _)

theorem Booked.has_account {j : Journal} (hb : Booked j) {p : Post} (h : p ∈ j.allPosts) : j.master.Has p.account := by
  unfold Journal.allPosts at h
  rw [← refPosts_posts 0] at h
  obtain ⟨⟨r, q⟩, h1, rfl⟩ := List.mem_map.mp h
  exact hb.named (r, q.account) (by rw [bookings_refPosts]; exact List.mem_map.mpr ⟨(r, q), h1, rfl⟩)

/-- C89: the balance report of a journal whose accounts all have postings, at or below them, is the report of its
bookings. -/
theorem C89_journal {j : Journal} (h : j.Reachable) (hr : InRange (allAmounts j))
    (ha : ∀ q, j.master.Has q → q = [] ∨ ∃ x ∈ j.booked, q <+: x.1) :
    Report.balanceReport j = .ok j.booked.report := by
  have hb := h.booked
  have e : amountsBelow j [] = allAmounts j := by
    unfold amountsBelow allAmounts
    rw [List.filter_eq_self.mpr (fun b _ => by simp)]
  obtain ⟨hv, hp⟩ := hb.amounts (Account.at?_nil _)
  rw [e] at hp
  obtain ⟨S, hS, hg, hm⟩ := inRange_perm hp.symm hr
  refine (mirrors_report hS j j.booked j.master hb.wf hv hg hm [] (j.booked.depth + 1) ⟨?_, ?_⟩ ?_).2
  · intro q n hq
    rw [mem_names, List.nil_append]
    constructor
    · rintro ⟨x, hx, hpre⟩
      obtain ⟨post, hpost, hx'⟩ := List.mem_filterMap.mp hx
      obtain ⟨a, ha', rfl⟩ := Option.map_eq_some_iff.mp hx'
      exact Account.has_prefix (hb.has_account hpost) hpre
    · intro hh
      rcases ha _ hh with h0 | h0
      · simp at h0
      · exact h0
  · intro q c hc
    rw [(hb.ownAmounts hc).2, List.nil_append]
    exact (own_amountsAt _ _).symm
  · intro q hq
    rcases ha q hq with rfl | ⟨x, hx, hpre⟩
    · simp
    · exact Nat.lt_succ_of_le (Nat.le_trans hpre.length_le (depth_le _ hx))

/-! ### the report of what is written -/

/-- The bookings of complete transactions. -/
def entriesBooked (es : List Entry) : Bookings := es.filterMap (fun e => e.amount.map (fun a => (pathOf e.account, a)))

theorem postsOf_booked {es : List Entry} {ps : List Post} (h : List.Forall₂ PostOf es ps) :
    ps.filterMap (fun q => q.amount.map (fun a => (q.account, a))) = entriesBooked es := by
  unfold entriesBooked
  induction h with
  | nil => rfl
  | cons hp _ ih => rw [List.filterMap_cons, List.filterMap_cons, hp.account, hp.amount, ih]

theorem xactsOf_booked {ws : List Writing} {xs : List Xact} (h : List.Forall₂ XactOf ws xs) :
    (xs.flatMap (·.posts)).filterMap (fun q => q.amount.map (fun a => (q.account, a))) = ws.flatMap (fun w => entriesBooked w.entries) := by
  induction h with
  | nil => rfl
  | cons hx _ ih => rw [List.flatMap_cons, List.flatMap_cons, List.filterMap_append, ih, postsOf_booked hx.posts]

theorem fillOf_blank {l r : List Entry} {e : Entry} (h : e.amount = none) : fillOf (l ++ e :: r) = fillOf (l ++ r) := by
  unfold fillOf
  have : e.figure = none := by unfold Entry.figure; rw [h]
  rw [List.filterMap_append, List.filterMap_cons, this, List.filterMap_append]

theorem entriesBooked_full {es : List Entry} (h : ∀ e ∈ es, e.amount ≠ none) (f : Option Amount) :
    es.filterMap (fun e => (e.amount.or f).map (fun a => (pathOf e.account, a))) = entriesBooked es := by
  unfold entriesBooked
  refine List.filterMap_congr fun e he => ?_
  cases ha : e.amount with
  | none => exact absurd ha (h e he)
  | some a => rfl

/-- What a transaction books, from what is made of it. -/
theorem Settles.bookings {w w' : Writing} (h : Settles w w') (hf : ∀ e ∈ w.entries, ∀ f, e.figure = some f → f.qty.Valid) :
    entriesBooked w'.entries = w.bookings := by
  unfold Writing.bookings
  cases h with
  | kept ha _ => exact (entriesBooked_full ha _).symm
  | filled l r e a h he hq _ _ hx =>
    have hfig := hx (fun q hq => hf q (by
      rw [h]
      rcases List.mem_append.mp hq with h | h <;> simp [h]))
    rw [h, fillOf_blank he, hfig, List.filterMap_append, List.filterMap_cons, he,
      entriesBooked_full (fun q h => (hq q (List.mem_append_left _ h)).1),
      entriesBooked_full (fun q h => (hq q (List.mem_append_right _ h)).1)]
    unfold entriesBooked
    rw [List.filterMap_append, List.filterMap_cons]
    rfl
  | rated A B u es h _ hes =>
    have ha := h.1
    rw [entriesBooked_full ha]
    show entriesBooked es = entriesBooked w.entries
    generalize w.entries = l at hes
    unfold entriesBooked
    induction hes with
    | nil => rfl
    | @cons e e' l es h1 _ ih =>
      rw [List.filterMap_cons, List.filterMap_cons, ih]
      rcases h1 with ⟨_, a, k, _, _, _, rfl⟩ | ⟨_, rfl⟩ <;> rfl

theorem mant_small {d : Dec} {D T : Nat} (hDT : D + T ≤ 28) (h : |d.val| ≤ 10 ^ T) (hs : d.scale ≤ D) : d.Valid := by
  refine ⟨?_, Nat.le_trans hs (by omega)⟩
  have h1 : (d.mant : ℚ) = |d.val| * 10 ^ d.scale := by
    rw [Dec.abs_val]
    have := Dec.pow10_pos d.scale
    field_simp
  have h2 : (d.mant : ℚ) < 2 ^ 96 := by
    rw [h1]
    calc |d.val| * 10 ^ d.scale ≤ 10 ^ T * 10 ^ D :=
          mul_le_mul h (ten_le hs) (by positivity) (by positivity)
      _ = 10 ^ (T + D) := (pow_add _ _ _).symm
      _ ≤ 10 ^ 28 := ten_le (by omega)
      _ < 2 ^ 96 := by norm_num
  exact_mod_cast h2

theorem Dec.times_val (a b : Dec) : (a.times b).val = a.val * b.val := by
  unfold times
  split
  · rename_i h
    rw [show (⟨false, 0, 0⟩ : Dec) = zero from rfl, val_zero]
    rcases h with h | h
    · rw [zero_val a (by simp [isZero, h])]; ring
    · rw [zero_val b (by simp [isZero, h])]; ring
  · rw [mul_val, val_eq]

theorem Dec.times_scale (a b : Dec) : (a.times b).scale ≤ a.scale + b.scale := by
  unfold times
  split <;> simp

theorem Everyday.figures {w : Writing} (h : Everyday w) (hv : ∀ e ∈ w.entries, e.ValidNumbers) :
    ∀ e ∈ w.entries, ∀ f, e.figure = some f → f.qty.Valid := by
  intro e he f hf
  obtain ⟨D, T, hDT, hdec, htot⟩ := h.numbers
  have hsize : e.size ≤ 10 ^ T := by
    have hnn : ∀ x ∈ w.entries.map (·.size), 0 ≤ x := by
      intro x hx
      obtain ⟨q, _, rfl⟩ := List.mem_map.mp hx
      unfold Entry.size
      split <;> positivity
    exact le_trans (List.single_le_sum hnn _ (List.mem_map_of_mem he)) htot
  obtain ⟨v1, v2⟩ := hv e he
  obtain ⟨_, h2⟩ := hdec e he
  obtain ⟨acct, am, lot, cost, cmts, strays⟩ := e
  unfold Entry.figure at hf
  cases am with
  | none => cases hf
  | some a =>
    cases cost with
    | none => injection hf with hf; subst hf; exact v1 a rfl
    | some c =>
      obtain ⟨u, k⟩ := c
      cases u with
      | false => injection hf with hf; subst hf; exact v2 false k rfl
      | true =>
        injection hf with hf
        subst hf
        have h2 : k.qty.scale + a.qty.scale ≤ D := h2
        have h3 : |a.qty.val| + |k.qty.val * a.qty.val| ≤ 10 ^ T := hsize
        refine mant_small (T := T) (by omega) ?_ (Nat.le_trans (Dec.times_scale _ _) h2)
        rw [Dec.times_val]
        have := abs_nonneg a.qty.val
        linarith

/-- What the transactions of a journal text book. -/
def writtenBookings (ws : List Writing) : Bookings := ws.flatMap Writing.bookings

theorem settled_bookings {ws ws' : List Writing} (h : List.Forall₂ Settles ws ws')
    (hf : ∀ w ∈ ws, ∀ e ∈ w.entries, ∀ f, e.figure = some f → f.qty.Valid) :
    ws'.flatMap (fun w => entriesBooked w.entries) = writtenBookings ws := by
  unfold writtenBookings
  induction h with
  | nil => rfl
  | cons h1 _ ih =>
    rw [List.flatMap_cons, List.flatMap_cons, h1.bookings (hf _ List.mem_cons_self),
      ih (fun w hw => hf w (List.mem_cons_of_mem _ hw))]

theorem Settles.accounts {w w' : Writing} (h : Settles w w') :
    ∀ e ∈ w.entries, ∃ x ∈ entriesBooked w'.entries, x.1 = pathOf e.account := by
  have key : ∀ es : List Entry, (∀ e ∈ es, e.amount ≠ none) → ∀ e ∈ es, ∃ x ∈ entriesBooked es, x.1 = pathOf e.account := by
    intro es h e he
    cases ha : e.amount with
    | none => exact absurd ha (h e he)
    | some a => exact ⟨(pathOf e.account, a), List.mem_filterMap.mpr ⟨e, he, by rw [ha]; rfl⟩, rfl⟩
  intro e he
  cases h with
  | kept ha _ => exact key _ ha e he
  | filled l r e0 a h he0 hq _ _ hx =>
    have hk := key (l ++ { e0 with amount := some a } :: r) (by
      intro q hm
      rcases List.mem_append.mp hm with h | h
      · exact (hq q (List.mem_append_left _ h)).1
      · rcases List.mem_cons.mp h with rfl | h
        · simp
        · exact (hq q (List.mem_append_right _ h)).1)
    rw [h] at he
    rcases List.mem_append.mp he with h | h
    · exact hk e (List.mem_append_left _ h)
    · rcases List.mem_cons.mp h with rfl | h
      · exact hk { e with amount := some a } (by simp)
      · exact hk e (by simp [h])
  | rated A B u es h _ hes =>
    obtain ⟨e', he', hr⟩ := forall₂_mem_left hes he
    have hk := key es (by
      intro q hq
      obtain ⟨e, he, hr⟩ := forall₂_mem_right hes hq
      have := h.1 e he
      rcases hr with ⟨_, a, k, _, _, _, rfl⟩ | ⟨_, rfl⟩ <;> exact this)
    obtain ⟨x, h1, h2⟩ := hk e' he'
    refine ⟨x, h1, h2.trans ?_⟩
    rcases hr with ⟨_, a, k, _, _, _, rfl⟩ | ⟨_, rfl⟩ <;> rfl

/-- C89: `bal` on files with transactions of everyday size, none of them faulty, prints the report of what they book. -/
theorem C89_report (files : Files) (depth : Nat) {fs : List Str} {wss : List (List Writing)}
    (hf : List.Forall₂ (FileSays files depth) fs wss) (hd : ∀ w ∈ wss.flatten, Everyday w)
    (ht : Roomy (allEntries wss.flatten)) {args rest : List Str} {verb : Str}
    (ha : Options.processArguments args = .ok (verb :: rest, fs)) (hv : BalanceVerb verb)
    (hn : ∀ w ∈ wss.flatten, ¬ Faulty w) :
    run files depth args = .ok (writtenBookings wss.flatten).report := by
  rw [C60_balance files depth args rest fs verb ha hv]
  rcases readFiles_decides files depth hf hd Journal.new readable_new with ⟨j', ws', rs, h1, h2, _, h4⟩ | ⟨e, he, hw⟩
  · obtain ⟨new, n1, n2⟩ := h2.xacts
    have hvn : ∀ w ∈ wss.flatten, ∀ e ∈ w.entries, e.ValidNumbers := fun w hw => (filesSay_valid files depth hf w hw).1
    have hx : List.Forall₂ XactOf ws' j'.xacts := by rw [n1]; exact n2
    have hb : j'.booked = writtenBookings wss.flatten := by
      rw [← settled_bookings h2.settled (fun w hw => (hd w hw).figures (hvn w hw))]
      exact xactsOf_booked hx
    have hall : allAmounts j' = writtenBelow ws' [] := by
      rw [← xactsOf_amounts hx]
      unfold allAmounts Journal.allPosts
      rw [List.filter_eq_self.mpr (fun b _ => by simp)]
    rw [h1, ← hb]
    refine C89_journal (readFiles_reachable files depth .new h1) (by
      rw [hall]; exact settled_inRange h2.settled hvn ht) ?_
    intro q hq
    rw [h2.accounts, has_new] at hq
    rcases hq with hq | ⟨e, he, hq⟩
    · exact Or.inl hq
    · right
      rw [hb, ← settled_bookings h2.settled (fun w hw => (hd w hw).figures (hvn w hw))]
      obtain ⟨w, hw, hew⟩ := List.mem_flatMap.mp he
      obtain ⟨w', hw', hs⟩ := forall₂_mem_left h2.settled hw
      obtain ⟨x, x1, x2⟩ := hs.accounts e hew
      exact ⟨x, List.mem_flatMap.mpr ⟨w', hw', x1⟩, by rw [x2]; exact hq⟩
  · obtain ⟨w, hw, hf⟩ := hw.faulty
    exact absurd hf (hn w hw)

/-- C89: the whole output of the program: greeting, arguments and report. -/
theorem C89_program (plain : Char → Bool) (errs : Nat → Str) (he : ∀ k, '\n' ∉ errs k) (files : Files) (depth : Nat)
    (hc : ∀ f src, files f = some src → none ∉ src) {fs : List Str} {wss : List (List Writing)}
    (hf : List.Forall₂ (FileSays files depth) fs wss) (hd : ∀ w ∈ wss.flatten, Everyday w)
    (ht : Roomy (allEntries wss.flatten)) {args rest : List Str} {verb : Str}
    (ha : Options.processArguments args = .ok (verb :: rest, fs)) (hv : BalanceVerb verb)
    (hn : ∀ w ∈ wss.flatten, ¬ Faulty w) :
    ∃ list text, LiteralList list args ∧ LiteralList text (writtenBookings wss.flatten).report ∧
      program plain errs files depth args =
        ⟨str "Hello, Ledger-rs!\n" ++ str "You requested " ++ list ++ ['\n'] ++ text ++ ['\n'], none⟩ := by
  have hrun := C89_report files depth hf hd ht ha hv hn
  obtain ⟨list, h1, _, ms, _, _, h4, h5⟩ := C84_lines plain errs he files depth args
  obtain rfl := h4 hc
  rcases h5 with ⟨out, text, _, h6, h7, _, h8⟩ | ⟨e, ⟨rfl, _, _⟩ | ⟨_, h6⟩, _⟩
  · rw [hrun] at h6
    injection h6 with h6
    subst h6
    exact ⟨list, text, h1, h7, by rw [h8]; simp [errorText]⟩
  · rw [show Options.processArguments [] = .ok ([], []) from by decide] at ha
    cases ha
  · rw [hrun] at h6; cases h6

/-! ### what the report of a list of bookings is -/

theorem enter_sum (c : Option Str) (l : List Amount) (a : Amount) : sumIn c (enter l a) = sumIn c l + a.valIn c := by
  have hplus : ∀ f g : Dec, (f.plus g).val = f.val + g.val := by
    intro f g
    unfold Dec.plus
    split
    · rename_i h; rw [Dec.zero_val g (by simp [Dec.isZero, h])]; ring
    · split
      · rename_i h; rw [Dec.zero_val f (by simp [Dec.isZero, h])]; ring
      · simp only
        have e : ∀ (n : Int) (s : Nat), (⟨decide (n < 0), n.natAbs, s⟩ : Dec).val = (n : ℚ) / 10 ^ s := by
          intro n s
          unfold Dec.val Dec.signed
          simp only [decide_eq_true_eq]
          congr 2
          split <;> omega
        rw [e]
        push_cast
        rw [Dec.digitsAt_val f (Nat.le_max_left _ _), Dec.digitsAt_val g (Nat.le_max_right _ _)]
        have := Dec.pow10_pos (max f.scale g.scale)
        field_simp
  induction l with
  | nil => simp [enter, sumIn]
  | cons x xs ih =>
    unfold enter
    split
    · rename_i h
      simp only [sumIn, Amount.valIn, hplus, h]
      split <;> ring
    · simp only [sumIn, ih]; ring

theorem tally_sum (c : Option Str) (as : List Amount) : sumIn c (tally as) = sumIn c as := by
  have : ∀ (as l : List Amount), sumIn c (as.foldl enter l) = sumIn c l + sumIn c as := by
    intro as
    induction as with
    | nil => intro l; simp [sumIn]
    | cons a as ih => intro l; rw [List.foldl_cons, ih, enter_sum, sumIn]; ring
  unfold tally
  rw [this]; simp [sumIn]

/-- What is booked to an account and everything below it. -/
def Bookings.below (b : Bookings) (p : Path) : List Amount := (b.filter (fun x => p.isPrefixOf x.1)).map (·.2)

theorem below_sum (c : Option Str) (b : Bookings) (p : Path) (ns : List Str) (hn : ns.Nodup)
    (h : ∀ x ∈ b, ∀ n, nextName p x.1 = some n → n ∈ ns) :
    (ns.map (fun n => sumIn c (b.below (p ++ [n])))).sum + sumIn c (b.own p) = sumIn c (b.below p) := by
  unfold Bookings.below Bookings.own
  induction b with
  | nil => simp [sumIn]
  | cons x b ih =>
    have ih := ih (fun y hy => h y (List.mem_cons_of_mem _ hy))
    have hx := h x List.mem_cons_self
    simp only [List.filter_cons]
    by_cases hp : p.isPrefixOf x.1 = true
    · rw [if_pos hp, List.map_cons, sumIn, ← ih]
      obtain ⟨q, hq⟩ := List.isPrefixOf_iff_prefix.mp hp
      cases q with
      | nil =>
        rw [List.append_nil] at hq
        have e : ∀ n, (p ++ [n]).isPrefixOf x.1 = false := by
          intro n
          rw [Bool.eq_false_iff]
          intro hh
          have := (List.isPrefixOf_iff_prefix.mp hh).length_le
          rw [← hq] at this
          simp at this
        rw [← hq] at e
        simp only [← hq, e, Bool.false_eq_true, if_false, decide_true, if_true, List.map_cons, sumIn]
        ring
      | cons m q =>
        have e : ∀ n, (p ++ [n]).isPrefixOf x.1 = decide (n = m) := by
          intro n
          rw [← hq, Bool.eq_iff_iff, List.isPrefixOf_iff_prefix, decide_eq_true_eq]
          simp
        have hne : x.1 ≠ p := by rw [← hq]; simp
        have hm : m ∈ ns := hx m ((nextName_iff _ _ _).mpr (by rw [← hq]; simp))
        have e2 : ∀ n, sumIn c (List.map (·.2) (if (p ++ [n]).isPrefixOf x.1 = true then
            x :: b.filter (fun x => (p ++ [n]).isPrefixOf x.1) else b.filter (fun x => (p ++ [n]).isPrefixOf x.1))) =
            (if n = m then x.2.valIn c else 0) + sumIn c ((b.filter (fun x => (p ++ [n]).isPrefixOf x.1)).map (·.2)) := by
          intro n
          rw [e]
          by_cases hnm : n = m
          · simp [hnm, sumIn]
          · simp [hnm]
        simp only [e2, hne, decide_false, Bool.false_eq_true, if_false]
        rw [List.sum_map_add]
        have e3 : (ns.map (fun n => if n = m then x.2.valIn c else 0)).sum = x.2.valIn c := by
          clear * - hn hm
          induction ns with
          | nil => cases hm
          | cons k ns ih =>
            rw [List.nodup_cons] at hn
            rw [List.map_cons, List.sum_cons]
            rcases List.mem_cons.mp hm with rfl | hm
            · rw [if_pos rfl]
              have : (ns.map (fun n => if n = m then x.2.valIn c else 0)).sum = 0 := by
                refine List.sum_eq_zero fun y hy => ?_
                obtain ⟨n, h1, rfl⟩ := List.mem_map.mp hy
                rw [if_neg]
                rintro rfl
                exact hn.1 h1
              rw [this]; ring
            · rw [if_neg (by rintro rfl; exact hn.1 hm), ih hn.2 hm]; ring
        rw [e3]; ring
    · have hp' : p.isPrefixOf x.1 = false := Bool.eq_false_iff.mpr hp
      have e : ∀ n, (p ++ [n]).isPrefixOf x.1 = false := by
        intro n
        rw [Bool.eq_false_iff]
        intro hh
        exact hp (List.isPrefixOf_iff_prefix.mpr ((List.prefix_append _ _).trans (List.isPrefixOf_iff_prefix.mp hh)))
      have hne : x.1 ≠ p := by
        intro e
        exact hp (List.isPrefixOf_iff_prefix.mpr (e ▸ List.prefix_refl _))
      simp only [e, hp', hne, decide_false, Bool.false_eq_true, if_false]
      exact ih

/-- C89: the total that the report shows for an account is, for every commodity, the exact sum of what is booked to the
account and below it. -/
theorem C89_sums (b : Bookings) (c : Option Str) (d : Nat) (p : Path) (h : b.depth < p.length + d) :
    sumIn c (b.total d p) = sumIn c (b.below p) := by
  induction d generalizing p with
  | zero =>
    have : b.below p = [] := by
      unfold Bookings.below
      rw [List.map_eq_nil_iff, List.filter_eq_nil_iff]
      intro x hx hp
      have := (List.isPrefixOf_iff_prefix.mp hp).length_le
      have := depth_le b hx
      omega
    rw [this]; rfl
  | succ d ih =>
    have hs := (foldr_sortIn_sorted (b.filterMap (fun x => nextName p x.1)))
    have hnd : (b.names p).Nodup := by
      refine List.Pairwise.imp (R := StrBefore) ?_ hs
      rintro a _ hab rfl
      exact strBefore_irrefl _ hab
    rw [Bookings.total, tally_sum, sumIn_append, tally_sum, ← below_sum c b p (b.names p) hnd (by
      intro x hx n hn
      exact (mem_names b p n).mpr ⟨x, hx, (nextName_iff _ _ _).mp hn⟩)]
    congr 1
    generalize b.names p = ns
    induction ns with
    | nil => rfl
    | cons n ns ihn =>
      rw [List.flatMap_cons, sumIn_append, ihn, List.map_cons, List.sum_cons, ih (p ++ [n]) (by simp; omega)]

/-- C89: the report depends only on what is booked to each account, in order; how the bookings of different accounts are
mixed does not matter. -/
theorem C89_only_own (b b' : Bookings) (h : ∀ p, b.own p = b'.own p) : b.report = b'.report := by
  have hm : ∀ x, x ∈ b ↔ x ∈ b' := by
    have key : ∀ (b : Bookings) x, x ∈ b ↔ x.2 ∈ b.own x.1 := by
      intro b x
      unfold Bookings.own
      rw [List.mem_map]
      constructor
      · intro hx; exact ⟨x, List.mem_filter.mpr ⟨hx, by simp⟩, rfl⟩
      · rintro ⟨y, hy, e⟩
        have := List.mem_filter.mp hy
        have e2 : y = x := Prod.ext (by simpa using this.2) e
        exact e2 ▸ this.1
    intro x; rw [key b, key b', h]
  have hnames : ∀ p, b.names p = b'.names p := by
    intro p
    refine sorted_unique (r := StrBefore) strBefore_irrefl (fun a b c => strBefore_trans) _ _ (foldr_sortIn_sorted _)
      (foldr_sortIn_sorted _) ?_
    intro n
    show n ∈ b.names p ↔ n ∈ b'.names p
    rw [mem_names, mem_names]
    exact ⟨fun ⟨x, h1, h2⟩ => ⟨x, (hm x).mp h1, h2⟩, fun ⟨x, h1, h2⟩ => ⟨x, (hm x).mpr h1, h2⟩⟩
  have hdepth : ∀ b b' : Bookings, (∀ x, x ∈ b → x ∈ b') → b.depth ≤ b'.depth := by
    intro b b' hm
    unfold Bookings.depth
    induction b with
    | nil => exact Nat.zero_le _
    | cons x b ih =>
      rw [List.map_cons, List.foldr_cons]
      exact Nat.max_le.mpr ⟨depth_le b' (hm x List.mem_cons_self), ih (fun y hy => hm y (List.mem_cons_of_mem _ hy))⟩
  have htotal : ∀ d p, b.total d p = b'.total d p := by
    intro d
    induction d with
    | zero => intro p; rfl
    | succ d ih => intro p; rw [Bookings.total, Bookings.total, hnames, h]; simp only [ih]
  have hlines : ∀ d p, b.lines d p = b'.lines d p := by
    intro d
    induction d with
    | zero => intro p; rfl
    | succ d ih => intro p; rw [Bookings.lines, Bookings.lines, hnames, htotal]; simp only [ih]
  unfold Bookings.report
  rw [Nat.le_antisymm (hdepth b b' (fun x => (hm x).mp)) (hdepth b' b (fun x => (hm x).mpr)), hlines]

namespace FiguresExample
open LinesExample FaultsExample

/-- The two transactions of the file, with every line of the report as it is printed. -/
example : run files 1 [str "bal", str "-f", str "x"] =
    .ok [str "Account  has balance -250.00 EUR10 VEUR", str "Account Assets has balance -270.50 EUR10 VEUR",
      str "Account Assets:Cash has balance -270.50 EUR", str "Account Assets:Stocks has balance 10 VEUR",
      str "Account Expenses has balance 20.50 EUR", str "Account Expenses:Food has balance 20.50 EUR"] := by
  have h := C89_report files 1 (fs := [str "x"]) (wss := [[shop, broker]])
    (.cons ⟨_, _, rfl, textLines, lines⟩ .nil) everyday (by
      refine roomy_of (show ∀ e ∈ [food, cash, stocks, paid], (∀ a ∈ e.amount, a.qty.scale ≤ 9) ∧ e.worthDecimals ≤ 9 by decide) ?_
      change (List.map (·.size) [food, cash, stocks, paid]).sum ≤ _
      simp only [List.map_cons, List.map_nil, List.sum_cons, List.sum_nil, size_food, size_cash, size_stocks, size_paid]
      norm_num) (args := [str "bal", str "-f", str "x"]) (verb := str "bal") (rest := []) (by decide) (by unfold BalanceVerb; decide) notFaulty
  rw [h]
  decide +kernel

/-- Two decimals vanish once the figures cancel: 1.00 and -1.00 leave a zero, and adding 5 to it gives 5, not 5.00. -/
example : (Bookings.report [([str "A"], eur false 100 2), ([str "A"], eur true 100 2), ([str "A"], eur false 5 0)]).getLast? =
    some (str "Account A has balance 5 EUR") := by decide +kernel

example : (Bookings.report [([str "A"], eur false 100 2), ([str "A"], eur false 5 0), ([str "A"], eur true 100 2)]).getLast? =
    some (str "Account A has balance 5.00 EUR") := by decide +kernel

end FiguresExample

end Ledger
