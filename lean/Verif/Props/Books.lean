import Verif.Props.Found
import Verif.Spec.Books
/-
C96 to C98: what a report says about whole books.
-/
namespace Ledger
open Ledger.Parser Ledger.Finalize Ledger.Cli Ledger.Output

/-! ### the report line by line -/

theorem lines_listedFrom (b : Bookings) (d : Nat) (p : Path) :
    b.lines d p = (b.listedFrom d p).map (fun q => lineText (colons q) ⟨b.total (d + p.length - q.length) q⟩) := by
  induction d generalizing p with
  | zero => rfl
  | succ d ih =>
    rw [Bookings.lines, Bookings.listedFrom, List.map_cons, List.map_flatMap]
    congr 1
    · rw [Nat.add_sub_cancel]
    · congr 1
      funext n
      rw [ih, List.length_append]
      simp only [List.length_cons, List.length_nil]
      rw [show d + (p.length + (0 + 1)) = d + 1 + p.length by omega]

/-- A report has one line for each account listed, with its total. -/
theorem report_listed (b : Bookings) : b.report = b.listed.map (fun q => lineText (colons q) ⟨b.figure q⟩) := by
  unfold Bookings.report Bookings.listed Bookings.figure
  rw [lines_listedFrom]
  rfl

theorem listedFrom_prefix (b : Bookings) (d : Nat) (p q : Path) (h : q ∈ b.listedFrom d p) :
    p <+: q ∧ q.length < d + p.length := by
  induction d generalizing p with
  | zero => cases h
  | succ d ih =>
    rw [Bookings.listedFrom] at h
    rcases List.mem_cons.mp h with rfl | h
    · exact ⟨List.prefix_refl _, by omega⟩
    · obtain ⟨n, _, h⟩ := List.mem_flatMap.mp h
      obtain ⟨h1, h2⟩ := ih _ h
      refine ⟨(List.prefix_append _ _).trans h1, ?_⟩
      simp only [List.length_append, List.length_cons, List.length_nil] at h2
      omega

theorem mem_listedFrom (b : Bookings) (d : Nat) (p q : Path) (hd : b.depth < p.length + d) (hp : p <+: q)
    (h : q = p ∨ ∃ x ∈ b, q <+: x.1) (h0 : 0 < d) : q ∈ b.listedFrom d p := by
  induction d generalizing p with
  | zero => omega
  | succ d ih =>
    rw [Bookings.listedFrom]
    obtain ⟨t, rfl⟩ := hp
    cases t with
    | nil => rw [List.append_nil]; exact List.mem_cons_self
    | cons n t =>
      refine List.mem_cons_of_mem _ (List.mem_flatMap.mpr ?_)
      rcases h with h | ⟨x, hx, hq⟩
      · exact absurd h (by simp)
      · have e : p ++ [n] <+: p ++ n :: t := ⟨t, by simp⟩
        refine ⟨n, (mem_names b p n).mpr ⟨x, hx, e.trans hq⟩, ih (p ++ [n]) ?_ e (Or.inr ⟨x, hx, hq⟩) ?_⟩
        · rw [List.length_append]; simp only [List.length_cons, List.length_nil]; omega
        · have h1 := depth_le b hx
          have h2 := hq.length_le
          simp only [List.length_append, List.length_cons] at h2
          omega

/-- The accounts listed are the root and those with something booked to them or below. -/
theorem mem_listed (b : Bookings) (q : Path) : q ∈ b.listed ↔ q = [] ∨ ∃ x ∈ b, q <+: x.1 := by
  constructor
  · have key : ∀ d p, q ∈ b.listedFrom d p → q = p ∨ ∃ x ∈ b, q <+: x.1 := by
      intro d
      induction d with
      | zero => intro p h; cases h
      | succ d ih =>
        intro p h
        rw [Bookings.listedFrom] at h
        rcases List.mem_cons.mp h with rfl | h
        · exact Or.inl rfl
        · obtain ⟨n, hn, h⟩ := List.mem_flatMap.mp h
          rcases ih _ h with rfl | h
          · exact Or.inr ((mem_names b p n).mp hn)
          · exact Or.inr h
    exact key _ _
  · intro h
    exact mem_listedFrom b _ [] q (by simp) (List.nil_prefix) h (by omega)

theorem figure_sums (b : Bookings) (c : Option Str) {p : Path} (h : p ∈ b.listed) :
    sumIn c (b.figure p) = sumIn c (b.below p) := by
  unfold Bookings.figure
  refine C89_sums b c _ p ?_
  have := (listedFrom_prefix b _ [] p h).2
  simp only [List.length_nil] at this
  omega

theorem enter_comms (l : List Amount) (a : Amount) (hl : (l.map (·.comm)).Nodup) :
    ((enter l a).map (·.comm)).Nodup ∧ ∀ c, c ∈ (enter l a).map (·.comm) ↔ c ∈ l.map (·.comm) ∨ c = a.comm := by
  induction l with
  | nil => simp [enter]
  | cons x xs ih =>
    unfold enter
    rw [List.map_cons, List.nodup_cons] at hl
    obtain ⟨i1, i2⟩ := ih hl.2
    split
    · rename_i h
      refine ⟨by rw [List.map_cons, List.nodup_cons]; exact hl, fun c => ?_⟩
      simp only [List.map_cons, List.mem_cons]
      rw [← h]; tauto
    · rename_i h
      refine ⟨?_, fun c => ?_⟩
      · rw [List.map_cons, List.nodup_cons]
        refine ⟨fun hm => ?_, i1⟩
        rcases (i2 _).mp hm with hm | hm
        · exact hl.1 hm
        · exact h hm
      · simp only [List.map_cons, List.mem_cons]
        rw [i2]; tauto

/-- Each commodity has one line in the sums. -/
theorem tally_comms (as : List Amount) :
    ((tally as).map (·.comm)).Nodup ∧ ∀ c, c ∈ (tally as).map (·.comm) ↔ c ∈ as.map (·.comm) := by
  have : ∀ (as l : List Amount), (l.map (·.comm)).Nodup → ((as.foldl enter l).map (·.comm)).Nodup ∧
      ∀ c, c ∈ (as.foldl enter l).map (·.comm) ↔ c ∈ l.map (·.comm) ∨ c ∈ as.map (·.comm) := by
    intro as
    induction as with
    | nil => intro l h; exact ⟨h, fun c => by simp⟩
    | cons a as ih =>
      intro l h
      obtain ⟨e1, e2⟩ := enter_comms l a h
      obtain ⟨i1, i2⟩ := ih _ e1
      refine ⟨i1, fun c => ?_⟩
      rw [List.foldl_cons, i2, e2, List.map_cons, List.mem_cons]; tauto
  obtain ⟨h1, h2⟩ := this as [] List.nodup_nil
  exact ⟨h1, fun c => by rw [tally, h2]; simp⟩

theorem figure_comms (b : Bookings) (d : Nat) (p : Path) (h : b.depth < p.length + d) :
    ((b.total d p).map (·.comm)).Nodup ∧ ∀ c, c ∈ (b.total d p).map (·.comm) ↔ c ∈ (b.below p).map (·.comm) := by
  induction d generalizing p with
  | zero =>
    refine ⟨List.nodup_nil, fun c => ?_⟩
    have : b.below p = [] := by
      unfold Bookings.below
      rw [List.map_eq_nil_iff, List.filter_eq_nil_iff]
      intro x hx hp
      have := (List.isPrefixOf_iff_prefix.mp hp).length_le
      have := depth_le b hx
      omega
    rw [this]; rfl
  | succ d ih =>
    rw [Bookings.total]
    obtain ⟨h1, h2⟩ := tally_comms ((b.names p).flatMap (fun n => b.total d (p ++ [n])) ++ tally (b.own p))
    refine ⟨h1, fun c => ?_⟩
    rw [h2, List.map_append, List.mem_append, (tally_comms _).2, List.map_flatMap, List.mem_flatMap]
    have ih' : ∀ n, c ∈ (b.total d (p ++ [n])).map (·.comm) ↔ c ∈ (b.below (p ++ [n])).map (·.comm) := fun n =>
      (ih (p ++ [n]) (by rw [List.length_append]; simp only [List.length_cons, List.length_nil]; omega)).2 c
    simp only [ih']
    unfold Bookings.below Bookings.own
    constructor
    · rintro (⟨n, hn, hc⟩ | hc)
      · obtain ⟨a, ha, rfl⟩ := List.mem_map.mp hc
        obtain ⟨x, hx, rfl⟩ := List.mem_map.mp ha
        obtain ⟨hx, hp⟩ := List.mem_filter.mp hx
        exact List.mem_map.mpr ⟨_, List.mem_map.mpr ⟨x, List.mem_filter.mpr ⟨hx, List.isPrefixOf_iff_prefix.mpr
          ((List.prefix_append _ _).trans (List.isPrefixOf_iff_prefix.mp hp))⟩, rfl⟩, rfl⟩
      · obtain ⟨a, ha, rfl⟩ := List.mem_map.mp hc
        obtain ⟨x, hx, rfl⟩ := List.mem_map.mp ha
        obtain ⟨hx, hp⟩ := List.mem_filter.mp hx
        refine List.mem_map.mpr ⟨_, List.mem_map.mpr ⟨x, List.mem_filter.mpr ⟨hx, List.isPrefixOf_iff_prefix.mpr ?_⟩, rfl⟩, rfl⟩
        rw [of_decide_eq_true hp]
    · intro hc
      obtain ⟨a, ha, rfl⟩ := List.mem_map.mp hc
      obtain ⟨x, hx, rfl⟩ := List.mem_map.mp ha
      obtain ⟨hx, hp⟩ := List.mem_filter.mp hx
      obtain ⟨t, ht⟩ := List.isPrefixOf_iff_prefix.mp hp
      cases t with
      | nil =>
        rw [List.append_nil] at ht
        exact Or.inr (List.mem_map.mpr ⟨_, List.mem_map.mpr ⟨x, List.mem_filter.mpr ⟨hx, by simp [ht]⟩, rfl⟩, rfl⟩)
      | cons n t =>
        have e : p ++ [n] <+: x.1 := ⟨t, by rw [← ht]; simp⟩
        exact Or.inl ⟨n, (mem_names b p n).mpr ⟨x, hx, e⟩, List.mem_map.mpr ⟨_, List.mem_map.mpr ⟨x,
          List.mem_filter.mpr ⟨hx, List.isPrefixOf_iff_prefix.mpr e⟩, rfl⟩, rfl⟩⟩

theorem sumIn_one {l : List Amount} (h : (l.map (·.comm)).Nodup) {a : Amount} (ha : a ∈ l) :
    sumIn a.comm l = a.qty.val := by
  induction l with
  | nil => cases ha
  | cons x xs ih =>
    rw [List.map_cons, List.nodup_cons] at h
    rw [sumIn]
    rcases List.mem_cons.mp ha with rfl | ha
    · have : sumIn a.comm xs = 0 := sumIn_absent _ _ h.1
      rw [this, Amount.valIn, if_pos rfl, add_zero]
    · have hne : x.comm ≠ a.comm := fun e => h.1 (e ▸ List.mem_map_of_mem ha)
      rw [ih h.2 ha, Amount.valIn, if_neg hne, zero_add]

/-! ### C96 -/

/-- What is booked to the root and below is everything. -/
theorem below_root (b : Bookings) : b.below [] = b.map (·.2) := by
  unfold Bookings.below
  rw [List.filter_eq_self.mpr (by simp)]

theorem figure_root (b : Bookings) (c : Option Str) : sumIn c (b.figure []) = sumIn c (b.map (·.2)) := by
  rw [figure_sums b c ((mem_listed b []).mpr (Or.inl rfl)), below_root]

theorem figure_nodup (b : Bookings) (p : Path) (h : p ∈ b.listed) : ((b.figure p).map (·.comm)).Nodup := by
  have := (listedFrom_prefix b _ [] p h).2
  simp only [List.length_nil] at this
  exact (figure_comms b _ p (by omega)).1

/-- C96: the first line of a report, the total of everything, shows only zeros exactly if everything that is booked sums
to zero in every commodity. -/
theorem C96_root_zero (b : Bookings) :
    b.report.head? = some (lineText [] ⟨b.figure []⟩) ∧
      ((∀ a ∈ b.figure [], a.qty.val = 0) ↔ ∀ c, sumIn c (b.map (·.2)) = 0) := by
  refine ⟨by rw [report_listed]; rfl, fun h c => ?_, fun h a ha => ?_⟩
  · rw [← figure_root]
    generalize b.figure [] = l at h
    induction l with
    | nil => rfl
    | cons x xs ih =>
      rw [sumIn, ih (fun a ha => h a (List.mem_cons_of_mem _ ha)), Amount.valIn, h x List.mem_cons_self]
      simp
  · rw [← sumIn_one (figure_nodup b [] ((mem_listed b []).mpr (Or.inl rfl))) ha, figure_root, h]

theorem plain_worth {e : Entry} (h : e.cost = none) {a : Amount} (ha : e.amount = some a) :
    e.worthIn = a.comm ∧ e.worth = a.qty.val ∧ e.figure = some a := by
  unfold Entry.worthIn Entry.worth Entry.figure
  rw [h, ha]
  exact ⟨rfl, rfl, rfl⟩

theorem plain_sum (es : List Entry) (h : ∀ e ∈ es, e.cost = none) (c : Option Str) :
    sumIn c (es.filterMap (·.amount)) = entriesSum es c ∧ es.filterMap (·.figure) = es.filterMap (·.amount) := by
  induction es with
  | nil => exact ⟨rfl, rfl⟩
  | cons e es ih =>
    obtain ⟨i1, i2⟩ := ih (fun q hq => h q (List.mem_cons_of_mem _ hq))
    rw [entriesSum_cons, ← i1, List.filterMap_cons, List.filterMap_cons]
    cases ha : e.amount with
    | none =>
      have : e.figure = none := by unfold Entry.figure; rw [ha]
      rw [this]
      refine ⟨?_, i2⟩
      have : e.worth = 0 := by unfold Entry.worth; rw [ha]
      rw [this]; simp
    | some a =>
      obtain ⟨k1, k2, k3⟩ := plain_worth (h e List.mem_cons_self) ha
      rw [k3]
      refine ⟨?_, by rw [i2]⟩
      simp only [sumIn, Amount.valIn, k1, k2]

theorem tally_single {as : List Amount} {c : Option Str} (h : ∀ a ∈ as, a.comm = c) (h0 : as ≠ []) :
    ∃ a, tally as = [a] ∧ a.comm = c ∧ a.qty.val = sumIn c as := by
  obtain ⟨h1, h2⟩ := tally_comms as
  have hs := tally_sum c as
  obtain ⟨b, hb⟩ := List.exists_mem_of_ne_nil _ h0
  have hc : ∀ a ∈ tally as, a.comm = c := by
    intro a ha
    obtain ⟨x, hx, e⟩ := List.mem_map.mp ((h2 a.comm).mp (List.mem_map_of_mem ha))
    rw [← e, h x hx]
  cases ht : tally as with
  | nil =>
    have := (h2 b.comm).mpr (List.mem_map_of_mem hb)
    rw [ht] at this
    cases this
  | cons a l =>
    rw [ht] at h1 hc hs
    cases l with
    | nil =>
      refine ⟨a, rfl, hc a List.mem_cons_self, ?_⟩
      rw [← hs]
      simp [sumIn, Amount.valIn, hc a List.mem_cons_self]
    | cons a' l =>
      exfalso
      rw [List.map_cons, List.map_cons, List.nodup_cons, hc a (by simp), hc a' (by simp)] at h1
      exact h1.1 List.mem_cons_self

/-- A transaction that leaves nothing over books nothing in sum. -/
theorem Even.sum {w : Writing} (h : Even w) (c : Option Str) : sumIn c (w.bookings.map (·.2)) = 0 := by
  obtain ⟨hp, ⟨ha, hb⟩ | ⟨l, e, r, c0, hw, he, hq, hs⟩⟩ := h
  · have e1 : w.bookings.map (·.2) = w.entries.filterMap (·.amount) := by
      unfold Writing.bookings
      rw [List.map_filterMap]
      refine List.filterMap_congr fun e he => ?_
      obtain ⟨a, ha⟩ := Option.ne_none_iff_exists'.mp (ha e he)
      rw [ha]; rfl
    rw [e1, (plain_sum _ hp c).1, hb c]
  · have hp' : ∀ q ∈ l ++ r, q.cost = none := by
      intro q hq
      apply hp
      rw [hw]
      rcases List.mem_append.mp hq with h | h <;> simp [h]
    have e1 : w.bookings.map (·.2) = l.filterMap (·.amount) ++ ((fillOf (l ++ r)).toList ++ r.filterMap (·.amount)) := by
      unfold Writing.bookings
      rw [List.map_filterMap, hw, fillOf_blank he, List.filterMap_append, List.filterMap_cons, he]
      have key : ∀ es : List Entry, (∀ q ∈ es, q.amount ≠ none) →
          es.filterMap (fun e => ((e.amount.or (fillOf (l ++ r))).map (fun a => (pathOf e.account, a))).map (·.2)) =
            es.filterMap (·.amount) := by
        intro es h
        refine List.filterMap_congr fun e he => ?_
        obtain ⟨a, ha⟩ := Option.ne_none_iff_exists'.mp (h e he)
        rw [ha]; rfl
      rw [key l (fun q h => (hq q (List.mem_append_left _ h)).1), key r (fun q h => (hq q (List.mem_append_right _ h)).1)]
      cases fillOf (l ++ r) <;> rfl
    obtain ⟨k1, k2⟩ := plain_sum (l ++ r) hp' c
    obtain ⟨k3, _⟩ := plain_sum (l ++ r) hp' c0
    rw [e1, sumIn_append, sumIn_append]
    have e2 : sumIn c (l.filterMap (·.amount)) + sumIn c (r.filterMap (·.amount)) =
        sumIn c ((l ++ r).filterMap (·.amount)) := by rw [List.filterMap_append, sumIn_append]
    have hcomm : ∀ a ∈ (l ++ r).filterMap (·.amount), a.comm = c0 := by
      intro a ha
      obtain ⟨q, hm, ha⟩ := List.mem_filterMap.mp ha
      rw [← (plain_worth (hp' q hm) ha).1]
      exact (hq q hm).2
    by_cases h0 : (l ++ r).filterMap (·.amount) = []
    · have : fillOf (l ++ r) = none := by unfold fillOf; rw [k2, h0]; rfl
      rw [this]
      rw [h0] at e2
      simp only [Option.toList, sumIn] at e2 ⊢
      linarith
    · obtain ⟨a, t1, t2, t3⟩ := tally_single hcomm h0
      have hf : fillOf (l ++ r) = some ⟨⟨true, a.qty.mant, a.qty.scale⟩, c0⟩ := by
        unfold fillOf
        rw [k2, t1, ← t2]; rfl
      rw [hf]
      have hval : (⟨true, a.qty.mant, a.qty.scale⟩ : Dec).val = - sumIn c0 ((l ++ r).filterMap (·.amount)) := by
        rw [← t3]
        have hpos : 0 ≤ a.qty.val := by rw [t3, k3]; exact hs
        rw [← abs_of_nonneg hpos, Dec.abs_val]
        unfold Dec.val Dec.signed
        simp
        ring
      by_cases hc : c0 = c
      · subst hc
        simp only [Option.toList, sumIn, Amount.valIn, hval, if_true]
        linarith
      · have hz : sumIn c ((l ++ r).filterMap (·.amount)) = 0 := by
          apply sumIn_absent
          intro hm
          obtain ⟨x, hx, e⟩ := List.mem_map.mp hm
          exact hc (by rw [← e, hcomm x hx])
        simp only [Option.toList, sumIn, Amount.valIn, if_neg hc]
        linarith

theorem even_books {ws : List Writing} (h : ∀ w ∈ ws, Even w) (c : Option Str) :
    sumIn c ((writtenBookings ws).map (·.2)) = 0 := by
  unfold writtenBookings
  induction ws with
  | nil => rfl
  | cons w ws ih =>
    rw [List.flatMap_cons, List.map_append, sumIn_append, (h w List.mem_cons_self).sum c,
      ih (fun v hv => h v (List.mem_cons_of_mem _ hv)), add_zero]

/-- Such a transaction is not faulty, unless it is a single posting. -/
theorem Even.sound {w : Writing} (h : Even w) (h1 : w.entries.length ≠ 1) : ¬ Faulty w := by
  obtain ⟨hp, he⟩ := h
  have two : ∀ (l m : List Entry) (e : Entry) (a b c : List Entry) (x y : Entry), l ++ e :: m = a ++ x :: b ++ y :: c →
      x.amount = none → y.amount = none → ∃ q ∈ l ++ m, q.amount = none := by
    intro l m e a b c x y h hx hy
    rcases List.append_eq_append_iff.mp (show l ++ e :: m = a ++ (x :: (b ++ y :: c)) by rw [h]; simp) with
      ⟨t, h1, h2⟩ | ⟨t, h1, h2⟩
    · cases t with
      | nil =>
        rw [List.nil_append] at h2
        injection h2 with _ h2
        exact ⟨y, List.mem_append_right _ (by rw [h2]; simp), hy⟩
      | cons z t =>
        rw [List.cons_append] at h2
        injection h2 with _ h2
        exact ⟨x, List.mem_append_right _ (by rw [h2]; simp), hx⟩
    · cases t with
      | nil =>
        rw [List.nil_append] at h2
        injection h2 with _ h2
        exact ⟨y, List.mem_append_right _ (by rw [← h2]; simp), hy⟩
      | cons z t =>
        rw [List.cons_append] at h2
        injection h2 with h2 _
        exact ⟨x, List.mem_append_left _ (by rw [h1, h2]; simp), hx⟩
  have himp : ∀ A B, ¬ ImpliedBy w A B := by
    rintro A B ⟨k1, _, _, k4, _⟩
    rcases he with ⟨_, hb⟩ | ⟨l, e, r, c, hw, hn, _⟩
    · exact k4 (hb A)
    · exact k1 e (by rw [hw]; simp) hn
  intro hf
  cases hf with
  | single h => exact h1 h
  | blanks l m r e f hw ha hb =>
    rcases he with ⟨hn, _⟩ | ⟨l', e', r', c, hw', _, hq, _⟩
    · exact hn e (by rw [hw]; simp) ha
    · obtain ⟨q, hm, hn⟩ := two _ _ _ _ _ _ _ _ (hw'.symm.trans hw) ha hb
      exact (hq q hm).1 hn
  | mixed e p q hem hpm hqm hb hpa hqa hne =>
    rcases he with ⟨hn, _⟩ | ⟨l', e', r', c, hw', hn', hq, _⟩
    · exact hn e hem hb
    · have key : ∀ x ∈ w.entries, x.amount ≠ none → x.worthIn = c := by
        intro x hx hxa
        rw [hw'] at hx
        have : x ∈ l' ++ r' := by
          rcases List.mem_append.mp hx with h | h
          · exact List.mem_append_left _ h
          · rcases List.mem_cons.mp h with rfl | h
            · exact absurd hn' hxa
            · exact List.mem_append_right _ h
        exact (hq x this).2
      exact hne ((key p hpm hpa).trans (key q hqm hqa).symm)
  | cost e a hem ha hc _ _ => exact hc (hp e hem)
  | rate A B h _ _ _ _ _ _ => exact himp A B h

/-- Full statement: if no posting has a cost and the accepted transactions are each in one commodity, the first line of the
balance report, the total of everything, shows only zeros.  The code does not check sums and gives a blank posting a
negative amount even beside a negative one (C30, C31).

Proved: so it is if every transaction sums to zero in every commodity or leaves one posting blank beside amounts in one
commodity that do not sum to less than zero. -/
theorem C96_books_partial (files : Files) (depth : Nat) {fs : List Str} {is : List Item} (hf : FilesSay files depth fs is .done)
    (hd : ∀ w ∈ writings is, Everyday w) (ht : Roomy (allEntries (writings is)))
    {args rest : List Str} {verb : Str} (ha : Options.processArguments args = .ok (verb :: rest, fs))
    (hv : BalanceVerb verb) (he : ∀ w ∈ writings is, Even w ∧ w.entries.length ≠ 1) :
    ∃ total lines, run files depth args = .ok (lineText [] ⟨total⟩ :: lines) ∧ ∀ a ∈ total, a.qty.val = 0 := by
  have hr := C92_report files depth hf hd ht ha hv (fun w hw => (he w hw).1.sound (he w hw).2)
  obtain ⟨h1, h2⟩ := C96_root_zero (writtenBookings (writings is))
  have h3 := h2.mpr (even_books (fun w hw => (he w hw).1))
  cases hl : (writtenBookings (writings is)).report with
  | nil => rw [hl] at h1; cases h1
  | cons x xs =>
    rw [hl] at h1
    injection h1 with h1
    exact ⟨_, xs, by rw [hr, hl, h1], h3⟩

/-- C96: in general it shows only zeros exactly if what is booked sums to zero in every commodity. -/
theorem C96_exactly (files : Files) (depth : Nat) {fs : List Str} {is : List Item} (hf : FilesSay files depth fs is .done)
    (hd : ∀ w ∈ writings is, Everyday w) (ht : Roomy (allEntries (writings is)))
    {args rest : List Str} {verb : Str} (ha : Options.processArguments args = .ok (verb :: rest, fs))
    (hv : BalanceVerb verb) (hn : ∀ w ∈ writings is, ¬ Faulty w) :
    ∃ total lines, run files depth args = .ok (lineText [] ⟨total⟩ :: lines) ∧
      ((∀ a ∈ total, a.qty.val = 0) ↔ ∀ c, ((writings is).map (fun w => sumIn c (w.bookings.map (·.2)))).sum = 0) := by
  have hr := C92_report files depth hf hd ht ha hv hn
  obtain ⟨h1, h2⟩ := C96_root_zero (writtenBookings (writings is))
  have h3 : ∀ c, sumIn c ((writtenBookings (writings is)).map (·.2)) =
      ((writings is).map (fun w => sumIn c (w.bookings.map (·.2)))).sum := by
    intro c
    unfold writtenBookings
    generalize writings is = ws
    induction ws with
    | nil => rfl
    | cons w ws ih => rw [List.flatMap_cons, List.map_append, sumIn_append, ih, List.map_cons, List.sum_cons]
  simp only [h3] at h2
  cases hl : (writtenBookings (writings is)).report with
  | nil => rw [hl] at h1; cases h1
  | cons x xs =>
    rw [hl] at h1
    injection h1 with h1
    exact ⟨_, xs, by rw [hr, hl, h1], h2⟩

/-- Beside -10 EUR a blank posting is given another -10 EUR, and the books show -20 EUR. -/
theorem C96_books_violated :
    run (fun f => if f = str "x" then some (textSource (str "2023-05-01 Pay\n  Income  -10 EUR\n  Cash\n")) else none) 0
      [str "bal", str "-f", str "x"] =
    .ok [str "Account  has balance -20 EUR", str "Account Cash has balance -10 EUR",
      str "Account Income has balance -10 EUR"] := by decide +kernel

/-! ### C97 -/

theorem firstCause_of_faulty {ws : List Writing} (h : ∃ w ∈ ws, Faulty w) : ∃ k, FirstCause ws k := by
  induction ws with
  | nil => obtain ⟨w, hw, _⟩ := h; cases hw
  | cons w ws ih =>
    by_cases hf : Faulty w
    · obtain ⟨k, hk⟩ := hf.cause
      exact ⟨k, [], w, ws, rfl, fun _ h => (by cases h), hk⟩
    · obtain ⟨v, hv, hvf⟩ := h
      rcases List.mem_cons.mp hv with rfl | hv
      · exact absurd hvf hf
      · obtain ⟨k, hk⟩ := ih ⟨v, hv, hvf⟩
        exact ⟨k, FirstCause.after (ws' := [w]) hk (by intro x hx; rw [List.mem_singleton.mp hx]; exact hf)⟩

theorem names_perm {b b' : Bookings} (h : ∀ x, x ∈ b ↔ x ∈ b') (p : Path) : b.names p = b'.names p := by
  refine sorted_unique (r := StrBefore) strBefore_irrefl (fun a b c => strBefore_trans) _ _ (foldr_sortIn_sorted _)
    (foldr_sortIn_sorted _) ?_
  intro n
  show n ∈ b.names p ↔ n ∈ b'.names p
  rw [mem_names, mem_names]
  exact ⟨fun ⟨x, h1, h2⟩ => ⟨x, (h x).mp h1, h2⟩, fun ⟨x, h1, h2⟩ => ⟨x, (h x).mpr h1, h2⟩⟩

theorem depth_mono {b b' : Bookings} (h : ∀ x, x ∈ b → x ∈ b') : b.depth ≤ b'.depth := by
  unfold Bookings.depth
  induction b with
  | nil => exact Nat.zero_le _
  | cons x b ih =>
    rw [List.map_cons, List.foldr_cons]
    exact Nat.max_le.mpr ⟨depth_le b' (h x List.mem_cons_self), ih (fun y hy => h y (List.mem_cons_of_mem _ hy))⟩

theorem listed_perm {b b' : Bookings} (h : b.Perm b') : b.listed = b'.listed := by
  have hm : ∀ x, x ∈ b ↔ x ∈ b' := fun x => h.mem_iff
  have hd : b.depth = b'.depth := Nat.le_antisymm (depth_mono fun x => (hm x).mp) (depth_mono fun x => (hm x).mpr)
  unfold Bookings.listed
  rw [hd]
  have : ∀ d p, b.listedFrom d p = b'.listedFrom d p := by
    intro d
    induction d with
    | zero => intro p; rfl
    | succ d ih => intro p; rw [Bookings.listedFrom, Bookings.listedFrom, names_perm hm]; simp only [ih]
  exact this _ _

/-- The totals show the same sums in the same commodities. -/
def SameSums (l l' : List Amount) : Prop :=
  (l.map (·.comm)).Nodup ∧ (l'.map (·.comm)).Nodup ∧ (∀ c, c ∈ l.map (·.comm) ↔ c ∈ l'.map (·.comm)) ∧
    ∀ c, sumIn c l = sumIn c l'

theorem figure_perm {b b' : Bookings} (h : b.Perm b') {p : Path} (hp : p ∈ b.listed) :
    SameSums (b.figure p) (b'.figure p) := by
  have hp' : p ∈ b'.listed := listed_perm h ▸ hp
  have hb : (b.below p).Perm (b'.below p) := (h.filter _).map _
  have k1 := (listedFrom_prefix b _ [] p hp).2
  have k2 := (listedFrom_prefix b' _ [] p hp').2
  simp only [List.length_nil] at k1 k2
  have c1 := figure_comms b (b.depth + 1 - p.length) p (by omega)
  have c2 := figure_comms b' (b'.depth + 1 - p.length) p (by omega)
  refine ⟨c1.1, c2.1, fun c => ?_, fun c => ?_⟩
  · rw [Bookings.figure, Bookings.figure, c1.2, c2.2]
    exact (hb.map _).mem_iff
  · rw [figure_sums b c hp, figure_sums b' c hp']
    exact sumIn_perm c hb

/-- Full statement: the order in which transactions are written, in one file or several, makes no difference to the balance
report.  The code keeps the decimals of a zero only until something is added to it, and lists the commodities of an account
in the order of first occurrence, so both can change with the order.

Proved: two lots of files with the same transactions in any order are both refused or both reported on; the reports list
the same accounts in the same order, with the same commodities and the same sums in each. -/
theorem C97_order_partial (files files' : Files) (depth depth' : Nat) {fs fs' : List Str} {is is' : List Item}
    (hf : FilesSay files depth fs is .done) (hf' : FilesSay files' depth' fs' is' .done)
    (hw : (writings is).Perm (writings is')) (hd : ∀ w ∈ writings is, Everyday w)
    (ht : Roomy (allEntries (writings is))) {args args' rest rest' : List Str} {verb verb' : Str}
    (ha : Options.processArguments args = .ok (verb :: rest, fs)) (hv : BalanceVerb verb)
    (ha' : Options.processArguments args' = .ok (verb' :: rest', fs')) (hv' : BalanceVerb verb') :
    ((∃ k, run files depth args = .error k) ∧ ∃ k, run files' depth' args' = .error k) ∨
    ∃ (accounts : List Path) (total total' : Path → List Amount),
      run files depth args = .ok (accounts.map (fun p => lineText (colons p) ⟨total p⟩)) ∧
      run files' depth' args' = .ok (accounts.map (fun p => lineText (colons p) ⟨total' p⟩)) ∧
      ∀ p ∈ accounts, SameSums (total p) (total' p) := by
  have hd' : ∀ w ∈ writings is', Everyday w := fun w h => hd w (hw.mem_iff.mpr h)
  have ht' : Roomy (allEntries (writings is')) := by
    have hp : (allEntries (writings is)).Perm (allEntries (writings is')) := hw.flatMap_right _
    exact ht.mono (fun e he => hp.mem_iff.mpr he) (le_of_eq (hp.map _).sum_eq.symm)
  by_cases hn : ∃ w ∈ writings is, Faulty w
  · left
    obtain ⟨w, h1, h2⟩ := hn
    obtain ⟨k, hk⟩ := firstCause_of_faulty ⟨w, h1, h2⟩
    obtain ⟨k', hk'⟩ := firstCause_of_faulty ⟨w, hw.mem_iff.mp h1, h2⟩
    exact ⟨⟨k, (C92_run_panic files depth hf hd ht ha (Or.inl hv) k).mpr (Or.inl hk)⟩,
      ⟨k', (C92_run_panic files' depth' hf' hd' ht' ha' (Or.inl hv') k').mpr (Or.inl hk')⟩⟩
  · right
    have hn1 : ∀ w ∈ writings is, ¬ Faulty w := fun w h1 h2 => hn ⟨w, h1, h2⟩
    have hn2 : ∀ w ∈ writings is', ¬ Faulty w := fun w h1 h2 => hn ⟨w, hw.mem_iff.mpr h1, h2⟩
    have hb : (writtenBookings (writings is)).Perm (writtenBookings (writings is')) := hw.flatMap_right _
    refine ⟨(writtenBookings (writings is)).listed, (writtenBookings (writings is)).figure,
      (writtenBookings (writings is')).figure, ?_, ?_, fun p hp => figure_perm hb hp⟩
    · rw [C92_report files depth hf hd ht ha hv hn1, report_listed]
    · rw [C92_report files' depth' hf' hd' ht' ha' hv' hn2, report_listed, listed_perm hb]

/-- The same three transactions in another order: other decimals.  Two in another order: the commodities in another order. -/
theorem C97_text_violated :
    (∃ t t' : Str, t = str "2023-05-01 A\n  X  1.00 EUR\n  Y  0 EUR\n\n" ++ (str "2023-05-01 B\n  X  -1.00 EUR\n  Y  0 EUR\n\n" ++
          str "2023-05-01 C\n  X  5 EUR\n  Y  0 EUR\n") ∧
      t' = str "2023-05-01 A\n  X  1.00 EUR\n  Y  0 EUR\n\n" ++ (str "2023-05-01 C\n  X  5 EUR\n  Y  0 EUR\n\n" ++
          str "2023-05-01 B\n  X  -1.00 EUR\n  Y  0 EUR\n") ∧
      run (fun f => if f = str "x" then some (textSource t) else none) 0 [str "bal", str "-f", str "x"] =
        .ok [str "Account  has balance 5 EUR", str "Account X has balance 5 EUR", str "Account Y has balance 0 EUR"] ∧
      run (fun f => if f = str "x" then some (textSource t') else none) 0 [str "bal", str "-f", str "x"] =
        .ok [str "Account  has balance 5.00 EUR", str "Account X has balance 5.00 EUR", str "Account Y has balance 0 EUR"]) ∧
    ∃ t t' : Str, t = str "2023-05-01 A\n  X  1 EUR\n  Y  -1 EUR\n\n" ++ str "2023-05-01 B\n  X  2 USD\n  Y  -2 USD\n" ∧
      t' = str "2023-05-01 B\n  X  2 USD\n  Y  -2 USD\n\n" ++ str "2023-05-01 A\n  X  1 EUR\n  Y  -1 EUR\n" ∧
      run (fun f => if f = str "x" then some (textSource t) else none) 0 [str "bal", str "-f", str "x"] =
        .ok [str "Account  has balance 0 EUR0 USD", str "Account X has balance 1 EUR2 USD",
          str "Account Y has balance -1 EUR-2 USD"] ∧
      run (fun f => if f = str "x" then some (textSource t') else none) 0 [str "bal", str "-f", str "x"] =
        .ok [str "Account  has balance 0 USD0 EUR", str "Account X has balance 2 USD1 EUR",
          str "Account Y has balance -2 USD-1 EUR"] := by
  refine ⟨⟨_, _, rfl, rfl, ?_, ?_⟩, _, _, rfl, rfl, ?_, ?_⟩ <;> decide +kernel

/-! ### C98 -/

theorem mem_within {b : Bookings} {p : Path} {x : Path × Amount} : x ∈ b.within p ↔ x ∈ b ∧ p <+: x.1 := by
  unfold Bookings.within
  rw [List.mem_filter, List.isPrefixOf_iff_prefix]

theorem within_deeper {b b' : Bookings} {p : Path} (h : b.within p = b'.within p) (n : Str) :
    b.within (p ++ [n]) = b'.within (p ++ [n]) := by
  have key : ∀ b : Bookings, b.within (p ++ [n]) = (b.within p).filter (fun x => (p ++ [n]).isPrefixOf x.1) := by
    intro b
    unfold Bookings.within
    rw [List.filter_filter]
    refine List.filter_congr fun x _ => ?_
    rw [Bool.eq_iff_iff, Bool.and_eq_true, List.isPrefixOf_iff_prefix, List.isPrefixOf_iff_prefix]
    exact ⟨fun h => ⟨h, (List.prefix_append _ _).trans h⟩, fun h => h.1⟩
  rw [key, key, h]

theorem names_within (b : Bookings) (p : Path) : b.names p = (b.within p).names p := by
  refine sorted_unique (r := StrBefore) strBefore_irrefl (fun a b c => strBefore_trans) _ _ (foldr_sortIn_sorted _)
    (foldr_sortIn_sorted _) ?_
  intro n
  show n ∈ b.names p ↔ n ∈ (b.within p).names p
  rw [mem_names, mem_names]
  exact ⟨fun ⟨x, h1, h2⟩ => ⟨x, mem_within.mpr ⟨h1, (List.prefix_append _ _).trans h2⟩, h2⟩,
    fun ⟨x, h1, h2⟩ => ⟨x, (mem_within.mp h1).1, h2⟩⟩

theorem own_within (b : Bookings) (p : Path) : b.own p = (b.within p).own p := by
  unfold Bookings.own Bookings.within
  rw [List.filter_filter]
  congr 1
  refine List.filter_congr fun x _ => ?_
  rw [Bool.eq_iff_iff, Bool.and_eq_true, List.isPrefixOf_iff_prefix, decide_eq_true_iff]
  exact ⟨fun h => ⟨h, h ▸ List.prefix_refl _⟩, fun h => h.1⟩

theorem total_none {b : Bookings} {p : Path} (h : b.within p = []) (d : Nat) : b.total d p = [] := by
  cases d with
  | zero => rfl
  | succ d => rw [Bookings.total, names_within, own_within, h]; rfl

theorem total_local {b b' : Bookings} {d d' : Nat} {p : Path} (h : b.within p = b'.within p)
    (hd : ∀ x ∈ b.within p, x.1.length < p.length + d) (hd' : ∀ x ∈ b.within p, x.1.length < p.length + d') :
    b.total d p = b'.total d' p := by
  have none : ∀ {d : Nat}, (∀ x ∈ b.within p, x.1.length < p.length + d) → d = 0 → b.within p = [] := by
    intro d hd h0
    rw [List.eq_nil_iff_forall_not_mem]
    intro x hx
    have := hd x hx
    have := (mem_within.mp hx).2.length_le
    omega
  induction d generalizing d' p with
  | zero =>
    have h0 := none hd rfl
    rw [total_none h0, total_none (h ▸ h0)]
  | succ d ih =>
    cases d' with
    | zero =>
      have h0 := none hd' rfl
      rw [total_none h0, total_none (h ▸ h0)]
    | succ d' =>
      rw [Bookings.total, Bookings.total, names_within b, names_within b', own_within b, own_within b', h]
      congr 2
      refine List.flatMap_congr fun n _ => ?_
      have key : ∀ d, (∀ x ∈ b.within p, x.1.length < p.length + (d + 1)) →
          ∀ x ∈ b.within (p ++ [n]), x.1.length < (p ++ [n]).length + d := by
        intro d hd x hx
        have h1 := mem_within.mp hx
        have := hd x (mem_within.mpr ⟨h1.1, (List.prefix_append _ _).trans h1.2⟩)
        rw [List.length_append, List.length_singleton]
        omega
      refine ih (within_deeper h n) (key d hd) (key d' hd') ?_
      intro d hd h0
      rw [List.eq_nil_iff_forall_not_mem]
      intro x hx
      have := hd x hx
      have := (mem_within.mp hx).2.length_le
      omega

theorem listedFrom_local {b b' : Bookings} {d d' : Nat} {p : Path} (h : b.within p = b'.within p)
    (hd : ∀ x ∈ b.within p, x.1.length < p.length + d) (hd' : ∀ x ∈ b.within p, x.1.length < p.length + d')
    (hn : b.within p ≠ []) : b.listedFrom d p = b'.listedFrom d' p := by
  have pos : ∀ {d : Nat}, (∀ x ∈ b.within p, x.1.length < p.length + d) → b.within p ≠ [] → d ≠ 0 := by
    intro d hd hn h0
    obtain ⟨x, hx⟩ := List.exists_mem_of_ne_nil _ hn
    have := hd x hx
    have := (mem_within.mp hx).2.length_le
    omega
  induction d generalizing d' p with
  | zero => exact absurd rfl (pos hd hn)
  | succ d ih =>
    cases d' with
    | zero => exact absurd rfl (pos hd' hn)
    | succ d' =>
      rw [Bookings.listedFrom, Bookings.listedFrom, names_within b, names_within b', h]
      congr 1
      refine List.flatMap_congr fun n hm => ?_
      have key : ∀ d, (∀ x ∈ b.within p, x.1.length < p.length + (d + 1)) →
          ∀ x ∈ b.within (p ++ [n]), x.1.length < (p ++ [n]).length + d := by
        intro d hd x hx
        have h1 := mem_within.mp hx
        have := hd x (mem_within.mpr ⟨h1.1, (List.prefix_append _ _).trans h1.2⟩)
        rw [List.length_append, List.length_singleton]
        omega
      refine ih (within_deeper h n) (key d hd) (key d' hd') ?_ ?_
      · rw [← h] at hm
        obtain ⟨x, h1, h2⟩ := (mem_names _ _ _).mp hm
        exact List.ne_nil_of_mem (mem_within.mpr ⟨(mem_within.mp h1).1, h2⟩)
      · intro d hd hn h0
        obtain ⟨x, hx⟩ := List.exists_mem_of_ne_nil _ hn
        have := hd x hx
        have := (mem_within.mp hx).2.length_le
        omega

theorem names_nodup (b : Bookings) (p : Path) : (b.names p).Nodup := by
  have h : (b.names p).Pairwise StrBefore := foldr_sortIn_sorted _
  refine h.imp ?_
  intro a b h e
  subst e
  exact strBefore_irrefl _ h

theorem flatMap_only {α β : Type} [DecidableEq α] (f : α → List β) {l : List α} {a : α} (hl : l.Nodup) (ha : a ∈ l)
    (h : ∀ x ∈ l, x ≠ a → f x = []) : l.flatMap f = f a := by
  induction l with
  | nil => cases ha
  | cons x l ih =>
    rw [List.flatMap_cons]
    rw [List.nodup_cons] at hl
    by_cases hx : x = a
    · subst hx
      have : l.flatMap f = [] := by
        rw [List.flatMap_eq_nil_iff]
        intro y hy
        exact h y (List.mem_cons_of_mem _ hy) (fun e => hl.1 (e ▸ hy))
      rw [this, List.append_nil]
    · rw [h x List.mem_cons_self hx, List.nil_append]
      exact ih hl.2 (by rcases List.mem_cons.mp ha with rfl | h; exact absurd rfl hx; exact h)
        (fun y hy => h y (List.mem_cons_of_mem _ hy))

theorem listedFrom_at (b : Bookings) (t : Path) (d : Nat) (q : Path) (h : b.within (q ++ t) ≠ []) (hd : t.length ≤ d) :
    (b.listedFrom d q).filter (fun r => (q ++ t).isPrefixOf r) = b.listedFrom (d - t.length) (q ++ t) := by
  induction t generalizing d q with
  | nil =>
    simp only [List.append_nil, List.length_nil, Nat.sub_zero]
    rw [List.filter_eq_self]
    intro r hr
    exact List.isPrefixOf_iff_prefix.mpr (listedFrom_prefix b d q r hr).1
  | cons n t ih =>
    cases d with
    | zero => simp at hd
    | succ d =>
      have e : q ++ n :: t = (q ++ [n]) ++ t := by simp
      rw [Bookings.listedFrom, List.filter_cons_of_neg, List.filter_flatMap, flatMap_only (a := n) _ (names_nodup b q)]
      · rw [e, ih d (q ++ [n]) (e ▸ h) (by simpa using hd), List.length_cons, Nat.add_sub_add_right]
      · obtain ⟨x, hx⟩ := List.exists_mem_of_ne_nil _ h
        obtain ⟨h1, h2⟩ := mem_within.mp hx
        rw [e] at h2
        exact (mem_names _ _ _).mpr ⟨x, h1, (List.prefix_append _ _).trans h2⟩
      · intro m _ hm
        rw [List.filter_eq_nil_iff]
        intro r hr hp
        rw [List.isPrefixOf_iff_prefix, e] at hp
        have h1 := (listedFrom_prefix b d _ r hr).1
        have h2 := List.prefix_of_prefix_length_le h1 ((List.prefix_append _ _).trans hp) (by simp)
        have h3 := h2.eq_of_length (by simp)
        exact hm (by simpa using h3)
      · rw [List.isPrefixOf_iff_prefix]
        intro hp
        have := hp.length_le
        simp at this

theorem listed_local {b b' : Bookings} {p : Path} (h : b.within p = b'.within p) :
    b.listed.filter (fun r => p.isPrefixOf r) = b'.listed.filter (fun r => p.isPrefixOf r) := by
  by_cases hn : b.within p = []
  · have key : ∀ b : Bookings, b.within p = [] → p ≠ [] → b.listed.filter (fun r => p.isPrefixOf r) = [] := by
      intro b hb hp
      rw [List.filter_eq_nil_iff]
      intro r hr hpr
      rw [List.isPrefixOf_iff_prefix] at hpr
      rcases (mem_listed b r).mp hr with rfl | ⟨x, h1, h2⟩
      · exact hp (List.prefix_nil.mp hpr)
      · exact absurd (mem_within.mpr ⟨h1, hpr.trans h2⟩) (by rw [hb]; simp)
    by_cases hp : p = []
    · subst hp
      have hw : ∀ b : Bookings, b.within [] = b := fun b => List.filter_eq_self.mpr (fun _ _ => rfl)
      rw [hw, hw] at h
      rw [h]
    · rw [key b hn hp, key b' (h ▸ hn) hp]
  · have hd : ∀ b : Bookings, ∀ x ∈ b.within p, x.1.length < p.length + (b.depth + 1 - p.length) := by
      intro b x hx
      have h1 := mem_within.mp hx
      have := depth_le b h1.1
      have := h1.2.length_le
      omega
    have hl : ∀ b : Bookings, b.within p ≠ [] → p.length ≤ b.depth + 1 := by
      intro b hb
      obtain ⟨x, hx⟩ := List.exists_mem_of_ne_nil _ hb
      have h1 := mem_within.mp hx
      have := depth_le b h1.1
      have := h1.2.length_le
      omega
    have e1 := listedFrom_at b p (b.depth + 1) [] (by simpa using hn) (hl b hn)
    have e2 := listedFrom_at b' p (b'.depth + 1) [] (by simpa [← h] using hn) (hl b' (h ▸ hn))
    simp only [List.nil_append] at e1 e2
    unfold Bookings.listed
    rw [e1, e2]
    exact listedFrom_local h (hd b) (h ▸ hd b') hn

theorem within_under {b b' : Bookings} {p q : Path} (h : b.within p = b'.within p) (hq : p <+: q) :
    b.within q = b'.within q := by
  obtain ⟨t, rfl⟩ := hq
  induction t using List.reverseRecOn with
  | nil => rw [List.append_nil]; exact h
  | append_singleton t n ih => rw [← List.append_assoc]; exact within_deeper ih n

theorem figure_local {b b' : Bookings} {p : Path} (h : b.within p = b'.within p) : b.figure p = b'.figure p := by
  have hd : ∀ b : Bookings, ∀ x ∈ b.within p, x.1.length < p.length + (b.depth + 1 - p.length) := by
    intro b x hx
    have h1 := mem_within.mp hx
    have := depth_le b h1.1
    have := h1.2.length_le
    omega
  exact total_local h (hd b) (h ▸ hd b')

/-- The accounts of a report with their lines. -/
def Bookings.shown (b : Bookings) : List (Path × Str) := b.listed.map (fun p => (p, lineText (colons p) ⟨b.figure p⟩))

theorem shown_report (b : Bookings) : b.report = b.shown.map (·.2) := by
  rw [report_listed, Bookings.shown, List.map_map]
  rfl

theorem shown_local {b b' : Bookings} {p : Path} (h : b.within p = b'.within p) :
    b.shown.filter (fun x => p.isPrefixOf x.1) = b'.shown.filter (fun x => p.isPrefixOf x.1) := by
  have key : ∀ b : Bookings, b.shown.filter (fun x => p.isPrefixOf x.1) =
      (b.listed.filter (fun r => p.isPrefixOf r)).map (fun p => (p, lineText (colons p) ⟨b.figure p⟩)) := by
    intro b
    rw [Bookings.shown, List.filter_map]
    rfl
  rw [key, key, listed_local h]
  refine List.map_congr_left fun q hq => ?_
  rw [List.mem_filter, List.isPrefixOf_iff_prefix] at hq
  rw [figure_local (within_under h hq.2)]

/-- C98: the lines of a balance report for an account and the accounts below it depend only on what is booked to them: two
lots of files that book the same there, in the same order, have the same lines for them, whatever else they say. -/
theorem C98_local (files files' : Files) (depth depth' : Nat) {fs fs' : List Str} {is is' : List Item}
    (hf : FilesSay files depth fs is .done) (hf' : FilesSay files' depth' fs' is' .done)
    (hd : ∀ w ∈ writings is, Everyday w) (hd' : ∀ w ∈ writings is', Everyday w)
    (ht : Roomy (allEntries (writings is)))
    (ht' : Roomy (allEntries (writings is')))
    (hn : ∀ w ∈ writings is, ¬ Faulty w) (hn' : ∀ w ∈ writings is', ¬ Faulty w)
    {args args' rest rest' : List Str} {verb verb' : Str}
    (ha : Options.processArguments args = .ok (verb :: rest, fs)) (hv : BalanceVerb verb)
    (ha' : Options.processArguments args' = .ok (verb' :: rest', fs')) (hv' : BalanceVerb verb') {p : Path}
    (hp : (writtenBookings (writings is)).within p = (writtenBookings (writings is')).within p) :
    ∃ shown shown' : List (Path × Str),
      run files depth args = .ok (shown.map (·.2)) ∧ run files' depth' args' = .ok (shown'.map (·.2)) ∧
      (∀ q, q ∈ shown.map (·.1) ↔ q = [] ∨ ∃ x ∈ writtenBookings (writings is), q <+: x.1) ∧
      (∀ x ∈ shown ++ shown', str "Account " ++ colons x.1 ++ str " has balance " <+: x.2) ∧
      shown.filter (fun x => p.isPrefixOf x.1) = shown'.filter (fun x => p.isPrefixOf x.1) := by
  refine ⟨(writtenBookings (writings is)).shown, (writtenBookings (writings is')).shown, ?_, ?_, ?_, ?_, shown_local hp⟩
  · rw [C92_report files depth hf hd ht ha hv hn, shown_report]
  · rw [C92_report files' depth' hf' hd' ht' ha' hv' hn', shown_report]
  · intro q
    rw [Bookings.shown, List.map_map, ← mem_listed]
    simp
  · intro x hx
    have : ∃ b : Bookings, x ∈ b.shown := by
      rcases List.mem_append.mp hx with h | h <;> exact ⟨_, h⟩
    obtain ⟨b, hx⟩ := this
    obtain ⟨q, _, rfl⟩ := List.mem_map.mp hx
    exact List.prefix_append _ _

theorem within_elsewhere {ws1 ws2 : List Writing} {w : Writing} {p : Path}
    (h : ∀ e ∈ w.entries, ¬ p <+: pathOf e.account) :
    (writtenBookings (ws1 ++ w :: ws2)).within p = (writtenBookings (ws1 ++ ws2)).within p := by
  have h0 : Bookings.within w.bookings p = [] := by
    rw [List.eq_nil_iff_forall_not_mem]
    intro x hx
    obtain ⟨h1, h2⟩ := mem_within.mp hx
    obtain ⟨e, he, hx⟩ := List.mem_filterMap.mp h1
    obtain ⟨a, _, rfl⟩ := Option.map_eq_some_iff.mp hx
    exact h e he h2
  unfold Bookings.within at h0
  unfold writtenBookings Bookings.within
  rw [List.flatMap_append, List.flatMap_cons, List.flatMap_append, List.filter_append, List.filter_append, List.filter_append,
    h0, List.nil_append]

/-- C98: in particular, writing one more transaction anywhere leaves the lines for an account and the accounts below it as
they are if it has no posting to any of them. -/
theorem C98_elsewhere (files files' : Files) (depth depth' : Nat) {fs fs' : List Str} {is is' : List Item}
    (hf : FilesSay files depth fs is .done) (hf' : FilesSay files' depth' fs' is' .done)
    {ws1 ws2 : List Writing} {w : Writing} (hw : writings is = ws1 ++ w :: ws2) (hw' : writings is' = ws1 ++ ws2)
    (hd : ∀ w ∈ writings is, Everyday w) (ht : Roomy (allEntries (writings is)))
    (hn : ∀ w ∈ writings is, ¬ Faulty w) {args args' rest rest' : List Str} {verb verb' : Str}
    (ha : Options.processArguments args = .ok (verb :: rest, fs)) (hv : BalanceVerb verb)
    (ha' : Options.processArguments args' = .ok (verb' :: rest', fs')) (hv' : BalanceVerb verb') {p : Path}
    (hp : ∀ e ∈ w.entries, ¬ p <+: pathOf e.account) :
    ∃ shown shown' : List (Path × Str),
      run files depth args = .ok (shown.map (·.2)) ∧ run files' depth' args' = .ok (shown'.map (·.2)) ∧
      (∀ q, q ∈ shown.map (·.1) ↔ q = [] ∨ ∃ x ∈ writtenBookings (writings is), q <+: x.1) ∧
      (∀ x ∈ shown ++ shown', str "Account " ++ colons x.1 ++ str " has balance " <+: x.2) ∧
      shown.filter (fun x => p.isPrefixOf x.1) = shown'.filter (fun x => p.isPrefixOf x.1) := by
  have hsub : ∀ v ∈ writings is', v ∈ writings is := by
    intro v hv
    rw [hw'] at hv
    rw [hw]
    rcases List.mem_append.mp hv with h | h
    · exact List.mem_append_left _ h
    · exact List.mem_append_right _ (List.mem_cons_of_mem _ h)
  have ht' : Roomy (allEntries (writings is')) := by
    refine ht.mono (fun e he => ?_) ?_
    · obtain ⟨v, hv, hev⟩ := List.mem_flatMap.mp he
      exact List.mem_flatMap.mpr ⟨v, hsub v hv, hev⟩
    rw [hw, hw']
    unfold allEntries
    rw [List.flatMap_append, List.flatMap_append, List.flatMap_cons]
    simp only [List.map_append, List.sum_append]
    have : 0 ≤ (w.entries.map (·.size)).sum := List.sum_nonneg (by
      intro x hx
      obtain ⟨e, _, rfl⟩ := List.mem_map.mp hx
      exact size_nonneg e)
    linarith
  exact C98_local files files' depth depth' hf hf' hd (fun v h => hd v (hsub v h)) ht ht' hn
    (fun v h => hn v (hsub v h)) ha hv ha' hv' (by rw [hw, hw']; exact within_elsewhere hp)

namespace BooksExample
open LinesExample FaultsExample CausesExample FoundExample

def bank : Entry := { food with account := str "Assets:Bank", amount := some ⟨⟨false, 100, 0⟩, some (str "EUR")⟩, comments := [] }
def wage : Entry := { food with account := str "Income", amount := some ⟨⟨true, 100, 0⟩, some (str "EUR")⟩, comments := [] }
def pay : Writing := { shop with entries := [bank, wage] }

def payday : Source :=
  [some (str "2023-05-01 Shop  ; food\n"), some (str "    Assets:Bank  100 EUR\n"), some (str "    Income  -100 EUR\n")]

/-- Two files, one with the purchase of the example for C92. -/
def desk : Files := fun f =>
  if f = str "a" then some (refused.take 4) else if f = str "c" then some payday else none

theorem bankLine : EntryLine (str "    Assets:Bank  100 EUR\n") bank := by
  refine ⟨str "   Assets:Bank  100 EUR\n", rfl, ?_⟩
  have e : str "   Assets:Bank  100 EUR\n" =
      str "   " ++ str "Assets:Bank" ++ ' ' :: ' ' :: [] ++ (str "100" ++ [' '] ++ str "EUR") ++ [] ++ [] ++ str "\n" := by
    decide
  rw [e]
  exact EntryText.full b3 (accountText_of ⟨⟨'A', by decide, by decide, by decide⟩, by decide, by decide⟩) b0
    (amount _ _ _ (by decide) (by decide) (by decide)) noLot noCost (.blank nl) (by intro h; cases h) (by intro h; cases h)

theorem wageLine : EntryLine (str "    Income  -100 EUR\n") wage := by
  refine ⟨str "   Income  -100 EUR\n", rfl, ?_⟩
  have e : str "   Income  -100 EUR\n" =
      str "   " ++ str "Income" ++ ' ' :: ' ' :: [] ++ (str "-100" ++ [' '] ++ str "EUR") ++ [] ++ [] ++ str "\n" := by
    decide
  rw [e]
  exact EntryText.full b3 (accountText_of ⟨⟨'I', by decide, by decide, by decide⟩, by decide, by decide⟩) b0
    (amount _ _ _ (by decide) (by decide) (by decide)) noLot noCost (.blank nl) (by intro h; cases h) (by intro h; cases h)

theorem aSays : SaysUpTo desk 0 (refused.take 4) [.price price, .xact first] .done :=
  .price ((topPart_iff _ _).mpr (by decide +kernel)) priceLine (.xact (w := first) (tail := []) shopHeader
    (.posting (e := bread) foodLine (.posting cashLine (.stop (Or.inl ⟨_, Or.inl ⟨rfl, rfl⟩⟩)))) (Or.inl ⟨rfl, rfl⟩) .nil)

theorem cSays : SaysUpTo desk 0 payday [.xact pay] .done :=
  .xact (w := pay) (tail := []) shopHeader
    (.posting (e := bank) bankLine (.posting wageLine (.stop (Or.inl ⟨_, Or.inl ⟨rfl, rfl⟩⟩)))) (Or.inl ⟨rfl, rfl⟩) .nil

theorem acSays : FilesSay desk 0 [str "a", str "c"] [.price price, .xact first, .xact pay] .done :=
  .read (is := [.price price, .xact first]) (is' := [.xact pay]) (by decide) aSays
    (.read (is' := []) (by decide) cSays .nil)

theorem caSays : FilesSay desk 0 [str "c", str "a"] [.xact pay, .price price, .xact first] .done :=
  .read (is := [.xact pay]) (is' := [.price price, .xact first]) (by decide) cSays
    (.read (is' := []) (by decide) aSays .nil)

theorem onlyA : FilesSay desk 0 [str "a"] [.price price, .xact first] .done :=
  .read (is' := []) (by decide) aSays .nil

theorem val_bank : Dec.val ⟨false, 100, 0⟩ = 100 := by simp only [Dec.val_mk, Dec.sgn]; norm_num
theorem val_wage : Dec.val ⟨true, 100, 0⟩ = -100 := by simp only [Dec.val_mk, Dec.sgn]; norm_num
theorem size_bank : bank.size = 100 := by change |Dec.val ⟨false, 100, 0⟩| = _; rw [val_bank]; norm_num
theorem size_wage : wage.size = 100 := by change |Dec.val ⟨true, 100, 0⟩| = _; rw [val_wage]; norm_num

theorem payEveryday : Everyday pay := by
  refine .of_billion ?_ ?_ (by decide) ?_
  · have : ∀ e ∈ [bank, wage], (∀ a ∈ e.amount, a.qty.scale ≤ 9) ∧ e.worthDecimals ≤ 9 := by decide
    exact this
  · change (List.map (·.size) [bank, wage]).sum ≤ _
    rw [List.map_cons, List.map_cons, List.map_nil, List.sum_cons, List.sum_cons, List.sum_nil, size_bank, size_wage]
    norm_num
  · intro e he pr hp
    have : ∀ e ∈ [bank, wage], e.lot.price = none := by decide
    rw [this e he] at hp; cases hp

theorem payEven : Even pay := by
  have hp : ∀ e ∈ [bank, wage], e.cost = none ∧ e.amount ≠ none := by decide
  refine ⟨fun e he => (hp e he).1, Or.inl ⟨fun e he => (hp e he).2, ?_⟩⟩
  intro c
  show entriesSum [bank, wage] c = 0
  rw [← (plain_sum [bank, wage] (fun e he => (hp e he).1) c).1]
  show sumIn c [⟨⟨false, 100, 0⟩, some (str "EUR")⟩, ⟨⟨true, 100, 0⟩, some (str "EUR")⟩] = 0
  by_cases h : some (str "EUR") = c
  · simp [sumIn, Amount.valIn, h, val_bank, val_wage]
  · simp [sumIn, Amount.valIn, h]

theorem firstEven : Even first := by
  refine ⟨by decide, Or.inr ⟨[bread], cash, [], some (str "EUR"), rfl, rfl, by decide, ?_⟩⟩
  show 0 ≤ entriesSum [bread] (some (str "EUR"))
  rw [← (plain_sum [bread] (by decide) _).1]
  show 0 ≤ sumIn (some (str "EUR")) [⟨⟨false, 2050, 2⟩, some (str "EUR")⟩]
  simp only [sumIn, Amount.valIn, if_true, Dec.val_mk, Dec.sgn]
  norm_num

theorem everyday2 : ∀ w ∈ [first, pay], Everyday w := by
  intro w hw
  simp only [List.mem_cons, List.not_mem_nil, or_false] at hw
  rcases hw with rfl | rfl
  · exact CausesExample.everyday _ (by simp)
  · exact payEveryday

theorem total2 : Roomy (allEntries [first, pay]) := by
  refine roomy_of (show ∀ e ∈ [bread, cash, bank, wage], (∀ a ∈ e.amount, a.qty.scale ≤ 9) ∧ e.worthDecimals ≤ 9 by decide) ?_
  change (List.map (·.size) [bread, cash, bank, wage]).sum ≤ _
  simp only [List.map_cons, List.map_nil, List.sum_cons, List.sum_nil, size_bread, size_cash, size_bank, size_wage]
  norm_num

theorem even2 : ∀ w ∈ [first, pay], Even w ∧ w.entries.length ≠ 1 := by
  intro w hw
  simp only [List.mem_cons, List.not_mem_nil, or_false] at hw
  rcases hw with rfl | rfl
  · exact ⟨firstEven, by decide⟩
  · exact ⟨payEven, by decide⟩

/-- The conditions of C96 hold of the two files, and this is the report. -/
example : (∃ total lines, run desk 0 [str "bal", str "-f", str "a", str "-f", str "c"] = .ok (lineText [] ⟨total⟩ :: lines) ∧
      ∀ a ∈ total, a.qty.val = 0) ∧
    run desk 0 [str "bal", str "-f", str "a", str "-f", str "c"] =
      .ok [str "Account  has balance 0.00 EUR", str "Account Assets has balance 79.50 EUR",
        str "Account Assets:Bank has balance 100 EUR", str "Account Assets:Cash has balance -20.50 EUR",
        str "Account Expenses has balance 20.50 EUR", str "Account Expenses:Food has balance 20.50 EUR",
        str "Account Income has balance -100 EUR"] :=
  ⟨C96_books_partial desk 0 acSays everyday2 total2 (verb := str "bal") (rest := []) (by decide)
    (by unfold BalanceVerb; decide) even2, by decide +kernel⟩

/-- The same report, up to decimals, if the files are given in the other order. -/
example : ∃ (accounts : List Path) (total total' : Path → List Amount),
    run desk 0 [str "bal", str "-f", str "a", str "-f", str "c"] = .ok (accounts.map (fun p => lineText (colons p) ⟨total p⟩)) ∧
    run desk 0 [str "bal", str "-f", str "c", str "-f", str "a"] = .ok (accounts.map (fun p => lineText (colons p) ⟨total' p⟩)) ∧
    ∀ p ∈ accounts, SameSums (total p) (total' p) := by
  rcases C97_order_partial desk desk 0 0 acSays caSays (List.Perm.swap _ _ _) everyday2 total2
    (args := [str "bal", str "-f", str "a", str "-f", str "c"]) (args' := [str "bal", str "-f", str "c", str "-f", str "a"])
    (verb := str "bal") (rest := []) (by decide) (by unfold BalanceVerb; decide)
    (verb' := str "bal") (rest' := []) (by decide) (by unfold BalanceVerb; decide) with ⟨⟨k, h⟩, _⟩ | h
  · rw [C92_report desk 0 acSays everyday2 total2 (verb := str "bal") (rest := []) (by decide)
      (by unfold BalanceVerb; decide) (fun w hw => (even2 w hw).1.sound (even2 w hw).2)] at h
    cases h
  · exact h

/-- The second file has nothing under `Expenses`, so the lines for it are the same with and without that file. -/
example : ∃ shown shown' : List (Path × Str),
    run desk 0 [str "bal", str "-f", str "a", str "-f", str "c"] = .ok (shown.map (·.2)) ∧
    run desk 0 [str "bal", str "-f", str "a"] = .ok (shown'.map (·.2)) ∧
    shown.filter (fun x => [str "Expenses"].isPrefixOf x.1) = shown'.filter (fun x => [str "Expenses"].isPrefixOf x.1) ∧
    (∀ q, q ∈ shown.map (·.1) ↔ q = [] ∨ ∃ x ∈ writtenBookings [first, pay], q <+: x.1) := by
  obtain ⟨s, s', h1, h2, h3, _, h5⟩ := C98_elsewhere desk desk 0 0 acSays onlyA (ws1 := [first]) (w := pay) (ws2 := []) rfl rfl
    everyday2 total2 (fun w hw => (even2 w hw).1.sound (even2 w hw).2)
    (args := [str "bal", str "-f", str "a", str "-f", str "c"]) (args' := [str "bal", str "-f", str "a"])
    (verb := str "bal") (rest := []) (by decide) (by unfold BalanceVerb; decide)
    (verb' := str "bal") (rest' := []) (by decide) (by unfold BalanceVerb; decide) (p := [str "Expenses"]) (by decide)
  exact ⟨s, s', h1, h2, h5, h3⟩

end BooksExample

end Ledger
