import Verif.Props.Books
/-
C117: figures that are zero but are printed with a minus sign.
-/
namespace Ledger
open Ledger.Parser Ledger.Cli

/-- Zero, printed with a minus sign. -/
def MinusZero (a : Amount) : Prop := a.qty.neg = true ∧ a.qty.mant = 0

/-- A transaction with a blank posting beside others that are worth nothing together. -/
def Cancels (w : Writing) : Prop :=
  (∃ e ∈ w.entries, e.amount = none) ∧
    ∃ c, (∀ q ∈ w.entries, q.amount ≠ none → q.worthIn = c) ∧ entriesSum w.entries c = 0

theorem minusZero_iff (a : Amount) : MinusZero a ↔ a.qty.display.head? = some '-' ∧ a.qty.val = 0 := by
  obtain ⟨c, s, h1, _, h3⟩ := Dec.display_head a.qty
  rw [h1, MinusZero, ← h3, List.head?_cons, Option.some.injEq]
  have : a.qty.val = 0 ↔ a.qty.mant = 0 := by
    obtain ⟨⟨n, m, s⟩, c⟩ := a
    rw [Dec.val_mk]
    cases n <;> simp [Dec.sgn]
  rw [this]

theorem not_minusZero (a : Amount) : ¬ MinusZero a ↔ (a.qty.display.head? = some '-' ↔ a.qty.val < 0) := by
  obtain ⟨c, s, h1, _, h3⟩ := Dec.display_head a.qty
  rw [h1, MinusZero, ← h3, List.head?_cons, Option.some.injEq, h3]
  obtain ⟨⟨n, m, s⟩, c⟩ := a
  have hp : (0 : ℚ) < 10 ^ s := by positivity
  rw [Dec.val_mk]
  cases n
  · simp [Dec.sgn]
    positivity
  · simp only [Dec.sgn, true_and, true_iff]
    constructor
    · intro h
      have : (0 : ℚ) < m := by exact_mod_cast Nat.pos_of_ne_zero h
      have : 0 < (m : ℚ) / 10 ^ s := by positivity
      simp only [if_true]
      rw [show (-1 : ℚ) * m / 10 ^ s = -(m / 10 ^ s) by ring]
      linarith
    · rintro h rfl
      simp at h

/-! ### sums -/

theorem plus_minusZero (f g : Dec) :
    ((f.plus g).neg = true ∧ (f.plus g).mant = 0) ↔ (f.neg = true ∧ f.mant = 0) ∧ g.mant = 0 := by
  unfold Dec.plus
  split
  · rename_i h; simp [h]
  · rename_i h
    split
    · rename_i h2; simp [h]
    · rename_i h2
      simp [h]
      intro hn h0
      omega

theorem foldl_minusZero (x : Dec) (xs : List Dec) :
    ((xs.foldl Dec.plus x).neg = true ∧ (xs.foldl Dec.plus x).mant = 0) ↔
      (x.neg = true ∧ x.mant = 0) ∧ ∀ y ∈ xs, y.mant = 0 := by
  induction xs generalizing x with
  | nil => simp
  | cons y ys ih =>
    rw [List.foldl_cons, ih, plus_minusZero]
    simp [and_assoc]

theorem enter_mem {l : List Amount} (hl : (l.map (·.comm)).Nodup) (a f : Amount) :
    f ∈ enter l a ↔ (f.comm ≠ a.comm ∧ f ∈ l) ∨ (f.comm = a.comm ∧
      ((∃ x ∈ l, x.comm = a.comm ∧ f.qty = x.qty.plus a.qty) ∨ ((∀ x ∈ l, x.comm ≠ a.comm) ∧ f = a))) := by
  induction l with
  | nil =>
    simp only [enter, List.mem_singleton, List.not_mem_nil, and_false, false_or, false_and, exists_false, false_imp_iff,
      implies_true, true_and]
    exact ⟨fun h => ⟨by rw [h], h⟩, fun h => h.2⟩
  | cons x xs ih =>
    rw [List.map_cons, List.nodup_cons] at hl
    have hx : ∀ y ∈ xs, y.comm ≠ x.comm := fun y hy e => hl.1 (e ▸ List.mem_map_of_mem (f := (·.comm)) hy)
    by_cases hc : x.comm = a.comm
    · simp only [enter, if_pos hc, List.mem_cons]
      constructor
      · rintro (rfl | h)
        · exact .inr ⟨hc, .inl ⟨x, .inl rfl, hc, rfl⟩⟩
        · exact .inl ⟨fun e => hx f h (e.trans hc.symm), .inr h⟩
      · rintro (⟨h1, rfl | h2⟩ | ⟨h1, ⟨y, rfl | hy, h2, h3⟩ | ⟨h2, _⟩⟩)
        · exact absurd hc h1
        · exact .inr h2
        · left
          obtain ⟨fq, fc⟩ := f
          simp only at h1 h3
          rw [h3, h1, hc]
        · exact absurd (h2.trans hc.symm) (hx y hy)
        · exact absurd hc (h2 x (.inl rfl))
    · simp only [enter, if_neg hc, List.mem_cons, ih hl.2]
      constructor
      · rintro (rfl | ⟨h1, h2⟩ | ⟨h1, ⟨y, hy, h2, h3⟩ | ⟨h2, h3⟩⟩)
        · exact .inl ⟨hc, .inl rfl⟩
        · exact .inl ⟨h1, .inr h2⟩
        · exact .inr ⟨h1, .inl ⟨y, .inr hy, h2, h3⟩⟩
        · refine .inr ⟨h1, .inr ⟨?_, h3⟩⟩
          rintro y (rfl | hy)
          · exact hc
          · exact h2 y hy
      · rintro (⟨h1, rfl | h2⟩ | ⟨h1, ⟨y, rfl | hy, h2, h3⟩ | ⟨h2, h3⟩⟩)
        · exact .inl rfl
        · exact .inr (.inl ⟨h1, h2⟩)
        · exact absurd h2 hc
        · exact .inr (.inr ⟨h1, .inl ⟨y, hy, h2, h3⟩⟩)
        · exact .inr (.inr ⟨h1, .inr ⟨fun y hy => h2 y (.inr hy), h3⟩⟩)

/-- The sum in a commodity is that of the amounts in it, one after the other. -/
theorem mem_tally (as : List Amount) (f : Amount) :
    f ∈ tally as ↔ ∃ x xs, as.filter (fun a => a.comm = f.comm) = x :: xs ∧ f.qty = (xs.map (·.qty)).foldl Dec.plus x.qty := by
  induction as using List.reverseRecOn generalizing f with
  | nil => simp [tally]
  | append_singleton as a ih =>
    have e : tally (as ++ [a]) = enter (tally as) a := by unfold tally; rw [List.foldl_append]; rfl
    rw [e, enter_mem (tally_comms as).1, List.filter_append]
    by_cases hc : a.comm = f.comm
    · have h1 : [a].filter (fun a => a.comm = f.comm) = [a] := by simp [hc]
      rw [h1]
      constructor
      · rintro (⟨h, _⟩ | ⟨_, ⟨x, hx, h2, h3⟩ | ⟨h2, rfl⟩⟩)
        · exact absurd hc.symm h
        · obtain ⟨y, ys, h4, h5⟩ := (ih x).mp hx
          rw [show x.comm = f.comm from h2.trans hc] at h4
          exact ⟨y, ys ++ [a], by rw [h4]; rfl, by rw [h3, h5]; simp⟩
        · refine ⟨f, [], ?_, rfl⟩
          rw [List.filter_eq_nil_iff.mpr]
          · rfl
          · intro y hy
            have : f.comm ∉ (tally as).map (·.comm) := by
              intro hm
              obtain ⟨z, hz, hzc⟩ := List.mem_map.mp hm
              exact h2 z hz hzc
            rw [(tally_comms as).2] at this
            simp only [decide_eq_true_eq]
            exact fun e => this (e ▸ List.mem_map_of_mem (f := (·.comm)) hy)
      · rintro ⟨x, xs, h2, h3⟩
        right
        refine ⟨hc.symm, ?_⟩
        cases hf : as.filter (fun a => a.comm = f.comm) with
        | nil =>
          rw [hf] at h2
          cases h2
          right
          refine ⟨?_, ?_⟩
          · intro y hy hyc
            obtain ⟨z, zs, h4, _⟩ := (ih y).mp hy
            rw [show y.comm = f.comm from hyc.trans hc, hf] at h4
            cases h4
          · obtain ⟨fq, fc⟩ := f
            obtain ⟨aq, ac⟩ := a
            simp only at hc
            simp only [List.map_nil, List.foldl_nil] at h3
            rw [hc, h3]
        | cons y ys =>
          rw [hf, List.cons_append] at h2
          injection h2 with h4 h5
          subst h4 h5
          left
          refine ⟨⟨(ys.map (·.qty)).foldl Dec.plus y.qty, f.comm⟩, (ih _).mpr ⟨y, ys, hf, rfl⟩, hc.symm, ?_⟩
          rw [h3]
          simp
    · have h1 : [a].filter (fun a => a.comm = f.comm) = [] := by simp [hc]
      rw [h1, List.append_nil, ← ih f]
      constructor
      · rintro (⟨_, h⟩ | ⟨h, _⟩)
        · exact h
        · exact absurd h.symm hc
      · exact fun h => .inl ⟨fun e => hc e.symm, h⟩

/-- **C117** Exactly which sums are zero with a minus sign: those of amounts that are all zero, the first of them with a
minus sign.  Where anything else is added up, a zero is a plain zero. -/
theorem C117_sums (as : List Amount) (c : Option Str) :
    (∃ f ∈ tally as, f.comm = c ∧ MinusZero f) ↔
      ∃ x xs, as.filter (fun a => a.comm = c) = x :: xs ∧ MinusZero x ∧ ∀ y ∈ xs, y.qty.mant = 0 := by
  constructor
  · rintro ⟨f, hf, rfl, hz⟩
    obtain ⟨x, xs, h1, h2⟩ := (mem_tally as f).mp hf
    unfold MinusZero at hz
    rw [h2, foldl_minusZero] at hz
    exact ⟨x, xs, h1, hz.1, fun y hy => hz.2 _ (List.mem_map_of_mem hy)⟩
  · rintro ⟨x, xs, h1, h2, h3⟩
    refine ⟨⟨(xs.map (·.qty)).foldl Dec.plus x.qty, c⟩, (mem_tally as _).mpr ⟨x, xs, h1, rfl⟩, rfl, ?_⟩
    unfold MinusZero
    rw [foldl_minusZero]
    refine ⟨h2, ?_⟩
    intro y hy
    obtain ⟨z, hz, rfl⟩ := List.mem_map.mp hy
    exact h3 z hz

example : tally [⟨⟨true, 0, 0⟩, some (str "EUR")⟩, ⟨⟨false, 0, 2⟩, some (str "EUR")⟩] = [⟨⟨true, 0, 0⟩, some (str "EUR")⟩] ∧
    tally [⟨⟨true, 0, 0⟩, none⟩, ⟨⟨false, 1, 0⟩, none⟩, ⟨⟨true, 1, 0⟩, none⟩] = [⟨⟨false, 0, 0⟩, none⟩] := by decide +kernel

theorem total_minusZero (b : Bookings) (d : Nat) (p : Path) {f : Amount} (hf : f ∈ b.total d p) (hz : MinusZero f) :
    ∃ x ∈ b, p <+: x.1 ∧ x.2.comm = f.comm ∧ MinusZero x.2 := by
  induction d generalizing p f with
  | zero => cases hf
  | succ d ih =>
    obtain ⟨x, xs, h1, h2, _⟩ := (C117_sums _ f.comm).mp ⟨f, hf, rfl, hz⟩
    have hx : x ∈ ((b.names p).flatMap (fun n => b.total d (p ++ [n])) ++ tally (b.own p)).filter (fun a => a.comm = f.comm) := by
      rw [h1]; exact List.mem_cons_self
    rw [List.mem_filter] at hx
    obtain ⟨hx, hc⟩ := hx
    simp only [decide_eq_true_eq] at hc
    rcases List.mem_append.mp hx with hx | hx
    · obtain ⟨n, _, hx⟩ := List.mem_flatMap.mp hx
      obtain ⟨y, k1, k2, k3, k4⟩ := ih _ hx h2
      exact ⟨y, k1, (List.prefix_append p [n]).trans k2, k3.trans hc, k4⟩
    · obtain ⟨y, ys, k1, k2, _⟩ := (C117_sums _ x.comm).mp ⟨x, hx, rfl, h2⟩
      have hy : y ∈ (b.own p).filter (fun a => a.comm = x.comm) := by rw [k1]; exact List.mem_cons_self
      rw [List.mem_filter] at hy
      obtain ⟨hy, hyc⟩ := hy
      simp only [decide_eq_true_eq] at hyc
      obtain ⟨z, hz, rfl⟩ := List.mem_map.mp hy
      rw [List.mem_filter] at hz
      simp only [decide_eq_true_eq] at hz
      exact ⟨z, hz.1, by rw [hz.2], hyc.trans hc, k2⟩

/-! ### which postings -/

theorem numberSays_plain {q s : Str} {a : Amount} {st : Option Str} (h : NumberSays q s (some a) st) : ¬ MinusZero a := by
  rcases h with ⟨d, hd, ha, _⟩ | ⟨_, ha, _⟩
  · injection ha with ha
    obtain ⟨_, _, _, _, _, _, _, h⟩ := hd
    rintro ⟨h1, h2⟩
    rw [ha] at h1 h2
    refine h h1 ?_
    obtain ⟨n, m, s⟩ := d
    simp only at h2
    subst h2
    rw [Dec.val_mk]
    simp
  · cases ha

theorem filesSay_plain (files : Files) (depth : Nat) {fs : List Str} {wss : List (List Writing)}
    (h : List.Forall₂ (FileSays files depth) fs wss) :
    ∀ w ∈ wss.flatten, ∀ e ∈ w.entries, ∀ a, e.amount = some a → ¬ MinusZero a := by
  intro w hw
  obtain ⟨ws, h1, h2⟩ := List.mem_flatten.mp hw
  obtain ⟨f, _, text, lines, _, _, h3⟩ := forall₂_mem_right h h1
  refine says_each (P := fun w => ∀ e ∈ w.entries, ∀ a, e.amount = some a → ¬ MinusZero a) ?_ files depth h3 w h2
  rintro block w ⟨header, cs, blocks, _, _, _, hb⟩ e he a ha
  obtain ⟨block, _, line, _, _, ⟨text, _, t, _, h⟩, _⟩ := forall₂_mem_right hb he
  have := h.amount
  rw [ha] at this
  exact numberSays_plain this

theorem blank_worth {e : Entry} (h : e.amount = none) : e.worth = 0 := by unfold Entry.worth; rw [h]

/-- **C117** Exactly which transactions book a zero with a minus sign: those with a blank posting beside others that are
worth nothing together. -/
theorem C117_transaction {w w' : Writing} (h : Settles w w') (hn : ∀ e ∈ w.entries, ∀ a, e.amount = some a → ¬ MinusZero a)
    (hf : ∀ e ∈ w.entries, ∀ f, e.figure = some f → f.qty.Valid) :
    (∃ x ∈ w.bookings, MinusZero x.2) ↔ Cancels w := by
  have hb := h.bookings hf
  rw [← hb]
  cases h with
  | kept ha _ =>
    constructor
    · rintro ⟨x, hx, hz⟩
      obtain ⟨e, he, hx⟩ := List.mem_filterMap.mp hx
      cases hea : e.amount with
      | none => exact absurd hea (ha e he)
      | some a =>
        rw [hea] at hx
        cases hx
        exact absurd hz (hn e he a hea)
    · rintro ⟨⟨e, he, h0⟩, _⟩
      exact absurd h0 (ha e he)
  | rated A B u es himp _ hes =>
    have key : ∀ e' ∈ es, ∃ e ∈ w.entries, e'.amount = e.amount := by
      intro e' he'
      obtain ⟨e, he, hr⟩ := forall₂_mem_right hes he'
      rcases hr with ⟨_, a, k, _, _, _, rfl⟩ | ⟨_, rfl⟩ <;> exact ⟨_, he, rfl⟩
    constructor
    · rintro ⟨x, hx, hz⟩
      obtain ⟨e', he', hx⟩ := List.mem_filterMap.mp hx
      obtain ⟨e, he, hea⟩ := key e' he'
      cases h1 : e'.amount with
      | none => rw [h1] at hx; cases hx
      | some a =>
        rw [h1] at hx
        cases hx
        exact absurd hz (hn e he a (hea ▸ h1))
    · rintro ⟨⟨e, he, h0⟩, _⟩
      exact absurd h0 (himp.1 e he)
  | filled l r e a hw he hq hval hd hx =>
    have hsum : ∀ c, entriesSum w.entries c = entriesSum (l ++ r) c := by
      intro c
      rw [hw, entriesSum_append, entriesSum_append, entriesSum_cons, blank_worth he]
      simp
    have hmem : ∀ q, q ∈ w.entries ↔ q = e ∨ q ∈ l ++ r := by
      intro q; rw [hw]; simp only [List.mem_append, List.mem_cons]; tauto
    have hneg : a.qty.neg = true := by
      have := hx (fun q hq f hqf => hf q ((hmem q).mpr (.inr hq)) f hqf)
      unfold fillOf at this
      cases ht : (tally ((l ++ r).filterMap (·.figure))).head? with
      | none => rw [ht] at this; cases this
      | some t =>
        rw [ht] at this
        simp only [Option.map_some, Option.some.injEq] at this
        rw [← this]
    have hz : MinusZero a ↔ entriesSum (l ++ r) a.comm = 0 := by
      have h0 : a.qty.mant = 0 ↔ a.qty.val = 0 := by
        obtain ⟨⟨n, m, s⟩, c⟩ := a
        rw [Dec.val_mk]
        cases n <;> simp [Dec.sgn]
      rw [MinusZero, h0, hval, neg_eq_zero, abs_eq_zero]
      exact ⟨fun h => h.2, fun h => ⟨hneg, h⟩⟩
    constructor
    · rintro ⟨x, hx, hxz⟩
      obtain ⟨q, hq', hx⟩ := List.mem_filterMap.mp hx
      have hcan : MinusZero a → Cancels w := by
        intro ha
        refine ⟨⟨e, (hmem e).mpr (.inl rfl), he⟩, a.comm, ?_, by rw [hsum]; exact hz.mp ha⟩
        intro q hqm hqa
        rcases (hmem q).mp hqm with rfl | hqm
        · exact absurd he hqa
        · exact (hq q hqm).2
      rcases List.mem_append.mp hq' with hl | hl
      · cases h1 : q.amount with
        | none => rw [h1] at hx; cases hx
        | some b =>
          rw [h1] at hx
          cases hx
          exact absurd hxz (hn q ((hmem q).mpr (.inr (List.mem_append_left _ hl))) b h1)
      · rcases List.mem_cons.mp hl with rfl | hl
        · cases hx
          exact hcan hxz
        · cases h1 : q.amount with
          | none => rw [h1] at hx; cases hx
          | some b =>
            rw [h1] at hx
            cases hx
            exact absurd hxz (hn q ((hmem q).mpr (.inr (List.mem_append_right _ hl))) b h1)
    · rintro ⟨_, c, hc, hs⟩
      refine ⟨(pathOf e.account, a), List.mem_filterMap.mpr ⟨{ e with amount := some a }, by simp, rfl⟩, hz.mpr ?_⟩
      rw [hsum] at hs
      by_cases hca : c = a.comm
      · rw [← hca]; exact hs
      · have hnil : l ++ r = [] := by
          cases hlr : l ++ r with
          | nil => rfl
          | cons q qs =>
            have hqm : q ∈ l ++ r := by rw [hlr]; exact List.mem_cons_self
            exact absurd ((hc q ((hmem q).mpr (.inr hqm)) (hq q hqm).1).symm.trans (hq q hqm).2) hca
        rw [hnil]; rfl

/-! ### the report -/

/-- The claim is false: two amounts that cancel each other and a blank posting, or just a zero and a blank posting. -/
theorem C117_report_violated :
    run (fun f => if f = str "x" then some (textSource (str "2023-05-01 x\n A  1 EUR\n A  -1 EUR\n B\n")) else none) 0
        [str "bal", str "-f", str "x"] =
      .ok [str "Account  has balance 0 EUR", str "Account A has balance 0 EUR", str "Account B has balance -0 EUR"] ∧
    run (fun f => if f = str "x" then some (textSource (str "2023-05-01 x\n A  0.00\n B\n")) else none) 0
        [str "bal", str "-f", str "x"] =
      .ok [str "Account  has balance 0.00", str "Account A has balance 0.00", str "Account B has balance -0.00"] :=
  ⟨by decide +kernel, by decide +kernel⟩

/-- **C117** `bal` prints a minus sign before a figure exactly if it is below zero, on files with transactions of everyday size
that are not faulty.  Missing: files with a transaction that has a blank posting beside others that are worth nothing
together, for which the claim is false. -/
theorem C117_report_partial (files : Files) (depth : Nat) {fs : List Str} {wss : List (List Writing)}
    (hf : List.Forall₂ (FileSays files depth) fs wss) (hd : ∀ w ∈ wss.flatten, Everyday w)
    (ht : Roomy (allEntries wss.flatten)) {args rest : List Str} {verb : Str}
    (ha : Options.processArguments args = .ok (verb :: rest, fs)) (hv : BalanceVerb verb)
    (hn : ∀ w ∈ wss.flatten, ¬ Faulty w) (hc : ∀ w ∈ wss.flatten, ¬ Cancels w) :
    ∃ b : Bookings, run files depth args = .ok (b.listed.map (fun q => lineText (colons q) ⟨b.figure q⟩)) ∧
      ∀ q ∈ b.listed, ∀ a ∈ b.figure q, (a.qty.display.head? = some '-' ↔ a.qty.val < 0) := by
  refine ⟨writtenBookings wss.flatten, ?_, ?_⟩
  · rw [← report_listed]
    exact C89_report files depth hf hd ht ha hv hn
  · intro q _ a haq
    rw [← not_minusZero]
    intro hz
    obtain ⟨x, hx, _, _, hxz⟩ := total_minusZero _ _ _ haq hz
    obtain ⟨w, hw, hxw⟩ := List.mem_flatMap.mp hx
    obtain ⟨ws', _, hs, _⟩ := (C81_report files depth hf hd ht ha hv).2 hn
    obtain ⟨w', _, hww⟩ := forall₂_mem_left hs hw
    have hvn := (filesSay_valid files depth hf w hw).1
    exact hc w hw ((C117_transaction hww (filesSay_plain files depth hf w hw) ((hd w hw).figures hvn)).mp ⟨x, hxw, hxz⟩)

/-- **C117** In every report the account of a posting that gets a zero with a minus sign shows it, if nothing else is booked
to the account or below it. -/
theorem C117_shown_violated (files : Files) (depth : Nat) {fs : List Str} {wss : List (List Writing)}
    (hf : List.Forall₂ (FileSays files depth) fs wss) (hd : ∀ w ∈ wss.flatten, Everyday w)
    (ht : Roomy (allEntries wss.flatten)) {args rest : List Str} {verb : Str}
    (ha : Options.processArguments args = .ok (verb :: rest, fs)) (hv : BalanceVerb verb)
    (hn : ∀ w ∈ wss.flatten, ¬ Faulty w) {w : Writing} (hw : w ∈ wss.flatten) (hc : Cancels w)
    (hown : ∀ e ∈ w.entries, e.amount = none → ((writtenBookings wss.flatten).within (pathOf e.account)).length ≤ 1) :
    ∃ out e a, run files depth args = .ok out ∧ e ∈ w.entries ∧ e.amount = none ∧
      a.qty.display.head? = some '-' ∧ a.qty.val = 0 ∧ lineText (colons (pathOf e.account)) ⟨[a]⟩ ∈ out := by
  have hrun := C89_report files depth hf hd ht ha hv hn
  obtain ⟨ws', _, hs, _⟩ := (C81_report files depth hf hd ht ha hv).2 hn
  obtain ⟨w', _, hww⟩ := forall₂_mem_left hs hw
  have hvn := (filesSay_valid files depth hf w hw).1
  have hpl := filesSay_plain files depth hf w hw
  obtain ⟨x, hx, hz⟩ := (C117_transaction hww hpl ((hd w hw).figures hvn)).mpr hc
  obtain ⟨e, he, hxe⟩ := List.mem_filterMap.mp hx
  have hea : e.amount = none := by
    cases h1 : e.amount with
    | none => rfl
    | some a =>
      rw [h1] at hxe
      cases hxe
      exact absurd hz (hpl e he a h1)
  have hx1 : x.1 = pathOf e.account := by
    cases h2 : e.amount.or (fillOf w.entries) with
    | none => rw [h2] at hxe; cases hxe
    | some a => rw [h2] at hxe; cases hxe; rfl
  have hxb : x ∈ writtenBookings wss.flatten := List.mem_flatMap.mpr ⟨w, hw, hx⟩
  have hwi : (writtenBookings wss.flatten).within (pathOf e.account) = [x] := by
    have hm : x ∈ (writtenBookings wss.flatten).within (pathOf e.account) := mem_within.mpr ⟨hxb, by rw [hx1]⟩
    have := hown e he hea
    cases hl : (writtenBookings wss.flatten).within (pathOf e.account) with
    | nil => rw [hl] at hm; cases hm
    | cons y ys =>
      rw [hl] at hm this
      have : ys = [] := by
        cases ys with
        | nil => rfl
        | cons z zs => simp at this
      subst this
      rw [List.mem_singleton.mp hm]
  have hnone : ∀ p : Path, nextName p p = none := by
    intro p
    induction p with
    | nil => rfl
    | cons n p ih => simp [nextName, ih]
  have hnames : (writtenBookings wss.flatten).names (pathOf e.account) = [] := by
    rw [names_within, hwi]
    simp [Bookings.names, hx1, hnone]
  have hfig : (writtenBookings wss.flatten).figure (pathOf e.account) = [x.2] := by
    have hd := depth_le _ hxb
    rw [hx1] at hd
    unfold Bookings.figure
    obtain ⟨d, hd'⟩ : ∃ d, (writtenBookings wss.flatten).depth + 1 - (pathOf e.account).length = d + 1 :=
      ⟨(writtenBookings wss.flatten).depth - (pathOf e.account).length, by omega⟩
    rw [hd', Bookings.total, hnames, own_within, hwi]
    simp [Bookings.own, hx1, tally, enter]
  obtain ⟨h1, h2⟩ := (minusZero_iff x.2).mp hz
  refine ⟨_, e, x.2, hrun, he, hea, h1, h2, ?_⟩
  rw [report_listed, ← hfig]
  exact List.mem_map.mpr ⟨pathOf e.account, (mem_listed _ _).mpr (.inr ⟨x, hxb, by rw [hx1]⟩), rfl⟩

/-- The transaction of the first file above, and one that has something left for its blank posting. -/
example :
    let eur (n : Bool) (m : Nat) : Option Amount := some ⟨⟨n, m, 0⟩, some (str "EUR")⟩
    let entry (name : String) (a : Option Amount) : Entry := ⟨str name, a, ⟨none, none⟩, none, [], ⟨none, none, none⟩⟩
    let w (es : List Entry) : Writing := ⟨⟨2023, 5, 1⟩, none, str "x", [], [], es⟩
    Cancels (w [entry "A" (eur false 1), entry "A" (eur true 1), entry "B" none]) ∧
      ¬ Cancels (w [entry "A" (eur false 1), entry "B" none]) := by
  intro eur entry w
  refine ⟨⟨⟨entry "B" none, by simp [w], rfl⟩, some (str "EUR"), ?_, by decide +kernel⟩, ?_⟩
  · intro q hq hne
    simp only [w, List.mem_cons, List.not_mem_nil, or_false] at hq
    rcases hq with rfl | rfl | rfl
    · rfl
    · rfl
    · exact absurd rfl hne
  · rintro ⟨_, c, hc, hs⟩
    have := hc (entry "A" (eur false 1)) (by simp [w]) (by simp [entry, eur])
    have hc' : c = some (str "EUR") := this.symm
    subst hc'
    revert hs
    decide +kernel

end Ledger
