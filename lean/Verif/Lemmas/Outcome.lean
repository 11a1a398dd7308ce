import Verif.Lemmas.Causes
/-
What reading a text makes of a journal, for transactions with numbers of everyday size.
-/
namespace Ledger
open Ledger.Parser Ledger.Finalize Ledger.Cli

theorem runOps_prices {p p' : Pool} {rs : List Recording} (h : runOps p (rs.map Recording.op) = .ok p') :
    (∀ s, p'.find s = p.find s) ∧ p'.annotated = p.annotated := by
  induction rs generalizing p with
  | nil =>
    injection h with h
    subst h
    exact ⟨fun _ => rfl, rfl⟩
  | cons r rs ih =>
    rw [List.map_cons, runOps] at h
    simp only [bind, Except.bind] at h
    split at h
    · cases h
    · rename_i p1 h1
      obtain ⟨A, B, cA, cB, _, _, _, _, _, rfl⟩ := Pool.addPrice_ok h1
      obtain ⟨i1, i2⟩ := ih h
      exact ⟨fun s => i1 s, i2⟩

theorem recordings_prices (rs : List Recording) : recordings (rs.map Recording.op) = rs := by
  unfold recordings
  rw [List.filterMap_map]
  have : (PoolOp.recording ∘ Recording.op) = some := by
    funext r; cases r; rfl
  rw [this, List.filterMap_some]

theorem recordings_append (a b : List PoolOp) : recordings (a ++ b) = recordings a ++ recordings b := by
  unfold recordings; exact List.filterMap_append

theorem PoolsThrough.firstLot {es : List Entry} {p q : Pool} (h : PoolsThrough es p q) (s : Str) :
    assocGet s q.annotated = (assocGet s p.annotated).or (firstLot es s) := by
  induction h with
  | nil => simp [Ledger.firstLot]
  | @cons e es p q r h _ ih =>
    rw [ih, h.lots]
    unfold Ledger.firstLot
    rw [List.find?_cons]
    by_cases hc : e.holder = some s
    · simp only [hc, true_and, decide_true]
      cases assocGet s p.annotated with
      | none => simp
      | some a => simp
    · simp [hc]

theorem firstLot_mem {es : List Entry} {s : Str} {lot : Annotation} (h : firstLot es s = some lot) :
    ∃ e ∈ es, e.holder = some s ∧ e.lot = lot := by
  unfold firstLot at h
  obtain ⟨e, he, rfl⟩ := Option.map_eq_some_iff.mp h
  exact ⟨e, List.mem_of_find?_eq_some he, by simpa using List.find?_some he, rfl⟩

theorem firstLot_append (es fs : List Entry) (s : Str) : firstLot (es ++ fs) s = (firstLot es s).or (firstLot fs s) := by
  unfold firstLot
  rw [List.find?_append]
  cases es.find? _ <;> simp

theorem pricesOf_entries {d : Date} {es : List Entry} {ps : List Post} {rs : List Recording} (h : List.Forall₂ PostOf es ps)
    (hc : ∀ e ∈ es, e.amount = none → e.cost = none) (hr : PricesOf (some d) ps rs) : EntryPrices d es rs := by
  induction h generalizing rs with
  | nil => cases hr; exact .nil
  | @cons e p es ps hp _ ih =>
    have ih := fun {rs} h => ih (rs := rs) (fun e he => hc e (List.mem_cons_of_mem _ he)) h
    have key : ∀ a c, p.amount = some a → p.cost = some c → e.amount = some a ∧ e.cost ≠ none ∧ c.qty.val = e.worth ∧
        c.comm = e.worthIn := by
      intro a c ha hk
      obtain ⟨c1, c2, c3, c4⟩ := hp.cost_value hk
      exact ⟨by rw [← hp.amount, ha], c1, c3, c4⟩
    cases hr with
    | noCost h h2 =>
      refine .noCost ?_ (ih h2)
      by_contra hn
      by_cases ha : e.amount = none
      · exact hn (hc e List.mem_cons_self ha)
      · obtain ⟨c, hk⟩ := hp.cost_some ha hn
        rw [h] at hk; cases hk
    | @zero _ _ _ a c q ha hk hne hq h0 h2 =>
      obtain ⟨k1, k2, k3, k4⟩ := key a c ha hk
      refine .zero k1 k2 (by rw [← k4]; exact hne) ?_ h0 (ih h2)
      unfold IsUnitCost at hq
      rw [k3] at hq
      exact hq
    | @price _ _ _ a c q A B _ ha hk hA hB hne hd hq h0 h2 =>
      obtain ⟨k1, k2, k3, k4⟩ := key a c ha hk
      injection hd with hd
      subst hd
      refine .price k1 k2 hA (by rw [← k4]; exact hB) hne ?_ h0 (ih h2)
      unfold IsUnitCost at hq
      rw [k3] at hq
      exact hq

/-! ### the parts of an outcome -/

theorem Outcome.nil (j : Journal) : Outcome [] [] [] j j where
  settled := .nil
  xacts := ⟨[], by simp, .nil⟩
  accounts := by simp [allEntries]
  commodities := by simp [allEntries]
  lots := by simp [allEntries, firstLot]
  prices := ⟨[], .nil, rfl⟩
  history := fun ops h => ⟨ops, h, by simp⟩

theorem Outcome.append {ws1 ws2 : List Writing} {ws1' ws2' : List Writing} {rs1 rs2 : List Recording} {j j1 j2 : Journal}
    (h1 : Outcome ws1 ws1' rs1 j j1) (h2 : Outcome ws2 ws2' rs2 j1 j2) :
    Outcome (ws1 ++ ws2) (ws1' ++ ws2') (rs1 ++ rs2) j j2 where
  settled := List.rel_append h1.settled h2.settled
  xacts := by
    obtain ⟨a, a1, a2⟩ := h1.xacts
    obtain ⟨b, b1, b2⟩ := h2.xacts
    exact ⟨a ++ b, by rw [b1, a1, List.append_assoc], List.rel_append a2 b2⟩
  accounts := by
    intro q
    rw [h2.accounts, h1.accounts]
    simp only [allEntries, List.flatMap_append, List.mem_append, or_and_right, exists_or, or_assoc]
  commodities := by
    intro s
    rw [h2.commodities, h1.commodities]
    simp only [allEntries, List.flatMap_append, List.mem_append, or_and_right, exists_or, or_assoc]
  lots := by
    intro s
    rw [h2.lots, h1.lots]
    simp only [allEntries, List.flatMap_append, firstLot_append, Option.or_assoc]
  prices := by
    obtain ⟨a, a1, rfl⟩ := h1.prices
    obtain ⟨b, b1, rfl⟩ := h2.prices
    exact ⟨a ++ b, List.rel_append a1 b1, by simp⟩
  history := by
    intro ops h
    obtain ⟨o1, a1, a2⟩ := h1.history ops h
    obtain ⟨o2, b1, b2⟩ := h2.history o1 a1
    exact ⟨o2, b1, by rw [b2, a2, List.append_assoc]⟩

/-- A state that reading keeps up. -/
structure Readable (j : Journal) : Prop where
  wf : j.master.WF
  pools : Pool.empty.Later j.pool
  lots : j.pool.OrdinaryLots

theorem FirstCause.append {ws : List Writing} {k : Panic} (h : FirstCause ws k) (ws' : List Writing) :
    FirstCause (ws ++ ws') k := by
  obtain ⟨l, w, r, rfl, h2, h3⟩ := h
  exact ⟨l, w, r ++ ws', by simp, h2, h3⟩

theorem FirstCause.after {ws : List Writing} {k : Panic} (h : FirstCause ws k) {ws' : List Writing}
    (hn : ∀ w ∈ ws', ¬ Faulty w) : FirstCause (ws' ++ ws) k := by
  obtain ⟨l, w, r, rfl, h2, h3⟩ := h
  refine ⟨ws' ++ l, w, r, by simp, fun v hv => ?_, h3⟩
  rcases List.mem_append.mp hv with h | h
  · exact hn v h
  · exact h2 v h

theorem FirstCause.faulty {ws : List Writing} {k : Panic} (h : FirstCause ws k) : ∃ w ∈ ws, Faulty w := by
  obtain ⟨l, w, r, rfl, _, h3⟩ := h
  exact ⟨w, by simp, h3.faulty⟩

/-- Reading has the outcome if nothing is faulty and fails if something is, for the cause of the first fault. -/
def Decides (ws : List Writing) (run : Journal → Res Journal) : Prop :=
  ∀ j, Readable j →
    (∃ j' ws' rs, run j = .ok j' ∧ Outcome ws ws' rs j j' ∧ Readable j' ∧ ∀ w ∈ ws, ¬ Faulty w) ∨
    ∃ k, run j = .error k ∧ FirstCause ws k

theorem Decides.nil : Decides [] .ok := fun j h => Or.inl ⟨j, [], [], rfl, .nil j, h, by simp⟩

theorem Decides.append {ws1 ws2 : List Writing} {f g : Journal → Res Journal} (h1 : Decides ws1 f) (h2 : Decides ws2 g) :
    Decides (ws1 ++ ws2) (fun j => (f j).bind g) := by
  intro j h
  rcases h1 j h with ⟨j1, n1, r1, a1, a2, a3, a4⟩ | ⟨e, he, hf⟩
  · rcases h2 j1 a3 with ⟨j2, n2, r2, b1, b2, b3, b4⟩ | ⟨e, he, hf⟩
    · refine Or.inl ⟨j2, n1 ++ n2, r1 ++ r2, by simp only [a1, Except.bind, b1], a2.append b2, b3, ?_⟩
      intro w hw
      rcases List.mem_append.mp hw with hw | hw
      · exact a4 w hw
      · exact b4 w hw
    · exact Or.inr ⟨e, by simp only [a1, Except.bind, he], hf.after a4⟩
  · exact Or.inr ⟨e, by simp only [he, Except.bind], hf.append _⟩

theorem Settles.amounts {w w' : Writing} (h : Settles w w') : ∀ e ∈ w'.entries, e.amount ≠ none := by
  cases h with
  | kept ha _ => exact ha
  | filled l r e a h he hq ha _ =>
    intro q hqm
    have : q = { e with amount := some a } ∨ q ∈ l ++ r := by
      simp only [List.mem_append, List.mem_cons] at hqm ⊢; tauto
    rcases this with rfl | hqm
    · simp
    · exact (hq q hqm).1
  | rated A B u es h hu hes =>
    intro e' he'
    obtain ⟨e, he, h1⟩ := forall₂_mem_right hes he'
    rcases h1 with ⟨_, a, k, h2, _, _, rfl⟩ | ⟨_, rfl⟩
    · simp [h2]
    · exact h.1 _ he

theorem xactDirective_decides {header : Str} {cs : List Str} {blocks : List (List Str)} {w : Writing}
    (hh : HeaderSays header w) (hcs : List.Forall₂ CommentLine cs w.comments)
    (hb : List.Forall₂ EntryBlock blocks w.entries) {tail rest : Source} (ht : AfterXact tail rest) (hd : Everyday w)
    {j : Journal} (hj : Readable j) :
    (∃ j' w' rs, xactDirective header ((cs ++ blocks.flatten).map some ++ tail) j = .ok (j', rest) ∧
      Outcome [w] [w'] rs j j' ∧ Readable j' ∧ ¬ Faulty w) ∨
    ∃ k, xactDirective header ((cs ++ blocks.flatten).map some ++ tail) j = .error k ∧ Cause w k := by
  have hv : ∀ e ∈ w.entries, e.ValidNumbers := by
    intro e he
    obtain ⟨block, _, line, _, _, ⟨text, _, h⟩, _⟩ := forall₂_mem_right hb he
    exact h.valid
  have hc : ∀ e ∈ w.entries, e.amount = none → e.cost = none := by
    intro e he hn
    obtain ⟨block, _, line, _, _, ⟨text, _, h⟩, _⟩ := forall₂_mem_right hb he
    exact h.blank_plain hn
  obtain ⟨j1, x, r1, r2, r3, r4, r5, r6⟩ := xactDirective_run hh hcs hb ht hj.wf hd.fits
  have ho := hd.ordinary r1 hv
  have hp1 := hj.pools.trans r3.later
  have hk : j1.pool.Knows x.posts :=
    postsOf_knows r1.posts (fun e he s hs => (r4.known s).mpr (Or.inr ⟨e, he, hs⟩))
  have hl1 : j1.pool.OrdinaryLots := by
    intro s ann pr ha hp
    rcases r4.lots ha with h | ⟨e, he, _, rfl⟩
    · exact hj.lots s ann pr h hp
    · exact hd.lots e he pr hp
  have hr := ordinary_inRange ho
  by_cases hf : Faulty w
  · cases hz : finalize x j1.pool with
    | error e => exact Or.inr ⟨e, by rw [r6, hz]; rfl, finalize_cause r1 hp1 hk ho hl1 hz⟩
    | ok r => exact absurd hz (finalize_defective x j1.pool hr ((defective_iff r1).mpr hf) r)
  · rcases finalize_sound x j1.pool hp1 hk hr (fun h => hf ((defective_iff r1).mp h)) with ⟨⟨x', pool'⟩, hz⟩ | ⟨_, h⟩
    rotate_left
    · exact absurd ⟨ho, hl1⟩ h
    obtain ⟨w', s1, s2⟩ := finalize_settles r1 hv hc hr hf hz
    obtain ⟨⟨rs, g1, g2⟩, _⟩ := C36_costs_create_prices x x' j1.pool pool' hz
    have hops : runOps j1.pool (rs.map Recording.op) = .ok pool' := by
      obtain ⟨ops, ho⟩ := hp1
      have := (g2 ops ho).1
      rw [Pool.runOps_append, ho] at this
      exact this
    obtain ⟨k1, k2⟩ := runOps_prices hops
    refine Or.inl ⟨{ j1 with pool := pool', xacts := j.xacts ++ [x'] }, w', rs, by rw [r6, hz]; rfl, ?_,
      ⟨r2, hp1.trans ⟨_, hops⟩, by
        intro s ann pr ha hp
        rw [k2] at ha
        exact hl1 s ann pr ha hp⟩, hf⟩
    have e1 : allEntries [w] = w.entries := by simp [allEntries]
    refine ⟨.cons s1 .nil, ⟨[x'], rfl, .cons s2 .nil⟩, ?_, ?_, ?_, ⟨[rs], .cons ?_ .nil, by simp⟩, ?_⟩
    · intro q
      rw [e1]; exact r5 q
    · intro s
      rw [e1, ← r4.known s, k1]
    · intro s
      rw [e1, ← r4.firstLot s, k2]
    · refine pricesOf_entries s2.posts (fun e he hn => absurd hn (s1.amounts e he)) ?_
      rw [← (show x.date = some w'.date by rw [r1.date]; cases s1 <;> rfl)]
      exact g1
    · intro ops h
      obtain ⟨o1, h1, h2⟩ := r3
      refine ⟨ops ++ (o1 ++ rs.map Recording.op), ?_, by rw [recordings_append, recordings_append, h1, recordings_prices]; rfl⟩
      rw [Pool.runOps_append, h]
      simp only [bind, Except.bind]
      rw [Pool.runOps_append, h2]
      exact hops

theorem xactDirective_step {header : Str} {cs : List Str} {blocks : List (List Str)} {w : Writing}
    (hh : HeaderSays header w) (hcs : List.Forall₂ CommentLine cs w.comments)
    (hb : List.Forall₂ EntryBlock blocks w.entries) {tail rest : Source} (ht : AfterXact tail rest) (hd : Everyday w)
    {g : Source → Journal → Res Journal} {ws : List Writing} (hg : Decides ws (g rest)) :
    Decides (w :: ws) (fun j => (xactDirective header ((cs ++ blocks.flatten).map some ++ tail) j).bind
      (fun r => g r.2 r.1)) := by
  intro j hj
  rcases xactDirective_decides hh hcs hb ht hd hj with ⟨j1, w', r1, a1, a2, a3, a4⟩ | ⟨e, he, hf⟩
  · rcases hg j1 a3 with ⟨j2, n2, r2, b1, b2, b3, b4⟩ | ⟨e, he, hf⟩
    · refine Or.inl ⟨j2, [w'] ++ n2, r1 ++ r2, by simp only [a1, Except.bind, b1], a2.append b2, b3, ?_⟩
      intro v hv
      rcases List.mem_cons.mp hv with rfl | hv
      · exact a4
      · exact b4 v hv
    · exact Or.inr ⟨e, by simp only [a1, Except.bind, he], hf.after (ws' := [w]) (by simpa using a4)⟩
  · exact Or.inr ⟨e, by simp only [he, Except.bind], [], w, ws, rfl, by simp, hf⟩

/-! ### texts and files -/

theorem parseWith_decides {inc : Str → Journal → Res Journal} {said : Str → List Writing → Prop}
    (hinc : ∀ f ws, said f ws → (∀ w ∈ ws, Everyday w) → Decides ws (inc f)) {lines : List Str} {ws : List Writing}
    (h : JournalLines said lines ws) (hd : ∀ w ∈ ws, Everyday w) : Decides ws (parseWith inc (lines.map some)) := by
  induction h with
  | nil => exact .nil
  | ignored hi _ ih =>
    have := ih hd
    intro j hj
    rw [List.map_cons, parseWith_cons, (topLine_ignored _).mpr hi]
    exact this j hj
  | @xact block w line lines ws hx he _ ih =>
    obtain ⟨header, cs, blocks, rfl, hh, hcs, hb⟩ := hx
    have h1 := xactDirective_step hh hcs hb (tail := some line :: lines.map some) (rest := lines.map some)
      (Or.inr (Or.inl ⟨line, rfl, he⟩)) (hd w List.mem_cons_self)
      (g := parseWith inc) (ih (fun v hv => hd v (List.mem_cons_of_mem _ hv)))
    intro j hj
    rw [List.map_append, List.map_cons, List.map_cons, List.cons_append, parseWith_cons, (topLine_xact _).mpr hh.headerLine]
    exact h1 j hj
  | @last block w hx =>
    obtain ⟨header, cs, blocks, rfl, hh, hcs, hb⟩ := hx
    have h1 := xactDirective_step hh hcs hb (tail := []) (rest := []) (Or.inl ⟨rfl, rfl⟩) (hd w List.mem_cons_self)
      (g := parseWith inc) (ws := []) .nil
    intro j hj
    rw [List.append_nil] at h1
    rw [List.map_cons, parseWith_cons, (topLine_xact _).mpr hh.headerLine]
    exact h1 j hj
  | @included line file lines ws ws' hl' hi _ ih =>
    have h1 := (hinc file ws hi (fun v hv => hd v (List.mem_append_left _ hv))).append
      (ih (fun v hv => hd v (List.mem_append_right _ hv)))
    intro j hj
    rw [List.map_cons, parseWith_cons, topLine_include hl']
    exact h1 j hj

theorem parse_decides (files : Files) (depth : Nat) {lines : List Str} {ws : List Writing}
    (h : Says files depth lines ws) (hd : ∀ w ∈ ws, Everyday w) : Decides ws (parse files depth (lines.map some)) := by
  induction depth generalizing lines ws with
  | zero =>
    refine parseWith_decides ?_ h hd
    rintro f ws ⟨hf, rfl⟩ _
    simp only [hf]
    exact .nil
  | succ d ih =>
    refine parseWith_decides ?_ h hd
    rintro f ws (⟨hf, rfl⟩ | ⟨lines', hf, hs⟩) hd'
    · simp only [hf]
      exact .nil
    · simp only [hf]
      exact ih hs hd'

theorem parseText_decides (files : Files) (depth : Nat) {text : Str} {lines : List Str} {ws : List Writing}
    (ht : LinesOf text lines) (h : Says files depth lines ws) (hd : ∀ w ∈ ws, Everyday w) :
    Decides ws (parseText files depth text) := by
  intro j hj
  rw [parseText, textSource, (readLines_iff text lines).mpr ht]
  exact parse_decides files depth h hd j hj

theorem parseFile_decides (files : Files) (depth : Nat) {file : Str} {ws : List Writing}
    (h : FileSays files depth file ws) (hd : ∀ w ∈ ws, Everyday w) : Decides ws (parseFile files depth file) := by
  obtain ⟨text, lines, h1, h2, h3⟩ := h
  intro j hj
  rw [parseFile, h1]
  exact parseText_decides files depth h2 h3 hd j hj

theorem readFiles_decides (files : Files) (depth : Nat) {fs : List Str} {wss : List (List Writing)}
    (h : List.Forall₂ (FileSays files depth) fs wss) (hd : ∀ w ∈ wss.flatten, Everyday w) :
    Decides wss.flatten (Cli.readFiles files depth fs) := by
  induction h with
  | nil => exact .nil
  | cons h _ ih =>
    rw [List.flatten_cons] at hd ⊢
    exact (parseFile_decides files depth h (fun v hv => hd v (List.mem_append_left _ hv))).append
      (ih (fun v hv => hd v (List.mem_append_right _ hv)))

end Ledger
