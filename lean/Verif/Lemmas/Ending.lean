import Verif.Lemmas.Found
/-
What reading any text makes of a journal, for transactions with numbers of everyday size.
-/
namespace Ledger
open Ledger.Parser Ledger.Scanner

theorem writings_append (a b : List Item) : writings (a ++ b) = writings a ++ writings b := by
  unfold writings; exact List.filterMap_append

theorem writings_xact (w : Writing) (is : List Item) : writings (.xact w :: is) = w :: writings is := rfl

theorem writings_gap (is : List Item) : writings (.gap :: is) = writings is := rfl

theorem writings_price (r : Recording) (is : List Item) : writings (.price r :: is) = writings is := rfl

theorem allEntries_append (a b : List Writing) : allEntries (a ++ b) = allEntries a ++ allEntries b := by
  unfold allEntries; exact List.flatMap_append

/-! ### the parts of an outcome -/

theorem ItemPrices.append {is is' : List Item} {ws ws' : List Writing} {rs rs' : List Recording} (h : ItemPrices is ws rs)
    (h' : ItemPrices is' ws' rs') : ItemPrices (is ++ is') (ws ++ ws') (rs ++ rs') := by
  induction h with
  | nil => exact h'
  | xact h _ ih => rw [List.append_assoc]; exact .xact h ih
  | price _ ih => exact .price ih
  | gap _ ih => exact .gap ih

theorem ItemsOutcome.nil (j : Journal) : ItemsOutcome [] [] [] j j where
  settled := .nil
  xacts := ⟨[], by simp, .nil⟩
  accounts := by simp [allEntries, writings]
  commodities := by simp [allEntries, writings]
  lots := by simp [allEntries, firstLot, writings]
  prices := .nil
  history := fun ops h => ⟨ops, h, by simp⟩

theorem ItemsOutcome.append {is1 is2 : List Item} {ws1' ws2' : List Writing} {rs1 rs2 : List Recording} {j j1 j2 : Journal}
    (h1 : ItemsOutcome is1 ws1' rs1 j j1) (h2 : ItemsOutcome is2 ws2' rs2 j1 j2) :
    ItemsOutcome (is1 ++ is2) (ws1' ++ ws2') (rs1 ++ rs2) j j2 where
  settled := by rw [writings_append]; exact List.rel_append h1.settled h2.settled
  xacts := by
    obtain ⟨a, a1, a2⟩ := h1.xacts
    obtain ⟨b, b1, b2⟩ := h2.xacts
    exact ⟨a ++ b, by rw [b1, a1, List.append_assoc], List.rel_append a2 b2⟩
  accounts := by
    intro q
    rw [h2.accounts, h1.accounts]
    simp only [writings_append, allEntries_append, List.mem_append, or_and_right, exists_or, or_assoc]
  commodities := by
    intro s
    rw [h2.commodities, h1.commodities]
    simp only [writings_append, allEntries_append, List.mem_append, or_and_right, exists_or]
    generalize ((j.pool.find s).isSome = true) = a
    generalize (∃ e ∈ allEntries (writings is1), e.Mentions s) = b
    generalize (∃ e ∈ allEntries (writings is2), e.Mentions s) = c
    generalize (∃ r, Item.price r ∈ is1 ∧ (s = r.src ∨ s = r.dst)) = d
    generalize (∃ r, Item.price r ∈ is2 ∧ (s = r.src ∨ s = r.dst)) = f
    tauto
  lots := by
    intro s
    rw [h2.lots, h1.lots]
    simp only [writings_append, allEntries_append, firstLot_append, Option.or_assoc]
  prices := h1.prices.append h2.prices
  history := by
    intro ops h
    obtain ⟨o1, a1, a2⟩ := h1.history ops h
    obtain ⟨o2, b1, b2⟩ := h2.history o1 a1
    exact ⟨o2, b1, by rw [b2, a2, List.append_assoc]⟩

theorem Outcome.items {w w' : Writing} {rs : List Recording} {j j' : Journal} (h : Outcome [w] [w'] rs j j') :
    ItemsOutcome [.xact w] [w'] rs j j' where
  settled := h.settled
  xacts := h.xacts
  accounts := h.accounts
  commodities := by intro s; rw [h.commodities]; simp [writings]
  lots := h.lots
  prices := by
    obtain ⟨rss, h1, rfl⟩ := h.prices
    cases h1 with
    | cons h1 h2 =>
      cases h2
      have := ItemPrices.xact (w := w) h1 ItemPrices.nil
      simpa using this
  history := h.history

theorem price_outcome {r : Recording} {j : Journal} {pool' : Pool} (h : runOps j.pool r.ops = .ok pool') (hs : r.src ≠ [])
    (hd : r.dst ≠ []) (hj : Readable j) :
    ItemsOutcome [.price r] [] [r] j { j with pool := pool' } ∧ Readable { j with pool := pool' } := by
  have h' := h
  simp only [Recording.ops, runOps, PoolOp.run, bind, Except.bind] at h
  have h1 : ((j.pool.findOrCreate r.src none).1.findOrCreate r.dst none).1.addPrice (some r.src) r.time
      ⟨r.qty, some r.dst⟩ = .ok pool' := by
    revert h
    cases ((j.pool.findOrCreate r.src none).1.findOrCreate r.dst none).1.addPrice (some r.src) r.time
      ⟨r.qty, some r.dst⟩ <;> exact id
  obtain ⟨A, B, cA, cB, _, _, _, _, _, rfl⟩ := Pool.addPrice_ok h1
  have ha : ((j.pool.findOrCreate r.src none).1.findOrCreate r.dst none).1.annotated = j.pool.annotated := by
    rw [foc_none_annotated, foc_none_annotated]
  constructor
  · refine ⟨.nil, ⟨[], by simp, .nil⟩, by simp [allEntries, writings], ?_, ?_, .price .nil, ?_⟩
    · intro s
      show (((j.pool.findOrCreate r.src none).1.findOrCreate r.dst none).1.find s).isSome = true ↔ _
      rw [foc_known, foc_known]
      simp [symbolOf, hs, hd, writings, allEntries, or_assoc]
      rw [eq_comm (a := r.src), eq_comm (a := r.dst)]
    · intro s
      show assocGet s ((j.pool.findOrCreate r.src none).1.findOrCreate r.dst none).1.annotated = _
      rw [ha]
      simp [writings, allEntries, firstLot]
    · intro ops ho
      refine ⟨ops ++ r.ops, ?_, ?_⟩
      · rw [Pool.runOps_append, ho]
        exact h'
      · rw [recordings_append]; rfl
  · refine ⟨hj.wf, hj.pools.trans ⟨_, h'⟩, ?_⟩
    intro s ann pr h2 h3
    rw [show ({ ((j.pool.findOrCreate r.src none).1.findOrCreate r.dst none).1 with history := _ } : Pool).annotated =
      j.pool.annotated from ha] at h2
    exact hj.lots s ann pr h2 h3

/-! ### deciding -/

/-- Reading has the outcome if no transaction is faulty and no line is refused; otherwise it fails for the cause of the
first fault, or as the refused line says if there is no fault before it. -/
def DecidesItems (is : List Item) (e : Ending) (run : Journal → Res Journal) : Prop :=
  ∀ j, Readable j →
    (∃ j' ws' rs, e = .done ∧ run j = .ok j' ∧ ItemsOutcome is ws' rs j j' ∧ Readable j' ∧ ∀ w ∈ writings is, ¬ Faulty w) ∨
    ∃ k, run j = .error k ∧ (FirstCause (writings is) k ∨ ((∀ w ∈ writings is, ¬ Faulty w) ∧ e.panic = some k))

theorem DecidesItems.nil : DecidesItems [] .done .ok :=
  fun j h => Or.inl ⟨j, [], [], rfl, rfl, .nil j, h, by simp [writings]⟩

theorem DecidesItems.error (k : Panic) : DecidesItems [] (.stop k) (fun _ => .error k) :=
  fun _ _ => Or.inr ⟨k, rfl, Or.inr ⟨by simp [writings], rfl⟩⟩

theorem DecidesItems.append {is1 is2 : List Item} {e : Ending} {f g : Journal → Res Journal} (h1 : DecidesItems is1 .done f)
    (h2 : DecidesItems is2 e g) : DecidesItems (is1 ++ is2) e (fun j => (f j).bind g) := by
  intro j h
  rw [writings_append]
  rcases h1 j h with ⟨j1, n1, r1, _, a1, a2, a3, a4⟩ | ⟨k, he, hf⟩
  · rcases h2 j1 a3 with ⟨j2, n2, r2, e1, b1, b2, b3, b4⟩ | ⟨k, he, hf⟩
    · refine Or.inl ⟨j2, n1 ++ n2, r1 ++ r2, e1, by simp only [a1, Except.bind, b1], a2.append b2, b3, ?_⟩
      intro w hw
      rcases List.mem_append.mp hw with hw | hw
      · exact a4 w hw
      · exact b4 w hw
    · refine Or.inr ⟨k, by simp only [a1, Except.bind, he], ?_⟩
      rcases hf with hf | ⟨hf, hp⟩
      · exact Or.inl (hf.after a4)
      · refine Or.inr ⟨fun w hw => ?_, hp⟩
        rcases List.mem_append.mp hw with hw | hw
        · exact a4 w hw
        · exact hf w hw
  · refine Or.inr ⟨k, by simp only [he, Except.bind], ?_⟩
    rcases hf with hf | ⟨_, hf⟩
    · exact Or.inl (hf.append _)
    · cases hf

theorem DecidesItems.ends {is : List Item} {e : Ending} {f g : Journal → Res Journal} (h : DecidesItems is e f)
    (he : e ≠ .done) : DecidesItems is e (fun j => (f j).bind g) := by
  intro j hj
  rcases h j hj with ⟨_, _, _, h1, _⟩ | ⟨k, h1, h2⟩
  · exact absurd h1 he
  · exact Or.inr ⟨k, by simp only [h1, Except.bind], h2⟩

theorem ItemsOutcome.gaps {is a : List Item} {ws' : List Writing} {rs : List Recording} {j j' : Journal}
    (ha : a = [] ∨ a = [.gap]) (h : ItemsOutcome is ws' rs j j') : ItemsOutcome (a ++ is) ws' rs j j' := by
  rcases ha with rfl | rfl
  · exact h
  · exact ⟨h.settled, h.xacts, h.accounts, by intro s; rw [h.commodities]; simp [writings_gap], h.lots, .gap h.prices, h.history⟩

theorem gapIn_or (src : Source) : gapIn src = [] ∨ gapIn src = [.gap] := by
  unfold gapIn; split <;> simp

theorem writings_gapIn (src : Source) (is : List Item) : writings (gapIn src ++ is) = writings is := by
  rcases gapIn_or src with h | h <;> rw [h] <;> rfl

theorem DecidesItems.gaps {is a : List Item} {e : Ending} {f : Journal → Res Journal} (ha : a = [] ∨ a = [.gap])
    (h : DecidesItems is e f) : DecidesItems (a ++ is) e f := by
  have hw : writings (a ++ is) = writings is := by rcases ha with rfl | rfl <;> rfl
  intro j hj
  rw [hw]
  rcases h j hj with ⟨j', n, r, h1, h2, h3, h4⟩ | h
  · exact Or.inl ⟨j', n, r, h1, h2, h3.gaps ha, h4⟩
  · exact Or.inr h

theorem xactDirective_items {header : Str} {body tail rest : Source} {w : Writing} (hh : HeaderSays header w)
    (hb : BodyReads body w.comments w.entries tail) (ht : AfterXact tail rest) (hd : Everyday w) {is : List Item} {e : Ending}
    {g : Source → Journal → Res Journal} (hg : DecidesItems is e (g rest)) :
    DecidesItems (.xact w :: is) e (fun j => (xactDirective header body j).bind (fun r => g r.2 r.1)) := by
  obtain ⟨cs, blocks, rfl, h1, h2⟩ := hb.blocks
  intro j hj
  rw [writings_xact]
  rcases xactDirective_decides hh h1 h2 ht hd hj with ⟨j1, w', r1, a1, a2, a3, a4⟩ | ⟨k, he, hf⟩
  · rcases hg j1 a3 with ⟨j2, n2, r2, e1, b1, b2, b3, b4⟩ | ⟨k, he, hf⟩
    · refine Or.inl ⟨j2, [w'] ++ n2, r1 ++ r2, e1, by simp only [a1, Except.bind, b1],
        (Outcome.items a2).append b2, b3, ?_⟩
      intro v hv
      rcases List.mem_cons.mp hv with rfl | hv
      · exact a4
      · exact b4 v hv
    · refine Or.inr ⟨k, by simp only [a1, Except.bind, he], ?_⟩
      rcases hf with hf | ⟨hf, hp⟩
      · exact Or.inl (hf.after (ws' := [w]) (by simpa using a4))
      · refine Or.inr ⟨fun v hv => ?_, hp⟩
        rcases List.mem_cons.mp hv with rfl | hv
        · exact a4
        · exact hf v hv
  · exact Or.inr ⟨k, by simp only [he, Except.bind], Or.inl ⟨[], w, _, rfl, by simp, hf⟩⟩

theorem xactDirective_broken {header bad : Str} {body rest : Source} {w : Writing} {k : Panic} (hh : HeaderSays header w)
    (hb : BodyReads body w.comments w.entries (some bad :: rest)) (ht : BodyRefused bad k) (hf : ∀ e ∈ w.entries, e.Fits)
    {j : Journal} (hw : j.master.WF) : xactDirective header body j = .error k := by
  obtain ⟨cs, blocks, rfl, h1, h2⟩ := hb.blocks
  obtain ⟨j1, ps, r1, _, _, r4, _⟩ := readBody_written h2 hf (some bad :: rest) (j := { j with xacts := j.xacts ++ [⟨some w.date, w.aux,
      if w.payee = [] then str "Unknown Payee" else w.payee, [], (lastText w.comments).or (if w.note = [] then none else some w.note)⟩] }) hw rfl
  unfold xactDirective
  rw [createXact_written hh]
  simp only [bind, Except.bind]
  rw [List.map_append, List.append_assoc, readBody_lead h1 _ _ _ _ _ rfl, r1, readBody_refused ht _ _ r4]

theorem badHeader_run {line : Str} {k : Panic} (h : HeaderLine line) (hr : HeaderRefused line k) (rest : Source) (j : Journal) :
    xactDirective line rest j = .error k := by
  unfold xactDirective
  rw [(C90_header_refused h j k).mpr hr]
  rfl

theorem parseWith_items {inc : Str → Journal → Res Journal} {said : Str → List Item → Ending → Prop}
    (hinc : ∀ f is e, said f is e → (∀ w ∈ touched is e, Everyday w) → DecidesItems is e (inc f)) {src : Source}
    {is : List Item} {e : Ending} (h : SourceSays said src is e) (hd : ∀ w ∈ touched is e, Everyday w) :
    DecidesItems is e (parseWith inc src) := by
  have top := fun {line t} (h : TopPart line t) => (topPart_iff line t).mp h
  have tail : ∀ {a b : List Item} {e : Ending}, (∀ w ∈ touched (a ++ b) e, Everyday w) →
      (∀ w ∈ writings a, Everyday w) ∧ ∀ w ∈ touched b e, Everyday w := by
    intro a b e h
    cases e <;> simp only [touched, writings_append, List.mem_append] at h ⊢ <;>
      exact ⟨fun w hw => h w (by simp [hw]), fun w hw => h w (by tauto)⟩
  induction h with
  | nil => exact .nil
  | unreadable => exact DecidesItems.gaps (Or.inr rfl) .nil
  | ignored h _ ih =>
    have := ih hd
    intro j hj
    rw [parseWith_cons, top h]
    exact this j hj
  | skipped h _ ih =>
    have := ih hd
    intro j hj
    rw [parseWith_cons, top h]
    exact this j hj
  | refused h =>
    intro j hj
    rw [parseWith_cons, top h]
    exact DecidesItems.error _ j hj
  | indented h =>
    intro j hj
    rw [parseWith_cons, top h]
    exact DecidesItems.error _ j hj
  | @price line rest r is e h hp _ ih =>
    have ih := ih (tail (a := [.price r]) hd).2
    have h1 : DecidesItems [.price r] .done (fun j => do
        let pool ← j.pool.parsePriceDirective line
        .ok { j with pool := pool }) := by
      intro j hj
      obtain ⟨pool', p1, p2⟩ := priceSays_run hp j.pool
      obtain ⟨d, t, q, q1, q2, q3, q4, _, q6⟩ := hp
      obtain ⟨o1, o2⟩ := price_outcome p2 (price_run q1 q2 q3 q4 j.pool).1 q6 hj
      exact Or.inl ⟨_, _, _, rfl, by simp only [p1, bind, Except.bind], o1, o2, by simp [writings]⟩
    intro j hj
    rw [parseWith_cons, top h]
    have := (h1.append ih) j hj
    simp only [bind, Except.bind] at this ⊢
    revert this
    cases j.pool.parsePriceDirective line <;> exact id
  | badPrice h hp =>
    intro j hj
    rw [parseWith_cons, top h]
    simp only [priceRefused_run hp, bind, Except.bind]
    exact DecidesItems.error _ j hj
  | badHeader h hh =>
    intro j hj
    rw [parseWith_cons, top h]
    simp only [badHeader_run ((topLine_xact _).mp (top h)) hh, bind, Except.bind]
    exact DecidesItems.error _ j hj
  | @xact line body tl rest w is e hh hb ht _ ih =>
    have hd := (tail (a := gapIn tl) hd).2
    have h1 := (xactDirective_items hh hb ht ((tail (a := [.xact w]) hd).1 w (by simp [writings])) (g := parseWith inc)
      (ih (tail (a := [.xact w]) hd).2)).gaps (gapIn_or tl)
    intro j hj
    rw [parseWith_cons, top hh.top]
    exact h1 j hj
  | @broken line bad body rest w k hh hb ht =>
    intro j hj
    rw [parseWith_cons, top hh.top]
    have hw : Everyday w := hd w (by simp [touched, writings])
    simp only [xactDirective_broken hh hb ht hw.fits hj.wf, bind, Except.bind]
    exact Or.inr ⟨k, rfl, Or.inr ⟨by simp [writings], rfl⟩⟩
  | @included line f rest is is' e h hi _ ih =>
    have h1 := (hinc f is .done hi (tail hd).1).append (ih (tail hd).2)
    intro j hj
    rw [parseWith_cons, top h]
    exact h1 j hj
  | @includedStop line f rest is e h hi he =>
    have h1 := (hinc f is e hi hd).ends (g := parseWith inc rest) he
    intro j hj
    rw [parseWith_cons, top h]
    exact h1 j hj

theorem parse_items (files : Files) (depth : Nat) {src : Source} {is : List Item} {e : Ending}
    (h : SaysUpTo files depth src is e) (hd : ∀ w ∈ touched is e, Everyday w) : DecidesItems is e (parse files depth src) := by
  induction depth generalizing src is e with
  | zero =>
    refine parseWith_items ?_ h hd
    rintro f is e ⟨rfl, ⟨h1, rfl⟩ | ⟨h1, rfl⟩⟩ _
    · simp only [h1]
      exact .nil
    · cases hf : files f with
      | none => exact absurd hf h1
      | some s => exact .error _
  | succ d ih =>
    refine parseWith_items ?_ h hd
    rintro f is e (⟨h1, rfl, rfl⟩ | ⟨s, h1, h2⟩) hd'
    · simp only [h1]
      exact .nil
    · simp only [h1]
      exact ih h2 hd'

theorem readFiles_items (files : Files) (depth : Nat) {fs : List Str} {is : List Item} {e : Ending}
    (h : FilesSay files depth fs is e) (hd : ∀ w ∈ touched is e, Everyday w) :
    DecidesItems is e (Cli.readFiles files depth fs) := by
  have tail : ∀ {a b : List Item} {e : Ending}, (∀ w ∈ touched (a ++ b) e, Everyday w) →
      (∀ w ∈ writings a, Everyday w) ∧ ∀ w ∈ touched b e, Everyday w := by
    intro a b e h
    cases e <;> simp only [touched, writings_append, List.mem_append] at h ⊢ <;>
      exact ⟨fun w hw => h w (by simp [hw]), fun w hw => h w (by tauto)⟩
  induction h with
  | nil => exact .nil
  | @missing f fs h =>
    intro j hj
    have : Cli.readFiles files depth (f :: fs) j = .error .fileOpen := by
      simp only [Cli.readFiles, parseFile, h, bind, Except.bind]
    rw [this]
    exact DecidesItems.error _ j hj
  | @read f fs src is is' e h hs _ ih =>
    have h1 := (parse_items files depth hs (e := .done) (tail hd).1).append (ih (tail hd).2)
    intro j hj
    have : Cli.readFiles files depth (f :: fs) j = (parse files depth src j).bind (Cli.readFiles files depth fs) := by
      simp only [Cli.readFiles, parseFile, h, bind]
    rw [this]
    exact h1 j hj
  | @stop f fs src is e h hs he =>
    have h1 := (parse_items files depth hs hd).ends (g := Cli.readFiles files depth fs) he
    intro j hj
    have : Cli.readFiles files depth (f :: fs) j = (parse files depth src j).bind (Cli.readFiles files depth fs) := by
      simp only [Cli.readFiles, parseFile, h, bind]
    rw [this]
    exact h1 j hj

end Ledger
