import Verif.Lemmas.MachineStale
/-
The program with its pointers goes through what the files say, item by item.
-/
namespace Ledger.Machine
open Ledger Ledger.Memory Ledger.Heap Ledger.Parser

/-- The commodity of a posting with a cost was created where the table of commodities still is. -/
def CostFresh (j : Journal) (p : Post) : Prop :=
  p.cost ≠ none → ∃ a s i, p.amount = some a ∧ a.comm = some s ∧ (j.pool.commodities.map (·.1))[i]? = some s ∧
    tableBlock (i + 1) = tableBlock j.pool.len

/-- One item is read: in the main model and with pointers, and no stale pointer is followed. -/
structure Step (i : Item) (j : Journal) (J : Jrn) (j' : Journal) (J' : Jrn) : Prop where
  outcome : ∃ ws rs, ItemsOutcome [i] ws rs j j'
  readable : Readable j'
  rel : JrnR j' J'
  xacts : J.xacts <+: J'.xacts
  keys : j.pool.commodities.map (·.1) <+: j'.pool.commodities.map (·.1)
  stamped : Stamped J.store → Stamped J'.store
  price : ∀ r, i = .price r → tableBlock (j.pool.findOrCreate r.src none).1.len = tableBlock j'.pool.len
  costs : Stamped J.store → ∀ w, i = .xact w → ∃ x, j'.xacts = j.xacts ++ [x] ∧ ∀ p ∈ x.posts, CostFresh j' p

/-- The items are read one after the other. -/
inductive Thru : List Item → Journal → Jrn → Journal → Jrn → Prop
  | nil {j : Journal} {J : Jrn} : Thru [] j J j J
  | cons {i : Item} {is : List Item} {j j1 j' : Journal} {J J1 J' : Jrn} (h : Step i j J j1 J1) (t : Thru is j1 J1 j' J') :
      Thru (i :: is) j J j' J'

theorem Thru.append {is is' : List Item} {j j1 j' : Journal} {J J1 J' : Jrn} (h : Thru is j J j1 J1) (g : Thru is' j1 J1 j' J') :
    Thru (is ++ is') j J j' J' := by
  induction h with
  | nil => exact g
  | cons h _ ih => exact .cons h (ih g)

theorem Thru.split {is is' : List Item} {j j' : Journal} {J J' : Jrn} (h : Thru (is ++ is') j J j' J') :
    ∃ j1 J1, Thru is j J j1 J1 ∧ Thru is' j1 J1 j' J' := by
  induction is generalizing j J with
  | nil => exact ⟨j, J, .nil, h⟩
  | cons i is ih =>
    cases h with
    | cons h t =>
      obtain ⟨j1, J1, h1, h2⟩ := ih t
      exact ⟨j1, J1, .cons h h1, h2⟩

theorem Thru.facts {is : List Item} {j j' : Journal} {J J' : Jrn} (h : Thru is j J j' J') (hr : Readable j) (hj : JrnR j J) :
    (∃ ws rs, ItemsOutcome is ws rs j j') ∧ Readable j' ∧ JrnR j' J' ∧ J.xacts <+: J'.xacts ∧ (Stamped J.store → Stamped J'.store) := by
  induction h with
  | nil => exact ⟨⟨[], [], .nil _⟩, hr, hj, List.prefix_rfl, id⟩
  | cons h _ ih =>
    obtain ⟨⟨ws, rs, o⟩, r, l, x, s⟩ := ih h.readable h.rel
    obtain ⟨ws1, rs1, o1⟩ := h.outcome
    exact ⟨⟨ws1 ++ ws, rs1 ++ rs, ItemsOutcome.append (is1 := [_]) o1 o⟩, r, l, h.xacts.trans x, fun hs => s (h.stamped hs)⟩

/-- A part of the program that reads: either a stale pointer is followed, or all items are read. -/
def Passes (is : List Item) (f : Journal → Res Journal) (F : Jrn → Res Jrn) : Prop :=
  ∀ j J, Readable j → JrnR j J → ∀ j', f j = .ok j' →
    F J = .error .danglingPointer ∨ ∃ J', F J = .ok J' ∧ Thru is j J j' J'

theorem Passes.nil : Passes [] .ok .ok := by
  intro j J _ _ j' h
  injection h with h
  exact Or.inr ⟨J, rfl, h ▸ .nil⟩

theorem Passes.append {is is' : List Item} {f g : Journal → Res Journal} {F G : Jrn → Res Jrn} (h1 : Passes is f F) (h2 : Passes is' g G) :
    Passes (is ++ is') (fun j => f j >>= g) (fun J => F J >>= G) := by
  intro j J hr hj j' h
  obtain ⟨j1, e1, e2⟩ := bind_ok h
  rcases h1 j J hr hj j1 e1 with e | ⟨J1, e, t⟩
  · exact Or.inl (by show (F J >>= G) = _; rw [e]; rfl)
  · obtain ⟨_, r, l, _⟩ := t.facts hr hj
    rcases h2 j1 J1 r l j' e2 with e' | ⟨J', e', t'⟩
    · exact Or.inl (by show (F J >>= G) = _; rw [e]; exact e')
    · exact Or.inr ⟨J', by show (F J >>= G) = _; rw [e]; exact e', t.append t'⟩

theorem step_gap {j : Journal} {J : Jrn} (hr : Readable j) (hj : JrnR j J) : Step .gap j J j J :=
  ⟨⟨[], [], ItemsOutcome.gaps (is := []) (a := [.gap]) (Or.inr rfl) (.nil j)⟩, hr, hj, List.prefix_rfl, List.prefix_rfl, id, (fun _ h => nomatch h),
    (fun _ _ h => nomatch h)⟩

theorem thru_gaps {src : Source} {j : Journal} {J : Jrn} (hr : Readable j) (hj : JrnR j J) : Thru (gapIn src) j J j J := by
  rcases gapIn_or src with h | h <;> rw [h]
  · exact .nil
  · exact .cons (step_gap hr hj) .nil

theorem pass_price {line : Str} {r : Recording} (hp : PriceSays line r) :
    Passes [.price r] (fun j => j.pool.parsePriceDirective line >>= fun pool => .ok { j with pool := pool })
      (fun J => parsePriceDirective J.store line >>= fun p => .ok { J with store := p }) := by
  intro j J hr hj j' h
  obtain ⟨pool', p1, p2⟩ := priceSays_run hp j.pool
  obtain ⟨d, t, q, q1, q2, q3, q4, _, q6⟩ := hp
  obtain ⟨o1, o2⟩ := price_outcome p2 (price_run q1 q2 q3 q4 j.pool).1 q6 hr
  simp only [p1] at h ⊢
  injection h with h
  subst h
  have hsim := priceDirective_sim hj.fine line
  rw [hj.pool, p1] at hsim
  cases hP : parsePriceDirective J.store line with
  | error e => rw [hP] at hsim; exact Or.inl (by rw [hsim.1]; rfl)
  | ok P =>
    rw [hP] at hsim
    obtain ⟨m1, m2⟩ := priceDirective_machine ((priceLineParts_iff _ _ _ _ _ _).mp q1) hP
    refine Or.inr ⟨{ J with store := P }, rfl, .cons (J1 := { J with store := P }) ⟨⟨_, _, o1⟩, o2, ⟨hsim.er, hsim.fine, hj.books, hj.erase, ?_⟩, List.prefix_rfl, poolLater_keys (Pool.later_priceDirective p1), fun hs => hs.later m1, ?_,
      (fun _ _ h => nomatch h)⟩ .nil⟩
    · exact hj.xacts.imp (fun _ _ h => h.mono hsim.keys)
    · intro r' e
      injection e with e
      subst e
      have hg := findOrCreate_grown hj.fine r.src none (by intro a ha; cases ha)
      rw [Option.map_none, hj.pool] at hg
      rw [hg.wider.len, m2]
      have := hsim.len
      simp only at this ⊢
      rw [this]

theorem nodeLive_fresh {j : Journal} {J : Jrn} (hj : JrnR j J) (hs : Stamped J.store) {p : Post} {P : Pst} (hp : PostR J.store.keys p P)
    (hn : P.cost ≠ none → NodeLive J.store P) : CostFresh j p := by
  intro hc
  have hC : P.cost ≠ none := by
    intro h
    apply hc
    rw [hp.cost.1, h]; rfl
  obtain ⟨A, x, c, node, a1, a2, a3, a4⟩ := hn hC
  have hgood := hp.amount.2 A a1
  rcases deref_cases (sound_taken hj.fine) (hgood x a2) with ⟨c', d1, d2, d3, d4⟩ | ⟨d1, _⟩
  · rw [a3] at d1
    injection d1 with d1
    subst d1
    have hi := hj.fine.inv.find d3
    have hkeys : J.store.keys = j.pool.commodities.map (·.1) := by rw [← hj.pool]; rfl
    have hlen : J.store.keys.length = j.pool.len := by rw [hkeys]; simp [Pool.len]
    refine ⟨A.er J.store.keys, keyAt J.store.keys x.slot, c.graphIndex, by rw [hp.amount.1, a1]; rfl, by simp [Amt.er, a2], ?_, ?_⟩
    · have h1 : J.store.keys = J.store.er.history.nodes := by rw [← hj.fine.inv.keys]; exact (Store.keys_er _).symm
      rw [← hkeys]
      have h2 := hi.2
      rw [← h1] at h2
      exact h2
    · unfold Store.getByIndex at a4
      cases hnode : J.store.nodes[c.graphIndex]? with
      | none => rw [hnode] at a4; cases a4
      | some a =>
        rw [hnode] at a4
        rw [← hs.node _ _ hnode, ← hlen]
        simp only [Store.deref] at a4
        split at a4
        · assumption
        · cases a4
  · rw [a3] at d1; cases d1

theorem step_xact {header : Str} {body tail rest : Source} {w : Writing} (hh : HeaderSays header w)
    (hb : BodyReads body w.comments w.entries tail) (ht : AfterXact tail rest) (hd : Everyday w) {j j' : Journal} {J J' : Jrn} {rest' rest'' : Source}
    (hr : Readable j) (hj : JrnR j J) (h : Parser.xactDirective header body j = .ok (j', rest'))
    (H : xactDirective header body J = .ok (J', rest'')) : rest' = rest ∧ rest'' = rest ∧ Step (.xact w) j J j' J' := by
  obtain ⟨cs, blocks, rfl, h1, h2⟩ := hb.blocks
  rcases xactDirective_decides hh h1 h2 ht hd hr with ⟨j1, w', r1, a1, a2, a3, a4⟩ | ⟨k, he, hf⟩
  · rw [a1] at h
    injection h with h
    obtain ⟨rfl, rfl⟩ := fst_ext h
    have hsim := xactDirective_sim header ((cs ++ blocks.flatten).map some ++ tail) hj
    rw [a1, H] at hsim
    obtain ⟨hrel, he⟩ := hsim
    simp only at hrel he
    obtain ⟨m1, X, m2, m3⟩ := xactDirective_machine H
    obtain ⟨_, _, _, _, _, _, _, _, _, _, _, hg, _⟩ := xactDirective_ok a1
    refine ⟨rfl, he.symm, ⟨_, _, Outcome.items a2⟩, a3, hrel, by rw [m2]; exact List.prefix_append _ _,
      poolLater_keys hg.pool, fun hs => hs.later m1,
      (fun _ h => nomatch h), ?_⟩
    intro hs w0 _
    obtain ⟨new, n1, n2⟩ := a2.xacts
    cases n2 with
    | cons hx hn =>
      cases hn
      rename_i x
      refine ⟨x, n1, ?_⟩
      have hlast : XctR J'.store.keys x X := by
        have hx := hrel.xacts
        rw [n1, m2] at hx
        have hl := hj.xacts.length_eq
        have h2 := List.forall₂_drop j.xacts.length hx
        rw [List.drop_left] at h2
        rw [hl, List.drop_left] at h2
        cases h2; assumption
      intro p hp
      obtain ⟨i, hi⟩ := List.mem_iff_getElem?.mp hp
      rcases forall₂_getElem? i hlast.posts with ⟨e, _⟩ | ⟨p', P, e1, e2, e3⟩
      · rw [hi] at e; cases e
      · rw [hi] at e1
        injection e1 with e1
        subst e1
        exact nodeLive_fresh hrel (hs.later m1) e3 (m3 P (List.mem_of_getElem? e2))
  · rw [he] at h; cases h

theorem pass_go {inc : Str → Journal → Res Journal} {INC : Str → Jrn → Res Jrn} {said : Str → List Item → Ending → Prop}
    (hinc : ∀ f is, said f is .done → (∀ w ∈ writings is, Everyday w) → Passes is (inc f) (INC f)) {src : Source} {is : List Item} {e : Ending}
    (h : SourceSays said src is e) (he : e = .done) (hd : ∀ w ∈ writings is, Everyday w) (fuel : Nat) :
    Passes is (Parser.parseGo inc fuel src) (parseGo INC fuel src) := by
  have top := fun {line t} (h : TopPart line t) => (topPart_iff line t).mp h
  have out : ∀ {is src}, Passes is (Parser.parseGo inc 0 src) (parseGo INC 0 src) := by intro is src j J _ _ j' h; cases h
  induction h generalizing fuel with
  | nil => cases fuel with
    | zero => exact out
    | succ fuel => exact .nil
  | unreadable => cases fuel with
    | zero => exact out
    | succ fuel =>
      intro j J hr hj j' h
      injection h with h
      subst h
      exact Or.inr ⟨J, rfl, .cons (step_gap hr hj) .nil⟩
  | @ignored line rest is e ht _ ih => cases fuel with
    | zero => exact out
    | succ fuel =>
      intro j J hr hj j'
      rw [Parser.parseGo, parseGo, top ht]
      exact ih he hd fuel j J hr hj j'
  | @skipped line rest is e ht _ ih => cases fuel with
    | zero => exact out
    | succ fuel =>
      intro j J hr hj j'
      rw [Parser.parseGo, parseGo, top ht]
      exact ih he hd fuel j J hr hj j'
  | refused => cases he
  | indented => cases he
  | badPrice => cases he
  | badHeader => cases he
  | broken => cases he
  | includedStop _ _ h => exact absurd he h
  | @price line rest r is e ht hp _ ih => cases fuel with
    | zero => exact out
    | succ fuel =>
      have hw : writings (.price r :: is) = writings is := rfl
      rw [hw] at hd
      intro j J hr hj j'
      rw [Parser.parseGo, parseGo, top ht]
      intro h
      obtain ⟨pool, h1, h2⟩ := bind_ok h
      refine Passes.append (pass_price hp) (ih he hd fuel) j J hr hj j' (by simp only [h1]; exact h2) |>.imp ?_ ?_
      · intro h
        simp only at h ⊢
        cases hP : parsePriceDirective J.store line with
        | error e => rw [hP] at h; exact h
        | ok P => rw [hP] at h; exact h
      · rintro ⟨J', h, t⟩
        refine ⟨J', ?_, t⟩
        simp only at h ⊢
        cases hP : parsePriceDirective J.store line with
        | error e => rw [hP] at h; exact h
        | ok P => rw [hP] at h; exact h
  | @included line f rest is is' e ht hi _ ih => cases fuel with
    | zero => exact out
    | succ fuel =>
      rw [writings_append] at hd
      intro j J hr hj j'
      rw [Parser.parseGo, parseGo, top ht]
      exact Passes.append (hinc f is hi (fun w hw => hd w (by simp [hw]))) (ih he (fun w hw => hd w (by simp [hw])) fuel) j J hr hj j'
  | @xact line body tail rest w is e hh hb ht _ ih => cases fuel with
    | zero => exact out
    | succ fuel =>
      have hw : writings (gapIn tail ++ .xact w :: is) = w :: writings is := by
        rw [writings_append]
        rcases gapIn_or tail with h | h <;> rw [h] <;> rfl
      rw [hw] at hd
      intro j J hr hj j'
      rw [Parser.parseGo, parseGo, (topLine_xact _).mpr hh.headerLine]
      intro h
      obtain ⟨⟨j1, rest1⟩, h1, h2⟩ := bind_ok h
      simp only at h2
      have hsim := xactDirective_sim line body hj
      rw [h1] at hsim
      cases hX : xactDirective line body J with
      | error e => rw [hX] at hsim; exact Or.inl (by simp only; rw [hsim.1]; rfl)
      | ok V =>
        obtain ⟨J1, rest2⟩ := V
        obtain ⟨rfl, rfl, hstep⟩ := step_xact hh hb ht (hd w (by simp)) hr hj h1 hX
        simp only
        rcases ih he (fun w hw => hd w (by simp [hw])) fuel j1 J1 hstep.readable hstep.rel j' h2 with g | ⟨J', g, t⟩
        · exact Or.inl g
        · exact Or.inr ⟨J', g, (thru_gaps hr hj).append (.cons hstep t)⟩

theorem pass_parse (files : Files) (depth : Nat) {src : Source} {is : List Item} (h : SaysUpTo files depth src is .done)
    (hd : ∀ w ∈ writings is, Everyday w) : Passes is (Parser.parse files depth src) (parse files depth src) := by
  induction depth generalizing src is with
  | zero =>
    intro j J
    rw [Parser.parse, parse]
    refine pass_go ?_ h rfl hd _ j J
    rintro f is ⟨rfl, ⟨hf, _⟩ | ⟨_, hf⟩⟩ _
    · simp only [hf]; exact .nil
    · cases hf
  | succ depth ih =>
    intro j J
    rw [Parser.parse, parse]
    refine pass_go ?_ h rfl hd _ j J
    rintro f is (⟨hf, rfl, _⟩ | ⟨src', hf, hs⟩) hd
    · simp only [hf]; exact .nil
    · simp only [hf]; exact ih hs hd

theorem pass_files (files : Files) (depth : Nat) {fs : List Str} {is : List Item} {e : Ending} (h : FilesSay files depth fs is e) (he : e = .done)
    (hd : ∀ w ∈ writings is, Everyday w) : Passes is (Cli.readFiles files depth fs) (readFiles files depth fs) := by
  induction h with
  | nil => exact .nil
  | missing => cases he
  | stop _ _ h => exact absurd he h
  | @read f fs src is is' e hf hs _ ih =>
    rw [writings_append] at hd
    intro j J
    rw [Cli.readFiles, readFiles, Parser.parseFile, parseFile, hf]
    exact Passes.append (pass_parse files depth hs (fun w hw => hd w (by simp [hw]))) (ih he (fun w hw => hd w (by simp [hw]))) j J

end Ledger.Machine
