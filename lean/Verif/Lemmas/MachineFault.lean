import Verif.Lemmas.MachineTrips
/-
Readings that end with a panic, with pointers.
-/
namespace Ledger
open Ledger.Parser Ledger.Finalize

/-- A written transaction up to its completion, as the parser reads it. -/
theorem xact_begun {header : Str} {body tail rest : Source} {w : Writing} (hh : HeaderSays header w)
    (hb : BodyReads body w.comments w.entries tail) (ht : AfterXact tail rest) (hd : Everyday w) {j : Journal} (hr : Readable j) :
    ∃ j1 j2 x, createXact header j = .ok (j1, j.xacts.length) ∧ readBody j.xacts.length body j1 = .ok (j2, rest) ∧
      j2.xacts = j.xacts ++ [x] ∧ XactOf w x ∧ Ordinary x.posts ∧ j2.pool.Knows x.posts ∧ j2.pool.OrdinaryLots := by
  obtain ⟨cs, blocks, rfl, hb1, hb2⟩ := hb.blocks
  have hv : ∀ e ∈ w.entries, e.ValidNumbers := by
    intro e he
    obtain ⟨block, _, line, _, _, ⟨text, _, h⟩, _⟩ := forall₂_mem_right hb2 he
    exact h.valid
  obtain ⟨j1, ps, r1, r2, r3, r4, r5, r6, r7⟩ := readBody_written hb2 hd.fits tail (j := { j with xacts := j.xacts ++ [⟨some w.date, w.aux,
      if w.payee = [] then str "Unknown Payee" else w.payee, [], (lastText w.comments).or (if w.note = [] then none else some w.note)⟩] }) hr.wf rfl
  have hx : XactOf w ⟨some w.date, w.aux, if w.payee = [] then str "Unknown Payee" else w.payee, ps,
      (lastText w.comments).or (if w.note = [] then none else some w.note)⟩ := ⟨rfl, rfl, rfl, rfl, r3⟩
  refine ⟨_, j1, _, createXact_written hh j, ?_, r2, hx, hd.ordinary hx hv,
    postsOf_knows hx.posts (fun e he s hs => (r6.known s).mpr (Or.inr ⟨e, he, hs⟩)), ?_⟩
  swap
  · intro s ann pr ha hp
    rcases r6.lots ha with h | ⟨e, he, _, rfl⟩
    · exact hr.lots s ann pr h hp
    · exact hd.lots e he pr hp
  rw [List.map_append, List.append_assoc, readBody_lead hb1 _ _ _ _ _ rfl, r1, readBody_end ht]

end Ledger

namespace Ledger.Machine
open Ledger Ledger.Memory Ledger.Heap Ledger.Parser

/-- A price line between whose commodities the table does not move. -/
theorem priceDirective_exact {M : List Str} {p : Store} (h : p.Fine) (hT : Timed M p) {line date time c q pc : Str}
    (hs : Scanner.scanPriceDirective line = .ok (date, time, c, q, pc))
    (hpl : place (M ++ (symbolOf c).toList) = place (M ++ (symbolOf c).toList ++ (symbolOf pc).toList)) :
    Sim (fun _ _ => True) (fun _ => False) (p.er.parsePriceDirective line) (parsePriceDirective p line) := by
  unfold Pool.parsePriceDirective parsePriceDirective
  rw [hs]
  simp only [bind, Except.bind]
  cases Chrono.parseDate date with
  | none => exact Sim.fail _
  | some d =>
    simp only
    cases (if time = [] then some Time.midnight else Chrono.parseTime time) with
    | none => exact Sim.fail _
    | some t =>
      simp only
      cases Dec.fromStr q with
      | none => exact Sim.fail _
      | some q =>
        simp only
        have hg := findOrCreate_grown h c none (by intro a ha; cases ha)
        rw [Option.map_none] at hg
        obtain ⟨t1, t2, t3⟩ := hT.look c
        revert hg t1 t2 t3
        generalize p.er.findOrCreate c none = r
        generalize p.findOrCreate c none = R
        obtain ⟨r1, r2⟩ := r
        obtain ⟨R1, R2⟩ := R
        intro hg t1 t2 t3
        obtain rfl : R1.er = r1 := hg.er
        have hg' := findOrCreate_grown hg.fine pc none (by intro a ha; cases ha)
        rw [Option.map_none] at hg'
        simp only at t1 t2 t3 ⊢
        obtain ⟨v1, v2, v3⟩ := t1.look pc
        revert hg' v1 v2 v3
        generalize R1.er.findOrCreate pc none = u
        generalize R1.findOrCreate pc none = U
        obtain ⟨u1, u2⟩ := u
        obtain ⟨U1, U2⟩ := U
        intro hg' v1 v2 v3
        simp only at v1 v2 v3
        obtain rfl : U1.er = u1 := hg'.er
        have e1 : r2 = R2.map (fun a => keyAt U1.keys a.slot) := by
          have := hg.ptr
          simp only at this
          rw [this]
          cases R2 with
          | none => rfl
          | some x => simp only [Option.map_some]; rw [keyAt_mono (hg.taken x rfl).slot hg'.keys]
        have e2 : u2 = U2.map (fun a => keyAt U1.keys a.slot) := hg'.ptr
        subst e1 e2
        refine (addPrice_sim (sound_now hg'.fine) (c := R2) ?_ ⟨d, t⟩ (q := ⟨q, U2⟩) ?_).mono (fun _ _ _ => trivial) (fun _ h => h)
        · intro x hx
          refine ⟨(hg.taken x hx).mono hg'.keys, ?_⟩
          rw [v1.block, ← hpl]
          cases hc : symbolOf c with
          | none => rw [t2 hc] at hx; cases hx
          | some s =>
            obtain ⟨y, y1, y2, _⟩ := t3 s hc
            rw [hx] at y1
            injection y1 with y1
            rw [y1, y2]; rfl
        · intro x hx
          simp only at hx
          refine ⟨hg'.taken x hx, ?_⟩
          rw [v1.block]
          cases hc : symbolOf pc with
          | none => rw [v2 hc] at hx; cases hx
          | some s =>
            obtain ⟨y, y1, y2, _⟩ := v3 s hc
            rw [hx] at y1
            injection y1 with y1
            rw [y1, y2]; rfl

/-- A price line that is refused. -/
theorem price_refused {line : Str} {k : Panic} (h : PriceRefused line k) {M : List Str} {p : Store} (hp : p.Fine) (hT : Timed M p) :
    parsePriceDirective p line = .error k := by
  have hm := priceRefused_run h p.er
  have hsame : ∀ s : Option Str, place (M ++ s.toList) = place (M ++ s.toList ++ s.toList) := by
    intro s
    cases s with
    | none => simp
    | some s =>
      unfold place
      have : firsts (M ++ (some s).toList ++ (some s).toList) = firsts (M ++ (some s).toList) := by
        show firsts (M ++ [s] ++ [s]) = _
        rw [firsts_snoc, if_pos (mem_firsts.mpr (by simp))]; rfl
      rw [this]
  cases hz : Scanner.scanPriceDirective line with
  | error e =>
    unfold Pool.parsePriceDirective at hm
    rw [hz] at hm
    unfold parsePriceDirective
    rw [hz]
    simpa [bind, Except.bind] using hm
  | ok a =>
    obtain ⟨date, time, c, q, pc⟩ := a
    have parts : ∀ {d' t' c' q' pc' : Str}, PriceLineParts line d' t' c' q' pc' → date = d' ∧ time = t' ∧ c = c' ∧ q = q' ∧ pc = pc' := by
      intro d' t' c' q' pc' h
      have := (priceLineParts_iff _ _ _ _ _ _).mp h
      rw [hz] at this
      simpa using this
    have key : symbolOf pc = none ∨ symbolOf pc = symbolOf c → parsePriceDirective p line = .error k := by
      intro h
      refine (priceDirective_exact hp hT hz ?_).exact hm
      rcases h with h | h <;> rw [h]
      · simp
      · exact hsame _
    have pre : (Chrono.parseDate date = none ∨ (if time = [] then some Time.midnight else Chrono.parseTime time) = none ∨ Dec.fromStr q = none) →
        parsePriceDirective p line = .error k := by
      intro hd
      unfold Pool.parsePriceDirective at hm
      rw [hz] at hm
      unfold parsePriceDirective
      rw [hz]
      simp only [bind, Except.bind] at hm ⊢
      revert hm
      cases hx : Chrono.parseDate date with
      | none => exact fun h => by simpa using h
      | some d =>
        simp only
        cases hy : (if time = [] then some Time.midnight else Chrono.parseTime time) with
        | none => exact fun h => by simpa using h
        | some t =>
          simp only
          cases hw : Dec.fromStr q with
          | none => exact fun h => by simpa using h
          | some q => rcases hd with h | h | h <;> simp_all
    cases h with
    | @wide x text h =>
      have : ¬ x.utf8Size ≤ 1 := by
        have h1 := utf8Size_one x
        have h2 := x.utf8Size_pos
        omega
      simp [Scanner.scanPriceDirective, dropBytes, this, bind, Except.bind] at hz
    | @short x text d r1 h hd hb =>
      rw [priceElement_iff] at hd
      unfold Scanner.scanPriceDirective at hz
      rw [dropBytes_one x _ ((utf8Size_one x).mpr h), res_bind_ok, hd] at hz
      simp only [(trimStart_nil_iff r1).mpr hb] at hz
      cases hz
    | date h hd =>
      refine pre (Or.inl ?_)
      cases hx : Chrono.parseDate date with
      | none => rfl
      | some x => exact absurd ((parts h).1 ▸ (parseDate_iff _ _).mp hx) (hd x)
    | time h hd ht =>
      refine pre (Or.inr (Or.inl ?_))
      cases hx : (if time = [] then some Time.midnight else Chrono.parseTime time) with
      | none => rfl
      | some y => exact absurd ((parts h).2.1 ▸ (priceTime_iff _ _).mpr hx) (ht y)
    | number h hd ht hq =>
      refine pre (Or.inr (Or.inr ?_))
      cases hx : Dec.fromStr q with
      | none => rfl
      | some n => exact absurd ((parts h).2.2.2.1 ▸ (C02_parse_exact _ _).mp hx) (hq n)
    | itself h => exact key (Or.inr (by rw [(parts h).2.2.1, (parts h).2.2.2.2]))
    | bare h => exact key (Or.inl (by rw [(parts h).2.2.2.2]; rfl))

/-- The last transaction. -/
theorem last_xct {j j2 : Journal} {J J2 : Jrn} {x2 : Xact} {X2 : Xct} (hj : JrnR j J) (hj2 : JrnR j2 J2) (hx2 : j2.xacts = j.xacts ++ [x2])
    (hX2 : J2.xacts = J.xacts ++ [X2]) : XctR J2.store.keys x2 X2 := by
  have hx := hj2.xacts
  rw [hx2, hX2] at hx
  have hl := hj.xacts.length_eq
  have h2 := List.forall₂_drop j.xacts.length hx
  rw [List.drop_left, hl, List.drop_left] at h2
  cases h2; assumption

/-- A transaction that is refused. -/
theorem xact_trips {header : Str} {body tail rest : Source} {w : Writing} (hh : HeaderSays header w)
    (hb : BodyReads body w.comments w.entries tail) (ht : AfterXact tail rest) (hd : Everyday w) {M : List Str} {j : Journal} {J : Jrn}
    (hr : Readable j) (hj : JrnR j J) (hT : Timed M J.store) {k : Panic} (h : Parser.xactDirective header body j = .error k) (hc : Cause w k) :
    (Trips M w → xactDirective header body J = .error .danglingPointer) ∧ (¬ Trips M w → xactDirective header body J = .error k) := by
  obtain ⟨j1, j2, x, h1, h2, h3, h4, h5, h6, h7⟩ := xact_begun hh hb ht hd hr
  obtain ⟨_, J2, x2, X2, a1, a2, a3, a4, a5, a6⟩ := xact_opened hb ht hj hT h1 h2
  rw [h3] at a1
  obtain rfl : x = x2 := by have := List.append_cancel_left a1; injection this
  unfold Parser.xactDirective at h
  rw [h1] at h
  change (Parser.readBody j.xacts.length body j1 >>= _) = _ at h
  rw [h2] at h
  change (Parser.finalizeXact j.xacts.length j2 >>= _) = _ at h
  unfold Parser.finalizeXact at h
  rw [h3, List.getElem?_append_right (by omega)] at h
  simp only [Nat.sub_self, List.getElem?_cons_zero] at h
  have hz : Finalize.finalize x j2.pool = .error k := by
    generalize Finalize.finalize x j2.pool = z at h
    cases z with
    | ok z => cases h
    | error e => injection h with h; rw [h]
  have hX := last_xct hj a3 h3 a2
  have hdate : X2.date = some w.date := by rw [← h4.date]; exact hX.date.symm
  obtain ⟨t1, t2⟩ := trips_finalize ⟨a3.fine, a4, h4.posts, hX.posts, a5⟩ h4 (by rw [a3.pool]; exact h6) h5 (by rw [a3.pool]; exact h7)
    (by rw [a3.pool]; exact hz) hc
  rw [a6]
  unfold finalizeXact
  rw [a2, List.getElem?_append_right (by omega)]
  simp only [Nat.sub_self, List.getElem?_cons_zero, hdate]
  exact ⟨fun h => by rw [t1 h]; rfl, fun h => by rw [t2 h]; rfl⟩

/-- A transaction that is broken off. -/
theorem xact_broken {header bad : Str} {body rest : Source} {w : Writing} {k : Panic} (hh : HeaderSays header w)
    (hb : BodyReads body w.comments w.entries (some bad :: rest)) (ht : BodyRefused bad k) (hf : ∀ e ∈ w.entries, e.Fits)
    {j : Journal} {J : Jrn} (hw : j.master.WF) (hj : JrnR j J) : xactDirective header body J = .error k := by
  obtain ⟨cs, blocks, rfl, h1, h2⟩ := hb.blocks
  obtain ⟨j1, ps, r1, _, _, r4, _⟩ := readBody_written h2 hf (some bad :: rest) (j := { j with xacts := j.xacts ++ [⟨some w.date, w.aux,
      if w.payee = [] then str "Unknown Payee" else w.payee, [], (lastText w.comments).or (if w.note = [] then none else some w.note)⟩] }) hw rfl
  have hc := createXact_sim header hj
  rw [createXact_written hh] at hc
  unfold xactDirective
  generalize createXact header J = Z at hc
  cases Z with
  | error e => exact hc.2.elim
  | ok V =>
    obtain ⟨J1, i⟩ := V
    obtain ⟨k1, k2, _, x, k3⟩ := hc
    simp only at k1 k2 k3
    subst k2
    show (readBody j.xacts.length _ J1 >>= _) = _
    have hs := (readBody_sim (List.map some (cs ++ blocks.flatten) ++ some bad :: rest) k1 k3).exact (k := k) (by
      rw [List.map_append, List.append_assoc, readBody_lead h1 _ _ _ _ _ rfl, r1, readBody_refused ht _ _ r4])
    rw [hs]; rfl

theorem xact_badHeader {line : Str} {k : Panic} (h : HeaderLine line) (hr : HeaderRefused line k) (rest : Source) {j : Journal} {J : Jrn}
    (hj : JrnR j J) : xactDirective line rest J = .error k := by
  unfold xactDirective
  rw [(createXact_sim line hj).exact ((C90_header_refused h j k).mpr hr)]
  rfl

/-- A part of the program that reads and ends with a panic: it does so where the pointers before are fresh, and otherwise it
follows a stale one. -/
def Strides (is : List Item) (e : Ending) (F : Jrn → Res Jrn) : Prop :=
  ∀ M j J, Readable j → JrnR j J → Timed M J.store →
    (∀ k, (∀ w ∈ writings is, ¬ Faulty w) → e.panic = some k →
      (FreshFrom M is → F J = .error k) ∧ (¬ FreshFrom M is → F J = .error .danglingPointer)) ∧
    (∀ is₁ w is₂ k, is = is₁ ++ .xact w :: is₂ → (∀ v ∈ writings is₁, ¬ Faulty v) → Cause w k →
      (FreshFrom M is₁ ∧ ¬ Trips (M ++ mentions is₁) w → F J = .error k) ∧
      (¬ (FreshFrom M is₁ ∧ ¬ Trips (M ++ mentions is₁) w) → F J = .error .danglingPointer))

/-- A part of the program that reads items to their end. -/
structure Reads (is : List Item) (f : Journal → Res Journal) (F : Jrn → Res Jrn) : Prop where
  walks : Walks is f F
  decides : DecidesItems is .done f
  strides : Strides is .done F

theorem Strides.nil {F : Jrn → Res Jrn} : Strides [] .done F := by
  intro M j J _ _ _
  refine ⟨fun k _ h => (by cases h), fun is₁ w is₂ k h => ?_⟩
  cases is₁ <;> cases h

theorem Strides.stop {e : Ending} {k : Panic} (he : e.panic = some k) {F : Jrn → Res Jrn}
    (h : ∀ M j J, Readable j → JrnR j J → Timed M J.store → F J = .error k) : Strides [] e F := by
  intro M j J hr hj hT
  refine ⟨fun k' _ hk => ⟨fun _ => ?_, fun hn => absurd trivial hn⟩, fun is₁ w is₂ k h => ?_⟩
  · rw [he] at hk
    injection hk with hk
    rw [h M j J hr hj hT, hk]
  · cases is₁ <;> cases h

theorem Strides.ends {is : List Item} {e : Ending} {F : Jrn → Res Jrn} (h : Strides is e F) (G : Jrn → Res Jrn) :
    Strides is e (fun J => F J >>= G) := by
  intro M j J hr hj hT
  obtain ⟨h1, h2⟩ := h M j J hr hj hT
  have out : ∀ {k}, F J = .error k → (F J >>= G) = .error k := by intro k h; rw [h]; rfl
  exact ⟨fun k a b => ⟨fun c => out ((h1 k a b).1 c), fun c => out ((h1 k a b).2 c)⟩,
    fun is₁ w is₂ k a b c => ⟨fun d => out ((h2 is₁ w is₂ k a b c).1 d), fun d => out ((h2 is₁ w is₂ k a b c).2 d)⟩⟩

theorem Strides.after {is is' : List Item} {e : Ending} {f : Journal → Res Journal} {F G : Jrn → Res Jrn} (h : Reads is f F)
    (g : Strides is' e G) : Strides (is ++ is') e (fun J => F J >>= G) := by
  intro M j J hr hj hT
  have sound : (∀ w ∈ writings is, ¬ Faulty w) → (F J = .error .danglingPointer ∧ ¬ FreshFrom M is) ∨
      ∃ j1 J1, F J = .ok J1 ∧ Walked M is J j1 J1 := by
    intro hs
    rcases h.decides j hr with ⟨j1, _, _, _, e1, _⟩ | ⟨k, _, hf | ⟨_, hf⟩⟩
    · rcases h.walks M j J hr hj hT j1 e1 with h | ⟨J1, h1, h2⟩
      · exact Or.inl h
      · exact Or.inr ⟨j1, J1, h1, h2⟩
    · obtain ⟨w, hw, hf⟩ := hf.faulty
      exact absurd hf (hs w hw)
    · cases hf
  have out : ∀ {k}, F J = .error k → (F J >>= G) = .error k := by intro k h; rw [h]; rfl
  refine ⟨fun k hs he => ?_, fun is₁ w is₂ k hi hs hc => ?_⟩
  · rw [writings_append] at hs
    rcases sound (fun w hw => hs w (by simp [hw])) with ⟨e1, n⟩ | ⟨j1, J1, e1, t⟩
    · exact ⟨fun hf => absurd (freshFrom_append.mp hf).1 n, fun _ => out e1⟩
    · obtain ⟨g1, g2⟩ := (g _ j1 J1 t.readable t.rel t.timed).1 k (fun w hw => hs w (by simp [hw])) he
      show (FreshFrom M (is ++ is') → (F J >>= G) = _) ∧ (_ → (F J >>= G) = _)
      rw [e1, freshFrom_append]
      exact ⟨fun hf => g1 hf.2, fun hf => g2 (fun h => hf ⟨t.fresh, h⟩)⟩
  · rcases List.append_eq_append_iff.mp hi with ⟨c, rfl, h2⟩ | ⟨c, h1, h2⟩
    · rw [writings_append] at hs
      rcases sound (fun w hw => hs w (by simp [hw])) with ⟨e1, n⟩ | ⟨j1, J1, e1, t⟩
      · exact ⟨fun hf => absurd (freshFrom_append.mp hf.1).1 n, fun _ => out e1⟩
      · obtain ⟨g1, g2⟩ := (g _ j1 J1 t.readable t.rel t.timed).2 c w is₂ k h2 (fun w hw => hs w (by simp [hw])) hc
        show (FreshFrom M (is ++ c) ∧ _ → (F J >>= G) = _) ∧ (_ → (F J >>= G) = _)
        rw [e1, freshFrom_append, mentions_append, ← List.append_assoc]
        exact ⟨fun hf => g1 ⟨hf.1.2, hf.2⟩, fun hf => g2 (fun h => hf ⟨⟨t.fresh, h.1⟩, h.2⟩)⟩
    · cases c with
      | nil =>
        rw [List.append_nil] at h1
        subst h1
        rcases sound hs with ⟨e1, n⟩ | ⟨j1, J1, e1, t⟩
        · exact ⟨fun hf => absurd hf.1 n, fun _ => out e1⟩
        · obtain ⟨g1, g2⟩ := (g _ j1 J1 t.readable t.rel t.timed).2 [] w is₂ k h2.symm (by simp [writings]) hc
          show (FreshFrom M is ∧ _ → (F J >>= G) = _) ∧ (_ → (F J >>= G) = _)
          rw [e1]
          have hm : M ++ mentions is ++ mentions [] = M ++ mentions is := by simp [mentions]
          rw [hm] at g1 g2
          exact ⟨fun hf => g1 ⟨trivial, hf.2⟩, fun hf => g2 (fun h => hf ⟨t.fresh, h.2⟩)⟩
      | cons x c =>
        rw [List.cons_append] at h2
        injection h2 with h2 h3
        subst h2
        obtain ⟨g1, g2⟩ := (h.strides M j J hr hj hT).2 is₁ w c k h1 hs hc
        exact ⟨fun a => out (g1 a), fun a => out (g2 a)⟩

theorem Reads.nil : Reads [] .ok .ok := ⟨.nil, .nil, .nil⟩

theorem reads_price {line : Str} {r : Recording} (hp : PriceSays line r) :
    Reads [.price r] (fun j => j.pool.parsePriceDirective line >>= fun pool => .ok { j with pool := pool })
      (fun J => parsePriceDirective J.store line >>= fun p => .ok { J with store := p }) := by
  refine ⟨walk_price hp, ?_, ?_⟩
  · intro j hj
    obtain ⟨pool', p1, p2⟩ := priceSays_run hp j.pool
    obtain ⟨d, t, q, q1, q2, q3, q4, _, q6⟩ := hp
    obtain ⟨o1, o2⟩ := price_outcome p2 (price_run q1 q2 q3 q4 j.pool).1 q6 hj
    exact Or.inl ⟨_, _, _, rfl, by simp only [p1, bind, Except.bind], o1, o2, by simp [writings]⟩
  · intro M j J _ _ _
    refine ⟨fun k _ h => (by cases h), fun is₁ w is₂ k h => ?_⟩
    cases is₁ with
    | nil => cases h
    | cons i is₁ =>
      injection h with _ h
      cases is₁ <;> cases h

theorem reads_xact {line : Str} {body tail rest : Source} {w : Writing} (hh : HeaderSays line w) (hb : BodyReads body w.comments w.entries tail)
    (ht : AfterXact tail rest) (hd : Everyday w) :
    Reads [.xact w] (fun j => (Parser.xactDirective line body j).bind fun r => .ok r.1) (fun J => xactDirective line body J >>= fun r => .ok r.1) := by
  refine ⟨?_, xactDirective_items hh hb ht hd (g := fun _ => .ok) .nil, ?_⟩
  · intro M j J hr hj hT j' h
    obtain ⟨⟨j1, rest1⟩, h1, h2⟩ := bind_ok (m := Parser.xactDirective line body j) (f := fun r => Except.ok r.1) h
    injection h2 with h2
    simp only at h2
    subst h2
    have hsim := xactDirective_sim line body hj
    rw [h1] at hsim
    obtain ⟨w1, w2⟩ := xact_walk hh hb ht hd hr hj hT h1
    cases hX : xactDirective line body J with
    | error e =>
      rw [hX] at hsim
      refine Or.inl ⟨by simp only [hX]; rw [hsim.1]; rfl, fun hf => ?_⟩
      obtain ⟨V, hV⟩ := w2 hf.1
      rw [hX] at hV; cases hV
    | ok V =>
      obtain ⟨J1, rest2⟩ := V
      obtain ⟨rfl, rfl, hstep⟩ := step_xact hh hb ht hd hr hj h1 hX
      obtain ⟨f1, f2, X, f3, f4⟩ := w1 J1 _ hX
      exact Or.inr ⟨J1, by simp only [hX]; rfl,
        ⟨f1, trivial⟩, hstep.readable, hstep.rel, by simpa [mentions, Item.mentions] using f2, [X], f3, .xact f4 .nil⟩
  · intro M j J hr hj hT
    refine ⟨fun k _ h => (by cases h), fun is₁ w' is₂ k h _ hc => ?_⟩
    cases is₁ with
    | cons i is₁ =>
      injection h with _ h
      cases is₁ <;> cases h
    | nil =>
      injection h with h _
      injection h with h
      subst h
      obtain ⟨cs, blocks, hbody, hb1, hb2⟩ := hb.blocks
      have hm : Parser.xactDirective line body j = .error k := by
        rw [hbody]
        rcases xactDirective_decides hh hb1 hb2 ht hd hr with ⟨_, _, _, _, _, _, hn⟩ | ⟨k', he, hc'⟩
        · exact absurd hc.faulty hn
        · rw [he, hc.unique hc']
      have hm0 : M ++ mentions [] = M := by simp [mentions]
      obtain ⟨x1, x2⟩ := xact_trips hh hb ht hd hr hj hT hm hc
      rw [hm0]
      refine ⟨fun hx => ?_, fun hx => ?_⟩
      · show (xactDirective line body J >>= _) = _
        rw [x2 hx.2]; rfl
      · show (xactDirective line body J >>= _) = _
        rw [x1 (by by_contra hn; exact hx ⟨trivial, hn⟩)]; rfl

/-- Unreadable lines are nothing. -/
theorem Strides.gaps {is : List Item} {e : Ending} {F : Jrn → Res Jrn} (h : Strides is e F) (src : Source) : Strides (gapIn src ++ is) e F := by
  rcases gapIn_or src with hg | hg <;> rw [hg]
  · exact h
  · intro M j J hr hj hT
    obtain ⟨h1, h2⟩ := h M j J hr hj hT
    have hcons : ∀ is, FreshFrom M (.gap :: is) ↔ FreshFrom M is := by
      intro is
      show True ∧ FreshFrom (M ++ []) is ↔ _
      rw [List.append_nil]; simp
    refine ⟨fun k hs he => ?_, fun is₁ w is₂ k hi hs hc => ?_⟩
    · rw [show [Item.gap] ++ is = .gap :: is from rfl, hcons]
      exact h1 k hs he
    · cases is₁ with
      | nil => cases hi
      | cons i is₁ =>
        injection hi with hi hi'
        subst hi
        rw [hcons, mentions_cons]
        exact h2 is₁ w is₂ k hi' hs hc

theorem Strides.congr {is : List Item} {e : Ending} {F G : Jrn → Res Jrn} (h : Strides is e F)
    (hg : ∀ M j J, Readable j → JrnR j J → Timed M J.store → G J = F J) : Strides is e G := by
  intro M j J hr hj hT
  rw [hg M j J hr hj hT]
  exact h M j J hr hj hT

theorem bodyReads_length {body tail : Source} {ts : List Str} {es : List Entry} (h : BodyReads body ts es tail) : tail.length ≤ body.length := by
  induction h with
  | stop => exact Nat.le_refl _
  | comment _ _ ih => rw [List.length_cons]; omega
  | posting _ _ ih => rw [List.length_cons]; omega

theorem afterXact_length {tail rest : Source} (h : AfterXact tail rest) : rest.length ≤ tail.length := by
  rcases h with ⟨rfl, rfl⟩ | ⟨l, rfl, _⟩ | rfl <;> simp

theorem touched_tail {a b : List Item} {e : Ending} (h : ∀ w ∈ touched (a ++ b) e, Everyday w) :
    (∀ w ∈ writings a, Everyday w) ∧ ∀ w ∈ touched b e, Everyday w := by
  cases e <;> simp only [touched, writings_append, List.mem_append] at h ⊢ <;>
    exact ⟨fun w hw => h w (by simp [hw]), fun w hw => h w (by tauto)⟩

theorem stride_go {inc : Str → Journal → Res Journal} {INC : Str → Jrn → Res Jrn} {said : Str → List Item → Ending → Prop}
    (hinc : ∀ f is, said f is .done → (∀ w ∈ writings is, Everyday w) → Reads is (inc f) (INC f))
    (hend : ∀ f is e, said f is e → (∀ w ∈ touched is e, Everyday w) → Strides is e (INC f)) {src : Source} {is : List Item} {e : Ending}
    (h : SourceSays said src is e) (hd : ∀ w ∈ touched is e, Everyday w) (fuel : Nat) (hl : src.length < fuel) :
    Strides is e (parseGo INC fuel src) := by
  have top := fun {line t} (h : TopPart line t) => (topPart_iff line t).mp h
  induction h generalizing fuel with
  | nil => exact .nil
  | unreadable => exact (Strides.nil (F := parseGo INC fuel _)).gaps (none :: [])
  | @ignored line rest is e ht _ ih =>
    obtain ⟨fuel, rfl⟩ := Nat.exists_eq_add_of_lt (Nat.zero_lt_of_lt hl)
    rw [Nat.zero_add] at hl ⊢
    rw [List.length_cons] at hl
    exact (ih hd fuel (by omega)).congr (fun M j J _ _ _ => by rw [parseGo, top ht])
  | @skipped line rest is e ht _ ih =>
    obtain ⟨fuel, rfl⟩ := Nat.exists_eq_add_of_lt (Nat.zero_lt_of_lt hl)
    rw [Nat.zero_add] at hl ⊢
    rw [List.length_cons] at hl
    exact (ih hd fuel (by omega)).congr (fun M j J _ _ _ => by rw [parseGo, top ht])
  | @refused line rest k ht =>
    obtain ⟨fuel, rfl⟩ := Nat.exists_eq_add_of_lt (Nat.zero_lt_of_lt hl)
    rw [Nat.zero_add]
    exact .stop rfl (fun M j J _ _ _ => by rw [parseGo, top ht])
  | @indented line rest ht =>
    obtain ⟨fuel, rfl⟩ := Nat.exists_eq_add_of_lt (Nat.zero_lt_of_lt hl)
    rw [Nat.zero_add]
    exact .stop rfl (fun M j J _ _ _ => by rw [parseGo, top ht])
  | @price line rest r is e ht hp _ ih =>
    obtain ⟨fuel, rfl⟩ := Nat.exists_eq_add_of_lt (Nat.zero_lt_of_lt hl)
    rw [Nat.zero_add] at hl ⊢
    rw [List.length_cons] at hl
    refine (Strides.after (reads_price hp) (ih (touched_tail (a := [.price r]) hd).2 fuel (by omega))).congr ?_
    intro M j J _ _ _
    rw [parseGo, top ht]
    simp only
    cases parsePriceDirective J.store line <;> rfl
  | @badPrice line rest k ht hp =>
    obtain ⟨fuel, rfl⟩ := Nat.exists_eq_add_of_lt (Nat.zero_lt_of_lt hl)
    rw [Nat.zero_add]
    refine .stop rfl (fun M j J _ hj hT => ?_)
    rw [parseGo, top ht]
    simp only
    rw [price_refused hp hj.fine hT]; rfl
  | @badHeader line rest k ht hh =>
    obtain ⟨fuel, rfl⟩ := Nat.exists_eq_add_of_lt (Nat.zero_lt_of_lt hl)
    rw [Nat.zero_add]
    refine .stop rfl (fun M j J _ hj hT => ?_)
    rw [parseGo, top ht]
    simp only
    rw [xact_badHeader ((topLine_xact _).mp (top ht)) hh rest hj]; rfl
  | @xact line body tl rest w is e hh hb ht _ ih =>
    obtain ⟨fuel, rfl⟩ := Nat.exists_eq_add_of_lt (Nat.zero_lt_of_lt hl)
    rw [Nat.zero_add] at hl ⊢
    rw [List.length_cons] at hl
    have hd := (touched_tail (a := gapIn tl) hd).2
    have hw : Everyday w := (touched_tail (a := [.xact w]) hd).1 w (by simp [writings])
    have := bodyReads_length hb
    have := afterXact_length ht
    refine ((Strides.after (reads_xact hh hb ht hw) (ih (touched_tail (a := [.xact w]) hd).2 fuel (by omega))).congr ?_).gaps tl
    intro M j J hr hj hT
    obtain ⟨j1, j2, x, h1, h2, _⟩ := xact_begun hh hb ht hw hr
    obtain ⟨_, J2, x2, X2, _, _, _, _, _, a6⟩ := xact_opened hb ht hj hT h1 h2
    rw [parseGo, top hh.top]
    simp only
    rw [a6]
    cases finalizeXact J.xacts.length J2 <;> rfl
  | @broken line bad body rest w k hh hb ht =>
    obtain ⟨fuel, rfl⟩ := Nat.exists_eq_add_of_lt (Nat.zero_lt_of_lt hl)
    rw [Nat.zero_add]
    refine .stop rfl (fun M j J hr hj hT => ?_)
    rw [parseGo, top hh.top]
    simp only
    have hw : Everyday w := hd w (by simp [touched, writings])
    rw [xact_broken hh hb ht hw.fits hr.wf hj]; rfl
  | @included line f rest is is' e ht hi _ ih =>
    obtain ⟨fuel, rfl⟩ := Nat.exists_eq_add_of_lt (Nat.zero_lt_of_lt hl)
    rw [Nat.zero_add] at hl ⊢
    rw [List.length_cons] at hl
    refine (Strides.after (hinc f is hi (touched_tail hd).1) (ih (touched_tail hd).2 fuel (by omega))).congr ?_
    intro M j J _ _ _
    rw [parseGo, top ht]
  | @includedStop line f rest is e ht hi he =>
    obtain ⟨fuel, rfl⟩ := Nat.exists_eq_add_of_lt (Nat.zero_lt_of_lt hl)
    rw [Nat.zero_add]
    refine ((hend f is e hi hd).ends (parseGo INC fuel rest)).congr ?_
    intro M j J _ _ _
    rw [parseGo, top ht]

theorem stride_parse (files : Files) (depth : Nat) {src : Source} {is : List Item} {e : Ending} (h : SaysUpTo files depth src is e)
    (hd : ∀ w ∈ touched is e, Everyday w) : Strides is e (parse files depth src) := by
  induction depth generalizing src is e with
  | zero =>
    refine Strides.congr (stride_go (inc := fun file j => match files file with | none => .ok j | some _ => .error .stackOverflow)
      (INC := fun file j => match files file with | none => .ok j | some _ => .error .stackOverflow) ?_ ?_ h hd (src.length + 1) (by omega))
      (fun M j J _ _ _ => by rw [parse]; rfl)
    · rintro f is ⟨rfl, ⟨hf, _⟩ | ⟨_, hf⟩⟩ _
      · simp only [hf]; exact .nil
      · cases hf
    · rintro f is e ⟨rfl, ⟨hf, rfl⟩ | ⟨hf, rfl⟩⟩ _
      · exact .nil
      · refine .stop rfl (fun M j J _ _ _ => ?_)
        cases hq : files f with
        | none => exact absurd hq hf
        | some s => rfl
  | succ depth ih =>
    refine Strides.congr (stride_go (inc := fun file j => match files file with | none => .ok j | some src' => Parser.parse files depth src' j)
      (INC := fun file j => match files file with | none => .ok j | some src' => parse files depth src' j) ?_ ?_ h hd (src.length + 1) (by omega))
      (fun M j J _ _ _ => by rw [parse]; rfl)
    · rintro f is (⟨hf, rfl, _⟩ | ⟨src', hf, hs⟩) hd
      · simp only [hf]; exact .nil
      · simp only [hf]
        exact ⟨walk_parse files depth hs hd, parse_items files depth hs hd, ih hs hd⟩
    · rintro f is e (⟨hf, rfl, rfl⟩ | ⟨src', hf, hs⟩) hd
      · exact .nil
      · simp only [hf]; exact ih hs hd

theorem stride_files (files : Files) (depth : Nat) {fs : List Str} {is : List Item} {e : Ending} (h : FilesSay files depth fs is e)
    (hd : ∀ w ∈ touched is e, Everyday w) : Strides is e (readFiles files depth fs) := by
  induction h with
  | nil => exact .nil
  | @missing f fs hf => exact .stop rfl (fun M j J _ _ _ => by rw [readFiles, parseFile, hf]; rfl)
  | @stop f fs src is e hf hs he =>
    refine ((stride_parse files depth hs hd).ends (readFiles files depth fs)).congr (fun M j J _ _ _ => ?_)
    rw [readFiles, parseFile, hf]
  | @read f fs src is is' e hf hs _ ih =>
    have hd1 := (touched_tail hd).1
    refine (Strides.after ⟨walk_parse files depth hs hd1, parse_items files depth hs (e := .done) hd1, stride_parse files depth hs hd1⟩
      (ih (touched_tail hd).2)).congr (fun M j J _ _ _ => ?_)
    rw [readFiles, parseFile, hf]

end Ledger.Machine
