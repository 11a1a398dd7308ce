import Verif.Spec.Harm
import Verif.Lemmas.Told
/-
When reading turns a null pointer into a reference.
-/
namespace Ledger
open Ledger.Parser Ledger.Finalize

theorem bareMet_nil : ¬ BareMet [] := by
  rintro ⟨l, w, r, h, _⟩
  cases l <;> cases h

theorem bareMet_cons (w : Writing) (ws : List Writing) :
    BareMet (w :: ws) ↔ ¬ Faulty w ∧ (Bare w ∨ BareMet ws) := by
  constructor
  · rintro ⟨l, v, r, h, hl, hf, hb⟩
    cases l with
    | nil => injection h with h1 h2; subst h1; exact ⟨hf, Or.inl hb⟩
    | cons x l =>
      injection h with h1 h2
      subst h1
      exact ⟨hl _ List.mem_cons_self, Or.inr ⟨l, v, r, h2, fun y hy => hl y (List.mem_cons_of_mem _ hy), hf, hb⟩⟩
  · rintro ⟨hf, hb | ⟨l, v, r, rfl, hl, hv, hb⟩⟩
    · exact ⟨[], w, ws, rfl, (fun _ h => (by cases h)), hf, hb⟩
    · refine ⟨w :: l, v, r, rfl, ?_, hv, hb⟩
      intro y hy
      rcases List.mem_cons.mp hy with rfl | hy
      · exact hf
      · exact hl y hy

theorem bareMet_append (a b : List Writing) :
    BareMet (a ++ b) ↔ BareMet a ∨ ((∀ w ∈ a, ¬ Faulty w) ∧ BareMet b) := by
  induction a with
  | nil => simp [bareMet_nil]
  | cons w a ih =>
    rw [List.cons_append, bareMet_cons, bareMet_cons, ih, List.forall_mem_cons]
    tauto

/-- A null pointer is turned into a reference. -/
def Harms {α : Type} (t : Trace.Traced α) : Prop := .nullReference ∈ t.events

theorem harms_bind {α β : Type} (m : Trace.Traced α) (f : α → Trace.Traced β) :
    Harms (m >>= f) ↔ Harms m ∨ ∃ a, m.res = .ok a ∧ Harms (f a) := Trace.mem_bind

theorem not_harms_lift {α : Type} (r : Res α) : ¬ Harms (Trace.lift r) := by simp [Harms, Trace.events_lift]

theorem not_harms_pure {α : Type} (a : α) : ¬ Harms (pure a : Trace.Traced α) := by simp [Harms, Trace.events_pure]

/-- A traced reading: its result is as `DecidesItems` says, and it does harm exactly if a bare transaction is met. -/
def Exposes (is : List Item) (e : Ending) (run : Journal → Trace.Traced Journal) : Prop :=
  DecidesItems is e (fun j => (run j).res) ∧ ∀ j, Readable j → (Harms (run j) ↔ BareMet (writings is))

theorem Exposes.nil : Exposes [] .done pure :=
  ⟨DecidesItems.nil, fun _ _ => iff_of_false (not_harms_pure _) bareMet_nil⟩

theorem Exposes.error (k : Panic) : Exposes [] (.stop k) (fun _ => Trace.lift (.error k)) :=
  ⟨DecidesItems.error k, fun _ _ => iff_of_false (not_harms_lift _) bareMet_nil⟩

theorem exposes_then {is1 is2 : List Item} {f g : Journal → Trace.Traced Journal} (h1 : Exposes is1 .done f)
    (h2 : ∀ j, Readable j → (Harms (g j) ↔ BareMet (writings is2))) {j : Journal} (hj : Readable j) :
    Harms (f j >>= g) ↔ BareMet (writings (is1 ++ is2)) := by
  rw [harms_bind, writings_append, bareMet_append, h1.2 j hj]
  refine or_congr Iff.rfl ?_
  rcases h1.1 j hj with ⟨j', _, _, _, a1, _, a3, a4⟩ | ⟨k, a1, hf⟩ <;> simp only at a1 <;> rw [a1]
  · simp only [Except.ok.injEq, exists_eq_left', h2 j' a3]
    exact ⟨fun h => ⟨a4, h⟩, fun h => h.2⟩
  · refine iff_of_false (by rintro ⟨_, h, _⟩; cases h) ?_
    rcases hf with hf | ⟨_, hf⟩
    · rintro ⟨h, _⟩
      obtain ⟨w, hw, hx⟩ := hf.faulty
      exact h w hw hx
    · cases hf

theorem Exposes.append {is1 is2 : List Item} {e : Ending} {f g : Journal → Trace.Traced Journal} (h1 : Exposes is1 .done f)
    (h2 : Exposes is2 e g) : Exposes (is1 ++ is2) e (fun j => f j >>= g) := by
  refine ⟨?_, fun j hj => exposes_then h1 h2.2 hj⟩
  have := h1.1.append h2.1
  intro j hj
  simp only [Trace.res_bind]
  exact this j hj

theorem Exposes.ends {is : List Item} {e : Ending} {f g : Journal → Trace.Traced Journal} (h : Exposes is e f)
    (he : e ≠ .done) : Exposes is e (fun j => f j >>= g) := by
  refine ⟨?_, ?_⟩
  · have := h.1.ends (g := fun j => (g j).res) he
    intro j hj
    simp only [Trace.res_bind]
    exact this j hj
  · intro j hj
    rw [harms_bind, h.2 j hj, or_iff_left]
    rintro ⟨a, ha, _⟩
    rcases h.1 j hj with ⟨j', _, _, h1, _⟩ | ⟨k, a1, _⟩
    · exact he h1
    · simp only at a1
      rw [a1] at ha; cases ha

/-! ### transactions -/

theorem readBody_harmless (i : Nat) (src : Source) (j : Journal) : ¬ Harms (Trace.readBody i src j) := by
  intro h
  exact absurd (Trace.mem_readBody h).1 (by simp)

theorem bare_iff {w : Writing} {x : Xact} (hx : XactOf w x) :
    ((∃ p ∈ x.posts, p.Blank) ∧ ∀ a ∈ bookedAmounts x.posts, a.comm = none) ↔ Bare w := by
  have blank : ∀ {e p}, PostOf e p → (p.Blank ↔ e.amount = none) := fun h => h.blank_iff
  have comm : ∀ {e p a}, PostOf e p → p.booked = some a → a.comm = e.worthIn := by
    intro e p a h hb
    obtain ⟨b, h1, _, h3⟩ := h.booked_value (fun hn => by rw [(blank h).mpr hn] at hb; cases hb)
    rw [hb] at h1
    injection h1 with h1
    rw [h1]; exact h3
  constructor
  · rintro ⟨⟨p, hp, hbl⟩, hc⟩
    refine ⟨?_, ?_⟩
    · obtain ⟨e, he, h⟩ := forall₂_mem_right hx.posts hp
      exact ⟨e, he, (blank h).mp hbl⟩
    · intro e he hn
      obtain ⟨p, hp, h⟩ := forall₂_mem_left hx.posts he
      cases hb : p.booked with
      | none => exact absurd ((blank h).mp hb) hn
      | some a => rw [← comm h hb]; exact hc a (List.mem_filterMap.mpr ⟨p, hp, hb⟩)
  · rintro ⟨⟨e, he, hn⟩, hc⟩
    refine ⟨?_, ?_⟩
    · obtain ⟨p, hp, h⟩ := forall₂_mem_left hx.posts he
      exact ⟨p, hp, (blank h).mpr hn⟩
    · intro a ha
      obtain ⟨p, hp, hb⟩ := List.mem_filterMap.mp ha
      obtain ⟨e, he, h⟩ := forall₂_mem_right hx.posts hp
      rw [comm h hb]
      refine hc e he (fun hn => ?_)
      rw [(blank h).mpr hn] at hb; cases hb

theorem xactDirective_harms {header : Str} {cs : List Str} {blocks : List (List Str)} {w : Writing}
    (hh : HeaderSays header w) (hcs : List.Forall₂ CommentLine cs w.comments) (hb : List.Forall₂ EntryBlock blocks w.entries)
    {tail rest : Source} (ht : AfterXact tail rest) {j : Journal} (hw : j.master.WF) (hf : ∀ e ∈ w.entries, e.Fits) :
    Harms (Trace.xactDirective header ((cs ++ blocks.flatten).map some ++ tail) j) ↔
      (∃ r, xactDirective header ((cs ++ blocks.flatten).map some ++ tail) j = .ok r) ∧ Bare w := by
  obtain ⟨j1, ps, r1, r2, r3, _⟩ := readBody_written hb hf tail (j := { j with xacts := j.xacts ++ [⟨some w.date, w.aux,
      if w.payee = [] then str "Unknown Payee" else w.payee, [], (lastText w.comments).or (if w.note = [] then none else some w.note)⟩] }) hw rfl
  have hx : XactOf w ⟨some w.date, w.aux, if w.payee = [] then str "Unknown Payee" else w.payee, ps,
      (lastText w.comments).or (if w.note = [] then none else some w.note)⟩ := ⟨rfl, rfl, rfl, rfl, r3⟩
  have hread : readBody j.xacts.length ((cs ++ blocks.flatten).map some ++ tail) { j with xacts := j.xacts ++ [⟨some w.date, w.aux,
      if w.payee = [] then str "Unknown Payee" else w.payee, [], if w.note = [] then none else some w.note⟩] } = .ok (j1, rest) := by
    rw [List.map_append, List.append_assoc, readBody_lead hcs _ _ _ _ _ rfl, r1, readBody_end ht]
  have hget : j1.xacts[j.xacts.length]? = some ⟨some w.date, w.aux, if w.payee = [] then str "Unknown Payee" else w.payee, ps,
      (lastText w.comments).or (if w.note = [] then none else some w.note)⟩ := by
    rw [r2, List.getElem?_append_right (Nat.le_refl _), Nat.sub_self]
    simp
  have hok : (∃ r, xactDirective header ((cs ++ blocks.flatten).map some ++ tail) j = .ok r) ↔
      ∃ r, finalize ⟨some w.date, w.aux, if w.payee = [] then str "Unknown Payee" else w.payee, ps,
      (lastText w.comments).or (if w.note = [] then none else some w.note)⟩ j1.pool = .ok r := by
    unfold xactDirective
    rw [createXact_written hh]
    simp only [bind, Except.bind]
    rw [hread]
    simp only [finalizeXact, hget, bind, Except.bind]
    cases finalize _ j1.pool <;> simp
  rw [hok]
  unfold Trace.xactDirective
  rw [harms_bind, or_iff_right (not_harms_lift _), Trace.res_lift, createXact_written hh]
  simp only [Except.ok.injEq, exists_eq_left', harms_bind, readBody_harmless, false_or, Trace.readBody_res, hread,
    not_harms_pure, and_false, exists_false, or_false]
  unfold Trace.finalizeXact
  rw [hget]
  simp only [harms_bind, not_harms_pure, and_false, exists_false, or_false]
  unfold Harms
  rw [Trace.mem_finalize, bare_iff hx]
  simp

/-! ### texts and files -/

theorem parseWith_harms {inc : Str → Journal → Trace.Traced Journal} {said : Str → List Item → Ending → Prop}
    (hinc : ∀ f is e, said f is e → (∀ w ∈ touched is e, Everyday w) → Exposes is e (inc f)) {src : Source}
    {is : List Item} {e : Ending} (h : SourceSays said src is e) (hd : ∀ w ∈ touched is e, Everyday w) :
    ∀ j, Readable j → (Harms (Trace.parseWith inc src j) ↔ BareMet (writings is)) := by
  have top := fun {line t} (h : TopPart line t) => (topPart_iff line t).mp h
  have none : ∀ {α : Type} {t : Trace.Traced α}, ¬ Harms t → (Harms t ↔ BareMet (writings [])) :=
    fun h => iff_of_false h bareMet_nil
  induction h with
  | nil => exact fun _ _ => none (not_harms_pure _)
  | unreadable =>
    intro j _
    refine iff_of_false ?_ bareMet_nil
    simp [Harms, Trace.parseWith, Trace.parseGo, Trace.mem_bind, Trace.emit]
  | ignored h _ ih =>
    intro j hj
    rw [traced_parseWith_cons, top h]
    exact ih hd j hj
  | skipped h _ ih =>
    intro j hj
    rw [traced_parseWith_cons, top h]
    exact ih hd j hj
  | refused h =>
    intro j hj
    rw [traced_parseWith_cons, top h]
    exact none (not_harms_lift _)
  | indented h =>
    intro j hj
    rw [traced_parseWith_cons, top h]
    exact none (not_harms_lift _)
  | @price line rest r is e h hp _ ih =>
    intro j hj
    rw [traced_parseWith_cons, top h]
    simp only [harms_bind, not_harms_lift, false_or, Trace.res_lift]
    obtain ⟨pool', p1, p2⟩ := priceSays_run hp j.pool
    rw [p1]
    obtain ⟨d, t, q, q1, q2, q3, q4, _, q6⟩ := hp
    obtain ⟨_, o2⟩ := price_outcome p2 (price_run q1 q2 q3 q4 j.pool).1 q6 hj
    simp only [Except.ok.injEq, exists_eq_left']
    exact ih (touched_append (a := [.price r]) hd).2 _ o2
  | badPrice h hp =>
    intro j hj
    rw [traced_parseWith_cons, top h]
    simp only [harms_bind, not_harms_lift, false_or, Trace.res_lift, priceRefused_run hp]
    exact iff_of_false (by rintro ⟨_, h, _⟩; cases h) bareMet_nil
  | @badHeader line rest k h hh =>
    intro j hj
    rw [traced_parseWith_cons, top h]
    simp only [harms_bind, Trace.xactDirective_res, badHeader_run ((topLine_xact _).mp (top h)) hh]
    refine iff_of_false ?_ bareMet_nil
    rintro (h' | ⟨_, h', _⟩)
    · unfold Trace.xactDirective at h'
      rw [harms_bind, Trace.res_lift, (C90_header_refused ((topLine_xact _).mp (top h)) j _).mpr hh] at h'
      rcases h' with h' | ⟨_, h', _⟩
      · exact not_harms_lift _ h'
      · cases h'
    · cases h'
  | @xact line body tl rest w is e hh hb ht _ ih =>
    intro j hj
    rw [traced_parseWith_cons, top hh.top]
    have hd := (touched_append (a := gapIn tl) hd).2
    have hw : Everyday w := (touched_append (a := [.xact w]) hd).1 w (by simp [writings])
    obtain ⟨cs, blocks, hbody, h1, h2⟩ := hb.blocks
    have hg : writings (gapIn tl ++ .xact w :: is) = w :: writings is := by
      rw [writings_append, writings_xact]
      rcases gapIn_or tl with e | e <;> rw [e] <;> rfl
    rw [hg, bareMet_cons]
    simp only [harms_bind, Trace.xactDirective_res]
    have hh' := xactDirective_harms hh h1 h2 ht hj.wf hw.fits
    rw [← hbody] at hh'
    rw [hh']
    rcases xactDirective_decides hh h1 h2 ht hw hj with ⟨j1, w', r1, a1, _, a3, a4⟩ | ⟨k, a1, hf⟩ <;>
      rw [← hbody] at a1 <;> rw [a1]
    · simp only [Except.ok.injEq, exists_eq', true_and, exists_eq_left', ih (touched_append (a := [.xact w]) hd).2 _ a3]
      exact ⟨fun h => ⟨a4, h⟩, fun h => h.2⟩
    · refine iff_of_false ?_ (fun h => h.1 hf.faulty)
      rintro (⟨⟨_, h⟩, _⟩ | ⟨_, h, _⟩) <;> cases h
  | @broken line bad body rest w k hh hb ht =>
    intro j hj
    rw [traced_parseWith_cons, top hh.top]
    have hw : Everyday w := hd w (by simp [touched, writings])
    have he := xactDirective_broken hh hb ht hw.fits hj.wf
    simp only [harms_bind, Trace.xactDirective_res, he]
    refine iff_of_false ?_ bareMet_nil
    rintro (h' | ⟨_, h', _⟩)
    · obtain ⟨c, h1, h2⟩ := readBody_broken hh hb ht hw.fits hj.wf
      unfold Trace.xactDirective at h'
      rw [harms_bind, Trace.res_lift, h1] at h'
      simp only [not_harms_lift, false_or, Except.ok.injEq, exists_eq_left', harms_bind, readBody_harmless,
        Trace.readBody_res, h2] at h'
      obtain ⟨_, h', _⟩ := h'
      cases h'
    · cases h'
  | @included line f rest is is' e h hi _ ih =>
    intro j hj
    rw [traced_parseWith_cons, top h]
    exact exposes_then (hinc f is .done hi (touched_append hd).1) (ih (touched_append hd).2) hj
  | @includedStop line f rest is e h hi he =>
    intro j hj
    rw [traced_parseWith_cons, top h]
    exact ((hinc f is e hi hd).ends (g := fun j => Trace.parseWith inc rest j) he).2 j hj

theorem parseWith_exposes {inc : Str → Journal → Trace.Traced Journal} {said : Str → List Item → Ending → Prop}
    (hinc : ∀ f is e, said f is e → (∀ w ∈ touched is e, Everyday w) → Exposes is e (inc f)) {src : Source}
    {is : List Item} {e : Ending} (h : SourceSays said src is e) (hd : ∀ w ∈ touched is e, Everyday w) :
    Exposes is e (Trace.parseWith inc src) := by
  refine ⟨?_, parseWith_harms hinc h hd⟩
  have := parseWith_items (inc := fun f j => (inc f j).res) (fun f is e h h' => (hinc f is e h h').1) h hd
  intro j hj
  simp only [Trace.parseWith, Trace.parseGo_res inc (fun f j => (inc f j).res) (fun _ _ => rfl)]
  exact this j hj

theorem parse_exposes (files : Files) (depth : Nat) {src : Source} {is : List Item} {e : Ending}
    (h : SaysUpTo files depth src is e) (hd : ∀ w ∈ touched is e, Everyday w) : Exposes is e (Trace.parse files depth src) := by
  induction depth generalizing src is e with
  | zero =>
    refine parseWith_exposes ?_ h hd
    rintro f is e ⟨rfl, ⟨h1, rfl⟩ | ⟨h1, rfl⟩⟩ _
    · simp only [h1]
      exact .nil
    · cases hf : files f with
      | none => exact absurd hf h1
      | some s => exact .error _
  | succ d ih =>
    refine parseWith_exposes ?_ h hd
    rintro f is e (⟨h1, rfl, rfl⟩ | ⟨s, h1, h2⟩) hd'
    · simp only [h1]
      exact .nil
    · simp only [h1]
      exact ih h2 hd'

theorem readFiles_exposes (files : Files) (depth : Nat) {fs : List Str} {is : List Item} {e : Ending}
    (h : FilesSay files depth fs is e) (hd : ∀ w ∈ touched is e, Everyday w) :
    Exposes is e (Trace.readFiles files depth fs) := by
  induction h with
  | nil => exact .nil
  | @missing f fs h =>
    have e : Trace.readFiles files depth (f :: fs) = fun j => Trace.lift (.error .fileOpen) >>= Trace.readFiles files depth fs := by
      funext j
      simp only [Trace.readFiles, Trace.parseFile, h]
    rw [e]
    exact (Exposes.error _).ends (by decide)
  | @read f fs src is is' e h hs _ ih =>
    have e : Trace.readFiles files depth (f :: fs) = fun j => Trace.parse files depth src j >>= Trace.readFiles files depth fs := by
      funext j
      simp only [Trace.readFiles, Trace.parseFile, h]
    rw [e]
    exact (parse_exposes files depth hs (e := .done) (touched_append hd).1).append (ih (touched_append hd).2)
  | @stop f fs src is e h hs he =>
    have e : Trace.readFiles files depth (f :: fs) = fun j => Trace.parse files depth src j >>= Trace.readFiles files depth fs := by
      funext j
      simp only [Trace.readFiles, Trace.parseFile, h]
    rw [e]
    exact (parse_exposes files depth hs hd).ends he

end Ledger
