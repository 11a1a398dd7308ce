import Verif.Spec.Whole
import Verif.Lemmas.Ending
import Verif.Lemmas.Events
/-
How many unreadable lines are reported.
-/
namespace Ledger
open Ledger.Parser

/-! ### counting -/

theorem gapsMet_total (is : List Item) : ∃ n, GapsMet is n := by
  induction is with
  | nil => exact ⟨0, .nil⟩
  | cons i is ih =>
    obtain ⟨n, h⟩ := ih
    cases i with
    | gap => exact ⟨_, .gap h⟩
    | price r => exact ⟨_, .price h⟩
    | xact w =>
      by_cases hw : Faulty w
      · exact ⟨_, .faulty hw⟩
      · exact ⟨_, .fine hw h⟩

theorem GapsMet.unique {is : List Item} {n m : Nat} (h : GapsMet is n) (h' : GapsMet is m) : n = m := by
  induction h generalizing m with
  | nil => cases h'; rfl
  | gap _ ih => cases h' with | gap h => rw [ih h]
  | price _ ih => cases h' with | price h => exact ih h
  | fine hw _ ih => cases h' with
    | fine _ h => exact ih h
    | faulty h => exact absurd h hw
  | faulty hw => cases h' with
    | fine h _ => exact absurd hw h
    | faulty _ => rfl

theorem GapsMet.append {a b : List Item} {n m : Nat} (h : GapsMet a n) (hb : GapsMet b m)
    (hf : ∀ w ∈ writings a, ¬ Faulty w) : GapsMet (a ++ b) (n + m) := by
  induction h with
  | nil => simpa using hb
  | gap _ ih => rw [Nat.add_right_comm]; exact .gap (ih hf)
  | price _ ih => exact .price (ih hf)
  | fine hw _ ih => exact .fine hw (ih (fun w h => hf w (by simp [writings_xact, h])))
  | faulty hw => exact absurd hw (hf _ (by simp [writings_xact]))

theorem GapsMet.append_faulty {a : List Item} {n : Nat} (h : GapsMet a n) (b : List Item)
    (hf : ∃ w ∈ writings a, Faulty w) : GapsMet (a ++ b) n := by
  induction h with
  | nil => obtain ⟨_, h, _⟩ := hf; cases h
  | gap _ ih => exact .gap (ih hf)
  | price _ ih => exact .price (ih hf)
  | fine hw _ ih =>
    obtain ⟨v, h, hv⟩ := hf
    rcases List.mem_cons.mp h with rfl | h
    · exact absurd hv hw
    · exact .fine hw (ih ⟨v, h, hv⟩)
  | faulty hw => exact .faulty hw

/-- The reported lines among the events. -/
def reported {α : Type} (t : Trace.Traced α) : Nat := t.events.count .readError

theorem reported_bind {α β : Type} (m : Trace.Traced α) (f : α → Trace.Traced β) :
    reported (m >>= f) = reported m + (match m.res with | .ok a => reported (f a) | .error _ => 0) := by
  unfold reported
  rw [Trace.events_bind, List.count_append]
  cases m.res <;> simp

theorem reported_lift {α : Type} (r : Res α) : reported (Trace.lift r) = 0 := rfl

theorem reported_pure {α : Type} (a : α) : reported (pure a : Trace.Traced α) = 0 := rfl

/-- A traced reading: its result is as `DecidesItems` says, and it reports the unreadable lines that are met. -/
def Tells (is : List Item) (e : Ending) (run : Journal → Trace.Traced Journal) : Prop :=
  DecidesItems is e (fun j => (run j).res) ∧ ∀ j, Readable j → GapsMet is (reported (run j))

theorem Tells.nil : Tells [] .done pure := ⟨DecidesItems.nil, fun _ _ => .nil⟩

theorem Tells.error (k : Panic) : Tells [] (.stop k) (fun _ => Trace.lift (.error k)) :=
  ⟨DecidesItems.error k, fun _ _ => .nil⟩

theorem Tells.append {is1 is2 : List Item} {e : Ending} {f g : Journal → Trace.Traced Journal} (h1 : Tells is1 .done f)
    (h2 : Tells is2 e g) : Tells (is1 ++ is2) e (fun j => f j >>= g) := by
  refine ⟨?_, ?_⟩
  · have := h1.1.append h2.1
    intro j hj
    simp only [Trace.res_bind]
    exact this j hj
  · intro j hj
    rw [reported_bind]
    rcases h1.1 j hj with ⟨j', _, _, _, a1, _, a3, a4⟩ | ⟨k, a1, hf⟩
    · simp only at a1
      rw [a1]
      exact (h1.2 j hj).append (h2.2 j' a3) a4
    · simp only at a1
      rw [a1]
      rcases hf with hf | ⟨_, hf⟩
      · exact (h1.2 j hj).append_faulty _ hf.faulty
      · cases hf

theorem Tells.ends {is : List Item} {e : Ending} {f g : Journal → Trace.Traced Journal} (h : Tells is e f)
    (he : e ≠ .done) : Tells is e (fun j => f j >>= g) := by
  refine ⟨?_, ?_⟩
  · have := h.1.ends (g := fun j => (g j).res) he
    intro j hj
    simp only [Trace.res_bind]
    exact this j hj
  · intro j hj
    rw [reported_bind]
    rcases h.1 j hj with ⟨j', _, _, h1, _⟩ | ⟨k, a1, _⟩
    · exact absurd h1 he
    · simp only at a1
      rw [a1]
      exact h.2 j hj

/-! ### transactions -/

theorem readBody_error_events {i : Nat} {src : Source} {j : Journal} {k : Panic} (h : Parser.readBody i src j = .error k) :
    (Trace.readBody i src j).events = [] := by
  induction src generalizing j with
  | nil => cases h
  | cons l src ih =>
    cases l with
    | none => cases h
    | some line =>
      rw [Parser.readBody] at h
      rw [Trace.readBody]
      cases hc : classify line with
      | fin => rw [hc] at h; cases h
      | bad => rfl
      | note =>
        rw [hc] at h
        simp only [bind] at h
        simp only [Trace.events_bind, Trace.events_lift, Trace.res_lift, List.nil_append]
        cases hn : parseTrailingNote line i j with
        | error e => rfl
        | ok j' => rw [hn] at h; exact ih h
      | post input =>
        rw [hc] at h
        simp only [bind] at h
        simp only [Trace.events_bind, Trace.events_lift, Trace.res_lift, List.nil_append]
        cases hn : parsePost input i j with
        | error e => rfl
        | ok j' => rw [hn] at h; exact ih h

theorem readBody_gap {src tail rest : Source} {ts : List Str} {es : List Entry} (h : BodyReads src ts es tail)
    (ht : AfterXact tail rest) {i : Nat} {j : Journal} {r : Journal × Source} (hr : Parser.readBody i src j = .ok r) :
    reported (Trace.readBody i src j) = (gapIn tail).length := by
  induction h generalizing j with
  | stop =>
    rcases ht with ⟨rfl, _⟩ | ⟨line, rfl, he⟩ | rfl
    · rfl
    · rw [Trace.readBody, (classify_fin line).mpr he]
      rfl
    · rfl
  | comment hc _ ih =>
    obtain ⟨_, _, _, hcl⟩ := hc.trim
    rw [Parser.readBody, hcl] at hr
    rw [Trace.readBody, hcl]
    simp only [bind] at hr
    simp only [reported_bind, reported_lift, Trace.res_lift, Nat.zero_add]
    revert hr
    cases parseTrailingNote _ i j with
    | error e => intro hr; cases hr
    | ok j' => exact fun hr => ih ht hr
  | posting he _ ih =>
    obtain ⟨text, hcl, _⟩ := he.classify
    rw [Parser.readBody, hcl] at hr
    rw [Trace.readBody, hcl]
    simp only [bind] at hr
    simp only [reported_bind, reported_lift, Trace.res_lift, Nat.zero_add]
    revert hr
    cases parsePost text i j with
    | error e => intro hr; cases hr
    | ok j' => exact fun hr => ih ht hr

theorem finalizeXact_reported (i : Nat) (j : Journal) : reported (Trace.finalizeXact i j) = 0 := by
  unfold reported
  rw [List.count_eq_zero]
  unfold Trace.finalizeXact
  split
  · simp
  · simp only [Trace.mem_bind, Trace.events_pure, List.not_mem_nil, and_false, exists_false, or_false]
    exact Trace.finalize_no_readError _ _

theorem xactDirective_reported (line : Str) (rest : Source) (j : Journal) :
    reported (Trace.xactDirective line rest j) =
      match createXact line j with | .ok c => reported (Trace.readBody c.2 rest c.1) | .error _ => 0 := by
  unfold Trace.xactDirective
  rw [reported_bind, reported_lift, Nat.zero_add, Trace.res_lift]
  cases createXact line j with
  | error e => rfl
  | ok c =>
    simp only [reported_bind, finalizeXact_reported, reported_pure]
    cases (Trace.readBody c.2 rest c.1).res with
    | error e => rfl
    | ok r =>
      simp only
      cases (Trace.finalizeXact c.2 r.1).res <;> rfl

/-- The lines of a written transaction are read, whether it is faulty or not. -/
theorem readBody_everyday {header : Str} {body tail rest : Source} {w : Writing} (hh : HeaderSays header w)
    (hb : BodyReads body w.comments w.entries tail) (ht : AfterXact tail rest) (hf : ∀ e ∈ w.entries, e.Fits) {j : Journal}
    (hw : j.master.WF) : ∃ c r, createXact header j = .ok c ∧ Parser.readBody c.2 body c.1 = .ok r := by
  obtain ⟨cs, blocks, rfl, h1, h2⟩ := hb.blocks
  obtain ⟨j1, ps, r1, _⟩ := readBody_written h2 hf tail (j := { j with xacts := j.xacts ++ [⟨some w.date, w.aux,
      if w.payee = [] then str "Unknown Payee" else w.payee, [], (lastText w.comments).or (if w.note = [] then none else some w.note)⟩] }) hw rfl
  rw [createXact_written hh]
  refine ⟨_, (j1, rest), rfl, ?_⟩
  simp only
  rw [List.map_append, List.append_assoc, readBody_lead h1 _ _ _ _ _ rfl, r1, readBody_end ht]

theorem xactDirective_gap {header : Str} {body tail rest : Source} {w : Writing} (hh : HeaderSays header w)
    (hb : BodyReads body w.comments w.entries tail) (ht : AfterXact tail rest) (hf : ∀ e ∈ w.entries, e.Fits) {j : Journal}
    (hw : j.master.WF) : reported (Trace.xactDirective header body j) = (gapIn tail).length := by
  obtain ⟨c, r, h1, h2⟩ := readBody_everyday hh hb ht hf hw
  rw [xactDirective_reported, h1]
  exact readBody_gap hb ht h2

theorem readBody_broken {header bad : Str} {body rest : Source} {w : Writing} {k : Panic} (hh : HeaderSays header w)
    (hb : BodyReads body w.comments w.entries (some bad :: rest)) (ht : BodyRefused bad k) (hf : ∀ e ∈ w.entries, e.Fits)
    {j : Journal} (hw : j.master.WF) : ∃ c, createXact header j = .ok c ∧ Parser.readBody c.2 body c.1 = .error k := by
  obtain ⟨cs, blocks, rfl, h1, h2⟩ := hb.blocks
  obtain ⟨j1, ps, r1, _, _, r4, _⟩ := readBody_written h2 hf (some bad :: rest) (j := { j with xacts := j.xacts ++ [⟨some w.date, w.aux,
      if w.payee = [] then str "Unknown Payee" else w.payee, [], (lastText w.comments).or (if w.note = [] then none else some w.note)⟩] }) hw rfl
  rw [createXact_written hh]
  refine ⟨_, rfl, ?_⟩
  simp only
  rw [List.map_append, List.append_assoc, readBody_lead h1 _ _ _ _ _ rfl, r1, readBody_refused ht _ _ r4]

theorem xactDirective_error_reported {line : Str} {rest : Source} {j : Journal} {k : Panic}
    (h : ∀ c, createXact line j = .ok c → Parser.readBody c.2 rest c.1 = .error k) :
    reported (Trace.xactDirective line rest j) = 0 := by
  rw [xactDirective_reported]
  cases hc : createXact line j with
  | error e => rfl
  | ok c =>
    show reported (Trace.readBody c.2 rest c.1) = 0
    unfold reported
    rw [readBody_error_events (h c hc)]
    rfl

/-! ### texts -/

theorem traced_parseGo_more (inc : Str → Journal → Trace.Traced Journal) (fuel : Nat) (src : Source) (j : Journal)
    (h : src.length < fuel) : Trace.parseGo inc fuel src j = Trace.parseGo inc (src.length + 1) src j := by
  have traced_congr : ∀ {α β : Type} (m : Trace.Traced α) (f g : α → Trace.Traced β), (∀ a, m.res = .ok a → f a = g a) →
      m >>= f = m >>= g := by
    intro α β m f g h
    simp only [bind]
    cases hm : m.res with
    | error e => rfl
    | ok a => simp only [h a hm]
  generalize hk : src.length = k
  induction k using Nat.strongRecOn generalizing src j fuel with
  | _ k ih =>
    cases fuel with
    | zero => omega
    | succ fuel =>
      cases src with
      | nil => simp only [List.length_nil] at hk; subst hk; rfl
      | cons l src =>
        rw [List.length_cons] at hk h
        subst hk
        cases l with
        | none => rfl
        | some line =>
          rw [Trace.parseGo, Trace.parseGo]
          have hs : ∀ j, Trace.parseGo inc fuel src j = Trace.parseGo inc (src.length + 1) src j := by
            intro j; exact ih src.length (by omega) fuel src j (by omega) rfl
          cases topLine line with
          | ignored => exact hs j
          | skipped => exact hs j
          | indented => rfl
          | fails p => rfl
          | price => exact traced_congr _ _ _ (fun _ _ => hs _)
          | includeFile f => exact traced_congr _ _ _ (fun _ _ => hs _)
          | xact =>
            refine traced_congr _ _ _ ?_
            rintro ⟨j', rest'⟩ hx
            rw [Trace.xactDirective_res] at hx
            obtain ⟨_, _, _, _, _, _, _, _, _, _, _, _, _, hl⟩ := xactDirective_ok hx
            show Trace.parseGo inc fuel rest' j' = Trace.parseGo inc (src.length + 1) rest' j'
            rw [ih rest'.length (by omega) fuel rest' j' (by omega) rfl,
              ih rest'.length (by omega) (src.length + 1) rest' j' (by omega) rfl]

theorem traced_parseWith_cons (inc : Str → Journal → Trace.Traced Journal) (line : Str) (rest : Source) (j : Journal) :
    Trace.parseWith inc (some line :: rest) j = (match topLine line with
      | .ignored => Trace.parseWith inc rest j
      | .skipped => Trace.parseWith inc rest j
      | .xact => Trace.xactDirective line rest j >>= fun r => Trace.parseWith inc r.2 r.1
      | .indented => Trace.lift (.error .indentedTopLevel)
      | .includeFile file => inc file j >>= fun j' => Trace.parseWith inc rest j'
      | .price => Trace.lift (j.pool.parsePriceDirective line) >>= fun pool => Trace.parseWith inc rest { j with pool := pool }
      | .fails p => Trace.lift (.error p)) := by
  unfold Trace.parseWith
  rw [List.length_cons, Trace.parseGo]
  cases topLine line with
  | ignored => rfl
  | skipped => rfl
  | indented => rfl
  | fails p => rfl
  | price => rfl
  | includeFile f => rfl
  | xact =>
    simp only [bind]
    cases hx : (Trace.xactDirective line rest j).res with
    | error e => rfl
    | ok r =>
      obtain ⟨j', rest'⟩ := r
      simp only
      rw [Trace.xactDirective_res] at hx
      obtain ⟨_, _, _, _, _, _, _, _, _, _, _, _, _, hl⟩ := xactDirective_ok hx
      rw [traced_parseGo_more inc _ rest' j' (by omega)]

theorem touched_append {a b : List Item} {e : Ending} (h : ∀ w ∈ touched (a ++ b) e, Everyday w) :
    (∀ w ∈ writings a, Everyday w) ∧ ∀ w ∈ touched b e, Everyday w := by
  cases e <;> simp only [touched, writings_append, List.mem_append] at h ⊢ <;>
    exact ⟨fun w hw => h w (by simp [hw]), fun w hw => h w (by tauto)⟩

theorem gapIn_met (tail : Source) {is : List Item} {n : Nat} (h : GapsMet is n) :
    GapsMet (gapIn tail ++ is) ((gapIn tail).length + n) := by
  rcases gapIn_or tail with e | e <;> rw [e]
  · simpa using h
  · rw [Nat.add_comm]; exact .gap h

theorem parseWith_reported {inc : Str → Journal → Trace.Traced Journal} {said : Str → List Item → Ending → Prop}
    (hinc : ∀ f is e, said f is e → (∀ w ∈ touched is e, Everyday w) → Tells is e (inc f)) {src : Source}
    {is : List Item} {e : Ending} (h : SourceSays said src is e) (hd : ∀ w ∈ touched is e, Everyday w) :
    ∀ j, Readable j → GapsMet is (reported (Trace.parseWith inc src j)) := by
  have top := fun {line t} (h : TopPart line t) => (topPart_iff line t).mp h
  induction h with
  | nil => exact fun _ _ => .nil
  | unreadable => exact fun _ _ => .gap .nil
  | ignored h _ ih =>
    intro j hj
    rw [traced_parseWith_cons, top h]
    exact ih hd j hj
  | skipped h _ ih =>
    intro j hj
    rw [traced_parseWith_cons, top h]
    exact ih hd j hj
  | refused h =>
    intro j hj
    rw [traced_parseWith_cons, top h]
    exact .nil
  | indented h =>
    intro j hj
    rw [traced_parseWith_cons, top h]
    exact .nil
  | @price line rest r is e h hp _ ih =>
    intro j hj
    rw [traced_parseWith_cons, top h]
    simp only [reported_bind, reported_lift, Trace.res_lift, Nat.zero_add]
    obtain ⟨pool', p1, p2⟩ := priceSays_run hp j.pool
    rw [p1]
    obtain ⟨d, t, q, q1, q2, q3, q4, _, q6⟩ := hp
    obtain ⟨_, o2⟩ := price_outcome p2 (price_run q1 q2 q3 q4 j.pool).1 q6 hj
    exact .price (ih (touched_append (a := [.price r]) hd).2 _ o2)
  | badPrice h hp =>
    intro j hj
    rw [traced_parseWith_cons, top h]
    simp only [reported_bind, reported_lift, Trace.res_lift, Nat.zero_add, priceRefused_run hp]
    exact .nil
  | badHeader h hh =>
    intro j hj
    rw [traced_parseWith_cons, top h]
    simp only [reported_bind, Trace.xactDirective_res, badHeader_run ((topLine_xact _).mp (top h)) hh]
    rw [xactDirective_reported, (C90_header_refused ((topLine_xact _).mp (top h)) j _).mpr hh]
    exact .nil
  | @xact line body tl rest w is e hh hb ht _ ih =>
    intro j hj
    rw [traced_parseWith_cons, top hh.top]
    have hd := (touched_append (a := gapIn tl) hd).2
    have hw : Everyday w := (touched_append (a := [.xact w]) hd).1 w (by simp [writings])
    simp only [reported_bind, Trace.xactDirective_res, xactDirective_gap hh hb ht hw.fits hj.wf]
    refine gapIn_met tl ?_
    obtain ⟨cs, blocks, hbody, h1, h2⟩ := hb.blocks
    rcases xactDirective_decides hh h1 h2 ht hw hj with ⟨j1, w', r1, a1, _, a3, a4⟩ | ⟨k, a1, hf⟩ <;>
      rw [← hbody] at a1 <;> rw [a1]
    · exact .fine a4 (ih (touched_append (a := [.xact w]) hd).2 _ a3)
    · exact .faulty hf.faulty
  | @broken line bad body rest w k hh hb ht =>
    intro j hj
    rw [traced_parseWith_cons, top hh.top]
    have hw : Everyday w := hd w (by simp [touched, writings])
    have he := xactDirective_broken hh hb ht hw.fits hj.wf
    simp only [reported_bind, Trace.xactDirective_res, he, Nat.add_zero]
    obtain ⟨c, h1, h2⟩ := readBody_broken hh hb ht hw.fits hj.wf
    rw [xactDirective_error_reported (k := k) (fun c' h' => by rw [h1] at h'; injection h' with h'; exact h' ▸ h2)]
    exact .nil
  | @included line f rest is is' e h hi _ ih =>
    intro j hj
    rw [traced_parseWith_cons, top h]
    have ht := hinc f is .done hi (touched_append hd).1
    simp only [reported_bind]
    rcases ht.1 j hj with ⟨j', _, _, _, a1, _, a3, a4⟩ | ⟨k, a1, hf⟩ <;> simp only at a1 <;> rw [a1]
    · exact (ht.2 j hj).append (ih (touched_append hd).2 j' a3) a4
    · rcases hf with hf | ⟨_, hf⟩
      · exact (ht.2 j hj).append_faulty _ hf.faulty
      · cases hf
  | @includedStop line f rest is e h hi he =>
    intro j hj
    rw [traced_parseWith_cons, top h]
    exact ((hinc f is e hi hd).ends (g := fun j => Trace.parseWith inc rest j) he).2 j hj

theorem parseWith_tells {inc : Str → Journal → Trace.Traced Journal} {said : Str → List Item → Ending → Prop}
    (hinc : ∀ f is e, said f is e → (∀ w ∈ touched is e, Everyday w) → Tells is e (inc f)) {src : Source}
    {is : List Item} {e : Ending} (h : SourceSays said src is e) (hd : ∀ w ∈ touched is e, Everyday w) :
    Tells is e (Trace.parseWith inc src) := by
  refine ⟨?_, parseWith_reported hinc h hd⟩
  have := parseWith_items (inc := fun f j => (inc f j).res) (fun f is e h h' => (hinc f is e h h').1) h hd
  intro j hj
  simp only [Trace.parseWith, Trace.parseGo_res inc (fun f j => (inc f j).res) (fun _ _ => rfl)]
  exact this j hj

theorem parse_tells (files : Files) (depth : Nat) {src : Source} {is : List Item} {e : Ending}
    (h : SaysUpTo files depth src is e) (hd : ∀ w ∈ touched is e, Everyday w) : Tells is e (Trace.parse files depth src) := by
  induction depth generalizing src is e with
  | zero =>
    refine parseWith_tells ?_ h hd
    rintro f is e ⟨rfl, ⟨h1, rfl⟩ | ⟨h1, rfl⟩⟩ _
    · simp only [h1]
      exact .nil
    · cases hf : files f with
      | none => exact absurd hf h1
      | some s => exact .error _
  | succ d ih =>
    refine parseWith_tells ?_ h hd
    rintro f is e (⟨h1, rfl, rfl⟩ | ⟨s, h1, h2⟩) hd'
    · simp only [h1]
      exact .nil
    · simp only [h1]
      exact ih h2 hd'

theorem readFiles_tells (files : Files) (depth : Nat) {fs : List Str} {is : List Item} {e : Ending}
    (h : FilesSay files depth fs is e) (hd : ∀ w ∈ touched is e, Everyday w) :
    Tells is e (Trace.readFiles files depth fs) := by
  induction h with
  | nil => exact .nil
  | @missing f fs h =>
    have e : Trace.readFiles files depth (f :: fs) = fun j => Trace.lift (.error .fileOpen) >>= Trace.readFiles files depth fs := by
      funext j
      simp only [Trace.readFiles, Trace.parseFile, h]
    rw [e]
    exact (Tells.error _).ends (by decide)
  | @read f fs src is is' e h hs _ ih =>
    have e : Trace.readFiles files depth (f :: fs) = fun j => Trace.parse files depth src j >>= Trace.readFiles files depth fs := by
      funext j
      simp only [Trace.readFiles, Trace.parseFile, h]
    rw [e]
    exact (parse_tells files depth hs (e := .done) (touched_append hd).1).append (ih (touched_append hd).2)
  | @stop f fs src is e h hs he =>
    have e : Trace.readFiles files depth (f :: fs) = fun j => Trace.parse files depth src j >>= Trace.readFiles files depth fs := by
      funext j
      simp only [Trace.readFiles, Trace.parseFile, h]
    rw [e]
    exact (parse_tells files depth hs hd).ends he

end Ledger
