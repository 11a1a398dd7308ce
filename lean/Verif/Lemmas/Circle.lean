import Verif.Spec.Circle
import Verif.Lemmas.Found
import Verif.Lemmas.Failures
import Verif.Lemmas.Events
import Mathlib.Data.List.Duplicate
/-
Lemmas about files that include each other.
-/
namespace Ledger
open Ledger.Parser Relation

/-- The ending when includes are nested too deep. -/
abbrev tooDeep : Ending := .stop .stackOverflow

/-- What an included file says at a depth. -/
def Inc (files : Files) : Nat → Str → List Item → Ending → Prop
  | 0 => fun f is e => is = [] ∧ ((files f = none ∧ e = .done) ∨ (files f ≠ none ∧ e = .stop .stackOverflow))
  | d + 1 => fun f is e => (files f = none ∧ is = [] ∧ e = .done) ∨ ∃ src, files f = some src ∧ SaysUpTo files d src is e

theorem saysUpTo_inc (files : Files) (d : Nat) : SaysUpTo files d = SourceSays (Inc files d) := by
  cases d <;> rfl

theorem SourceSays.other {inc inc' : Str → List Item → Ending → Prop}
    (hi : ∀ f is e, e ≠ tooDeep → inc f is e → inc' f is e) {src : Source} {is : List Item} {e : Ending}
    (h : SourceSays inc src is e) (he : e ≠ tooDeep) : SourceSays inc' src is e := by
  induction h with
  | nil => exact .nil
  | unreadable => exact .unreadable
  | ignored h _ ih => exact .ignored h (ih he)
  | skipped h _ ih => exact .skipped h (ih he)
  | refused h => exact .refused h
  | indented h => exact .indented h
  | price h hp _ ih => exact .price h hp (ih he)
  | badPrice h hp => exact .badPrice h hp
  | badHeader h hh => exact .badHeader h hh
  | xact hh hb ht _ ih => exact .xact hh hb ht (ih he)
  | broken hh hb ht => exact .broken hh hb ht
  | included h hi' _ ih => exact .included h (hi _ _ _ (by simp) hi') (ih he)
  | includedStop h hi' he' => exact .includedStop h (hi _ _ _ he hi') he'

theorem saysUpTo_succ (files : Files) (d : Nat) {src : Source} {is : List Item} {e : Ending} (h : SaysUpTo files d src is e)
    (he : e ≠ tooDeep) : SaysUpTo files (d + 1) src is e := by
  induction d generalizing src is e with
  | zero =>
    refine SourceSays.other ?_ h he
    rintro f is e he ⟨rfl, ⟨h1, rfl⟩ | ⟨_, h2⟩⟩
    · exact Or.inl ⟨h1, rfl, rfl⟩
    · exact absurd h2 he
  | succ d ih =>
    refine SourceSays.other ?_ h he
    rintro f is e he (h1 | ⟨src, h1, h2⟩)
    · exact Or.inl h1
    · exact Or.inr ⟨src, h1, ih h2 he⟩

theorem saysUpTo_le (files : Files) {d d' : Nat} (hd : d ≤ d') {src : Source} {is : List Item} {e : Ending}
    (h : SaysUpTo files d src is e) (he : e ≠ tooDeep) : SaysUpTo files d' src is e := by
  induction hd with
  | refl => exact h
  | step _ ih => exact saysUpTo_succ files _ ih he

theorem filesSay_le (files : Files) {d d' : Nat} (hd : d ≤ d') {fs : List Str} {is : List Item} {e : Ending}
    (h : FilesSay files d fs is e) (he : e ≠ tooDeep) : FilesSay files d' fs is e := by
  induction h with
  | nil => exact .nil
  | missing h => exact .missing h
  | read h hs _ ih => exact .read h (saysUpTo_le files hd hs (by simp)) (ih he)
  | stop h hs he' => exact .stop h (saysUpTo_le files hd hs he) he'

theorem saysUpTo_agree (files : Files) {d d' : Nat} {src : Source} {is is' : List Item} {e e' : Ending}
    (h : SaysUpTo files d src is e) (he : e ≠ tooDeep) (h' : SaysUpTo files d' src is' e') (he' : e' ≠ tooDeep) : is = is' ∧ e = e' :=
  saysUpTo_unique files (max d d') (saysUpTo_le files (Nat.le_max_left _ _) h he) (saysUpTo_le files (Nat.le_max_right _ _) h' he')

theorem ComesTo.mono {inc inc' : Str → List Item → Ending → Prop} (hi : ∀ f is, inc f is .done → inc' f is .done) {src : Source} {g : Str}
    (h : ComesTo inc src g) : ComesTo inc' src g := by
  induction h with
  | here h => exact .here h
  | ignored h _ ih => exact .ignored h ih
  | skipped h _ ih => exact .skipped h ih
  | price h hp _ ih => exact .price h hp ih
  | xact hh hb ht _ ih => exact .xact hh hb ht ih
  | included h h' _ ih => exact .included h (hi _ _ h') ih

theorem priceRefused_calm {line : Str} {k : Panic} (h : PriceRefused line k) : k ≠ .stackOverflow := by
  cases h <;> simp

theorem top_calm {line : Str} {k : Panic} (h : TopPart line (.fails k)) : k ≠ .stackOverflow := by
  cases h <;> simp

theorem sourceSays_tooDeep {inc : Str → List Item → Ending → Prop} {src : Source} {is : List Item} {e : Ending}
    (h : SourceSays inc src is e) (he : e = tooDeep) : ∃ f is', ComesTo inc src f ∧ inc f is' tooDeep := by
  induction h with
  | nil | unreadable | broken => cases he
  | ignored h _ ih => obtain ⟨f, i, a, b⟩ := ih he; exact ⟨f, i, .ignored h a, b⟩
  | skipped h _ ih => obtain ⟨f, i, a, b⟩ := ih he; exact ⟨f, i, .skipped h a, b⟩
  | refused h => injection he with he; exact absurd he (top_calm h)
  | indented h => cases he
  | price h hp _ ih => obtain ⟨f, i, a, b⟩ := ih he; exact ⟨f, i, .price h hp a, b⟩
  | badPrice h hp => injection he with he; exact absurd he (priceRefused_calm hp)
  | badHeader h hh => injection he with he; rw [hh.1] at he; cases he
  | xact hh hb ht _ ih => obtain ⟨f, i, a, b⟩ := ih he; exact ⟨f, i, .xact hh hb ht a, b⟩
  | included h hi _ ih => obtain ⟨f, i, a, b⟩ := ih he; exact ⟨f, i, .included h hi a, b⟩
  | includedStop h hi _ => exact ⟨_, _, .here h, he ▸ hi⟩

theorem inc_said (files : Files) (d : Nat) {f : Str} {is : List Item} (h : Inc files d f is .done) : Said files f is .done := by
  cases d with
  | zero =>
    obtain ⟨rfl, ⟨h1, _⟩ | ⟨_, h2⟩⟩ := h
    · exact Or.inl ⟨h1, rfl, rfl⟩
    · cases h2
  | succ d =>
    rcases h with h | ⟨src, h1, h2⟩
    · exact Or.inl h
    · exact Or.inr ⟨src, d, h1, h2⟩

/-- Lines that are nested too deep come to a file that is, or for which there is no room. -/
theorem tooDeep_next (files : Files) (d : Nat) {src : Source} {is : List Item} (h : SaysUpTo files d src is tooDeep) :
    ∃ g src', ComesTo (Said files) src g ∧ files g = some src' ∧ ∀ d', d = d' + 1 → ∃ is', SaysUpTo files d' src' is' tooDeep := by
  rw [saysUpTo_inc] at h
  obtain ⟨f, is', h1, h2⟩ := sourceSays_tooDeep h rfl
  have hc := h1.mono (inc' := Said files) (fun f is => inc_said files d)
  cases d with
  | zero =>
    obtain ⟨rfl, ⟨_, h2⟩ | ⟨h2, _⟩⟩ := h2
    · cases h2
    · obtain ⟨src', h3⟩ := Option.ne_none_iff_exists'.mp h2
      exact ⟨f, src', hc, h3, fun d' hd => by omega⟩
  | succ d =>
    rcases h2 with ⟨_, _, h2⟩ | ⟨src', h2, h3⟩
    · cases h2
    · exact ⟨f, src', hc, h2, fun d' hd => by obtain rfl : d = d' := by omega
                                              exact ⟨_, h3⟩⟩

/-- If the lines come to a file and can be read at a depth, then so can the file. -/
theorem ComesTo.passes {inc0 inc : Str → List Item → Ending → Prop}
    (hi : ∀ f i i' e', inc0 f i .done → inc f i' e' → e' ≠ tooDeep → e' = .done) {src : Source} {g : Str} (h : ComesTo inc0 src g)
    {is : List Item} {e : Ending} (hs : SourceSays inc src is e) (he : e ≠ tooDeep) : ∃ is' e', inc g is' e' ∧ e' ≠ tooDeep := by
  induction h generalizing is with
  | here h =>
    have := hs.inv
    rw [(topPart_iff _ _).mp h] at this
    rcases this with ⟨i1, _, h1, _⟩ | ⟨h1, _⟩
    · exact ⟨_, _, h1, by simp⟩
    · exact ⟨_, _, h1, he⟩
  | ignored h _ ih =>
    have := hs.inv
    rw [(topPart_iff _ _).mp h] at this
    exact ih this
  | skipped h _ ih =>
    have := hs.inv
    rw [(topPart_iff _ _).mp h] at this
    exact ih this
  | price h hp _ ih =>
    have := hs.inv
    rw [(topPart_iff _ _).mp h] at this
    rcases this with ⟨_, _, _, h2, _⟩ | ⟨k, h1, _⟩
    · exact ih h2
    · exact (priceSays_not_refused hp h1).elim
  | xact hh hb ht _ ih =>
    have := hs.inv
    rw [(topPart_iff _ _).mp hh.top] at this
    rcases this with ⟨k, h1, _⟩ | ⟨w', tail', a, b, c⟩
    · exact (header_not_refused hh h1).elim
    · obtain ⟨e1, e2, rfl⟩ := bodyReads_unique hb b
      rcases c with ⟨r, i, c1, c2, _⟩ | ⟨bad, r, k, rfl, c2, _⟩
      · obtain rfl := afterXact_unique ht c1
        exact ih c2
      · exact (afterXact_not_refused ht rfl c2).elim
  | included h h0 _ ih =>
    have := hs.inv
    rw [(topPart_iff _ _).mp h] at this
    rcases this with ⟨_, _, _, h2, _⟩ | ⟨h1, h2⟩
    · exact ih h2
    · exact absurd (hi _ _ _ _ h0 h1 he) h2

theorem said_agree (files : Files) (d : Nat) {f : Str} {i i' : List Item} {e' : Ending} (h : Said files f i .done)
    (h' : Inc files d f i' e') (he : e' ≠ tooDeep) : e' = .done := by
  cases d with
  | zero =>
    obtain ⟨_, ⟨_, h2⟩ | ⟨_, h2⟩⟩ := h'
    · exact h2
    · exact absurd h2 he
  | succ d =>
    rcases h' with ⟨_, _, h2⟩ | ⟨src', h2, h3⟩
    · exact h2
    · rcases h with ⟨h1, _⟩ | ⟨src, d0, h1, h4⟩
      · rw [h1] at h2; cases h2
      · rw [h1] at h2
        injection h2 with h2
        subst h2
        exact (saysUpTo_agree files h4 (by simp) h3 he).2.symm

/-- Lines from which one can go on from file to file for ever cannot be read at any depth. -/
theorem tooDeep_of_closed (files : Files) {S : Source → Prop}
    (hS : ∀ src, S src → ∃ g src', ComesTo (Said files) src g ∧ files g = some src' ∧ S src') (d : Nat) {src : Source} (h : S src)
    {is : List Item} {e : Ending} (hs : SaysUpTo files d src is e) : e = tooDeep := by
  induction d generalizing src is e with
  | zero =>
    by_contra he
    obtain ⟨g, src', h1, h2, h3⟩ := hS src h
    rw [saysUpTo_inc] at hs
    obtain ⟨is', e', h4, h5⟩ := h1.passes (inc := Inc files 0) (fun f i i' e' => said_agree files 0) hs he
    obtain ⟨_, ⟨h6, _⟩ | ⟨_, h6⟩⟩ := h4
    · rw [h2] at h6; cases h6
    · exact h5 h6
  | succ d ih =>
    by_contra he
    obtain ⟨g, src', h1, h2, h3⟩ := hS src h
    rw [saysUpTo_inc] at hs
    obtain ⟨is', e', h4, h5⟩ := h1.passes (inc := Inc files (d + 1)) (fun f i i' e' => said_agree files (d + 1)) hs he
    rcases h4 with ⟨h6, _⟩ | ⟨s, h6, h7⟩
    · rw [h2] at h6; cases h6
    · rw [h2] at h6
      injection h6 with h6
      subst h6
      exact h5 (ih h3 h7)

theorem tooDeep_circle (files : Files) {f g : Str} (h1 : ReflTransGen (Leads files) f g) (h2 : TransGen (Leads files) g g) {src : Source}
    (hf : files f = some src) (d : Nat) : ∃ is, SaysUpTo files d src is tooDeep := by
  obtain ⟨is, e, h⟩ := saysUpTo_total files d src
  have := tooDeep_of_closed files (S := fun s => ∃ f, files f = some s ∧ TransGen (Leads files) f g) (fun s ⟨f, k1, k2⟩ => by
    have key : ∀ f s, files f = some s → TransGen (Leads files) f g →
        ∃ m src', ComesTo (Said files) s m ∧ files m = some src' ∧ TransGen (Leads files) m g := by
      intro f s k1 k2
      obtain ⟨m, k3, k4⟩ := TransGen.head'_iff.mp k2
      obtain ⟨k5, s', k6, k7⟩ := k3
      rw [k1] at k6
      injection k6 with k6
      subst k6
      obtain ⟨src', k8⟩ := Option.ne_none_iff_exists'.mp k5
      refine ⟨m, src', k7, k8, ?_⟩
      rcases reflTransGen_iff_eq_or_transGen.mp k4 with rfl | k4
      · exact h2
      · exact k4
    obtain ⟨m, src', a, b, c⟩ := key f s k1 k2
    exact ⟨m, src', a, b, m, b, c⟩) d ⟨f, hf, by
      rcases reflTransGen_iff_eq_or_transGen.mp h1 with rfl | h1
      · exact h2
      · exact h1⟩ h
  exact ⟨is, this ▸ h⟩

/-- A file that is nested too deep leads to a chain of files as long as the depth. -/
theorem tooDeep_chain (files : Files) (d : Nat) {f : Str} {src : Source} (hf : files f = some src) {is : List Item}
    (h : SaysUpTo files d src is tooDeep) : ∃ gs : List Str, gs.length = d + 1 ∧ List.IsChain (Leads files) (f :: gs) := by
  induction d generalizing f src is with
  | zero =>
    obtain ⟨g, src', h1, h2, _⟩ := tooDeep_next files 0 h
    exact ⟨[g], rfl, .cons_cons ⟨by simp [h2], src, hf, h1⟩ (.singleton _)⟩
  | succ d ih =>
    obtain ⟨g, src', h1, h2, h3⟩ := tooDeep_next files (d + 1) h
    obtain ⟨is', h4⟩ := h3 d rfl
    obtain ⟨gs, h5, h6⟩ := ih h2 h4
    exact ⟨g :: gs, by simp [h5], .cons_cons ⟨by simp [h2], src, hf, h1⟩ h6⟩

/-- A chain that is longer than there are files runs in a circle. -/
theorem chain_circle {R : Str → Str → Prop} {L : List Str} {f : Str} {gs : List Str} (h : List.IsChain R (f :: gs)) (hL : ∀ g ∈ f :: gs, g ∈ L)
    (hl : L.length < (f :: gs).length) : ∃ g, ReflTransGen R f g ∧ TransGen R g g := by
  have hp : List.Pairwise (TransGen R) (f :: gs) := (h.imp (fun _ _ => TransGen.single)).pairwise
  have hd : ¬ (f :: gs).Nodup := fun hn => by
    have := (hn.subperm hL).length_le
    omega
  obtain ⟨x, hx⟩ := List.exists_duplicate_iff_not_nodup.mpr hd
  refine ⟨x, ?_, ?_⟩
  · rcases List.mem_cons.mp hx.mem with rfl | hm
    · exact .refl
    · exact ((List.pairwise_cons.mp hp).1 x hm).to_reflTransGen
  · have := hp.sublist (List.duplicate_iff_sublist.mp hx)
    simpa using this

theorem tooDeep_circle_of (files : Files) {L : List Str} (hL : Only files L) {d : Nat} (hd : L.length ≤ d + 1) {f : Str} {src : Source}
    (hf : files f = some src) {is : List Item} (h : SaysUpTo files d src is tooDeep) :
    ∃ g, ReflTransGen (Leads files) f g ∧ TransGen (Leads files) g g := by
  obtain ⟨gs, h1, h2⟩ := tooDeep_chain files d hf h
  refine chain_circle h2 (fun g hg => hL g ?_) (by rw [List.length_cons]; omega)
  have key : ∀ (l : List Str) (f : Str), files f ≠ none → List.IsChain (Leads files) (f :: l) → ∀ g ∈ f :: l, files g ≠ none := by
    intro l
    induction l with
    | nil => intro f hf _ g hg; rw [List.mem_singleton.mp hg]; exact hf
    | cons a l ih =>
      intro f hf hc g hg
      rw [List.isChain_cons_cons] at hc
      rcases List.mem_cons.mp hg with rfl | hg
      · exact hf
      · exact ih a hc.1.1 hc.2 g hg
  exact key gs f (by simp [hf]) h2 g hg

theorem filesSay_tooDeep (files : Files) {d : Nat} {fs : List Str} {is : List Item} {e : Ending} (h : FilesSay files d fs is e)
    (he : e = tooDeep) : ∃ a f b src i1 i2, fs = a ++ f :: b ∧ FilesSay files d a i1 .done ∧ files f = some src ∧
      SaysUpTo files d src i2 tooDeep := by
  induction h with
  | nil => cases he
  | missing h => cases he
  | read h hs _ ih =>
    obtain ⟨a, f, b, src, i1, i2, rfl, h1, h2, h3⟩ := ih he
    exact ⟨_ :: a, f, b, src, _, i2, rfl, .read h hs h1, h2, h3⟩
  | stop h hs _ => exact ⟨[], _, _, _, [], _, rfl, .nil, h, he ▸ hs⟩

theorem filesSay_then (files : Files) {d : Nat} {a : List Str} {f : Str} {b : List Str} {i1 : List Item} (h : FilesSay files d a i1 .done)
    {src : Source} (hf : files f = some src) {i2 : List Item} (hs : SaysUpTo files d src i2 tooDeep) :
    ∃ is, FilesSay files d (a ++ f :: b) is tooDeep := by
  generalize hz : Ending.done = z at h
  induction h with
  | nil => exact ⟨_, .stop hf hs (by simp)⟩
  | missing _ => cases hz
  | read h hs' _ ih => obtain ⟨is, k⟩ := ih hz; exact ⟨_, .read h hs' k⟩
  | stop _ _ he => exact absurd hz.symm he

theorem filesSay_circle (files : Files) {fs : List Str} (h : RunsInCircles files fs) (d : Nat) : ∃ is, FilesSay files d fs is tooDeep := by
  obtain ⟨a, f, b, g, rfl, ⟨d0, i0, h1⟩, h2, h3⟩ := h
  have hf : ∃ src, files f = some src := by
    rcases reflTransGen_iff_eq_or_transGen.mp h2 with rfl | h2
    · obtain ⟨m, ⟨_, src, k, _⟩, _⟩ := TransGen.head'_iff.mp h3
      exact ⟨src, k⟩
    · obtain ⟨m, ⟨_, src, k, _⟩, _⟩ := TransGen.head'_iff.mp h2
      exact ⟨src, k⟩
  obtain ⟨src, hf⟩ := hf
  obtain ⟨is, e, h⟩ := filesSay_total files d (a ++ f :: b)
  by_cases he : e = tooDeep
  · exact ⟨is, he ▸ h⟩
  · exfalso
    obtain ⟨i2, h4⟩ := tooDeep_circle files h2 h3 hf (max d d0)
    obtain ⟨is', h5⟩ := filesSay_then files (b := b) (filesSay_le files (Nat.le_max_right d d0) h1 (by simp)) hf h4
    exact he (filesSay_unique files _ (filesSay_le files (Nat.le_max_left d d0) h he) h5).2

/-! ### without a circle -/

theorem calm_parseGo {inc : Str → Journal → Res Journal} (hinc' : ∀ f j j', InOrder j → inc f j = .ok j' → InOrder j') (fuel : Nat)
    (src : Source) (j : Journal) (hj : InOrder j) (hf : src.length < fuel)
    (hinc : ∀ f line j, some line ∈ src → topLine line = .includeFile f → InOrder j → inc f j ≠ .error .stackOverflow) :
    parseGo inc fuel src j ≠ .error .stackOverflow := by
  induction fuel generalizing src j with
  | zero => omega
  | succ fuel ih =>
    cases src with
    | nil => rw [parseGo]; simp
    | cons l rest =>
      cases l with
      | none => rw [parseGo]; simp
      | some line =>
        rw [List.length_cons] at hf
        rw [parseGo]
        have hrest := fun f line j (h : some line ∈ rest) => hinc f line j (List.mem_cons_of_mem _ h)
        cases ht : topLine line with
        | ignored => exact ih rest j hj (by omega) hrest
        | skipped => exact ih rest j hj (by omega) hrest
        | indented => simp
        | fails p =>
          intro h
          injection h with h
          have := topLine_fails ht
          rw [h] at this
          exact absurd this (by decide)
        | price =>
          simp only [bind, Except.bind]
          cases hp : j.pool.parsePriceDirective line with
          | error e =>
            intro h
            injection h with h
            exact absurd (h ▸ fails_priceDirective line j.pool e hp) (by decide)
          | ok p => exact ih rest _ (hj.grows ⟨.refl _, Pool.later_priceDirective hp⟩) (by omega) hrest
        | includeFile f =>
          simp only [bind, Except.bind]
          cases hp : inc f j with
          | error e => exact fun h => hinc f line j (List.mem_cons_self) ht hj (hp.trans h)
          | ok p => exact ih rest _ (hinc' f j p hj hp) (by omega) hrest
        | xact =>
          obtain ⟨c, cs, rfl, hc⟩ := (topLine_xact line).mp ht
          simp only [bind, Except.bind]
          cases hp : xactDirective (c :: cs) rest j with
          | error e =>
            intro h
            injection h with h
            exact absurd (h ▸ fails_xactDirective_calm hc rest hj e hp) (by decide)
          | ok r =>
            obtain ⟨j', rest'⟩ := r
            obtain ⟨_, _, _, _, _, _, _, _, _, _, _, hg, hsuf, hl⟩ := xactDirective_ok hp
            exact ih rest' j' (hj.grows hg) (by omega) (fun f line j h => hrest f line j ((Trace.xactDirective_suffix hp).mem h))

/-- If includes are nested too deep, there is an include line of a file that is, or for which there is no room. -/
theorem overflow_next (files : Files) (d : Nat) {src : Source} {j : Journal} (hj : InOrder j) (h : parse files d src j = .error .stackOverflow) :
    ∃ g line src', some line ∈ src ∧ TopPart line (.includeFile g) ∧ files g = some src' ∧
      ∀ d', d = d' + 1 → ∃ j', InOrder j' ∧ parse files d' src' j' = .error .stackOverflow := by
  by_contra hn
  cases d with
  | zero =>
    rw [parse] at h
    refine calm_parseGo ?_ _ src j hj (Nat.lt_succ_self _) ?_ h
    · intro f j j' hj h
      split at h
      · injection h with h; subst h; exact hj
      · cases h
    · intro f line j hm ht hj h
      split at h
      · cases h
      · rename_i src' hf
        exact hn ⟨f, line, src', hm, (topPart_iff _ _).mpr ht, hf, fun d' hd => by omega⟩
  | succ d =>
    rw [parse] at h
    refine calm_parseGo ?_ _ src j hj (Nat.lt_succ_self _) ?_ h
    · intro f j j' hj h
      split at h
      · injection h with h; subst h; exact hj
      · exact hj.grows (parse_ok _ _ _ _ _ h).1
    · intro f line j hm ht hj h
      split at h
      · cases h
      · rename_i src' hf
        refine hn ⟨f, line, src', hm, (topPart_iff _ _).mpr ht, hf, fun d' hd => ?_⟩
        obtain rfl : d = d' := by omega
        exact ⟨j, hj, h⟩

theorem overflow_chain (files : Files) (d : Nat) {f : Str} {src : Source} (hf : files f = some src) {j : Journal} (hj : InOrder j)
    (h : parse files d src j = .error .stackOverflow) : ∃ gs : List Str, gs.length = d + 1 ∧ List.IsChain (Cites files) (f :: gs) := by
  induction d generalizing f src j with
  | zero =>
    obtain ⟨g, line, src', h1, h2, h3, _⟩ := overflow_next files 0 hj h
    exact ⟨[g], rfl, .cons_cons ⟨by simp [h3], src, line, hf, h1, h2⟩ (.singleton _)⟩
  | succ d ih =>
    obtain ⟨g, line, src', h1, h2, h3, h4⟩ := overflow_next files (d + 1) hj h
    obtain ⟨j', h5, h6⟩ := h4 d rfl
    obtain ⟨gs, h7, h8⟩ := ih h3 h5 h6
    exact ⟨g :: gs, by simp [h7], .cons_cons ⟨by simp [h3], src, line, hf, h1, h2⟩ h8⟩

theorem cites_exist {files : Files} : ∀ (l : List Str) (f : Str), files f ≠ none → List.IsChain (Cites files) (f :: l) →
    ∀ g ∈ f :: l, files g ≠ none := by
  intro l
  induction l with
  | nil => intro f hf _ g hg; rw [List.mem_singleton.mp hg]; exact hf
  | cons a l ih =>
    intro f hf hc g hg
    rw [List.isChain_cons_cons] at hc
    rcases List.mem_cons.mp hg with rfl | hg
    · exact hf
    · exact ih a hc.1.1 hc.2 g hg

theorem overflow_circle (files : Files) {L : List Str} (hL : Only files L) {d : Nat} (hd : L.length ≤ d + 1) {f : Str} {src : Source}
    (hf : files f = some src) {j : Journal} (hj : InOrder j) (h : parse files d src j = .error .stackOverflow) :
    ∃ g, ReflTransGen (Cites files) f g ∧ TransGen (Cites files) g g := by
  obtain ⟨gs, h1, h2⟩ := overflow_chain files d hf hj h
  exact chain_circle h2 (fun g hg => hL g (cites_exist gs f (by simp [hf]) h2 g hg)) (by rw [List.length_cons]; omega)

theorem lotPart_calm {q s d text : Str} {o : Res (Str × Str × Str × Str)} (h : LotPart q s d text o) : o ≠ .error .stackOverflow := by
  induction h with
  | price _ _ _ _ ih | date _ _ _ _ ih => exact ih
  | _ => simp

theorem bodyRefused_calm {line : Str} {k : Panic} (h : BodyRefused line k) : k ≠ .stackOverflow := by
  intro hk
  subst hk
  cases h with
  | posting _ h =>
    cases h with
    | scan h =>
      cases h with
      | badLot _ _ h => exact lotPart_calm h rfl
      | badCost _ _ _ h => cases h

theorem ending_calm {inc : Str → List Item → Ending → Prop} (hi : ∀ f is e, inc f is e → e.panic = some .stackOverflow → e = tooDeep)
    {src : Source} {is : List Item} {e : Ending} (h : SourceSays inc src is e) (he : e.panic = some .stackOverflow) : e = tooDeep := by
  induction h with
  | nil | unreadable | indented => cases he
  | ignored _ _ ih | skipped _ _ ih | price _ _ _ ih | xact _ _ _ _ ih | included _ _ _ ih => exact ih he
  | refused | badPrice | badHeader => injection he with he; rw [he]
  | broken _ _ ht => injection he with he; exact absurd he (bodyRefused_calm ht)
  | includedStop _ h _ => exact hi _ _ _ h he

theorem saysUpTo_panic (files : Files) (d : Nat) {src : Source} {is : List Item} {e : Ending} (h : SaysUpTo files d src is e)
    (he : e.panic = some .stackOverflow) : e = tooDeep := by
  induction d generalizing src is e with
  | zero =>
    refine ending_calm ?_ h he
    rintro f is e ⟨_, ⟨_, rfl⟩ | ⟨_, rfl⟩⟩ he
    · cases he
    · rfl
  | succ d ih =>
    refine ending_calm ?_ h he
    rintro f is e (⟨_, _, rfl⟩ | ⟨src, _, h⟩) he
    · cases he
    · exact ih h he

theorem filesSay_panic (files : Files) (d : Nat) {fs : List Str} {is : List Item} {e : Ending} (h : FilesSay files d fs is e)
    (he : e.panic = some .stackOverflow) : e = tooDeep := by
  induction h with
  | nil | missing => cases he
  | read _ _ _ ih => exact ih he
  | stop _ hs _ => exact saysUpTo_panic files d hs he

theorem cause_calm {w : Writing} {k : Panic} (h : Cause w k) : k ≠ .stackOverflow := by
  cases h with
  | cost _ _ _ _ _ _ _ _ he => cases he <;> simp
  | _ => simp

end Ledger
