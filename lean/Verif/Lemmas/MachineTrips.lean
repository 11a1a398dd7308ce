import Verif.Lemmas.MachineExact
import Verif.Spec.Trips
/-
A faulty transaction, with pointers: when a stale pointer is followed before the fault is found.
-/
namespace Ledger.Machine
open Ledger Ledger.Memory Ledger.Heap Ledger.Parser

/-! ### pointers that can be followed -/

theorem live_iff {p : Store} (hp : p.Fine) {A : Amt} (hA : Good p.keys A) : Live p A ↔ GoodQ (Now p) A := by
  constructor
  · intro h x hx
    exact ⟨hA x hx, look_block h hx⟩
  · intro h
    rcases look_cases (sound_now hp) h with ⟨c, h1, _⟩ | ⟨_, h2⟩
    · exact ⟨c, h1⟩
    · exact h2.elim

theorem not_live {p : Store} (hp : p.Fine) {A : Amt} (hA : Good p.keys A) (h : ¬ Live p A) : p.look A.ptr = .error .danglingPointer := by
  rcases look_cases (sound_taken hp) hA with ⟨c, h1, _⟩ | ⟨h1, _⟩
  · exact absurd ⟨c, h1⟩ h
  · exact h1

/-- What cannot go on but with a stale pointer. -/
theorem Sim.trips {α β : Type} {R : α → β → Prop} {L : α → Prop} {m : Res α} {M : Res β} (h : Sim R L m M) {a : α} (ha : m = .ok a)
    (hM : ∀ b, M ≠ .ok b) : M = .error .danglingPointer := by
  subst ha
  cases M with
  | ok b => exact absurd rfl (hM b)
  | error e => rw [h.1]

theorem Sim.exact {α β : Type} {R : α → β → Prop} {m : Res α} {M : Res β} (h : Sim R (fun _ => False) m M) {k : Panic} (hk : m = .error k) :
    M = .error k := by
  subst hk
  cases M with
  | ok b => exact h.elim
  | error e =>
    rcases h with h | ⟨_, _, h⟩
    · rw [h]
    · exact h.elim

theorem Sim.runs {α β : Type} {R : α → β → Prop} {m : Res α} {M : Res β} (h : Sim R (fun _ => False) m M) {a : α} (ha : m = .ok a) :
    ∃ b, M = .ok b ∧ R a b := by
  subst ha
  cases M with
  | ok b => exact ⟨b, rfl, h⟩
  | error e => exact h.2.elim

/-- A transaction that has been read, with and without pointers. -/
structure Opened (M : List Str) (w : Writing) (p : Store) (xs : List Post) (XS : List Pst) : Prop where
  fine : p.Fine
  timed : Timed (M ++ entryMentions w.entries) p
  posts : List.Forall₂ PostOf w.entries xs
  rel : List.Forall₂ (PostR p.keys) xs XS
  stamps : Stamps M w.entries (XS.map Pst.money)

section
variable {M : List Str} {w : Writing} {p : Store} {xs : List Post} {XS : List Pst} (hO : Opened M w p xs XS)
include hO

theorem Opened.get {l r : List Entry} {e : Entry} (he : w.entries = l ++ e :: r) : ∃ x X, xs[l.length]? = some x ∧ XS[l.length]? = some X ∧
    PostOf e x ∧ PostR p.keys x X ∧ Stamp (M ++ entryMentions l) e X.amount X.cost := by
  obtain ⟨am, c, h1, h2⟩ := hO.stamps.get he
  rw [List.getElem?_map] at h1
  obtain ⟨X, hX, h3⟩ := Option.map_eq_some_iff.mp h1
  obtain ⟨rfl, rfl⟩ := fst_ext h3
  obtain ⟨x, hx, hr⟩ := forall₂_getElem?_right hO.rel hX
  obtain ⟨e', he', hp⟩ := forall₂_getElem?_right hO.posts hx
  rw [he, List.getElem?_append_right (Nat.le_refl _), Nat.sub_self, List.getElem?_cons_zero] at he'
  injection he' with he'
  subst he'
  exact ⟨x, X, hx, hX, hp, hr, h2⟩

theorem Opened.at {i : Nat} {X : Pst} (hX : XS[i]? = some X) : ∃ l e r, w.entries = l ++ e :: r ∧ l.length = i := by
  have : (XS.map Pst.money)[i]? = some (X.amount, X.cost) := by rw [List.getElem?_map, hX]; rfl
  obtain ⟨l, e, r, h1, h2, _⟩ := hO.stamps.at this
  exact ⟨l, e, r, h1, h2⟩

/-- The figure of a posting, with its pointer. -/
theorem Opened.figure {l r : List Entry} {e : Entry} {X : Pst} (he : w.entries = l ++ e :: r) (hX : XS[l.length]? = some X) :
    (X.figure = none ↔ e.amount = none) ∧ (StaleBooked M w l e ↔ ∃ f, X.figure = some f ∧ ¬ Live p f) ∧
    ∀ f, X.figure = some f → Good p.keys f := by
  obtain ⟨x, X', hx, hX', hpe, hr, hs⟩ := hO.get he
  rw [hX] at hX'
  injection hX' with hX'
  subst hX'
  have hfig : x.booked = X.figure.map (Amt.er p.keys) ∧ ∀ f, X.figure = some f → Good p.keys f := by
    obtain ⟨⟨a1, a2⟩, ⟨c1, c2⟩, _⟩ := hr
    unfold Post.booked Pst.figure
    rw [c1]
    cases hc : X.cost with
    | none => simp only [Option.map_none]; exact ⟨a1, a2⟩
    | some C => simp only [Option.map_some]; exact ⟨trivial, fun f hf => by injection hf with hf; subst hf; exact c2 _ hc⟩
  have hnone : X.figure = none ↔ e.amount = none := by
    rw [← hpe.blank_iff]
    unfold Post.Blank
    rw [hfig.1]
    simp
  refine ⟨hnone, ?_, hfig.2⟩
  -- where the pointer comes from
  have hptr : ∀ f y, X.figure = some f → f.ptr = some y → e.worthIn ≠ none ∧
      y.block = place (M ++ entryMentions l ++ e.bookedAfter) ∧ M ++ entryMentions l ++ e.bookedAfter ≠ [] ∧
      M ++ entryMentions l ++ e.bookedAfter <+: M ++ entryMentions w.entries := by
    intro f y hf hy
    have hea : e.amount ≠ none := fun h => by rw [hnone.mpr h] at hf; cases hf
    obtain ⟨b, hb1, _, hb2⟩ := hpe.booked_value hea
    rw [hfig.1, hf] at hb1
    injection hb1 with hb1
    have hw : e.worthIn ≠ none := by
      rw [← hb2, ← hb1]
      intro h
      rw [isNone_er] at h
      rw [hy] at h; cases h
    have hlate : M ++ entryMentions l ++ e.bookedAfter <+: M ++ entryMentions w.entries := by
      refine List.IsPrefix.trans ?_ (mentions_split M he)
      unfold Entry.bookedAfter
      split
      · exact holder_prefix _ e
      · exact List.prefix_rfl
    have hcomm : e.cost.bind (·.2.comm) = none → e.commodity = e.worthIn ∨ e.worthIn = none := by
      intro h
      unfold Entry.worthIn Entry.commodity
      cases ha : e.amount with
      | none => exact absurd ha hea
      | some a =>
        cases hc : e.cost with
        | none => exact Or.inl rfl
        | some c =>
          obtain ⟨u, k⟩ := c
          rw [hc] at h
          have h' : k.comm = none := h
          cases u with
          | false => exact Or.inr h'
          | true =>
            refine Or.inl ?_
            show a.comm = k.comm.or a.comm
            rw [h']; rfl
    have hne : M ++ entryMentions l ++ e.bookedAfter ≠ [] := by
      intro h
      have h := (List.append_eq_nil_iff.mp h).2
      unfold Entry.bookedAfter at h
      split at h
      · rename_i hc
        rcases hcomm hc with h' | h'
        · obtain ⟨s, hs'⟩ := Option.ne_none_iff_exists'.mp (h'.symm ▸ hw)
          rw [holder_of hs'] at h
          cases h
        · exact hw h'
      · rename_i hc
        obtain ⟨s, hs'⟩ := Option.ne_none_iff_exists'.mp hc
        unfold Entry.mentions at h
        rw [hs'] at h
        simp at h
    refine ⟨hw, ?_, hne, hlate⟩
    unfold Pst.figure at hf
    cases hc : X.cost with
    | some C =>
      simp only [hc, Option.some.injEq] at hf
      subst hf
      exact hs.booked _ y hc hy
    | none =>
      simp only [hc] at hf
      obtain ⟨s, k1, k2, _⟩ := stamp_commodity hs hf hy
      have hec : e.cost = none := hs.cost.mpr hc
      rw [k2]
      unfold Entry.bookedAfter
      rw [hec, Option.bind_none, if_pos rfl, holder_of k1]
      rfl
  constructor
  · rintro ⟨h1, h2⟩
    have hea : e.amount ≠ none := by
      intro h; apply h1; unfold Entry.worthIn; rw [h]
    obtain ⟨b, hb1, _, hb2⟩ := hpe.booked_value hea
    rw [hfig.1] at hb1
    obtain ⟨f, hf, hfb⟩ := Option.map_eq_some_iff.mp hb1
    refine ⟨f, hf, fun hl => ?_⟩
    cases hy : f.ptr with
    | none =>
      apply h1
      rw [← hb2, ← hfb]
      exact (isNone_er _ _).mpr hy
    | some y =>
      obtain ⟨_, k1, k2, k3⟩ := hptr f y hf hy
      have := look_block hl hy
      rw [hO.timed.block, k1] at this
      exact (moves_place k2 k3).mpr this h2
  · rintro ⟨f, hf, hl⟩
    cases hy : f.ptr with
    | none => exact absurd ⟨none, by rw [hy]; rfl⟩ hl
    | some y =>
      obtain ⟨k0, k1, k2, k3⟩ := hptr f y hf hy
      refine ⟨k0, ?_⟩
      by_contra hn
      apply hl
      rw [live_iff hO.fine (hfig.2 f hf)]
      intro z hz
      refine ⟨hfig.2 f hf z hz, ?_⟩
      rw [hy] at hz
      injection hz with hz
      rw [← hz, hO.timed.block, k1]
      exact (moves_place k2 k3).mp hn

theorem Opened.amount {l r : List Entry} {e : Entry} {X : Pst} (he : w.entries = l ++ e :: r) (hX : XS[l.length]? = some X) :
    (StaleAmount M w l e ↔ ∃ A, X.amount = some A ∧ ¬ Live p A) ∧ ∀ A, X.amount = some A → Good p.keys A := by
  obtain ⟨x, X', hx, hX', hpe, hr, hs⟩ := hO.get he
  rw [hX] at hX'
  injection hX' with hX'
  subst hX'
  refine ⟨?_, hr.amount.2⟩
  have hpre : ∀ s, e.commodity = some s → M ++ entryMentions l ++ [s] <+: M ++ entryMentions w.entries := by
    intro s k1
    refine List.IsPrefix.trans ?_ (mentions_split M he)
    have := holder_prefix (M ++ entryMentions l) e
    rw [holder_of k1] at this
    exact this
  constructor
  · rintro ⟨s, h1, h2⟩
    obtain ⟨A, y, a1, a2, a3⟩ := stamp_amount hs h1
    refine ⟨A, a1, fun hl => ?_⟩
    have := look_block hl a2
    rw [hO.timed.block, a3] at this
    exact (moves_place (by simp) (hpre s h1)).mpr this h2
  · rintro ⟨A, hA, hl⟩
    cases hy : A.ptr with
    | none => exact absurd ⟨none, by rw [hy]; rfl⟩ hl
    | some y =>
      obtain ⟨s, k1, k2, _⟩ := stamp_commodity hs hA hy
      refine ⟨s, k1, ?_⟩
      by_contra hn
      apply hl
      rw [live_iff hO.fine (hr.amount.2 A hA)]
      intro z hz
      refine ⟨hr.amount.2 A hA z hz, ?_⟩
      rw [hy] at hz
      injection hz with hz
      rw [← hz, hO.timed.block, k2]
      exact (moves_place (by simp) (hpre s k1)).mp hn

/-- What is found in the pool for the commodity of an amount. -/
theorem Opened.found {l r : List Entry} {e : Entry} {X : Pst} {A : Amt} {y n : Addr} {c : Commodity} (he : w.entries = l ++ e :: r)
    (hX : XS[l.length]? = some X) (hA : X.amount = some A) (hy : A.ptr = some y) (hc : p.deref y = .ok c)
    (hn : p.nodes[c.graphIndex]? = some n) :
    ∃ s, e.commodity = some s ∧ keyAt p.keys n.slot = s ∧ (firsts (M ++ entryMentions w.entries))[c.graphIndex]? = some s ∧
      n.block = tableBlock (c.graphIndex + 1) := by
  obtain ⟨x, X', hx, hX', hpe, hr, hs⟩ := hO.get he
  rw [hX] at hX'
  injection hX' with hX'
  subst hX'
  have hp := hO.fine
  obtain ⟨s, k1, k2, k3⟩ := stamp_commodity hs hA hy
  rcases deref_cases (sound_taken hp) (hr.amount.2 A hA y hy) with ⟨c', d1, d2, d3, d4⟩ | ⟨d1, _⟩
  · rw [hc] at d1
    injection d1 with d1
    subst d1
    have hi := hp.inv.find d3
    have hk : p.keys = p.er.history.nodes := by rw [← hp.inv.keys]; exact (Store.keys_er _).symm
    have hsym : keyAt p.keys y.slot = s := by
      have hpre : M ++ entryMentions l ++ [s] <+: M ++ entryMentions w.entries := by
        refine List.IsPrefix.trans ?_ (mentions_split M he)
        have := holder_prefix (M ++ entryMentions l) e
        rw [holder_of k1] at this
        exact this
      obtain ⟨t, ht⟩ := firsts_prefix hpre
      unfold keyAt
      rw [hO.timed.keys, ← ht, List.getElem?_append_left (List.getElem?_eq_some_iff.mp k3).1, k3]
      rfl
    rw [hsym] at hi
    have h3 := hi.2
    refine ⟨s, k1, ?_, ?_, hO.timed.stamped.node _ _ hn⟩
    · simp only [Store.er, List.getElem?_map, hn, Option.map_some, Option.some.injEq] at h3
      exact h3
    · rw [← hk, hO.timed.keys] at h3
      exact h3
  · rw [hc] at d1; cases d1

theorem Opened.nodes {l r : List Entry} {e : Entry} {X : Pst} {A : Amt} (he : w.entries = l ++ e :: r)
    (hX : XS[l.length]? = some X) (hA : X.amount = some A) (hn : ¬ StaleNode M w e) : NodesQ p (Now p) A := by
  have hp := hO.fine
  have hpre : ∀ s, e.commodity = some s → ∀ pre, pre <+: M ++ entryMentions w.entries → s ∈ pre → place pre = tableBlock p.keys.length := by
    intro s hs pre h1 h2
    rw [hO.timed.block]
    exact (moves_place (List.ne_nil_of_mem h2) h1).mp (fun h => hn ⟨s, pre, hs, h1, h2, h⟩)
  refine ⟨?_, ?_⟩
  · intro y c n hy hc hn
    obtain ⟨s, k1, k2, k3, k4⟩ := hO.found he hX hA hy hc hn
    refine ⟨hp.nodes n (List.mem_of_getElem? hn), ?_⟩
    obtain ⟨pre, g1, g2, g3⟩ := first_mention k3
    rw [k4, ← hpre s k1 pre g1 g2]
    unfold place
    rw [g3]
  · intro y c n d hy hc hn hdn z hz pr hpr x hx
    obtain ⟨s, k1, k2, k3, k4⟩ := hO.found he hX hA hy hc hn
    refine ⟨hp.anns _ (assocGet_mem _ _ _ hz) pr hpr x hx, ?_⟩
    rcases deref_cases (sound_taken hp) (hp.nodes n (List.mem_of_getElem? hn)) with ⟨c', d1, d2, d3, d4⟩ | ⟨d1, _⟩
    · rw [hdn] at d1
      injection d1 with d1
      subst d1
      rw [d2, k2] at hz
      obtain ⟨pre, g1, g2, g3⟩ := hO.timed.lots s z pr x hz hpr hx
      rw [g3]
      exact hpre s k1 pre g1 g2
    · rw [hdn] at d1; cases d1

theorem Opened.nodeLive {l r : List Entry} {e : Entry} {X : Pst} (he : w.entries = l ++ e :: r)
    (hX : XS[l.length]? = some X) (hl : NodeLive p X) : ¬ StaleNode M w e := by
  obtain ⟨A, y, c, node, hA, hy, hc, hg⟩ := hl
  rintro ⟨s, pre, h1, h2, h3, h4⟩
  unfold Store.getByIndex at hg
  cases hn : p.nodes[c.graphIndex]? with
  | none => rw [hn] at hg; cases hg
  | some n =>
    rw [hn] at hg
    simp only at hg
    obtain ⟨s', k1, k2, k3, k4⟩ := hO.found he hX hA hy hc hn
    rw [h1] at k1
    injection k1 with k1
    subst k1
    have hb : n.block = tableBlock p.keys.length := by
      unfold Store.deref at hg
      split at hg
      · assumption
      · cases hg
    have := place_first k3 h2 h3
    rw [← k4, hb, hO.timed.block] at this
    exact (moves_place (List.ne_nil_of_mem h3) h2).mpr (Nat.le_antisymm (place_mono h2) this) h4

end

/-! ### the first loop -/

theorem sumPosts_append (p : Store) (l r : List Pst) (i : Nat) (b : List Amt) (np : Option Nat) :
    sumPosts p (l ++ r) i b np = sumPosts p l i b np >>= fun z => sumPosts p r (i + l.length) z.1 z.2 := by
  induction l generalizing i b np with
  | nil => rfl
  | cons x l ih =>
    rw [List.cons_append, sumPosts_cons, sumPosts_cons]
    have hi : i + (x :: l).length = i + 1 + l.length := by rw [List.length_cons]; omega
    rw [hi]
    cases x.figure with
    | some a =>
      simp only
      cases addTo p b a with
      | error e => rfl
      | ok b' => exact ih _ _ _
    | none =>
      cases np with
      | some n => rfl
      | none => exact ih _ _ _

theorem sumPosts_quiet {p : Store} {xs : List Pst} (h : ∀ X ∈ xs, X.figure = none) (i : Nat) (b : List Amt) (np : Option Nat) :
    sumPosts p xs i b np ≠ .error .danglingPointer := by
  induction xs generalizing i np with
  | nil => intro h; cases h
  | cons x xs ih =>
    rw [sumPosts_cons, h x (by simp)]
    cases np with
    | some n => intro h; cases h
    | none => exact ih (fun X hX => h X (by simp [hX])) _ _

theorem sumPosts_few {p : Store} {xs : List Pst} (h : (xs.filterMap Pst.figure).length ≤ 1) (i : Nat) (np : Option Nat) :
    sumPosts p xs i [] np ≠ .error .danglingPointer := by
  induction xs generalizing i np with
  | nil => intro h; cases h
  | cons x xs ih =>
    rw [sumPosts_cons]
    cases hx : x.figure with
    | none =>
      rw [List.filterMap_cons_none hx] at h
      cases np with
      | some n => intro h; cases h
      | none => exact ih h _ _
    | some a =>
      rw [List.filterMap_cons_some hx, List.length_cons] at h
      refine sumPosts_quiet ?_ _ _ _
      intro X hX
      by_contra hn
      obtain ⟨f, hf⟩ := Option.ne_none_iff_exists'.mp hn
      have : f ∈ xs.filterMap Pst.figure := List.mem_filterMap.mpr ⟨X, hX, hf⟩
      have := List.length_pos_of_mem this
      omega

/-- A posting reduced to what it is booked at. -/
def Pst.bare (X : Pst) : Pst := { X with amount := X.figure, cost := none }

def bare (x : Post) : Post := { x with amount := x.booked, cost := none }

theorem sumPosts_bare (p : Store) (xs : List Pst) (i : Nat) (b : List Amt) (np : Option Nat) :
    sumPosts p (xs.map Pst.bare) i b np = sumPosts p xs i b np := by
  induction xs generalizing i b np with
  | nil => rfl
  | cons x xs ih =>
    rw [List.map_cons, sumPosts_cons, sumPosts_cons]
    have : x.bare.figure = x.figure := rfl
    rw [this]
    simp only [ih]

theorem pureSum_bare (xs : List Post) (i : Nat) (b : Balance) (np : Option Nat) :
    Finalize.sumPosts (xs.map bare) i b np = Finalize.sumPosts xs i b np := by
  induction xs generalizing i b np with
  | nil => rfl
  | cons x xs ih =>
    rw [List.map_cons, Ledger.sumPosts_cons, Ledger.sumPosts_cons]
    have : (bare x).booked = x.booked := rfl
    rw [this]
    simp only [ih]

theorem figure_rel {ks : List Str} {x : Post} {X : Pst} (h : PostR ks x X) : OptR ks x.booked X.figure := by
  obtain ⟨⟨a1, a2⟩, ⟨c1, c2⟩, _⟩ := h
  unfold Post.booked Pst.figure
  rw [c1]
  cases hc : X.cost with
  | none => simp only [Option.map_none]; exact ⟨a1, a2⟩
  | some C => simp only [Option.map_some]; exact ⟨rfl, fun f hf => by injection hf with hf; subst hf; exact c2 _ hc⟩

/-- Two figures or more, and one of them has a stale pointer. -/
def Stumbles (p : Store) (XS : List Pst) : Prop :=
  2 ≤ (XS.filterMap Pst.figure).length ∧ ∃ X ∈ XS, ∃ f, X.figure = some f ∧ ¬ Live p f

theorem sum_stumbles {p : Store} (hp : p.Fine) {xs : List Post} {XS : List Pst} (hx : List.Forall₂ (PostR p.keys) xs XS) {b : Balance}
    {np : Option Nat} (h : Finalize.sumPosts xs 0 Balance.empty none = .ok (b, np)) (hs : Stumbles p XS) :
    sumPosts p XS 0 [] none = .error .danglingPointer := by
  obtain ⟨h2, X, hX, f, hf, hl⟩ := hs
  refine (sumPosts_sim (sound_taken hp) hx 0 (b := Balance.empty) (AmtsQ.nil _ _) none).trips h ?_
  rintro ⟨b', np'⟩ hm
  rcases sumPosts_zero hm with g | ⟨l, Y, r, f', g1, g2, _, g4⟩
  · exact hl (g X hX f hf)
  · have quiet : ∀ t : List Pst, (∀ Z ∈ t, Z.figure = none) → t.filterMap Pst.figure = [] := by
      intro t ht
      rw [List.filterMap_eq_nil_iff]
      exact ht
    rw [g1, List.filterMap_append, List.filterMap_cons_some g2, quiet l (fun Z hZ => g4 Z (by simp [hZ])),
      quiet r (fun Z hZ => g4 Z (by simp [hZ]))] at h2
    simp at h2

theorem sum_steady {p : Store} (hp : p.Fine) {xs : List Post} {XS : List Pst} (hx : List.Forall₂ (PostR p.keys) xs XS) {b : Balance}
    {np : Option Nat} (h : Finalize.sumPosts xs 0 Balance.empty none = .ok (b, np)) (hs : ¬ Stumbles p XS) :
    ∃ B, sumPosts p XS 0 [] none = .ok (B, np) ∧ Amts p.keys b.amounts B ∧
      (2 ≤ (XS.filterMap Pst.figure).length → AmtsQ p.keys (Now p) b.amounts B) := by
  by_cases h2 : 2 ≤ (XS.filterMap Pst.figure).length
  · have hl : ∀ X ∈ XS, ∀ f, X.figure = some f → Live p f := by
      intro X hX f hf
      by_contra hn
      exact hs ⟨h2, X, hX, f, hf, hn⟩
    have hb : List.Forall₂ (PostRQ p.keys (Now p)) (xs.map bare) (XS.map Pst.bare) := by
      clear h hs h2
      induction hx with
      | nil => exact .nil
      | @cons x X xs XS h1 _ ih =>
        refine .cons ?_ (ih (fun X hX => hl X (by simp [hX])))
        obtain ⟨r1, r2⟩ := figure_rel h1
        refine ⟨⟨r1, fun A hA => ?_⟩, ⟨rfl, fun A hA => (by cases hA)⟩, h1.note⟩
        exact (live_iff hp (r2 A hA)).mp (hl X (by simp) A hA)
    have hsim := sumPosts_sim (sound_now hp) hb 0 (b := Balance.empty) (AmtsQ.nil _ _) none
    rw [pureSum_bare, sumPosts_bare] at hsim
    obtain ⟨⟨B, np'⟩, k1, k2, k3⟩ := hsim.runs h
    simp only at k2 k3
    subst k3
    exact ⟨B, k1, ⟨k2.1, fun a ha x hx => (k2.2 a ha x hx).1⟩, fun _ => k2⟩
  · have hsim := sumPosts_sim (sound_taken hp) hx 0 (b := Balance.empty) (AmtsQ.nil _ _) none
    cases hm : sumPosts p XS 0 [] none with
    | error e =>
      rw [h, hm] at hsim
      exact absurd (by rw [hm, hsim.1]) (sumPosts_few (p := p) (xs := XS) (by omega) 0 none)
    | ok z =>
      rw [h, hm] at hsim
      obtain ⟨B, np'⟩ := z
      obtain ⟨k2, k3⟩ := hsim
      simp only at k2 k3
      subst k3
      exact ⟨B, rfl, k2, fun h => absurd h h2⟩

/-! ### the two-commodity phase -/

theorem assignCosts_live {p : Store} {c : Option Commodity} {u : Amt} {xs xs' : List Pst} {b b' : List Amt}
    (h : assignCosts p c u xs b = .ok (xs', b')) : ∀ X ∈ xs, ∀ A, X.amount = some A → Live p A := by
  induction xs generalizing xs' b b' with
  | nil => intro X hX; cases hX
  | cons x xs ih =>
    rw [assignCosts] at h
    cases ha : x.amount with
    | none => rw [ha] at h; cases h
    | some a =>
      rw [ha] at h
      simp only at h
      obtain ⟨d, hd, h⟩ := bind_ok h
      have rest : ∀ X ∈ xs, ∀ A, X.amount = some A → Live p A := by
        split at h
        · obtain ⟨_, _, h⟩ := bind_ok h
          obtain ⟨_, _, h⟩ := bind_ok h
          obtain ⟨_, _, h⟩ := bind_ok h
          obtain ⟨⟨_, _⟩, h, _⟩ := bind_ok h
          exact ih h
        · obtain ⟨⟨_, _⟩, h, _⟩ := bind_ok h
          exact ih h
      intro X hX A hA
      rcases List.mem_cons.mp hX with rfl | hX
      · rw [ha] at hA; injection hA with hA; exact ⟨d, hA ▸ hd⟩
      · exact rest X hX A hA

/-- Two entries of the balance that are not zero. -/
def Pair (ps : List Post) (b : Balance) : Prop :=
  ∃ x y top, b.amounts = [x, y] ∧ Finalize.topPost ps = some top ∧ x.isZero = false ∧ y.isZero = false

theorem rates_none {p : Store} {xs : List Post} {XS : List Pst} (hx : List.Forall₂ (PostR p.keys) xs XS) {b : Balance} {B : List Amt}
    (hb : Amts p.keys b.amounts B) {np : Option Nat} (hno : np = none → ¬ Pair xs b) : impliedCosts p XS B np = .ok (XS, B) := by
  unfold impliedCosts
  cases np with
  | some n => rfl
  | none =>
    match B, hb with
    | [], _ => rfl
    | [_], _ => rfl
    | _ :: _ :: _ :: _, _ => rfl
    | [x, y], hb =>
      simp only
      rcases topPost_rel hx with ⟨_, h⟩ | ⟨t, T, h1, h2, _⟩
      · rw [h]
      · rw [h2]
        simp only
        split
        · rename_i hz
          refine absurd ⟨x.er p.keys, y.er p.keys, t, hb.1, h1, ?_, ?_⟩ (hno rfl)
          · simpa [Amt.er, Amount.isZero, Amt.isZero] using hz.1
          · simpa [Amt.er, Amount.isZero, Amt.isZero] using hz.2
        · rfl

theorem rates_live {p : Store} {xs : List Post} {XS PS : List Pst} (hx : List.Forall₂ (PostR p.keys) xs XS) {b : Balance} {B B' : List Amt}
    (hb : Amts p.keys b.amounts B) (hp : Pair xs b) (h : impliedCosts p XS B none = .ok (PS, B')) :
    ∀ X ∈ XS, ∀ A, X.amount = some A → Live p A := by
  obtain ⟨x, y, top, h1, h2, h3, h4⟩ := hp
  have h0 := hb.1
  rw [h1] at h0
  match B, h0, h with
  | [], h0, _ => cases h0
  | [_], h0, _ => simp at h0
  | _ :: _ :: _ :: _, h0, _ => simp at h0
  | [X, Y], h0, h =>
    simp only [List.map_cons, List.map_nil, List.cons.injEq, and_true] at h0
    obtain ⟨rfl, rfl⟩ := h0
    unfold impliedCosts at h
    simp only at h
    rcases topPost_rel hx with ⟨g, _⟩ | ⟨t, T, g1, g2, _⟩
    · rw [h2] at g; cases g
    · rw [g2] at h
      simp only at h
      rw [if_pos ⟨by have : X.isZero = false := h3; simp [this], by have : Y.isZero = false := h4; simp [this]⟩] at h
      obtain ⟨cx, _, h⟩ := bind_ok h
      obtain ⟨ct, _, h⟩ := bind_ok h
      obtain ⟨cm, _, h⟩ := bind_ok h
      obtain ⟨u, _, h⟩ := bind_ok h
      exact assignCosts_live h

/-! ### the prices -/

theorem recordPrices_append (date : Option Date) (l r : List Pst) (p : Store) :
    recordPrices date (l ++ r) p = recordPrices date l p >>= fun z => recordPrices date r z.2 >>= fun v => .ok (z.1 ++ v.1, v.2) := by
  induction l generalizing p with
  | nil =>
    simp only [List.nil_append, recordPrices, bind, Except.bind]
    cases recordPrices date r p <;> rfl
  | cons x l ih =>
    rw [List.cons_append, recordPrices, recordPrices]
    have tail : ∀ (q : Store) (X : Pst), (recordPrices date (l ++ r) q >>= fun v => Except.ok (X :: v.1, v.2)) =
        ((recordPrices date l q >>= fun v => Except.ok (X :: v.1, v.2)) >>= fun z => recordPrices date r z.2 >>= fun v =>
          (Except.ok (z.1 ++ v.1, v.2) : Res (List Pst × Store))) := by
      intro q X
      rw [ih]
      cases recordPrices date l q with
      | error e => rfl
      | ok z =>
        simp only [bind, Except.bind]
        cases recordPrices date r z.2 <;> rfl
    cases hc : x.cost with
    | none => exact tail p x
    | some C =>
      cases ha : x.amount with
      | none => rfl
      | some A =>
        simp only
        cases same p A C with
        | error e => rfl
        | ok eq =>
          cases eq with
          | true => rfl
          | false =>
            cases date with
            | none => rfl
            | some d =>
              simp only [bind, Except.bind, Bool.false_eq_true, if_false]
              cases exchange p A C ⟨d, Time.midnight⟩ with
              | error e => rfl
              | ok z =>
                obtain ⟨am, pr⟩ := z
                cases pr with
                | none => exact tail p _
                | some v =>
                  obtain ⟨v1, v2, v3⟩ := v
                  simp only
                  cases p.addPrice (some v1) v2 v3 with
                  | error e => rfl
                  | ok q => exact tail q _

theorem Kept.look {p P : Store} {pool : Pool} (hk : Kept p pool P) (c : Option Addr) : P.look c = p.look c := by
  have hd : ∀ s, P.deref s = p.deref s := by intro s; unfold Store.deref; rw [hk.keys, hk.coms]
  unfold Store.look
  cases c with
  | none => rfl
  | some a => simp only [hd]

theorem Kept.live {p P : Store} {pool : Pool} (hk : Kept p pool P) (A : Amt) : Live P A ↔ Live p A := by
  unfold Live; rw [hk.look]

theorem Kept.nodeLive {p P : Store} {pool : Pool} (hk : Kept p pool P) (X : Pst) : NodeLive P X ↔ NodeLive p X := by
  have hd : ∀ s, P.deref s = p.deref s := by intro s; unfold Store.deref; rw [hk.keys, hk.coms]
  unfold NodeLive Store.getByIndex
  simp only [hd, hk.nodes]

theorem Kept.now {p P : Store} {pool : Pool} (hk : Kept p pool P) : Now P = Now p := by
  funext a; unfold Now; rw [hk.keys]

theorem Kept.trans {p P R : Store} {pool pool' : Pool} (h : Kept p pool P) (h' : Kept P pool' R) : Kept p pool' R :=
  ⟨h'.er, h'.fine, h'.keys.trans h.keys, h'.coms.trans h.coms, h'.nodes.trans h.nodes, h'.anns.trans h.anns⟩

theorem Kept.known {p P : Store} {pool : Pool} (hk : Kept p pool P) {q : Post} (h : PostKnown p.er q) : PostKnown P.er q := by
  have : P.er.find = p.er.find := by funext s; unfold Pool.find Store.er; simp only [hk.coms]
  unfold PostKnown; rw [this]; exact h

theorem Kept.sized {p P : Store} {pool : Pool} (hk : Kept p pool P) {q : Post} (h : Sized p.er q) : Sized P.er q := by
  have : P.er.annotated = p.er.annotated := by unfold Store.er; simp only [hk.keys, hk.anns]
  unfold Sized; rw [this]; exact h

/-- A posting whose cost can be recorded without following a stale pointer. -/
structure Steady (p : Store) (X : Pst) : Prop where
  amount : ∀ A, X.amount = some A → Live p A
  cost : ∀ C, X.cost = some C → Live p C
  nodes : ∀ A, X.amount = some A → NodesQ p (Now p) A

theorem steady_rel {p : Store} (hp : p.Fine) {x : Post} {X : Pst} (h : PostR p.keys x X) (ha : ∀ A, X.amount = some A → Live p A)
    (hc : ∀ C, X.cost = some C → Live p C) : PostRQ p.keys (Now p) x X :=
  ⟨⟨h.amount.1, fun A hA => (live_iff hp (h.amount.2 A hA)).mp (ha A hA)⟩,
    ⟨h.cost.1, fun A hA => (live_iff hp (h.cost.2 A hA)).mp (hc A hA)⟩, h.note⟩

theorem pure_append (date : Option Date) (x : Post) (r : List Post) (p : Pool) :
    Finalize.recordPrices date (x :: r) p =
      Finalize.recordPrices date [x] p >>= fun z => Finalize.recordPrices date r z.2 >>= fun v => .ok (z.1 ++ v.1, v.2) := by
  rw [Finalize.recordPrices, Finalize.recordPrices]
  cases hc : x.cost with
  | none =>
    simp only [Finalize.recordPrices, bind, Except.bind]
    cases Finalize.recordPrices date r p <;> rfl
  | some C =>
    cases ha : x.amount with
    | none => rfl
    | some A =>
      simp only
      split
      · rfl
      · cases date with
        | none => rfl
        | some d =>
          simp only [Finalize.recordPrices, bind, Except.bind]
          cases p.exchange A C false ⟨d, Time.midnight⟩ with
          | error e => rfl
          | ok z =>
            obtain ⟨bd, pr⟩ := z
            cases pr with
            | none =>
              simp only
              cases Finalize.recordPrices (some d) r p <;> rfl
            | some v =>
              simp only
              cases p.addPriceStruct v with
              | error e => rfl
              | ok q =>
                simp only
                cases Finalize.recordPrices (some d) r q <;> rfl

/-- Where all postings with a cost are steady, the prices are recorded. -/
theorem prices_run {date : Option Date} {xs : List Post} {XS : List Pst} {p : Store} (hp : p.Fine) (hx : List.Forall₂ (PostR p.keys) xs XS)
    (hs : ∀ X ∈ XS, X.cost ≠ none → Steady p X) {z : List Post × Pool} (h : Finalize.recordPrices date xs p.er = .ok z) :
    ∃ YS p', recordPrices date XS p = .ok (YS, p') ∧ Kept p z.2 p' := by
  induction XS generalizing xs p z with
  | nil =>
    cases hx
    injection h with h
    subst h
    exact ⟨[], p, rfl, rfl, hp, rfl, rfl, rfl, rfl⟩
  | cons X XS ih =>
    obtain ⟨x, xs, h1, h2, rfl⟩ := List.forall₂_cons_right_iff.mp hx
    rw [pure_append] at h
    obtain ⟨⟨z1, p1⟩, h3, h⟩ := bind_ok h
    obtain ⟨⟨z2, p2⟩, h4, h⟩ := bind_ok h
    injection h with h
    subst h
    simp only at h4 ⊢
    have step : ∃ YS q, recordPrices date [X] p = .ok (YS, q) ∧ Kept p p1 q := by
      by_cases hc : X.cost = none
      · have : x.cost = none := by rw [h1.cost.1, hc]; rfl
        rw [Finalize.recordPrices, this] at h3
        injection h3 with h3
        injection h3 with _ h3
        refine ⟨[X], p, ?_, h3, hp, rfl, rfl, rfl, rfl⟩
        rw [recordPrices, hc]; rfl
      · have hst := hs X (by simp) hc
        obtain ⟨⟨YS, q⟩, k1, _, k2, _⟩ := (recordPrices_sim date (sound_now hp) (.cons (steady_rel hp h1 hst.amount hst.cost) .nil)
          (fun Y hY _ A hA => by rw [List.mem_singleton] at hY; subst hY; exact hst.nodes A hA)).runs h3
        exact ⟨YS, q, k1, k2⟩
    obtain ⟨YS, q, k1, k2⟩ := step
    have h4' : Finalize.recordPrices date xs q.er = .ok (z2, p2) := by rw [k2.er]; exact h4
    obtain ⟨ZS, r, g1, g2⟩ := ih k2.fine (by rw [k2.keys]; exact h2) (fun Y hY hc => by
      have := hs Y (by simp [hY]) hc
      refine ⟨fun A hA => (k2.live A).mpr (this.amount A hA), fun A hA => (k2.live A).mpr (this.cost A hA), fun A hA => ?_⟩
      rw [k2.now]
      exact (this.nodes A hA).kept k2) h4'
    refine ⟨YS ++ ZS, r, ?_, k2.trans g2⟩
    rw [show X :: XS = [X] ++ XS from rfl, recordPrices_append, k1]
    show (recordPrices date XS q >>= _) = _
    rw [g1]; rfl

/-- What a faulty posting gives. -/
theorem pure_fault {date : Option Date} {q : Post} {k : Panic} (h : PriceFault date q k) {pool : Pool} (hi : pool.Inv) (hk : PostKnown pool q)
    (hs : Sized pool q) (r : List Post) : Finalize.recordPrices date (q :: r) pool = .error k := by
  rw [Finalize.recordPrices]
  cases h with
  | lone c hc ha => simp only [hc, ha]
  | same a c ha hc h => simp only [hc, ha]; rw [if_pos h]
  | undated a c ha hc h hd => simp only [hc, ha]; rw [if_neg h, hd]
  | bare a c ha hc h hd hn =>
    obtain ⟨d, rfl⟩ := Option.ne_none_iff_exists'.mp hd
    simp only [hc, ha]
    rw [if_neg h]
    unfold Pool.exchange
    simp only [hn]
    rfl
  | number a c ha hc hd hn hcn hv =>
    obtain ⟨d, rfl⟩ := Option.ne_none_iff_exists'.mp hd
    obtain ⟨bd, np, e1, e2⟩ := exchange_number (d := d) hi hn hcn hv (hk a (Or.inl ha)) (hs a c ha hc)
    simp only [hc, ha]
    rw [if_neg (by rw [hcn]; exact hn)]
    simp only [e1, e2, bind, Except.bind]

theorem fault_at {d : Date} {q : Post} {Q : Pst} {k : Panic} {p : Store} (hp : p.Fine) (hr : PostR p.keys q Q) (h : PriceFault (some d) q k)
    (hk : PostKnown p.er q) (hs : Sized p.er q) (ha : ∀ A, Q.amount = some A → Live p A) (hc : ∀ C, Q.cost = some C → Live p C)
    (hn : k = .priceWithoutCommodity → ∀ A, Q.amount = some A → NodesQ p (Now p) A) (R : List Pst) :
    recordPrices (some d) (Q :: R) p = .error k := by
  have hq := steady_rel hp hr ha hc
  have one : recordPrices (some d) [Q] p = .error k → recordPrices (some d) (Q :: R) p = .error k := by
    intro h
    rw [show Q :: R = [Q] ++ R from rfl, recordPrices_append, h]; rfl
  by_cases hnum : k = .priceWithoutCommodity
  · exact one ((recordPrices_sim (some d) (sound_now hp) (.cons hq .nil)
      (fun Y hY _ A hA => by rw [List.mem_singleton] at hY; subst hY; exact hn hnum A hA)).exact (pure_fault h hp.inv hk hs []))
  · have parts : ∀ a c, q.amount = some a → q.cost = some c → ∃ A C, Q.amount = some A ∧ Q.cost = some C ∧ A.er p.keys = a ∧ C.er p.keys = c ∧
        same p A C = .ok (decide (a.comm = c.comm)) := by
      intro a c h1 h2
      rw [hr.amount.1] at h1
      rw [hr.cost.1] at h2
      obtain ⟨A, hA, rfl⟩ := Option.map_eq_some_iff.mp h1
      obtain ⟨C, hC, rfl⟩ := Option.map_eq_some_iff.mp h2
      refine ⟨A, C, hA, hC, rfl, rfl, ?_⟩
      rcases same_cases (sound_now hp) (hq.amount.2 A hA) (hq.cost.2 C hC) with ⟨h, _⟩ | ⟨_, h⟩
      · exact h
      · exact h.elim
    rw [recordPrices]
    cases h with
    | lone c hc ha =>
      rw [hr.amount.1, Option.map_eq_none_iff] at ha
      rw [hr.cost.1] at hc
      obtain ⟨C, hC, _⟩ := Option.map_eq_some_iff.mp hc
      simp only [hC, ha]
    | same a c ha hc h =>
      obtain ⟨A, C, hA, hC, _, _, hsame⟩ := parts a c ha hc
      simp only [hC, hA, hsame, h, decide_true, bind, Except.bind, if_true]
    | undated a c ha hc h hd => cases hd
    | bare a c ha hc h hd hb =>
      obtain ⟨A, C, hA, hC, eA, _, hsame⟩ := parts a c ha hc
      have hptr : A.ptr = none := by rw [← isNone_er p.keys, eA]; exact hb
      have : ¬ a.comm = c.comm := h
      simp only [hC, hA, hsame, this, decide_false, bind, Except.bind, Bool.false_eq_true, if_false]
      unfold exchange
      simp only [hptr]
    | number a c ha hc hd hn hcn hv => exact absurd rfl hnum

theorem trip_at {date : Option Date} {Q : Pst} {A C : Amt} {p : Store} (hp : p.Fine) (hA : Q.amount = some A) (hC : Q.cost = some C)
    (gA : Good p.keys A) (gC : Good p.keys C) (h : ¬ Live p A ∨ ¬ Live p C) (R : List Pst) :
    recordPrices date (Q :: R) p = .error .danglingPointer := by
  have : same p A C = .error .danglingPointer := by
    unfold same
    rcases look_cases (sound_taken hp) gA with ⟨x, x1, _⟩ | ⟨x1, _⟩
    · rcases h with h | h
      · exact absurd ⟨x, x1⟩ h
      · rw [x1, not_live hp gC h]; rfl
    · rw [x1]; rfl
  rw [recordPrices]
  simp only [hC, hA, this, bind, Except.bind]

theorem trip_node {d : Date} {q : Post} {Q : Pst} {p : Store} (hp : p.Fine) (hr : PostR p.keys q Q)
    (ha : ∀ A, Q.amount = some A → Live p A) (hc : ∀ C, Q.cost = some C → Live p C) {a c : Amount} (h1 : q.amount = some a) (h2 : q.cost = some c)
    (hne : a.comm ≠ c.comm) (hsome : a.comm ≠ none) (hn : ¬ NodeLive p Q) (R : List Pst) :
    recordPrices (some d) (Q :: R) p = .error .danglingPointer := by
  have hq := steady_rel hp hr ha hc
  rw [hr.amount.1] at h1
  rw [hr.cost.1] at h2
  obtain ⟨A, hA, rfl⟩ := Option.map_eq_some_iff.mp h1
  obtain ⟨C, hC, rfl⟩ := Option.map_eq_some_iff.mp h2
  have hsame : same p A C = .ok false := by
    rcases same_cases (sound_now hp) (hq.amount.2 A hA) (hq.cost.2 C hC) with ⟨h, _⟩ | ⟨_, h⟩
    · rw [h, decide_eq_false hne]
    · exact h.elim
  obtain ⟨y, hy⟩ := Option.ne_none_iff_exists'.mp (fun h => hsome ((isNone_er p.keys A).mpr h) : A.ptr ≠ none)
  rcases deref_cases (sound_now hp) (hq.amount.2 A hA y hy) with ⟨cm, d1, d2, d3, _⟩ | ⟨_, h⟩
  swap
  · exact h.elim
  have hg : p.getByIndex cm.graphIndex = .error .danglingPointer := by
    have hi := (hp.inv.find d3).2
    simp only [Store.er, List.getElem?_map, Option.map_eq_some_iff] at hi
    obtain ⟨n, hn1, _⟩ := hi
    cases hg : p.getByIndex cm.graphIndex with
    | ok node => exact absurd ⟨A, y, cm, node, hA, hy, d1, hg⟩ hn
    | error e =>
      unfold Store.getByIndex at hg
      rw [hn1] at hg
      simp only at hg
      rcases deref_cases (sound_taken hp) (hp.nodes n (List.mem_of_getElem? hn1)) with ⟨c', e1, _⟩ | ⟨e1, _⟩
      · rw [e1] at hg; cases hg
      · rw [e1] at hg; exact hg.symm
  rw [recordPrices]
  simp only [hC, hA, hsame, bind, Except.bind, Bool.false_eq_true, if_false]
  unfold exchange
  simp only [hy, d1, hg, bind, Except.bind]

/-- Before the posting that trips, the others may trip as well. -/
theorem prices_trip {date : Option Date} {l : List Post} {L : List Pst} {p : Store} (hp : p.Fine) (hx : List.Forall₂ (PostR p.keys) l L)
    {z : List Post × Pool} (h : Finalize.recordPrices date l p.er = .ok z) {R : List Pst}
    (hR : ∀ P pool, Kept p pool P → recordPrices date R P = .error .danglingPointer) :
    recordPrices date (L ++ R) p = .error .danglingPointer := by
  have hsim := recordPrices_sim date (sound_taken hp) hx (fun X _ _ A _ => nodesQ_taken hp A)
  rw [recordPrices_append]
  rw [h] at hsim
  cases hm : recordPrices date L p with
  | error e => rw [hm] at hsim; rw [hsim.1]; rfl
  | ok Z =>
    rw [hm] at hsim
    show (recordPrices date R Z.2 >>= _) = _
    rw [hR _ _ hsim.2.1]; rfl

/-! ### a transaction -/

section
variable {M : List Str} {w : Writing} {p : Store} {xs : List Post} {XS : List Pst} (hO : Opened M w p xs XS)
include hO

theorem Opened.length : XS.length = w.entries.length := by rw [← hO.rel.length_eq, ← hO.posts.length_eq]

theorem Opened.take_count {t : List Entry} (ht : t <+: w.entries) :
    ((XS.take t.length).filterMap Pst.figure).length = t.countP (fun f => f.amount ≠ none) := by
  induction t using List.reverseRecOn with
  | nil => rfl
  | append_singleton t e ih =>
    obtain ⟨r, hr⟩ := ht
    have he : w.entries = t ++ e :: r := by rw [← hr]; simp
    obtain ⟨_, X, _, hX, _⟩ := hO.get he
    have hf := (hO.figure he hX).1
    rw [List.length_append, List.length_singleton, List.take_add_one, hX, List.filterMap_append, List.length_append,
      ih ⟨e :: r, he.symm⟩, List.countP_append]
    congr 1
    cases hfig : X.figure with
    | none => have := hf.mp hfig; simp [hfig, this]
    | some f =>
      have : e.amount ≠ none := fun h => by rw [hf.mpr h] at hfig; cases hfig
      simp [hfig, this]

theorem Opened.stumbles {t : List Entry} (ht : t <+: w.entries) :
    Stumbles p (XS.take t.length) ↔ 2 ≤ t.countP (fun f => f.amount ≠ none) ∧ ∃ l e r, t = l ++ e :: r ∧ StaleBooked M w l e := by
  unfold Stumbles
  rw [hO.take_count ht]
  refine and_congr_right fun _ => ?_
  constructor
  · rintro ⟨X, hX, f, hf, hl⟩
    obtain ⟨i, hi⟩ := List.getElem?_of_mem hX
    rw [List.getElem?_take] at hi
    split at hi
    · rename_i hlt
      obtain ⟨l, e, r, he, rfl⟩ := hO.at hi
      obtain ⟨r', hr'⟩ := ht
      have : l ++ [e] <+: t := by
        refine List.prefix_of_prefix_length_le (l₃ := w.entries) ⟨r, by rw [he]; simp⟩ ⟨r', hr'⟩ ?_
        rw [List.length_append, List.length_singleton]; omega
      obtain ⟨r2, h2⟩ := this
      exact ⟨l, e, r2, by rw [← h2]; simp, (hO.figure he hi).2.1.mpr ⟨f, hf, hl⟩⟩
    · cases hi
  · rintro ⟨l, e, r, rfl, hs⟩
    obtain ⟨r', hr'⟩ := ht
    have he : w.entries = l ++ e :: (r ++ r') := by rw [← hr']; simp
    obtain ⟨_, X, _, hX, _⟩ := hO.get he
    obtain ⟨f, hf, hl⟩ := (hO.figure he hX).2.1.mp hs
    refine ⟨X, List.mem_of_getElem? (i := l.length) ?_, f, hf, hl⟩
    rw [List.getElem?_take, if_pos (by simp)]
    exact hX

end

theorem countP_zero_of {t : List Entry} (h : ∀ e ∈ t, e.amount ≠ none) : t.countP (fun f => f.amount = none) = 0 := by
  rw [List.countP_eq_zero]
  intro e he
  simpa using h e he

theorem twoBlank_first {w : Writing} (h : TwoBlank w) : ∃ l m r e f, w.entries = (l ++ e :: m) ++ f :: r ∧ e.amount = none ∧ f.amount = none ∧
    ∀ g ∈ l ++ m, g.amount ≠ none := by
  obtain ⟨l, m, r, e, f, h, he, hf⟩ := h
  obtain ⟨a, x, b, h1, h2, h3⟩ := first_exists (P := fun g : Entry => g.amount = none) (l := w.entries) ⟨e, by rw [h]; simp, he⟩
  have hb : ∃ g ∈ b, g.amount = none := by
    by_contra hn
    push Not at hn
    have c := congrArg (List.countP (fun g : Entry => g.amount = none)) (h1.symm.trans h)
    rw [List.countP_append, List.countP_cons, countP_zero_of h2, countP_zero_of hn, List.countP_append, List.countP_append, List.countP_cons,
      List.countP_cons] at c
    simp only [h3, he, hf, decide_true, if_true] at c
    omega
  obtain ⟨m', y, r', k1, k2, k3⟩ := first_exists hb
  refine ⟨a, m', r', x, y, by rw [h1, k1]; simp, h3, k3, ?_⟩
  intro g hg
  rcases List.mem_append.mp hg with hg | hg
  · exact h2 g hg
  · exact k2 g hg

theorem entriesSum_ne {es : List Entry} {c : Option Str} (h : entriesSum es c ≠ 0) : ∃ e ∈ es, e.worthIn = c := by
  by_contra hn
  push Not at hn
  apply h
  unfold entriesSum
  apply List.sum_eq_zero
  intro x hx
  obtain ⟨e, he, rfl⟩ := List.mem_map.mp hx
  rw [if_neg (hn e he)]

theorem impliedBy_two {w : Writing} {A B : Option Str} (h : ImpliedBy w A B) : 2 ≤ w.entries.length := by
  obtain ⟨_, hne, _, hA, hB, _⟩ := h
  obtain ⟨e, he, h1⟩ := entriesSum_ne hA
  obtain ⟨f, hf, h2⟩ := entriesSum_ne hB
  match hw : w.entries with
  | [] => rw [hw] at he; cases he
  | [g] =>
    rw [hw, List.mem_singleton] at he hf
    subst he hf
    exact absurd (h1.symm.trans h2) hne
  | _ :: _ :: _ => simp

theorem oneBlank {w : Writing} (h : ¬ TwoBlank w) : w.entries.countP (fun f => f.amount = none) ≤ 1 := by
  by_contra hc
  push Not at hc
  have : ∃ e ∈ w.entries, e.amount = none := by
    by_contra hn
    push Not at hn
    rw [countP_zero_of hn] at hc
    omega
  obtain ⟨a, x, b, h1, h2, h3⟩ := first_exists this
  rw [h1, List.countP_append, List.countP_cons, countP_zero_of h2] at hc
  have hb : ∃ g ∈ b, g.amount = none := by
    by_contra hn
    push Not at hn
    rw [countP_zero_of hn] at hc
    simp [h3] at hc
  obtain ⟨m, y, r, k1, _, k3⟩ := first_exists hb
  exact h ⟨a, m, r, x, y, by rw [h1, k1]; simp, h3, k3⟩

theorem pricedAs_costed {w : Writing} {e : Entry} {q : Post} (h : PricedAs w e q) : q.cost ≠ none ↔ e.amount ≠ none ∧ Costed w e := by
  obtain ⟨_, ⟨A, B, a, c, hi, ha, hac, hc, _⟩ | ⟨hk, hpe⟩⟩ := h
  · rw [hc, ha]
    refine ⟨fun _ => ⟨by simp, Or.inr ⟨A, B, hi, ?_⟩⟩, fun _ => by simp⟩
    unfold Entry.commodity
    rw [ha]
    exact hac
  · constructor
    · intro h
      obtain ⟨c, hc⟩ := Option.ne_none_iff_exists'.mp h
      obtain ⟨k1, k2, _⟩ := hpe.cost_value hc
      exact ⟨k2, Or.inl k1⟩
    · rintro ⟨ha, hc | ⟨A, B, hi, hc⟩⟩
      · obtain ⟨c, hc⟩ := hpe.cost_some ha hc
        rw [hc]; simp
      · obtain ⟨a, ha⟩ := Option.ne_none_iff_exists'.mp ha
        have : a.comm = A := by unfold Entry.commodity at hc; rw [ha] at hc; exact hc
        subst this
        exact absurd hi (hk a ha B)

/-- A posting whose cost makes the program follow a stale pointer. -/
def Stop (M : List Str) (w : Writing) (l : List Entry) (e : Entry) : Prop :=
  (e.cost ≠ none ∧ (StaleAmount M w l e ∨ StaleBooked M w l e)) ∨
    ((∀ k, CostFault w e k → k = .priceWithoutCommodity) ∧ Costed w e ∧ StaleNode M w e)

theorem staleNode_amount {M : List Str} {w : Writing} {e : Entry} (h : StaleNode M w e) : ∃ a, e.amount = some a ∧ a.comm ≠ none := by
  obtain ⟨s, _, h, _⟩ := h
  unfold Entry.commodity at h
  obtain ⟨a, h1, h2⟩ := Option.bind_eq_some_iff.mp h
  exact ⟨a, h1, by rw [h2]; simp⟩

theorem staleAmount_amount {M : List Str} {w : Writing} {l : List Entry} {e : Entry} (h : StaleAmount M w l e) : e.amount ≠ none := by
  obtain ⟨s, h, _⟩ := h
  unfold Entry.commodity at h
  intro hn
  rw [hn] at h; cases h

theorem staleBooked_amount {M : List Str} {w : Writing} {l : List Entry} {e : Entry} (h : StaleBooked M w l e) : e.amount ≠ none := by
  intro hn
  apply h.1
  unfold Entry.worthIn
  rw [hn]

/-- What the recording of prices does to postings `PS` that stand for the entries. -/
theorem prices_exact {M : List Str} {w : Writing} {p : Store} {xs ps : List Post} {XS PS : List Pst} (hO : Opened M w p xs XS)
    (hp : List.Forall₂ (PricedAs w) w.entries ps) (hr : List.Forall₂ (PostR p.keys) ps PS) (hk : ∀ q ∈ ps, PostKnown p.er q)
    (hz : ∀ q ∈ ps, Sized p.er q) (hkept : PS.map (·.amount) = XS.map (·.amount))
    (hlive : ∀ l e r Q, w.entries = l ++ e :: r → PS[l.length]? = some Q → Q.cost ≠ none →
      ((∃ A, Q.amount = some A ∧ ¬ Live p A) ∨ (∃ C, Q.cost = some C ∧ ¬ Live p C) ↔ e.cost ≠ none ∧ (StaleAmount M w l e ∨ StaleBooked M w l e))) :
    ((∃ l e r, w.entries = l ++ e :: r ∧ (∀ f ∈ l, ∀ k, ¬ CostFault w f k) ∧ Stop M w l e) →
      recordPrices (some w.date) PS p = .error .danglingPointer) ∧
    (¬ (∃ l e r, w.entries = l ++ e :: r ∧ (∀ f ∈ l, ∀ k, ¬ CostFault w f k) ∧ Stop M w l e) →
      (∀ k, Finalize.recordPrices (some w.date) ps p.er = .error k → recordPrices (some w.date) PS p = .error k) ∧
      ∀ z, Finalize.recordPrices (some w.date) ps p.er = .ok z → (∀ f ∈ w.entries, ∀ k, ¬ CostFault w f k) →
        ∃ YS p', recordPrices (some w.date) PS p = .ok (YS, p') ∧ Kept p z.2 p') := by
  have hfine := hO.fine
  -- at a position
  have place : ∀ l e r, w.entries = l ++ e :: r → ∃ pl q pr L Q R x X, ps = pl ++ q :: pr ∧ PS = L ++ Q :: R ∧ List.Forall₂ (PricedAs w) l pl ∧
      PricedAs w e q ∧ List.Forall₂ (PostR p.keys) pl L ∧ PostR p.keys q Q ∧ PS[l.length]? = some Q ∧ xs[l.length]? = some x ∧
      XS[l.length]? = some X ∧ Q.amount = X.amount := by
    intro l e r he
    have h0 := hp
    rw [he] at h0
    obtain ⟨pl, pr', h1, h2, h3⟩ := forall₂_split h0
    cases h2 with
    | @cons _ q _ pr hq _ =>
      have h4 := hr
      rw [h3] at h4
      obtain ⟨L, R', h5, h6, h7⟩ := forall₂_split h4
      cases h6 with
      | @cons _ Q _ R hQ _ =>
        obtain ⟨x, X, gx, gX, _⟩ := hO.get he
        have hlen : L.length = l.length := by rw [← h5.length_eq, ← h1.length_eq]
        have hPS : PS[l.length]? = some Q := by rw [h7, ← hlen]; simp
        refine ⟨pl, q, pr, L, Q, R, x, X, h3, h7, h1, hq, h5, hQ, hPS, gx, gX, ?_⟩
        have := congrArg (fun z => z[l.length]?) hkept
        simp only [List.getElem?_map, hPS, gX, Option.map_some, Option.some.injEq] at this
        exact this
  have okl : ∀ l pl : List _, List.Forall₂ (PricedAs w) l pl → (∀ q ∈ pl, q ∈ ps) → (∀ f ∈ l, ∀ k, ¬ CostFault w f k) →
      ∃ z, Finalize.recordPrices (some w.date) pl p.er = .ok z := by
    intro l pl h1 h2 h3
    cases hm : Finalize.recordPrices (some w.date) pl p.er with
    | ok z => exact ⟨z, rfl⟩
    | error k =>
      exfalso
      obtain ⟨a, q, b, rfl, _, hq⟩ := recordPrices_fault _ _ _ hfine.inv (fun q hq => hk q (h2 q hq)) (fun q hq => hz q (h2 q hq)) k hm
      obtain ⟨e, he, heq⟩ := forall₂_mem_right h1 (by simp : q ∈ a ++ q :: b)
      exact h3 e he k ((priceFault_iff heq w.date k).mp hq)
  constructor
  · rintro ⟨l, e, r, he, hl, hs⟩
    obtain ⟨pl, q, pr, L, Q, R, x, X, g1, g2, g3, g4, g5, g6, g7, g8, g9, g10⟩ := place l e r he
    obtain ⟨z, hz'⟩ := okl l pl g3 (fun q hq => by rw [g1]; simp [hq]) hl
    rw [g2]
    have hamt : e.amount ≠ none := by
      rcases hs with ⟨_, h | h⟩ | ⟨_, _, h⟩
      · exact staleAmount_amount h
      · exact staleBooked_amount h
      · obtain ⟨a, ha, _⟩ := staleNode_amount h; rw [ha]; simp
    have hcost : Costed w e := by
      rcases hs with ⟨h, _⟩ | ⟨_, h, _⟩
      · exact Or.inl h
      · exact h
    have hqc := (pricedAs_costed g4).mpr ⟨hamt, hcost⟩
    obtain ⟨c, hc⟩ := Option.ne_none_iff_exists'.mp hqc
    obtain ⟨a, ha⟩ := Option.ne_none_iff_exists'.mp hamt
    have hqa : q.amount = some a := by rw [g4.1]; exact ha
    have hC := hc
    have hA := hqa
    rw [g6.cost.1] at hC
    rw [g6.amount.1] at hA
    obtain ⟨C, hC, _⟩ := Option.map_eq_some_iff.mp hC
    obtain ⟨A, hA, _⟩ := Option.map_eq_some_iff.mp hA
    refine prices_trip hfine g5 hz' fun P pool hP => ?_
    have gA : Good P.keys A := by rw [hP.keys]; exact g6.amount.2 A hA
    have gC : Good P.keys C := by rw [hP.keys]; exact g6.cost.2 C hC
    by_cases hst : e.cost ≠ none ∧ (StaleAmount M w l e ∨ StaleBooked M w l e)
    · refine trip_at hP.fine hA hC gA gC ?_ R
      rw [hP.live, hP.live]
      rcases (hlive l e r Q he g7 (by rw [hC]; simp)).mpr hst with ⟨A', h1, h2⟩ | ⟨C', h1, h2⟩
      · rw [hA] at h1; injection h1 with h1; subst h1; exact Or.inl h2
      · rw [hC] at h1; injection h1 with h1; subst h1; exact Or.inr h2
    · rcases hs with h | ⟨h1, _, h3⟩
      · exact absurd h hst
      have hnl := fun h => hst ((hlive l e r Q he g7 (by rw [hC]; simp)).mp h)
      have h5 : a.comm ≠ none := by
        obtain ⟨a', k1, k2⟩ := staleNode_amount h3
        rw [ha] at k1; injection k1 with k1; subst k1; exact k2
      refine trip_node hP.fine (by rw [hP.keys]; exact g6) ?_ ?_ hqa hc ?_ h5 ?_ R
      · intro A' h; rw [hP.live]; by_contra hn; exact hnl (Or.inl ⟨A', h, hn⟩)
      · intro A' h; rw [hP.live]; by_contra hn; exact hnl (Or.inr ⟨A', h, hn⟩)
      · intro h
        have := h1 _ ((priceFault_iff g4 w.date _).mp (.same a c hqa hc h))
        cases this
      · rw [hP.nodeLive]
        intro hN
        refine hO.nodeLive he g9 ?_ h3
        obtain ⟨A', y, c', node, k1, k2⟩ := hN
        exact ⟨A', y, c', node, by rw [← g10]; exact k1, k2⟩
  · intro hno
    -- what comes before is steady
    have before : ∀ l e r, w.entries = l ++ e :: r → (∀ f ∈ l, ∀ k, ¬ CostFault w f k) → ∀ Q, PS[l.length]? = some Q → Q.cost ≠ none →
        (∀ A, Q.amount = some A → Live p A) ∧ (∀ C, Q.cost = some C → Live p C) ∧
        ((∀ k, CostFault w e k → k = .priceWithoutCommodity) → ∀ A, Q.amount = some A → NodesQ p (Now p) A) := by
      intro l e r he hl Q hQ hqc
      obtain ⟨pl, q, pr, L, Q', R, x, X, g1, g2, g3, g4, g5, g6, g7, g8, g9, g10⟩ := place l e r he
      rw [hQ] at g7; injection g7 with g7; subst g7
      have hstop : ¬ Stop M w l e := fun h => hno ⟨l, e, r, he, hl, h⟩
      have hnl := fun h => hstop (Or.inl ((hlive l e r Q he hQ hqc).mp h))
      refine ⟨fun A h => ?_, fun A h => ?_, fun h A hA => ?_⟩
      · by_contra hn; exact hnl (Or.inl ⟨A, h, hn⟩)
      · by_contra hn; exact hnl (Or.inr ⟨A, h, hn⟩)
      · refine hO.nodes he g9 (by rw [← g10]; exact hA) fun hs => hstop (Or.inr ⟨h, ?_, hs⟩)
        refine ((pricedAs_costed g4).mp ?_).2
        rw [g6.cost.1]
        obtain ⟨C, hC⟩ := Option.ne_none_iff_exists'.mp hqc
        rw [hC]; simp
    have steady : ∀ l L R', PS = L ++ R' → l <+: w.entries → l.length = L.length → (∀ f ∈ l, ∀ k, ¬ CostFault w f k) →
        ∀ X ∈ L, X.cost ≠ none → Steady p X := by
      intro l L R' hPS hpre hlen hl X hX hXc
      obtain ⟨i, hi⟩ := List.getElem?_of_mem hX
      have hlt : i < L.length := (List.getElem?_eq_some_iff.mp hi).1
      have hlt' : i < l.length := by omega
      obtain ⟨r, hr'⟩ := hpre
      have hsplit : l = l.take i ++ l[i] :: l.drop (i + 1) := by rw [List.getElem_cons_drop, List.take_append_drop]
      have hwe : w.entries = l.take i ++ l[i] :: (l.drop (i + 1) ++ r) := by
        rw [← hr', ← List.cons_append, ← List.append_assoc, ← hsplit]
      have hti : (l.take i).length = i := by rw [List.length_take]; omega
      obtain ⟨b1, b2, b3⟩ := before _ _ _ hwe (fun f hf => hl f (List.mem_of_mem_take hf)) X (by
        rw [hti, hPS, List.getElem?_append_left hlt]; exact hi) hXc
      exact ⟨b1, b2, b3 (fun k hk => absurd hk (hl _ (List.getElem_mem _) k))⟩
    constructor
    · intro k hm
      obtain ⟨pl, q, pr, hps, hfl, hq⟩ := recordPrices_fault _ _ _ hfine.inv hk hz k hm
      have h0 := hp
      rw [hps] at h0
      obtain ⟨l, er, f1, f2, f3⟩ := forall₂_split_right h0
      cases f2 with
      | @cons e _ r _ hpe _ =>
        have hl : ∀ f ∈ l, ∀ k, ¬ CostFault w f k := by
          intro f hf k' hk'
          obtain ⟨q', hq', hqe⟩ := forall₂_mem_left f1 hf
          exact hfl q' hq' k' ((priceFault_iff hqe w.date k').mpr hk')
        obtain ⟨pl', q', pr', L, Q, R, x, X, g1, g2, g3, g4, g5, g6, g7, g8, g9, g10⟩ := place l e r f3
        have hsame : pl' = pl ∧ q' :: pr' = q :: pr := by
          have := g1.symm.trans hps
          exact List.append_inj this (by rw [← g3.length_eq, ← f1.length_eq])
        obtain ⟨rfl, h2⟩ := hsame
        injection h2 with h2 _
        subst h2
        have hqm : q' ∈ ps := by rw [g1]; simp
        obtain ⟨z, hz'⟩ := okl l pl' g3 (fun q hq => by rw [g1]; simp [hq]) hl
        obtain ⟨YS, P, k1, hP⟩ := prices_run hfine g5 (steady l L (Q :: R) g2 ⟨e :: r, f3.symm⟩ (by rw [g3.length_eq, g5.length_eq]) hl) hz'
        rw [g2, recordPrices_append, k1]
        show (recordPrices (some w.date) (Q :: R) P >>= _) = _
        have hqc : Q.cost ≠ none := by
          have : q'.cost ≠ none := by cases hq <;> simp_all
          rw [g6.cost.1] at this
          intro h; rw [h] at this; exact this rfl
        obtain ⟨b1, b2, b3⟩ := before l e r f3 hl Q g7 hqc
        rw [fault_at hP.fine (by rw [hP.keys]; exact g6) hq (hP.known (hk q' hqm)) (hP.sized (hz q' hqm))
          (fun A hA => (hP.live A).mpr (b1 A hA)) (fun A hA => (hP.live A).mpr (b2 A hA)) (fun hnum A hA => ?_) R]
        · rfl
        · rw [hP.now]
          refine (b3 (fun k' hk' => ?_) A hA).kept hP
          have e1 := pure_fault hq hfine.inv (hk q' hqm) (hz q' hqm) []
          have e2 := pure_fault ((priceFault_iff hpe w.date k').mpr hk') hfine.inv (hk q' hqm) (hz q' hqm) []
          rw [e1] at e2
          injection e2 with e2
          rw [← e2, hnum]
    · intro z hm hnf
      exact prices_run hfine hr (steady w.entries PS [] (by simp) List.prefix_rfl (by rw [hp.length_eq, hr.length_eq]) hnf) hm

/-- A transaction that is refused: the pointers that are followed before the fault is found decide which panic it is. -/
theorem trips_finalize {M : List Str} {w : Writing} {p : Store} {x : Xact} {XS : List Pst} (hO : Opened M w p x.posts XS) (hx : XactOf w x)
    (hk : p.er.Knows x.posts) (ho : Ordinary x.posts) (hl : p.er.OrdinaryLots) {k : Panic} (h : Finalize.finalize x p.er = .error k)
    (hc : Cause w k) :
    (Trips M w → finalize (some w.date) XS p = .error .danglingPointer) ∧ (¬ Trips M w → finalize (some w.date) XS p = .error k) := by
  have hp := hO.fine
  have hr := ordinary_inRange ho
  obtain ⟨b, e1, _⟩ := C07_balance_is_sum _ hr
  have whole : XS.take w.entries.length = XS := by rw [← hO.length, List.take_length]
  have dangle : sumPosts p XS 0 [] none = .error .danglingPointer → finalize (some w.date) XS p = .error .danglingPointer := by
    intro h; unfold finalize; rw [h]; rfl
  by_cases h2 : TwoBlank w
  · have hk' : k = .secondNullPost := Cause.unique hc (.blanks h2)
    subst hk'
    obtain ⟨l, m, r, e, f, he, hen, hfn, hg⟩ := twoBlank_first h2
    have hpre : l ++ e :: m <+: w.entries := ⟨f :: r, he.symm⟩
    have hcount : (l ++ e :: m).countP (fun g => g.amount = none) = 1 := by
      rw [List.countP_append, List.countP_cons, countP_zero_of (fun g h => hg g (by simp [h])), countP_zero_of (fun g h => hg g (by simp [h]))]
      simp [hen]
    have htrip : Trips M w ↔ Stumbles p (XS.take (l ++ e :: m).length) := by
      rw [hO.stumbles hpre]
      constructor
      · intro ht
        cases ht with
        | sum t l' r' e' ht hb h2 h hs =>
          have htp : t <+: l ++ e :: m := by
            rcases List.prefix_or_prefix_of_prefix ht hpre with h | h
            · exact h
            · rcases Nat.lt_or_ge (l ++ e :: m).length t.length with hlt | hge
              · exfalso
                have : (l ++ e :: m) ++ [f] <+: t := by
                  refine List.prefix_of_prefix_length_le (l₃ := w.entries) ⟨r, by rw [he]; simp⟩ ht ?_
                  rw [List.length_append (as := l ++ e :: m), List.length_singleton]; omega
                have h1 := this.sublist.countP_le (p := fun g : Entry => decide (g.amount = none))
                rw [List.countP_append, hcount] at h1
                simp only [List.countP_cons, List.countP_nil, hfn, decide_true, if_true] at h1
                omega
              · rw [h.eq_of_length_le hge]
          refine ⟨le_trans h2 (htp.sublist.countP_le), l', e', ?_⟩
          obtain ⟨r2, hr2⟩ := htp
          exact ⟨r' ++ r2, by rw [← hr2, h]; simp, hs⟩
        | rate A B _ _ _ hi => exact absurd hen (hi.1 e (by rw [he]; simp))
        | cost _ _ _ hb => exact absurd h2 hb
        | node _ _ _ hb => exact absurd h2 hb
      · rintro ⟨h2, l', e', r', h, hs⟩
        exact .sum _ l' r' e' hpre (by rw [hcount]) h2 h hs
    -- the postings before the second blank one
    have hposts := hx.posts
    rw [he] at hposts
    obtain ⟨ps1, ps2, q1, q2, q3⟩ := forall₂_split hposts
    obtain ⟨pl, pm', q4, q5, rfl⟩ := forall₂_split q1
    cases q5 with
    | @cons _ pe _ pm hpe q6 =>
      have hpb : pe.Blank := hpe.blank_iff.mpr hen
      have hnb : ∀ q ∈ pl ++ pm, ¬ q.Blank := by
        intro q hq hb
        rcases List.mem_append.mp hq with hq | hq
        · obtain ⟨g, hg1, hg2⟩ := forall₂_mem_right q4 hq
          exact hg g (by simp [hg1]) (hg2.blank_iff.mp hb)
        · obtain ⟨g, hg1, hg2⟩ := forall₂_mem_right q6 hq
          exact hg g (by simp [hg1]) (hg2.blank_iff.mp hb)
      have hr1 : InRange (bookedAmounts (pl ++ pe :: pm)) := by
        have h := hr
        rw [q3] at h
        unfold bookedAmounts at h
        rw [List.filterMap_append] at h
        exact inRange_append_left h
      obtain ⟨b1, e2, _⟩ := C07_balance_is_sum _ hr1
      have hsum := Ledger.sumPosts_one pl pm pe 0 Balance.empty b1 e2 hpb hnb
      have hlen : (pl ++ pe :: pm).length = (l ++ e :: m).length := q1.length_eq.symm
      have hrel : List.Forall₂ (PostR p.keys) (pl ++ pe :: pm) (XS.take (l ++ e :: m).length) := by
        have := List.forall₂_take (l ++ e :: m).length hO.rel
        rwa [q3, ← hlen, List.take_left, hlen] at this
      obtain ⟨_, Y, _, hY, _⟩ := hO.get he
      have hsplit : XS = XS.take (l ++ e :: m).length ++ Y :: XS.drop ((l ++ e :: m).length + 1) := by
        obtain ⟨hlt, hY'⟩ := List.getElem?_eq_some_iff.mp hY
        rw [← hY', List.getElem_cons_drop, List.take_append_drop]
      have hYf : Y.figure = none := (hO.figure he hY).1.mpr hfn
      rw [htrip]
      constructor
      · intro hs
        apply dangle
        rw [hsplit, sumPosts_append, sum_stumbles hp hrel hsum hs]; rfl
      · intro hs
        obtain ⟨B, k1, _⟩ := sum_steady hp hrel hsum hs
        unfold finalize
        have : sumPosts p XS 0 [] none = .error .secondNullPost := by
          rw [hsplit, sumPosts_append, k1]
          show sumPosts p (Y :: _) _ B _ = _
          rw [sumPosts_cons, hYf]
        rw [this]; rfl
  have htotal : Stumbles p XS ↔ ∃ t l r e, t <+: w.entries ∧ t.countP (fun f => f.amount = none) ≤ 1 ∧
      2 ≤ t.countP (fun f => f.amount ≠ none) ∧ t = l ++ e :: r ∧ StaleBooked M w l e := by
    have h0 := hO.stumbles (List.prefix_rfl (l := w.entries))
    rw [whole] at h0
    rw [h0]
    constructor
    · rintro ⟨h3, l, e, r, h4, h5⟩
      exact ⟨w.entries, l, r, e, List.prefix_rfl, oneBlank h2, h3, h4, h5⟩
    · rintro ⟨t, l, r, e, h3, _, h5, h6, h7⟩
      refine ⟨le_trans h5 h3.sublist.countP_le, l, e, ?_⟩
      obtain ⟨r2, hr2⟩ := h3
      exact ⟨r ++ r2, by rw [← hr2, h6]; simp, h7⟩
  obtain ⟨np, ps, b', s1, s2, hpriced, hknown, hsized, hnp, hnp2⟩ := finalize_phases hx hk ho hl h2 e1
  by_cases hst : Stumbles p XS
  · obtain ⟨t, l, r, e, g1, g2, g3, g4, g5⟩ := htotal.mp hst
    exact ⟨fun _ => dangle (sum_stumbles hp hO.rel s1 hst), fun hn => absurd (Trips.sum t l r e g1 g2 g3 g4 g5) hn⟩
  have nosum : ∀ t l r e, t <+: w.entries → t.countP (fun f => f.amount = none) ≤ 1 → 2 ≤ t.countP (fun f => f.amount ≠ none) →
      t = l ++ e :: r → ¬ StaleBooked M w l e := fun t l r e g1 g2 g3 g4 g5 => hst (htotal.mpr ⟨t, l, r, e, g1, g2, g3, g4, g5⟩)
  obtain ⟨B, t1, t2, t3⟩ := sum_steady hp hO.rel s1 hst
  by_cases h1 : w.entries.length = 1
  · have hk' : k = .singlePosting := Cause.unique hc (.single h1)
    subst hk'
    have hno : ¬ Trips M w := by
      intro ht
      cases ht with
      | sum t l r e ht hb h2 h hs => exact nosum t l r e ht hb h2 h hs
      | rate A B _ _ _ hi => have := impliedBy_two hi; omega
      | cost _ _ _ _ h => exact h h1
      | node _ _ _ _ h => exact h h1
    refine ⟨fun h => absurd h hno, fun _ => ?_⟩
    unfold finalize
    rw [t1]
    simp only [bind, Except.bind]
    rw [if_pos (by rw [hO.length]; exact h1)]
  have hlenX : XS.length ≠ 1 := by rw [hO.length]; exact h1
  have hlenx : x.posts.length ≠ 1 := by rw [← hx.posts.length_eq]; exact h1
  -- the rest, from the two-commodity phase on
  have rest : ∀ PS B', impliedCosts p XS B np = .ok (PS, B') → List.Forall₂ (PostR p.keys) ps PS → Amts p.keys b'.amounts B' →
      PS.map (·.amount) = XS.map (·.amount) →
      (∀ l e r Q, w.entries = l ++ e :: r → PS[l.length]? = some Q → Q.cost ≠ none →
        ((∃ A, Q.amount = some A ∧ ¬ Live p A) ∨ (∃ C, Q.cost = some C ∧ ¬ Live p C) ↔
          e.cost ≠ none ∧ (StaleAmount M w l e ∨ StaleBooked M w l e))) →
      (∀ A B l r e, ImpliedBy w A B → w.entries = l ++ e :: r → ¬ StaleAmount M w l e) →
      (Trips M w → finalize (some w.date) XS p = .error .danglingPointer) ∧ (¬ Trips M w → finalize (some w.date) XS p = .error k) := by
    intro PS B' r1 r2 r3 r4 r5 r6
    obtain ⟨v1, v2⟩ := prices_exact hO hpriced r2 hknown hsized r4 r5
    have hfin : finalize (some w.date) XS p = (recordPrices (some w.date) PS p >>= fun z => fillNull z.2 z.1 B' np >>= fun y => .ok (y, z.2)) := by
      unfold finalize
      rw [t1]
      simp only [bind, Except.bind]
      rw [if_neg hlenX, r1]
    have hstop : Trips M w ↔ ∃ l e r, w.entries = l ++ e :: r ∧ (∀ f ∈ l, ∀ k, ¬ CostFault w f k) ∧ Stop M w l e := by
      constructor
      · intro ht
        cases ht with
        | sum t l r e ht hb h2 h hs => exact absurd hs (nosum t l r e ht hb h2 h)
        | rate A B l r e hi h hs => exact absurd hs (r6 A B l r e hi h)
        | cost l r e hb h1 h hl hc hs => exact ⟨l, e, r, h, hl, Or.inl ⟨hc, hs⟩⟩
        | node l r e hb h1 h hl he hc hs => exact ⟨l, e, r, h, hl, Or.inr ⟨he, hc, hs⟩⟩
      · rintro ⟨l, e, r, h, hl, ⟨hc, hs⟩ | ⟨he, hc, hs⟩⟩
        · exact .cost l r e h2 h1 h hl hc hs
        · exact .node l r e h2 h1 h hl he hc hs
    have hpure : Finalize.finalize x p.er = (Finalize.recordPrices (some w.date) ps p.er >>= fun z => Finalize.fillNull z.1 b' np >>= fun y =>
        .ok ({ x with posts := y }, z.2)) := by
      unfold Finalize.finalize
      rw [s1]
      simp only [bind, Except.bind]
      rw [if_neg hlenx, s2, hx.date]
    rw [hfin, hstop]
    constructor
    · intro hs
      rw [v1 hs]; rfl
    · intro hs
      obtain ⟨w1, w2⟩ := v2 hs
      rw [hpure] at h
      cases hm : Finalize.recordPrices (some w.date) ps p.er with
      | error k' =>
        rw [hm] at h
        injection h with h
        subst h
        rw [w1 _ hm]; rfl
      | ok z =>
        rw [hm] at h
        obtain ⟨z1, z2⟩ := z
        change (Finalize.fillNull z1 b' np >>= _) = _ at h
        have hb : k = .nullPostCommodities ∧ np ≠ none ∧ ∀ a, b'.amounts ≠ [a] := by
          unfold Finalize.fillNull at h
          cases np with
          | none => cases h
          | some i =>
            simp only at h
            split at h
            · cases h
            · rename_i hno
              injection h with h
              exact ⟨h.symm, by simp, hno⟩
        obtain ⟨rfl, hb1, hb2⟩ := hb
        have hnf : ∀ f ∈ w.entries, ∀ k, ¬ CostFault w f k := by
          cases hc with
          | cost l r e k hb hs h hl he => cases he
          | mixed e p q hb hs hf => exact hf
        obtain ⟨YS, p', y1, _⟩ := w2 _ hm hnf
        rw [y1]
        show (fillNull p' YS B' np >>= _) = _
        obtain ⟨i, hi⟩ := Option.ne_none_iff_exists'.mp hb1
        unfold fillNull
        rw [hi]
        simp only
        split
        · rename_i a
          exact absurd (r3.1) (by simpa using hb2 (a.er p.keys))
        · rfl
  by_cases hsome : ∃ A B, ImpliedBy w A B
  · obtain ⟨A, Bc, hi⟩ := hsome
    have hn : np = none := by
      by_contra hn
      exact (hnp2 hn).2.2 A Bc hi
    subst hn
    have himp := (implied_iff hx A Bc).mpr hi
    obtain ⟨e1', e2', f, t, top, hshape, _, _, _, _, z1, z2, htop, _⟩ := implied_pair _ _ hr e1 A Bc himp
    have hpair : Pair x.posts b := by
      rcases hshape with ⟨h, _⟩ | ⟨h, _⟩
      · exact ⟨_, _, top, h, htop, z1, z2⟩
      · exact ⟨_, _, top, h, htop, z2, z1⟩
    have hfig : 2 ≤ (XS.filterMap Pst.figure).length := by
      have := hO.take_count (List.prefix_rfl (l := w.entries))
      rw [whole] at this
      rw [this]
      have hall : w.entries.countP (fun f => f.amount ≠ none) = w.entries.length := by
        rw [List.countP_eq_length]
        intro e he
        simpa using hi.1 e he
      rw [hall]
      exact impliedBy_two hi
    have figLive : ∀ X ∈ XS, ∀ f, X.figure = some f → Live p f := by
      intro X hX f hf
      by_contra hn
      exact hst ⟨hfig, X, hX, f, hf, hn⟩
    by_cases hal : ∀ X ∈ XS, ∀ A, X.amount = some A → Live p A
    · have hrelNow : List.Forall₂ (PostRQ p.keys (Now p)) x.posts XS := by
        have hrel := hO.rel
        have key : ∀ xs (YS : List Pst), List.Forall₂ (PostR p.keys) xs YS → (∀ X ∈ YS, X ∈ XS) →
            List.Forall₂ (PostRQ p.keys (Now p)) xs YS := by
          intro xs YS hxy
          induction hxy with
          | nil => exact fun _ => .nil
          | @cons x X xs YS h1 _ ih =>
            intro hm
            refine .cons (steady_rel hp h1 (hal X (hm X (by simp))) (fun C hC => figLive X (hm X (by simp)) C ?_)) (ih (fun X hX => hm X (by simp [hX])))
            unfold Pst.figure; rw [hC]
        exact key _ _ hrel (fun X hX => hX)
      obtain ⟨⟨PS, B'⟩, j1, j2, j3, j4⟩ := (impliedCosts_sim (sound_now hp) hrelNow (t3 hfig) none).runs s2
      have hnoA : ∀ l r e, w.entries = l ++ e :: r → ¬ StaleAmount M w l e := by
        intro l r e he hs
        obtain ⟨_, X, _, hX, _⟩ := hO.get he
        obtain ⟨A, hA, hl⟩ := (hO.amount he hX).1.mp hs
        exact hl (hal X (List.mem_of_getElem? hX) A hA)
      have hnoB : ∀ l r e, w.entries = l ++ e :: r → ¬ StaleBooked M w l e := by
        intro l r e he hs
        obtain ⟨_, X, _, hX, _⟩ := hO.get he
        obtain ⟨A, hA, hl⟩ := (hO.figure he hX).2.1.mp hs
        exact hl (figLive X (List.mem_of_getElem? hX) A hA)
      refine rest PS B' j1 (j2.imp fun x X h => ⟨⟨h.amount.1, fun A hA y hy => (h.amount.2 A hA y hy).1⟩,
          ⟨h.cost.1, fun A hA y hy => (h.cost.2 A hA y hy).1⟩, h.note⟩) ⟨j3.1, fun a ha y hy => (j3.2 a ha y hy).1⟩ ?_ ?_
        (fun A B l r e _ he => hnoA l r e he)
      · have := congrArg (List.map Prod.snd) j4
        simpa [List.map_map, Function.comp_def, Pst.kept] using this
      · intro l e r Q he hQ _
        obtain ⟨q, _, hqQ⟩ := forall₂_getElem?_right j2 hQ
        constructor
        · rintro (⟨A, hA, hl⟩ | ⟨A, hA, hl⟩)
          · exact absurd ((live_iff hp (fun y hy => (hqQ.amount.2 A hA y hy).1)).mpr (hqQ.amount.2 A hA)) hl
          · exact absurd ((live_iff hp (fun y hy => (hqQ.cost.2 A hA y hy).1)).mpr (hqQ.cost.2 A hA)) hl
        · rintro ⟨_, h | h⟩
          · exact absurd h (hnoA l r e he)
          · exact absurd h (hnoB l r e he)
    · push Not at hal
      obtain ⟨X, hX, Am, hA, hlv⟩ := hal
      obtain ⟨i, hi'⟩ := List.getElem?_of_mem hX
      obtain ⟨l, e, r, he, rfl⟩ := hO.at hi'
      have hsa : StaleAmount M w l e := (hO.amount he hi').1.mpr ⟨Am, hA, hlv⟩
      refine ⟨fun _ => ?_, fun hn => absurd (Trips.rate A Bc l r e hi he hsa) hn⟩
      have : impliedCosts p XS B none = .error .danglingPointer :=
        (impliedCosts_sim (sound_taken hp) hO.rel t2 none).trips s2
          (fun z hz => hlv (rates_live (PS := z.1) (B' := z.2) hO.rel t2 hpair hz X hX Am hA))
      unfold finalize
      rw [t1]
      simp only [bind, Except.bind]
      rw [if_neg hlenX, this]
  · have hno : ∀ A B, ¬ ImpliedBy w A B := fun A B h => hsome ⟨A, B, h⟩
    have hsame : ps = x.posts ∧ b' = b := by
      cases hnn : np with
      | some i =>
        have := hnp2 (by rw [hnn]; simp)
        exact ⟨this.1, this.2.1⟩
      | none =>
        have him := (impliedCosts_else _ _ hr (hnp hnn) e1).resolve_right (by
          rintro ⟨A, B, h⟩
          exact hno A B ((implied_iff hx _ _).mp h))
        rw [hnn, him] at s2
        injection s2 with s2
        injection s2 with s3 s4
        exact ⟨s3.symm, s4.symm⟩
    obtain ⟨rfl, rfl⟩ := hsame
    refine rest XS B (rates_none hO.rel t2 (fun hnn hpair => ?_)) hO.rel t2 rfl ?_ (fun A B _ _ _ hi => absurd hi (hno A B))
    · obtain ⟨A, B, h⟩ := implied_branch _ _ hr (hnp hnn) e1 hpair
      exact hno A B ((implied_iff hx _ _).mp h)
    · intro l e r Q he hQ hqc
      obtain ⟨C, hC⟩ := Option.ne_none_iff_exists'.mp hqc
      have hf : Q.figure = some C := by unfold Pst.figure; rw [hC]
      obtain ⟨x0, X, _, hX, g1, g2, _⟩ := hO.get he
      rw [hQ] at hX; injection hX with hX; subst hX
      have hec : e.cost ≠ none := (g1.cost_value (by rw [g2.cost.1, hC]; rfl)).1
      rw [(hO.amount he hQ).1, (hO.figure he hQ).2.1, hC, hf]
      exact ⟨fun h => ⟨hec, h⟩, fun h => h.2⟩

end Ledger.Machine
