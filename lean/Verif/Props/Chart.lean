import Verif.Props.AddUp
/-
C123: the names of the accounts do not matter.
-/
namespace Ledger
open Ledger.Parser Ledger.Finalize Ledger.Cli Ledger.Output

/-- A posting to the account with another name. -/
def Entry.moved (g : Str → Str) (e : Entry) : Entry := { e with account := g e.account }

/-- A transaction with other names for the accounts. -/
def Writing.moved (g : Str → Str) (w : Writing) : Writing := { w with entries := w.entries.map (Entry.moved g) }

/-- Bookings with another name for each part of the names of the accounts. -/
def Bookings.moved (f : Str → Str) (b : Bookings) : Bookings := b.map (fun x => (x.1.map f, x.2))

/-! ### what is refused -/

theorem moved_sum (g : Str → Str) (es : List Entry) (c : Option Str) : entriesSum (es.map (Entry.moved g)) c = entriesSum es c := by
  unfold entriesSum
  rw [List.map_map]
  rfl

theorem implied_moved (g : Str → Str) {w : Writing} {A B : Option Str} : ImpliedBy (w.moved g) A B ↔ ImpliedBy w A B := by
  unfold ImpliedBy Writing.moved
  simp only [List.forall_mem_map, moved_sum, List.head?_map]
  refine and_congr Iff.rfl (and_congr Iff.rfl (and_congr Iff.rfl (and_congr Iff.rfl (and_congr Iff.rfl ?_))))
  constructor
  · rintro ⟨e', h1, h2⟩
    obtain ⟨e, h3, rfl⟩ := Option.map_eq_some_iff.mp h1
    exact ⟨e, h3, h2⟩
  · rintro ⟨e, h1, h2⟩
    exact ⟨e.moved g, by rw [h1]; rfl, h2⟩

theorem faulty_moved (g : Str → Str) {w : Writing} : Faulty (w.moved g) ↔ Faulty w := by
  constructor
  · intro h
    cases h with
    | single h => exact .single (by simpa [Writing.moved] using h)
    | blanks l m r e f h he hf =>
      have h : w.entries.map (Entry.moved g) = (l ++ e :: m) ++ f :: r := h
      obtain ⟨lm, fr, h1, h2, h3⟩ := List.map_eq_append_iff.mp h
      obtain ⟨l0, em, h4, h5, h6⟩ := List.map_eq_append_iff.mp h2
      obtain ⟨e0, m0, h7, h8, h9⟩ := List.map_eq_cons_iff.mp h6
      obtain ⟨f0, r0, h10, h11, h12⟩ := List.map_eq_cons_iff.mp h3
      subst h8 h11
      exact .blanks l0 m0 r0 e0 f0 (by rw [h1, h4, h7, h10]) he hf
    | mixed e p q he hp hq hb hpa hqa hne =>
      obtain ⟨e0, he', rfl⟩ := List.mem_map.mp he
      obtain ⟨p0, hp', rfl⟩ := List.mem_map.mp hp
      obtain ⟨q0, hq', rfl⟩ := List.mem_map.mp hq
      exact .mixed e0 p0 q0 he' hp' hq' hb hpa hqa hne
    | cost e a he ha hc hbad hkeep =>
      obtain ⟨e0, he', rfl⟩ := List.mem_map.mp he
      exact .cost e0 a he' ha hc hbad fun B h => hkeep B ((implied_moved g).mpr h)
    | rate A B h e a he ha hac hbad =>
      obtain ⟨e0, he', rfl⟩ := List.mem_map.mp he
      exact .rate A B ((implied_moved g).mp h) e0 a he' ha hac hbad
  · intro h
    cases h with
    | single h => exact .single (by simpa [Writing.moved] using h)
    | blanks l m r e f h he hf =>
      exact .blanks (l.map (Entry.moved g)) (m.map (Entry.moved g)) (r.map (Entry.moved g)) (e.moved g) (f.moved g)
        (by simp [Writing.moved, h]) he hf
    | mixed e p q he hp hq hb hpa hqa hne =>
      exact .mixed (e.moved g) (p.moved g) (q.moved g) (List.mem_map_of_mem he) (List.mem_map_of_mem hp) (List.mem_map_of_mem hq)
        hb hpa hqa hne
    | cost e a he ha hc hbad hkeep =>
      exact .cost (e.moved g) a (List.mem_map_of_mem he) ha hc hbad fun B h => hkeep B ((implied_moved g).mp h)
    | rate A B h e a he ha hac hbad =>
      exact .rate A B ((implied_moved g).mpr h) (e.moved g) a (List.mem_map_of_mem he) ha hac hbad

theorem everyday_moved (g : Str → Str) {w : Writing} (h : Everyday w) : Everyday (w.moved g) := by
  obtain ⟨⟨D, T, h1, h2, h3⟩, h4, h5⟩ := h
  refine ⟨⟨D, T, ?_, ?_, ?_⟩, ?_, ?_⟩
  · refine h1.imp id fun ⟨g1, g2, g3⟩ => ⟨g1, ?_, fun A B h => g3 A B ((implied_moved g).mp h)⟩
    intro e he
    obtain ⟨x, hx, rfl⟩ := List.mem_map.mp he
    exact g2 x hx
  · intro e he
    obtain ⟨x, hx, rfl⟩ := List.mem_map.mp he
    exact h2 x hx
  · show ((w.entries.map (Entry.moved g)).map (·.size)).sum ≤ _
    rw [List.map_map]
    exact h3
  · simpa [Writing.moved] using h4
  · intro e he
    obtain ⟨x, hx, rfl⟩ := List.mem_map.mp he
    exact h5 x hx

theorem roomy_moved (g : Str → Str) {ws : List Writing} (h : Roomy (allEntries ws)) :
    Roomy (allEntries (ws.map (Writing.moved g))) := by
  have : allEntries (ws.map (Writing.moved g)) = (allEntries ws).map (Entry.moved g) := by
    unfold allEntries
    rw [List.flatMap_map, List.map_flatMap]
    rfl
  rw [this]
  obtain ⟨D, h1, h2, h3⟩ := h
  refine ⟨D, h1, ?_, ?_⟩
  · intro e he
    obtain ⟨x, hx, rfl⟩ := List.mem_map.mp he
    exact h2 x hx
  · rw [List.map_map]
    exact h3

/-! ### what is booked -/

theorem moved_bookings {f g : Str → Str} {w : Writing} (h : ∀ e ∈ w.entries, pathOf (g e.account) = (pathOf e.account).map f) :
    (w.moved g).bookings = w.bookings.moved f := by
  unfold Writing.bookings Bookings.moved
  have hfill : fillOf (w.moved g).entries = fillOf w.entries := by
    unfold fillOf Writing.moved
    simp only [List.filterMap_map]
    rfl
  rw [hfill]
  show (w.entries.map (Entry.moved g)).filterMap _ = _
  rw [List.filterMap_map, List.map_filterMap]
  refine List.filterMap_congr fun e he => ?_
  show ((e.amount.or (fillOf w.entries)).map fun a => (pathOf (g e.account), a)) = _
  rw [h e he]
  cases e.amount.or (fillOf w.entries) <;> rfl

theorem written_moved {f g : Str → Str} {ws : List Writing}
    (h : ∀ w ∈ ws, ∀ e ∈ w.entries, pathOf (g e.account) = (pathOf e.account).map f) :
    writtenBookings (ws.map (Writing.moved g)) = (writtenBookings ws).moved f := by
  unfold writtenBookings Bookings.moved
  rw [List.flatMap_map, List.map_flatMap]
  exact List.flatMap_congr fun w hw => moved_bookings (h w hw)

theorem below_moved {f : Str → Str} (hf : Function.Injective f) (b : Bookings) (p : Path) :
    (b.moved f).below (p.map f) = b.below p := by
  unfold Bookings.below Bookings.moved
  rw [List.filter_map, List.map_map]
  have : ((fun x : Path × Amount => (p.map f).isPrefixOf x.1) ∘ fun x : Path × Amount => (x.1.map f, x.2)) =
      fun x => p.isPrefixOf x.1 := by
    funext x
    rw [Bool.eq_iff_iff, List.isPrefixOf_iff_prefix, Function.comp]
    simp only [List.isPrefixOf_iff_prefix]
    exact List.prefix_map_iff_of_injective hf
  rw [this]
  rfl

theorem listed_moved (f : Str → Str) (b : Bookings) (q : Path) : q ∈ (b.moved f).listed ↔ ∃ p ∈ b.listed, p.map f = q := by
  simp only [mem_listed]
  constructor
  · rintro (rfl | ⟨x, hx, hq⟩)
    · exact ⟨[], .inl rfl, rfl⟩
    · obtain ⟨y, hy, rfl⟩ := List.mem_map.mp hx
      obtain ⟨l, hl, rfl⟩ := List.prefix_map_iff.mp hq
      exact ⟨l, .inr ⟨y, hy, hl⟩, rfl⟩
  · rintro ⟨p, rfl | ⟨x, hx, hp⟩, rfl⟩
    · exact .inl rfl
    · exact .inr ⟨_, List.mem_map_of_mem hx, hp.map f⟩

theorem figure_moved {f : Str → Str} (hf : Function.Injective f) (b : Bookings) {p : Path} (hp : p ∈ b.listed) :
    SameSums (b.figure p) ((b.moved f).figure (p.map f)) := by
  have hp' : p.map f ∈ (b.moved f).listed := (listed_moved f b _).mpr ⟨p, hp, rfl⟩
  refine ⟨figure_nodup _ _ hp, figure_nodup _ _ hp', fun c => ?_, fun c => ?_⟩
  · rw [(figure_sums_any b c p).2, (figure_sums_any (b.moved f) c (p.map f)).2, below_moved hf]
  · rw [(figure_sums_any b c p).1, (figure_sums_any (b.moved f) c (p.map f)).1, below_moved hf]

/-- C123: let two lots of files say the same transactions, in any order, with another name for each part of the names of the
accounts, different parts keeping different names.  Both are refused, or both are reported on: the lines are those of the accounts
with the new names, and in each account the commodities and the sums are the same. -/
theorem C123_names {files files' : Files} {depth depth' : Nat} {fs fs' : List Str} {is is' : List Item}
    (hs : FilesSay files depth fs is .done) (hs' : FilesSay files' depth' fs' is' .done) {f g : Str → Str}
    (hw : (writings is').Perm ((writings is).map (Writing.moved g))) (hf : Function.Injective f)
    (hg : ∀ w ∈ writings is, ∀ e ∈ w.entries, pathOf (g e.account) = (pathOf e.account).map f)
    (hd : ∀ w ∈ writings is, Everyday w) (ht : Roomy (allEntries (writings is)))
    {args args' rest rest' : List Str} {verb verb' : Str}
    (ha : Options.processArguments args = .ok (verb :: rest, fs)) (hv : BalanceVerb verb)
    (ha' : Options.processArguments args' = .ok (verb' :: rest', fs')) (hv' : BalanceVerb verb') :
    ((∃ k, run files depth args = .error k) ∧ ∃ k, run files' depth' args' = .error k) ∨
    ∃ (accounts accounts' : List Path) (total total' : Path → List Amount),
      run files depth args = .ok (accounts.map (fun p => lineText (colons p) ⟨total p⟩)) ∧
      run files' depth' args' = .ok (accounts'.map (fun p => lineText (colons p) ⟨total' p⟩)) ∧
      accounts'.Perm (accounts.map (·.map f)) ∧ ∀ p ∈ accounts, SameSums (total p) (total' (p.map f)) := by
  have hm : ∀ w, w ∈ writings is' ↔ ∃ u ∈ writings is, u.moved g = w := fun w => by rw [hw.mem_iff, List.mem_map]
  have hd' : ∀ w ∈ writings is', Everyday w := by
    intro w h
    obtain ⟨u, hu, rfl⟩ := (hm w).mp h
    exact everyday_moved g (hd u hu)
  have ht' : Roomy (allEntries (writings is')) := by
    have hp : (allEntries (writings is')).Perm (allEntries ((writings is).map (Writing.moved g))) := hw.flatMap_right _
    exact (roomy_moved g ht).mono (fun e he => hp.mem_iff.mp he) (le_of_eq (hp.map _).sum_eq)
  by_cases hn : ∃ w ∈ writings is, Faulty w
  · left
    obtain ⟨w, h1, h2⟩ := hn
    obtain ⟨k, hk⟩ := firstCause_of_faulty ⟨w, h1, h2⟩
    obtain ⟨k', hk'⟩ := firstCause_of_faulty ⟨w.moved g, (hm _).mpr ⟨w, h1, rfl⟩, (faulty_moved g).mpr h2⟩
    exact ⟨⟨k, (C92_run_panic files depth hs hd ht ha (Or.inl hv) k).mpr (Or.inl hk)⟩,
      ⟨k', (C92_run_panic files' depth' hs' hd' ht' ha' (Or.inl hv') k').mpr (Or.inl hk')⟩⟩
  · right
    have hn1 : ∀ w ∈ writings is, ¬ Faulty w := fun w h1 h2 => hn ⟨w, h1, h2⟩
    have hn2 : ∀ w ∈ writings is', ¬ Faulty w := by
      intro w h
      obtain ⟨u, hu, rfl⟩ := (hm w).mp h
      exact fun h2 => hn1 u hu ((faulty_moved g).mp h2)
    have hb : (writtenBookings (writings is')).Perm ((writtenBookings (writings is)).moved f) := by
      rw [← written_moved hg]
      exact hw.flatMap_right _
    refine ⟨(writtenBookings (writings is)).listed, (writtenBookings (writings is')).listed,
      (writtenBookings (writings is)).figure, (writtenBookings (writings is')).figure,
      by rw [C92_report files depth hs hd ht ha hv hn1, report_listed],
      by rw [C92_report files' depth' hs' hd' ht' ha' hv' hn2, report_listed], ?_, fun p hp => ?_⟩
    · rw [listed_perm hb]
      refine (List.perm_ext_iff_of_nodup (listedFrom_nodup _ _ _)
        ((List.nodup_map_iff (List.map_injective_iff.mpr hf)).mpr (listedFrom_nodup _ _ _))).mpr fun q => ?_
      rw [List.mem_map]
      exact listed_moved f _ q
    · obtain ⟨a1, a2, a3, a4⟩ := figure_moved hf _ hp
      have hq : p.map f ∈ ((writtenBookings (writings is)).moved f).listed := (listed_moved f _ _).mpr ⟨p, hp, rfl⟩
      obtain ⟨b1, b2, b3, b4⟩ := figure_perm hb.symm hq
      exact ⟨a1, b2, fun c => (a3 c).trans (b3 c), fun c => (a4 c).trans (b4 c)⟩

/-- C123 for the accounts command: it lists the same accounts under their new names. -/
theorem C123_accounts {files files' : Files} {depth depth' : Nat} {fs fs' : List Str} {is is' : List Item}
    (hs : FilesSay files depth fs is .done) (hs' : FilesSay files' depth' fs' is' .done) {f g : Str → Str}
    (hw : (writings is').Perm ((writings is).map (Writing.moved g))) (hf : Function.Injective f)
    (hg : ∀ w ∈ writings is, ∀ e ∈ w.entries, pathOf (g e.account) = (pathOf e.account).map f)
    (hd : ∀ w ∈ writings is, Everyday w) {args args' rest rest' : List Str} {verb verb' : Str}
    (ha : Options.processArguments args = .ok (verb :: rest, fs)) (hv : AccountsVerb verb)
    (ha' : Options.processArguments args' = .ok (verb' :: rest', fs')) (hv' : AccountsVerb verb') :
    ((∃ k, run files depth args = .error k) ∧ ∃ k, run files' depth' args' = .error k) ∨
    ∃ out out', ∃ paths : List Path, run files depth args = .ok out ∧ run files' depth' args' = .ok out' ∧
      out'.Pairwise (fun a b => StrBefore a b ∨ a = b) ∧ paths.Nodup ∧
      (∀ p, p ∈ paths ↔ p = [] ∨ ∃ e ∈ allEntries (writings is), p <+: pathOf e.account) ∧ out.Perm (paths.map lastPart) ∧
      out'.Perm (paths.map (fun p => lastPart (p.map f))) := by
  have hm : ∀ w, w ∈ writings is' ↔ ∃ u ∈ writings is, u.moved g = w := fun w => by rw [hw.mem_iff, List.mem_map]
  have hd' : ∀ w ∈ writings is', Everyday w := by
    intro w h
    obtain ⟨u, hu, rfl⟩ := (hm w).mp h
    exact everyday_moved g (hd u hu)
  by_cases hn : ∃ w ∈ writings is, Faulty w
  · left
    obtain ⟨w, h1, h2⟩ := hn
    obtain ⟨k, hk⟩ := firstCause_of_faulty ⟨w, h1, h2⟩
    obtain ⟨k', hk'⟩ := firstCause_of_faulty ⟨w.moved g, (hm _).mpr ⟨w, h1, rfl⟩, (faulty_moved g).mpr h2⟩
    exact ⟨⟨k, (C92_accounts_panic files depth hs hd ha hv k).mpr (Or.inl hk)⟩,
      ⟨k', (C92_accounts_panic files' depth' hs' hd' ha' hv' k').mpr (Or.inl hk')⟩⟩
  · right
    have hn1 : ∀ w ∈ writings is, ¬ Faulty w := fun w h1 h2 => hn ⟨w, h1, h2⟩
    have hn2 : ∀ w ∈ writings is', ¬ Faulty w := by
      intro w h
      obtain ⟨u, hu, rfl⟩ := (hm w).mp h
      exact fun h2 => hn1 u hu ((faulty_moved g).mp h2)
    obtain ⟨out, a1, _, ps, a3, a4, a5⟩ := C92_accounts files depth hs hd ha hv hn1
    obtain ⟨out', b1, b2, ps', b3, b4, b5⟩ := C92_accounts files' depth' hs' hd' ha' hv' hn2
    refine ⟨out, out', ps, a1, b1, b2, a3, a4, a5, b5.trans ?_⟩
    have hp : ps'.Perm (ps.map (·.map f)) := by
      refine (List.perm_ext_iff_of_nodup b3 ((List.nodup_map_iff (List.map_injective_iff.mpr hf)).mpr a3)).mpr fun q => ?_
      rw [b4, List.mem_map]
      constructor
      · rintro (rfl | ⟨e, he, hq⟩)
        · exact ⟨[], (a4 []).mpr (.inl rfl), rfl⟩
        · obtain ⟨w, hw, he⟩ := List.mem_flatMap.mp he
          obtain ⟨u, hu, rfl⟩ := (hm w).mp hw
          obtain ⟨e0, he0, rfl⟩ := List.mem_map.mp he
          rw [show (Entry.moved g e0).account = g e0.account from rfl, hg u hu e0 he0] at hq
          obtain ⟨l, hl, rfl⟩ := List.prefix_map_iff.mp hq
          exact ⟨l, (a4 l).mpr (.inr ⟨e0, List.mem_flatMap.mpr ⟨u, hu, he0⟩, hl⟩), rfl⟩
      · rintro ⟨p, hp, rfl⟩
        rcases (a4 p).mp hp with rfl | ⟨e, he, hq⟩
        · exact .inl rfl
        · obtain ⟨u, hu, he⟩ := List.mem_flatMap.mp he
          refine .inr ⟨e.moved g, List.mem_flatMap.mpr ⟨u.moved g, (hm _).mpr ⟨u, hu, rfl⟩, List.mem_map_of_mem he⟩, ?_⟩
          rw [show (Entry.moved g e).account = g e.account from rfl, hg u hu e he]
          exact hq.map f
    have := hp.map lastPart
    rw [List.map_map] at this
    exact this

/-! ### names in the same order -/

theorem nextName_moved {f : Str → Str} (hf : Function.Injective f) (p q : Path) :
    nextName (p.map f) (q.map f) = (nextName p q).map f := by
  induction p generalizing q with
  | nil => cases q <;> rfl
  | cons m p ih =>
    cases q with
    | nil => rfl
    | cons n q =>
      simp only [List.map_cons, nextName, hf.eq_iff]
      split
      · exact ih q
      · rfl

theorem sortIn_moved {f : Str → Str} (ho : ∀ a b, StrBefore a b ↔ StrBefore (f a) (f b)) (hf : Function.Injective f) (n : Str)
    (ms : List Str) : sortIn (f n) (ms.map f) = (sortIn n ms).map f := by
  induction ms with
  | nil => rfl
  | cons m ms ih =>
    have : before (f n) (f m) = before n m := by rw [Bool.eq_iff_iff, before_iff, before_iff]; exact (ho n m).symm
    simp only [List.map_cons, sortIn, hf.eq_iff, this]
    split
    · rfl
    · split
      · rfl
      · rw [ih]; rfl

theorem names_moved {f : Str → Str} (ho : ∀ a b, StrBefore a b ↔ StrBefore (f a) (f b)) (hf : Function.Injective f)
    (b : Bookings) (p : Path) : (b.moved f).names (p.map f) = (b.names p).map f := by
  unfold Bookings.names Bookings.moved
  rw [List.filterMap_map]
  have : (b.filterMap ((fun x : Path × Amount => nextName (p.map f) x.1) ∘ fun x => (x.1.map f, x.2))) =
      (b.filterMap (fun x => nextName p x.1)).map f := by
    rw [List.map_filterMap]
    exact List.filterMap_congr fun x _ => nextName_moved hf p x.1
  rw [this]
  induction b.filterMap (fun x => nextName p x.1) with
  | nil => rfl
  | cons n ns ih => rw [List.map_cons, List.foldr_cons, List.foldr_cons, ih, sortIn_moved ho hf]

theorem own_moved {f : Str → Str} (hf : Function.Injective f) (b : Bookings) (p : Path) : (b.moved f).own (p.map f) = b.own p := by
  unfold Bookings.own Bookings.moved
  rw [List.filter_map, List.map_map]
  have : ((fun x : Path × Amount => decide (x.1 = p.map f)) ∘ fun x : Path × Amount => (x.1.map f, x.2)) = fun x => decide (x.1 = p) := by
    funext x
    simp only [Function.comp, (List.map_injective_iff.mpr hf).eq_iff]
  rw [this]
  rfl

theorem total_moved {f : Str → Str} (ho : ∀ a b, StrBefore a b ↔ StrBefore (f a) (f b)) (hf : Function.Injective f)
    (b : Bookings) (d : Nat) (p : Path) : (b.moved f).total d (p.map f) = b.total d p := by
  induction d generalizing p with
  | zero => rfl
  | succ d ih =>
    rw [Bookings.total, Bookings.total, names_moved ho hf, own_moved hf, List.flatMap_map]
    have : ∀ n, (b.moved f).total d (p.map f ++ [f n]) = b.total d (p ++ [n]) := fun n => by rw [← ih]; simp
    simp only [this]

theorem listedFrom_moved {f : Str → Str} (ho : ∀ a b, StrBefore a b ↔ StrBefore (f a) (f b)) (hf : Function.Injective f)
    (b : Bookings) (d : Nat) (p : Path) : (b.moved f).listedFrom d (p.map f) = (b.listedFrom d p).map (·.map f) := by
  induction d generalizing p with
  | zero => rfl
  | succ d ih =>
    rw [Bookings.listedFrom, Bookings.listedFrom, names_moved ho hf, List.flatMap_map, List.map_cons, List.map_flatMap]
    have : ∀ n, (b.moved f).listedFrom d (p.map f ++ [f n]) = (b.listedFrom d (p ++ [n])).map (·.map f) := fun n => by
      rw [← ih]; simp
    simp only [this]

theorem depth_moved (f : Str → Str) (b : Bookings) : (b.moved f).depth = b.depth := by
  unfold Bookings.depth Bookings.moved
  rw [List.map_map]
  congr 1
  refine List.map_congr_left fun x _ => ?_
  simp

/-- C123: if the new names also keep the order, the report has the same lines in the same order with the new names, with exactly
the same figures. -/
theorem C123_order {files files' : Files} {depth depth' : Nat} {fs fs' : List Str} {is is' : List Item}
    (hs : FilesSay files depth fs is .done) (hs' : FilesSay files' depth' fs' is' .done) {f g : Str → Str}
    (hw : writings is' = (writings is).map (Writing.moved g)) (ho : ∀ a b, StrBefore a b → StrBefore (f a) (f b))
    (hg : ∀ w ∈ writings is, ∀ e ∈ w.entries, pathOf (g e.account) = (pathOf e.account).map f)
    (hd : ∀ w ∈ writings is, Everyday w) (ht : Roomy (allEntries (writings is)))
    {args args' rest rest' : List Str} {verb verb' : Str}
    (ha : Options.processArguments args = .ok (verb :: rest, fs)) (hv : BalanceVerb verb)
    (ha' : Options.processArguments args' = .ok (verb' :: rest', fs')) (hv' : BalanceVerb verb') :
    ((∃ k, run files depth args = .error k) ∧ ∃ k, run files' depth' args' = .error k) ∨
    ∃ (accounts : List Path) (total : Path → List Amount),
      run files depth args = .ok (accounts.map (fun p => lineText (colons p) ⟨total p⟩)) ∧
      run files' depth' args' = .ok (accounts.map (fun p => lineText (colons (p.map f)) ⟨total p⟩)) := by
  have hf : Function.Injective f := by
    intro a b h
    rcases strBefore_tri a b with h1 | h1 | h1
    · exact absurd (h ▸ ho a b h1) (strBefore_irrefl _)
    · exact h1
    · exact absurd (h ▸ ho b a h1) (strBefore_irrefl _)
  have ho' : ∀ a b, StrBefore a b ↔ StrBefore (f a) (f b) := by
    intro a b
    refine ⟨ho a b, fun h => ?_⟩
    rcases strBefore_tri a b with h1 | h1 | h1
    · exact h1
    · subst h1
      exact absurd h (strBefore_irrefl _)
    · exact absurd (strBefore_trans h (ho b a h1)) (strBefore_irrefl _)
  have hm : ∀ w, w ∈ writings is' ↔ ∃ u ∈ writings is, u.moved g = w := fun w => by rw [hw, List.mem_map]
  have hd' : ∀ w ∈ writings is', Everyday w := by
    intro w h
    obtain ⟨u, hu, rfl⟩ := (hm w).mp h
    exact everyday_moved g (hd u hu)
  have ht' : Roomy (allEntries (writings is')) := by
    rw [hw]
    exact roomy_moved g ht
  rcases C123_names hs hs' (List.Perm.of_eq hw) hf hg hd ht ha hv ha' hv' with h | ⟨_, _, _, _, h, h', _⟩
  · exact .inl h
  · right
    have hn1 : ∀ w ∈ writings is, ¬ Faulty w := by
      intro w h1 h2
      obtain ⟨k, hk⟩ := firstCause_of_faulty ⟨w, h1, h2⟩
      rw [(C92_run_panic files depth hs hd ht ha (Or.inl hv) k).mpr (Or.inl hk)] at h
      cases h
    have hn2 : ∀ w ∈ writings is', ¬ Faulty w := by
      intro w h
      obtain ⟨u, hu, rfl⟩ := (hm w).mp h
      exact fun h2 => hn1 u hu ((faulty_moved g).mp h2)
    refine ⟨(writtenBookings (writings is)).listed, (writtenBookings (writings is)).figure,
      by rw [C92_report files depth hs hd ht ha hv hn1, report_listed], ?_⟩
    rw [C92_report files' depth' hs' hd' ht' ha' hv' hn2, report_listed, hw, written_moved hg]
    unfold Bookings.listed Bookings.figure
    rw [depth_moved, show ([] : Path) = List.map f [] from rfl, listedFrom_moved ho' hf, List.map_map]
    congr 1
    refine List.map_congr_left fun p _ => ?_
    simp only [Function.comp, List.length_map, total_moved ho' hf]

/-! ### examples -/

namespace ChartExample
open BooksExample LinesExample FaultsExample CausesExample FoundExample

/-- New names with a letter in front, which keeps the order. -/
def marked (s : Str) : Str := if s = str "Assets:Bank" then str "ZAssets:ZBank" else if s = str "Income" then str "ZIncome" else s

/-- Two names exchanged, which does not. -/
def exchanged (s : Str) : Str := if s = str "Assets:Bank" then str "Income:Bank" else if s = str "Income" then str "Assets" else s

def payMarked : Source :=
  [some (str "2023-05-01 Shop  ; food\n"), some (str "    ZAssets:ZBank  100 EUR\n"), some (str "    ZIncome  -100 EUR\n")]

def payExchanged : Source :=
  [some (str "2023-05-01 Shop  ; food\n"), some (str "    Income:Bank  100 EUR\n"), some (str "    Assets  -100 EUR\n")]

def branches : Files := fun f =>
  if f = str "m" then some payMarked else if f = str "x" then some payExchanged else none

def bankX : Entry := { bank with account := str "Income:Bank" }
def wageX : Entry := { wage with account := str "Assets" }
def payX : Writing := { pay with entries := [bankX, wageX] }

def bankM : Entry := { bank with account := str "ZAssets:ZBank" }
def wageM : Entry := { wage with account := str "ZIncome" }
def payM : Writing := { pay with entries := [bankM, wageM] }

theorem bankMarked : EntryLine (str "    ZAssets:ZBank  100 EUR\n") bankM := by
  refine ⟨str "   ZAssets:ZBank  100 EUR\n", rfl, ?_⟩
  have e : str "   ZAssets:ZBank  100 EUR\n" =
      str "   " ++ str "ZAssets:ZBank" ++ ' ' :: ' ' :: [] ++ (str "100" ++ [' '] ++ str "EUR") ++ [] ++ [] ++ str "\n" := by
    decide
  rw [e]
  exact EntryText.full b3 (accountText_of ⟨⟨'Z', by decide, by decide, by decide⟩, by decide, by decide⟩) b0
    (amount _ _ _ (by decide) (by decide) (by decide)) noLot noCost (.blank nl) (by intro h; cases h) (by intro h; cases h)

theorem wageMarked : EntryLine (str "    ZIncome  -100 EUR\n") wageM := by
  refine ⟨str "   ZIncome  -100 EUR\n", rfl, ?_⟩
  have e : str "   ZIncome  -100 EUR\n" =
      str "   " ++ str "ZIncome" ++ ' ' :: ' ' :: [] ++ (str "-100" ++ [' '] ++ str "EUR") ++ [] ++ [] ++ str "\n" := by
    decide
  rw [e]
  exact EntryText.full b3 (accountText_of ⟨⟨'Z', by decide, by decide, by decide⟩, by decide, by decide⟩) b0
    (amount _ _ _ (by decide) (by decide) (by decide)) noLot noCost (.blank nl) (by intro h; cases h) (by intro h; cases h)

theorem bankExchanged : EntryLine (str "    Income:Bank  100 EUR\n") bankX := by
  refine ⟨str "   Income:Bank  100 EUR\n", rfl, ?_⟩
  have e : str "   Income:Bank  100 EUR\n" =
      str "   " ++ str "Income:Bank" ++ ' ' :: ' ' :: [] ++ (str "100" ++ [' '] ++ str "EUR") ++ [] ++ [] ++ str "\n" := by
    decide
  rw [e]
  exact EntryText.full b3 (accountText_of ⟨⟨'I', by decide, by decide, by decide⟩, by decide, by decide⟩) b0
    (amount _ _ _ (by decide) (by decide) (by decide)) noLot noCost (.blank nl) (by intro h; cases h) (by intro h; cases h)

theorem wageExchanged : EntryLine (str "    Assets  -100 EUR\n") wageX := by
  refine ⟨str "   Assets  -100 EUR\n", rfl, ?_⟩
  have e : str "   Assets  -100 EUR\n" =
      str "   " ++ str "Assets" ++ ' ' :: ' ' :: [] ++ (str "-100" ++ [' '] ++ str "EUR") ++ [] ++ [] ++ str "\n" := by
    decide
  rw [e]
  exact EntryText.full b3 (accountText_of ⟨⟨'A', by decide, by decide, by decide⟩, by decide, by decide⟩) b0
    (amount _ _ _ (by decide) (by decide) (by decide)) noLot noCost (.blank nl) (by intro h; cases h) (by intro h; cases h)

theorem sameHeader {line : Str} {w : Writing} (es : List Entry) (h : HeaderSays line w) : HeaderSays line { w with entries := es } := h

theorem textMarked : SaysUpTo branches 0 payMarked [.xact payM] .done :=
  .xact (w := payM) (tail := []) (sameHeader [bankM, wageM] (sameHeader [bank, wage] shopHeader))
    (.posting (e := bankM) bankMarked (.posting (e := wageM) wageMarked (.stop (Or.inl ⟨_, Or.inl ⟨rfl, rfl⟩⟩))))
    (Or.inl ⟨rfl, rfl⟩) .nil

theorem markedSays : FilesSay branches 0 [str "m"] [.xact payM] .done :=
  .read (f := str "m") (is' := []) (by decide) textMarked .nil

theorem textExchanged : SaysUpTo branches 0 payExchanged [.xact payX] .done :=
  .xact (w := payX) (tail := []) (sameHeader [bankX, wageX] (sameHeader [bank, wage] shopHeader))
    (.posting (e := bankX) bankExchanged (.posting (e := wageX) wageExchanged (.stop (Or.inl ⟨_, Or.inl ⟨rfl, rfl⟩⟩))))
    (Or.inl ⟨rfl, rfl⟩) .nil

theorem exchangedSays : FilesSay branches 0 [str "x"] [.xact payX] .done :=
  .read (f := str "x") (is' := []) (by decide) textExchanged .nil

theorem payRoomy : Roomy (allEntries [pay]) := by
  refine roomy_of (show ∀ e ∈ [bank, wage], (∀ a ∈ e.amount, a.qty.scale ≤ 9) ∧ e.worthDecimals ≤ 9 by decide) ?_
  change (List.map (·.size) [bank, wage]).sum ≤ _
  simp only [List.map_cons, List.map_nil, List.sum_cons, List.sum_nil, size_bank, size_wage]
  norm_num

theorem onlyPay {P : Writing → Prop} (h : P pay) : ∀ w ∈ writings [.xact pay], P w := by
  intro w hw
  have : w ∈ [pay] := hw
  simp only [List.mem_singleton] at this
  subst this
  exact h

/-- Names with a letter in front: the same lines. -/
example : ((∃ k, run desk 0 [str "bal", str "-f", str "c"] = .error k) ∧
      ∃ k, run branches 0 [str "bal", str "-f", str "m"] = .error k) ∨
    ∃ (accounts : List Path) (total : Path → List Amount),
      run desk 0 [str "bal", str "-f", str "c"] = .ok (accounts.map (fun p => lineText (colons p) ⟨total p⟩)) ∧
      run branches 0 [str "bal", str "-f", str "m"] =
        .ok (accounts.map (fun p => lineText (colons (p.map (fun s => 'Z' :: s))) ⟨total p⟩)) :=
  C123_order AddUpExample.secondSays markedSays (g := marked) (show [payM] = [pay.moved marked] by decide) (fun a b h => List.Lex.cons h)
    (onlyPay (show ∀ e ∈ [bank, wage], pathOf (marked e.account) = (pathOf e.account).map (fun s => 'Z' :: s) by decide))
    (onlyPay payEveryday) payRoomy
    (verb := str "bal") (rest := []) (by decide) (by unfold BalanceVerb; decide)
    (verb' := str "bal") (rest' := []) (by decide) (by unfold BalanceVerb; decide)

/-- Two names exchanged: the same sums, in another order. -/
example : ((∃ k, run desk 0 [str "bal", str "-f", str "c"] = .error k) ∧
      ∃ k, run branches 0 [str "bal", str "-f", str "x"] = .error k) ∨
    ∃ (accounts accounts' : List Path) (total total' : Path → List Amount),
      run desk 0 [str "bal", str "-f", str "c"] = .ok (accounts.map (fun p => lineText (colons p) ⟨total p⟩)) ∧
      run branches 0 [str "bal", str "-f", str "x"] = .ok (accounts'.map (fun p => lineText (colons p) ⟨total' p⟩)) ∧
      accounts'.Perm (accounts.map (·.map (Equiv.swap (str "Assets") (str "Income")))) ∧
      ∀ p ∈ accounts, SameSums (total p) (total' (p.map (Equiv.swap (str "Assets") (str "Income")))) :=
  C123_names AddUpExample.secondSays exchangedSays (g := exchanged) (.of_eq (show [payX] = [pay.moved exchanged] by decide)) (Equiv.injective _)
    (onlyPay (show ∀ e ∈ [bank, wage], pathOf (exchanged e.account) =
      (pathOf e.account).map (Equiv.swap (str "Assets") (str "Income")) by decide))
    (onlyPay payEveryday) payRoomy
    (verb := str "bal") (rest := []) (by decide) (by unfold BalanceVerb; decide)
    (verb' := str "bal") (rest' := []) (by decide) (by unfold BalanceVerb; decide)

/-- Two names exchanged: the same accounts. -/
example : ((∃ k, run desk 0 [str "acc", str "-f", str "c"] = .error k) ∧
      ∃ k, run branches 0 [str "acc", str "-f", str "x"] = .error k) ∨
    ∃ out out', ∃ paths : List Path, run desk 0 [str "acc", str "-f", str "c"] = .ok out ∧
      run branches 0 [str "acc", str "-f", str "x"] = .ok out' ∧ out'.Pairwise (fun a b => StrBefore a b ∨ a = b) ∧ paths.Nodup ∧
      (∀ p, p ∈ paths ↔ p = [] ∨ ∃ e ∈ allEntries (writings [.xact pay]), p <+: pathOf e.account) ∧ out.Perm (paths.map lastPart) ∧
      out'.Perm (paths.map (fun p => lastPart (p.map (Equiv.swap (str "Assets") (str "Income"))))) :=
  C123_accounts AddUpExample.secondSays exchangedSays (g := exchanged) (.of_eq (show [payX] = [pay.moved exchanged] by decide))
    (Equiv.injective _) (onlyPay (show ∀ e ∈ [bank, wage], pathOf (exchanged e.account) =
      (pathOf e.account).map (Equiv.swap (str "Assets") (str "Income")) by decide))
    (onlyPay payEveryday) (args := [str "acc", str "-f", str "c"]) (verb := str "acc") (rest := []) (by decide) (by unfold AccountsVerb; decide)
    (args' := [str "acc", str "-f", str "x"]) (verb' := str "acc") (rest' := []) (by decide) (by unfold AccountsVerb; decide)

example : run desk 0 [str "bal", str "-f", str "c"] =
      .ok [str "Account  has balance 0 EUR", str "Account Assets has balance 100 EUR",
        str "Account Assets:Bank has balance 100 EUR", str "Account Income has balance -100 EUR"] ∧
    run branches 0 [str "bal", str "-f", str "m"] =
      .ok [str "Account  has balance 0 EUR", str "Account ZAssets has balance 100 EUR",
        str "Account ZAssets:ZBank has balance 100 EUR", str "Account ZIncome has balance -100 EUR"] ∧
    run branches 0 [str "bal", str "-f", str "x"] =
      .ok [str "Account  has balance 0 EUR", str "Account Assets has balance -100 EUR",
        str "Account Income has balance 100 EUR", str "Account Income:Bank has balance 100 EUR"] := by decide +kernel

end ChartExample

end Ledger
