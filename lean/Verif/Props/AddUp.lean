import Verif.Props.Books
/-
C121: the reports of separate files add up to the report of all of them.
-/
namespace Ledger
open Ledger.Parser Ledger.Finalize Ledger.Cli Ledger.Output

theorem listedFrom_nodup (b : Bookings) (d : Nat) (p : Path) : (b.listedFrom d p).Nodup := by
  induction d generalizing p with
  | zero => exact List.nodup_nil
  | succ d ih =>
    rw [Bookings.listedFrom, List.nodup_cons]
    constructor
    · intro h
      obtain ⟨n, _, hn⟩ := List.mem_flatMap.mp h
      have := (listedFrom_prefix b d _ p hn).1.length_le
      simp at this
    · rw [List.nodup_flatMap]
      refine ⟨fun n _ => ih _, (names_nodup b p).imp ?_⟩
      intro n m hnm q h1 h2
      obtain ⟨t, ht⟩ := (listedFrom_prefix b d _ q h1).1
      obtain ⟨u, hu⟩ := (listedFrom_prefix b d _ q h2).1
      rw [← hu, List.append_assoc, List.append_assoc] at ht
      have := List.append_cancel_left ht
      injection this with h
      exact hnm h

theorem figure_unlisted {b : Bookings} {p : Path} (h : p ∉ b.listed) : b.figure p = [] := by
  refine total_none ?_ _
  rw [List.eq_nil_iff_forall_not_mem]
  intro x hx
  have := mem_within.mp hx
  exact h ((mem_listed b p).mpr (Or.inr ⟨x, this.1, this.2⟩))

/-- One list of amounts holds what two others hold together: their commodities, once each, and in each commodity the sum. -/
def AddUp (l l1 l2 : List Amount) : Prop :=
  (l.map (·.comm)).Nodup ∧ (∀ c, c ∈ l.map (·.comm) ↔ c ∈ l1.map (·.comm) ∨ c ∈ l2.map (·.comm)) ∧
    ∀ c, sumIn c l = sumIn c l1 + sumIn c l2

theorem figure_sums_any (b : Bookings) (c : Option Str) (p : Path) : sumIn c (b.figure p) = sumIn c (b.below p) ∧
    (c ∈ (b.figure p).map (·.comm) ↔ c ∈ (b.below p).map (·.comm)) := by
  by_cases h : p ∈ b.listed
  · have := (listedFrom_prefix b _ [] p h).2
    simp only [List.length_nil] at this
    exact ⟨figure_sums b c h, (figure_comms b _ p (by omega)).2 c⟩
  · have hb : b.below p = [] := by
      unfold Bookings.below
      rw [List.map_eq_nil_iff, List.filter_eq_nil_iff]
      intro x hx hp
      exact h ((mem_listed b p).mpr (Or.inr ⟨x, hx, List.isPrefixOf_iff_prefix.mp hp⟩))
    rw [figure_unlisted h, hb]
    exact ⟨rfl, Iff.rfl⟩

theorem figure_add {b b1 b2 : Bookings} (h : b.Perm (b1 ++ b2)) {p : Path} (hp : p ∈ b.listed) :
    AddUp (b.figure p) (b1.figure p) (b2.figure p) := by
  have hb : (b.below p).Perm (b1.below p ++ b2.below p) := by
    have := (h.filter (fun x => p.isPrefixOf x.1)).map (·.2)
    rwa [List.filter_append, List.map_append] at this
  refine ⟨figure_nodup b p hp, fun c => ?_, fun c => ?_⟩
  · rw [(figure_sums_any b c p).2, (figure_sums_any b1 c p).2, (figure_sums_any b2 c p).2, (hb.map _).mem_iff, List.map_append,
      List.mem_append]
  · rw [(figure_sums_any b c p).1, (figure_sums_any b1 c p).1, (figure_sums_any b2 c p).1, sumIn_perm c hb, sumIn_append]

/-- C121: let one command line name files with the transactions of the files on two others, in any order and in any number of files.
It is refused exactly if one of the two is.  Otherwise its report lists every account that one of the two reports lists, once, and
gives for each account the commodities and the sums of the two figures. -/
theorem C121_add {files files1 files2 : Files} {depth depth1 depth2 : Nat} {fs fs1 fs2 : List Str} {is is1 is2 : List Item}
    (hf : FilesSay files depth fs is .done) (hf1 : FilesSay files1 depth1 fs1 is1 .done)
    (hf2 : FilesSay files2 depth2 fs2 is2 .done) (hw : (writings is).Perm (writings is1 ++ writings is2))
    (hd : ∀ w ∈ writings is, Everyday w) (ht : Roomy (allEntries (writings is)))
    {args args1 args2 rest rest1 rest2 : List Str} {verb verb1 verb2 : Str}
    (ha : Options.processArguments args = .ok (verb :: rest, fs)) (hv : BalanceVerb verb)
    (ha1 : Options.processArguments args1 = .ok (verb1 :: rest1, fs1)) (hv1 : BalanceVerb verb1)
    (ha2 : Options.processArguments args2 = .ok (verb2 :: rest2, fs2)) (hv2 : BalanceVerb verb2) :
    ((∃ k, run files depth args = .error k) ∧
      ((∃ k, run files1 depth1 args1 = .error k) ∨ ∃ k, run files2 depth2 args2 = .error k)) ∨
    ∃ (accounts accounts1 accounts2 : List Path) (total total1 total2 : Path → List Amount),
      run files depth args = .ok (accounts.map (fun p => lineText (colons p) ⟨total p⟩)) ∧
      run files1 depth1 args1 = .ok (accounts1.map (fun p => lineText (colons p) ⟨total1 p⟩)) ∧
      run files2 depth2 args2 = .ok (accounts2.map (fun p => lineText (colons p) ⟨total2 p⟩)) ∧
      accounts.Nodup ∧ (∀ p, p ∈ accounts ↔ p ∈ accounts1 ∨ p ∈ accounts2) ∧
      (∀ p, p ∉ accounts1 → total1 p = []) ∧ (∀ p, p ∉ accounts2 → total2 p = []) ∧
      ∀ p ∈ accounts, AddUp (total p) (total1 p) (total2 p) := by
  have hm : ∀ w, w ∈ writings is ↔ w ∈ writings is1 ∨ w ∈ writings is2 := fun w => by rw [hw.mem_iff, List.mem_append]
  have hp : (allEntries (writings is)).Perm (allEntries (writings is1) ++ allEntries (writings is2)) := by
    have := hw.flatMap_right (·.entries)
    rwa [List.flatMap_append] at this
  have hs : ((allEntries (writings is)).map (·.size)).sum =
      ((allEntries (writings is1)).map (·.size)).sum + ((allEntries (writings is2)).map (·.size)).sum := by
    rw [(hp.map _).sum_eq, List.map_append, List.sum_append]
  have pos : ∀ es : List Entry, 0 ≤ (es.map (·.size)).sum := fun es => List.sum_nonneg (M := ℚ) (by
    intro x hx
    obtain ⟨e, _, rfl⟩ := List.mem_map.mp hx
    exact size_nonneg e)
  have hd1 : ∀ w ∈ writings is1, Everyday w := fun w h => hd w ((hm w).mpr (.inl h))
  have hd2 : ∀ w ∈ writings is2, Everyday w := fun w h => hd w ((hm w).mpr (.inr h))
  have ht1 : Roomy (allEntries (writings is1)) :=
    ht.mono (fun e he => hp.mem_iff.mpr (List.mem_append_left _ he)) (by rw [hs]; linarith [pos (allEntries (writings is2))])
  have ht2 : Roomy (allEntries (writings is2)) :=
    ht.mono (fun e he => hp.mem_iff.mpr (List.mem_append_right _ he)) (by rw [hs]; linarith [pos (allEntries (writings is1))])
  by_cases hn : ∃ w ∈ writings is, Faulty w
  · left
    obtain ⟨k, hk⟩ := firstCause_of_faulty hn
    refine ⟨⟨k, (C92_run_panic files depth hf hd ht ha (Or.inl hv) k).mpr (Or.inl hk)⟩, ?_⟩
    obtain ⟨w, h1, h2⟩ := hn
    rcases (hm w).mp h1 with h1 | h1
    · obtain ⟨k, hk⟩ := firstCause_of_faulty ⟨w, h1, h2⟩
      exact .inl ⟨k, (C92_run_panic files1 depth1 hf1 hd1 ht1 ha1 (Or.inl hv1) k).mpr (Or.inl hk)⟩
    · obtain ⟨k, hk⟩ := firstCause_of_faulty ⟨w, h1, h2⟩
      exact .inr ⟨k, (C92_run_panic files2 depth2 hf2 hd2 ht2 ha2 (Or.inl hv2) k).mpr (Or.inl hk)⟩
  · right
    have hn0 : ∀ w ∈ writings is, ¬ Faulty w := fun w h1 h2 => hn ⟨w, h1, h2⟩
    have hn1 : ∀ w ∈ writings is1, ¬ Faulty w := fun w h1 => hn0 w ((hm w).mpr (.inl h1))
    have hn2 : ∀ w ∈ writings is2, ¬ Faulty w := fun w h1 => hn0 w ((hm w).mpr (.inr h1))
    have hb : (writtenBookings (writings is)).Perm (writtenBookings (writings is1) ++ writtenBookings (writings is2)) := by
      have := hw.flatMap_right (·.bookings)
      rwa [List.flatMap_append] at this
    refine ⟨(writtenBookings (writings is)).listed, (writtenBookings (writings is1)).listed,
      (writtenBookings (writings is2)).listed, (writtenBookings (writings is)).figure, (writtenBookings (writings is1)).figure,
      (writtenBookings (writings is2)).figure, by rw [C92_report files depth hf hd ht ha hv hn0, report_listed],
      by rw [C92_report files1 depth1 hf1 hd1 ht1 ha1 hv1 hn1, report_listed],
      by rw [C92_report files2 depth2 hf2 hd2 ht2 ha2 hv2 hn2, report_listed], listedFrom_nodup _ _ _, fun p => ?_,
      fun p => figure_unlisted, fun p => figure_unlisted, fun p hp => figure_add hb hp⟩
    rw [mem_listed, mem_listed, mem_listed]
    constructor
    · rintro (h | ⟨x, hx, hp⟩)
      · exact .inl (.inl h)
      · rcases List.mem_append.mp (hb.mem_iff.mp hx) with hx | hx
        · exact .inl (.inr ⟨x, hx, hp⟩)
        · exact .inr (.inr ⟨x, hx, hp⟩)
    · rintro ((h | ⟨x, hx, hp⟩) | (h | ⟨x, hx, hp⟩))
      · exact .inl h
      · exact .inr ⟨x, hb.mem_iff.mpr (List.mem_append_left _ hx), hp⟩
      · exact .inl h
      · exact .inr ⟨x, hb.mem_iff.mpr (List.mem_append_right _ hx), hp⟩

/-- C121 for the accounts command: it lists the accounts of both lots of files, each once. -/
theorem C121_accounts {files files1 files2 : Files} {depth depth1 depth2 : Nat} {fs fs1 fs2 : List Str} {is is1 is2 : List Item}
    (hf : FilesSay files depth fs is .done) (hf1 : FilesSay files1 depth1 fs1 is1 .done)
    (hf2 : FilesSay files2 depth2 fs2 is2 .done) (hw : (writings is).Perm (writings is1 ++ writings is2))
    (hd : ∀ w ∈ writings is, Everyday w) {args args1 args2 rest rest1 rest2 : List Str} {verb verb1 verb2 : Str}
    (ha : Options.processArguments args = .ok (verb :: rest, fs)) (hv : AccountsVerb verb)
    (ha1 : Options.processArguments args1 = .ok (verb1 :: rest1, fs1)) (hv1 : AccountsVerb verb1)
    (ha2 : Options.processArguments args2 = .ok (verb2 :: rest2, fs2)) (hv2 : AccountsVerb verb2) :
    ((∃ k, run files depth args = .error k) ∧
      ((∃ k, run files1 depth1 args1 = .error k) ∨ ∃ k, run files2 depth2 args2 = .error k)) ∨
    ∃ out out1 out2, ∃ paths paths1 paths2 : List Path, run files depth args = .ok out ∧ run files1 depth1 args1 = .ok out1 ∧
      run files2 depth2 args2 = .ok out2 ∧ out.Pairwise (fun a b => StrBefore a b ∨ a = b) ∧
      paths.Nodup ∧ paths1.Nodup ∧ paths2.Nodup ∧ (∀ p, p ∈ paths ↔ p ∈ paths1 ∨ p ∈ paths2) ∧
      (∀ p, p ∈ paths1 ↔ p = [] ∨ ∃ e ∈ allEntries (writings is1), p <+: pathOf e.account) ∧
      (∀ p, p ∈ paths2 ↔ p = [] ∨ ∃ e ∈ allEntries (writings is2), p <+: pathOf e.account) ∧
      out.Perm (paths.map lastPart) ∧ out1.Perm (paths1.map lastPart) ∧ out2.Perm (paths2.map lastPart) := by
  have hm : ∀ w, w ∈ writings is ↔ w ∈ writings is1 ∨ w ∈ writings is2 := fun w => by rw [hw.mem_iff, List.mem_append]
  have hd1 : ∀ w ∈ writings is1, Everyday w := fun w h => hd w ((hm w).mpr (.inl h))
  have hd2 : ∀ w ∈ writings is2, Everyday w := fun w h => hd w ((hm w).mpr (.inr h))
  by_cases hn : ∃ w ∈ writings is, Faulty w
  · left
    obtain ⟨k, hk⟩ := firstCause_of_faulty hn
    refine ⟨⟨k, (C92_accounts_panic files depth hf hd ha hv k).mpr (Or.inl hk)⟩, ?_⟩
    obtain ⟨w, h1, h2⟩ := hn
    rcases (hm w).mp h1 with h1 | h1
    · obtain ⟨k, hk⟩ := firstCause_of_faulty ⟨w, h1, h2⟩
      exact .inl ⟨k, (C92_accounts_panic files1 depth1 hf1 hd1 ha1 hv1 k).mpr (Or.inl hk)⟩
    · obtain ⟨k, hk⟩ := firstCause_of_faulty ⟨w, h1, h2⟩
      exact .inr ⟨k, (C92_accounts_panic files2 depth2 hf2 hd2 ha2 hv2 k).mpr (Or.inl hk)⟩
  · right
    have hn0 : ∀ w ∈ writings is, ¬ Faulty w := fun w h1 h2 => hn ⟨w, h1, h2⟩
    obtain ⟨out, a1, a2, ps, a3, a4, a5⟩ := C92_accounts files depth hf hd ha hv hn0
    obtain ⟨out1, b1, b2, ps1, b3, b4, b5⟩ := C92_accounts files1 depth1 hf1 hd1 ha1 hv1 fun w h1 => hn0 w ((hm w).mpr (.inl h1))
    obtain ⟨out2, c1, c2, ps2, c3, c4, c5⟩ := C92_accounts files2 depth2 hf2 hd2 ha2 hv2 fun w h1 => hn0 w ((hm w).mpr (.inr h1))
    refine ⟨out, out1, out2, ps, ps1, ps2, a1, b1, c1, a2, a3, b3, c3, fun p => ?_, b4, c4, a5, b5, c5⟩
    have he : ∀ e, e ∈ allEntries (writings is) ↔ e ∈ allEntries (writings is1) ∨ e ∈ allEntries (writings is2) := by
      intro e
      have h := (hw.flatMap_right (·.entries)).mem_iff (a := e)
      rw [List.flatMap_append, List.mem_append] at h
      exact h
    rw [a4, b4, c4]
    simp only [he]
    constructor
    · rintro (h | ⟨e, h | h, hp⟩)
      · exact .inl (.inl h)
      · exact .inl (.inr ⟨e, h, hp⟩)
      · exact .inr (.inr ⟨e, h, hp⟩)
    · rintro ((h | ⟨e, h, hp⟩) | (h | ⟨e, h, hp⟩))
      · exact .inl h
      · exact .inr ⟨e, .inl h, hp⟩
      · exact .inl h
      · exact .inr ⟨e, .inr h, hp⟩

theorem listed_mem {b b' : Bookings} (hm : ∀ x, x ∈ b ↔ x ∈ b') : b.listed = b'.listed := by
  have hd : b.depth = b'.depth := Nat.le_antisymm (depth_mono fun x => (hm x).mp) (depth_mono fun x => (hm x).mpr)
  unfold Bookings.listed
  rw [hd]
  have : ∀ d p, b.listedFrom d p = b'.listedFrom d p := by
    intro d
    induction d with
    | zero => intro p; rfl
    | succ d ih => intro p; rw [Bookings.listedFrom, Bookings.listedFrom, names_perm hm]; simp only [ih]
  exact this _ _

theorem filesSay_append {files : Files} {depth : Nat} {fs fs' : List Str} {is is' : List Item}
    (h : FilesSay files depth fs is .done) (h' : FilesSay files depth fs' is' .done) :
    FilesSay files depth (fs ++ fs') (is ++ is') .done := by
  generalize he : Ending.done = e at h
  induction h with
  | nil => exact h'
  | missing _ => cases he
  | read h hs _ ih => rw [List.append_assoc]; exact .read h hs (ih he)
  | stop _ _ hne => exact absurd he.symm hne

/-- C121: files that are given twice count twice: the report has the same lines with all sums doubled. -/
theorem C121_twice {files : Files} {depth : Nat} {fs : List Str} {is : List Item} (hf : FilesSay files depth fs is .done)
    (hd : ∀ w ∈ writings is, Everyday w) (ht : Roomy (allEntries (writings is ++ writings is)))
    {args args' rest rest' : List Str} {verb verb' : Str}
    (ha : Options.processArguments args = .ok (verb :: rest, fs)) (hv : BalanceVerb verb)
    (ha' : Options.processArguments args' = .ok (verb' :: rest', fs ++ fs)) (hv' : BalanceVerb verb') :
    ((∃ k, run files depth args = .error k) ∧ ∃ k, run files depth args' = .error k) ∨
    ∃ (accounts : List Path) (total total' : Path → List Amount),
      run files depth args = .ok (accounts.map (fun p => lineText (colons p) ⟨total p⟩)) ∧
      run files depth args' = .ok (accounts.map (fun p => lineText (colons p) ⟨total' p⟩)) ∧
      ∀ p ∈ accounts, ((total' p).map (·.comm)).Nodup ∧ (∀ c, c ∈ (total' p).map (·.comm) ↔ c ∈ (total p).map (·.comm)) ∧
        ∀ c, sumIn c (total' p) = 2 * sumIn c (total p) := by
  have hww : writings (is ++ is) = writings is ++ writings is := List.filterMap_append
  have hd2 : ∀ w ∈ writings (is ++ is), Everyday w := fun w h => by
    rw [hww, List.mem_append] at h
    exact h.elim (hd w) (hd w)
  rcases C121_add (filesSay_append hf hf) hf hf (by rw [hww]) hd2 (by rw [hww]; exact ht) ha' hv' ha hv ha hv with
    ⟨h, h' | h'⟩ | ⟨_, _, _, _, _, _, h, h', _⟩
  · exact .inl ⟨h', h⟩
  · exact .inl ⟨h', h⟩
  · right
    have hn : ∀ w ∈ writings is, ¬ Faulty w := by
      intro w hw hF
      obtain ⟨k, hk⟩ := firstCause_of_faulty (ws := writings (is ++ is)) ⟨w, by rw [hww]; exact List.mem_append_left _ hw, hF⟩
      have := (C92_run_panic files depth (filesSay_append hf hf) hd2 (by rw [hww]; exact ht) ha' (Or.inl hv') k).mpr (Or.inl hk)
      rw [this] at h
      cases h
    have hn2 : ∀ w ∈ writings (is ++ is), ¬ Faulty w := fun w h => by
      rw [hww, List.mem_append] at h
      exact h.elim (hn w) (hn w)
    have hb : writtenBookings (writings (is ++ is)) = writtenBookings (writings is) ++ writtenBookings (writings is) := by
      rw [hww]; exact List.flatMap_append
    have ht1 : Roomy (allEntries (writings is)) := by
      refine ht.mono (fun e he => by rw [allEntries_append]; exact List.mem_append_left _ he) ?_
      rw [allEntries_append, List.map_append, List.sum_append]
      have := List.sum_nonneg (M := ℚ) (l := (allEntries (writings is)).map (·.size)) (by
        intro x hx
        obtain ⟨e, _, rfl⟩ := List.mem_map.mp hx
        exact size_nonneg e)
      linarith
    refine ⟨(writtenBookings (writings is)).listed, (writtenBookings (writings is)).figure,
      (writtenBookings (writings (is ++ is))).figure, by rw [C92_report files depth hf hd ht1 ha hv hn, report_listed], ?_,
      fun p hp => ?_⟩
    · rw [C92_report files depth (filesSay_append hf hf) hd2 (by rw [hww]; exact ht) ha' hv' hn2, report_listed,
        listed_mem (b := writtenBookings (writings (is ++ is))) (b' := writtenBookings (writings is)) fun x => by
          rw [hb, List.mem_append, or_self]]
    · rw [← listed_mem (b := writtenBookings (writings (is ++ is))) fun x => by rw [hb, List.mem_append, or_self]] at hp
      obtain ⟨h1, h2, h3⟩ := figure_add (b1 := writtenBookings (writings is)) (b2 := writtenBookings (writings is)) (by rw [hb]) hp
      exact ⟨h1, fun c => by rw [h2, or_self], fun c => by rw [h3]; ring⟩

/-! ### examples -/

namespace AddUpExample
open BooksExample

theorem secondSays : FilesSay desk 0 [str "c"] [.xact pay] .done := .read (is' := []) (by decide) cSays .nil

/-- The two files together and each for itself. -/
example : ((∃ k, run desk 0 [str "bal", str "-f", str "a", str "-f", str "c"] = .error k) ∧
      ((∃ k, run desk 0 [str "bal", str "-f", str "a"] = .error k) ∨ ∃ k, run desk 0 [str "bal", str "-f", str "c"] = .error k)) ∨
    ∃ (accounts accounts1 accounts2 : List Path) (total total1 total2 : Path → List Amount),
      run desk 0 [str "bal", str "-f", str "a", str "-f", str "c"] = .ok (accounts.map (fun p => lineText (colons p) ⟨total p⟩)) ∧
      run desk 0 [str "bal", str "-f", str "a"] = .ok (accounts1.map (fun p => lineText (colons p) ⟨total1 p⟩)) ∧
      run desk 0 [str "bal", str "-f", str "c"] = .ok (accounts2.map (fun p => lineText (colons p) ⟨total2 p⟩)) ∧
      accounts.Nodup ∧ (∀ p, p ∈ accounts ↔ p ∈ accounts1 ∨ p ∈ accounts2) ∧
      (∀ p, p ∉ accounts1 → total1 p = []) ∧ (∀ p, p ∉ accounts2 → total2 p = []) ∧
      ∀ p ∈ accounts, AddUp (total p) (total1 p) (total2 p) :=
  C121_add acSays onlyA secondSays (List.Perm.refl _) everyday2 total2
    (verb := str "bal") (rest := []) (by decide) (by unfold BalanceVerb; decide)
    (verb1 := str "bal") (rest1 := []) (by decide) (by unfold BalanceVerb; decide)
    (verb2 := str "bal") (rest2 := []) (by decide) (by unfold BalanceVerb; decide)

/-- The accounts of the two files together and each for itself. -/
example : ((∃ k, run desk 0 [str "acc", str "-f", str "a", str "-f", str "c"] = .error k) ∧
      ((∃ k, run desk 0 [str "acc", str "-f", str "a"] = .error k) ∨ ∃ k, run desk 0 [str "acc", str "-f", str "c"] = .error k)) ∨
    ∃ out out1 out2, ∃ paths paths1 paths2 : List Path, run desk 0 [str "acc", str "-f", str "a", str "-f", str "c"] = .ok out ∧
      run desk 0 [str "acc", str "-f", str "a"] = .ok out1 ∧ run desk 0 [str "acc", str "-f", str "c"] = .ok out2 ∧
      out.Pairwise (fun a b => StrBefore a b ∨ a = b) ∧
      paths.Nodup ∧ paths1.Nodup ∧ paths2.Nodup ∧ (∀ p, p ∈ paths ↔ p ∈ paths1 ∨ p ∈ paths2) ∧
      (∀ p, p ∈ paths1 ↔ p = [] ∨ ∃ e ∈ allEntries (writings [.price FoundExample.price, .xact CausesExample.first]), p <+: pathOf e.account) ∧
      (∀ p, p ∈ paths2 ↔ p = [] ∨ ∃ e ∈ allEntries (writings [.xact pay]), p <+: pathOf e.account) ∧
      out.Perm (paths.map lastPart) ∧ out1.Perm (paths1.map lastPart) ∧ out2.Perm (paths2.map lastPart) :=
  C121_accounts acSays onlyA secondSays (List.Perm.refl _) everyday2
    (args := [str "acc", str "-f", str "a", str "-f", str "c"]) (verb := str "acc") (rest := []) (by decide) (by unfold AccountsVerb; decide)
    (args1 := [str "acc", str "-f", str "a"]) (verb1 := str "acc") (rest1 := []) (by decide) (by unfold AccountsVerb; decide)
    (args2 := [str "acc", str "-f", str "c"]) (verb2 := str "acc") (rest2 := []) (by decide) (by unfold AccountsVerb; decide)

/-- The reports of the two files; the report of both is shown beside C96.  And the first file twice. -/
example : run desk 0 [str "bal", str "-f", str "a"] =
      .ok [str "Account  has balance 0.00 EUR", str "Account Assets has balance -20.50 EUR",
        str "Account Assets:Cash has balance -20.50 EUR", str "Account Expenses has balance 20.50 EUR",
        str "Account Expenses:Food has balance 20.50 EUR"] ∧
    run desk 0 [str "bal", str "-f", str "a", str "-f", str "a"] =
      .ok [str "Account  has balance 0.00 EUR", str "Account Assets has balance -41.00 EUR",
        str "Account Assets:Cash has balance -41.00 EUR", str "Account Expenses has balance 41.00 EUR",
        str "Account Expenses:Food has balance 41.00 EUR"] := by decide +kernel

theorem twiceRoomy : Roomy (allEntries [pay, pay]) := by
  refine roomy_of (show ∀ e ∈ [bank, wage, bank, wage], (∀ a ∈ e.amount, a.qty.scale ≤ 9) ∧ e.worthDecimals ≤ 9 by decide) ?_
  change (List.map (·.size) [bank, wage, bank, wage]).sum ≤ _
  simp only [List.map_cons, List.map_nil, List.sum_cons, List.sum_nil, size_bank, size_wage]
  norm_num

/-- The second file twice. -/
example : ((∃ k, run desk 0 [str "bal", str "-f", str "c"] = .error k) ∧
      ∃ k, run desk 0 [str "bal", str "-f", str "c", str "-f", str "c"] = .error k) ∨
    ∃ (accounts : List Path) (total total' : Path → List Amount),
      run desk 0 [str "bal", str "-f", str "c"] = .ok (accounts.map (fun p => lineText (colons p) ⟨total p⟩)) ∧
      run desk 0 [str "bal", str "-f", str "c", str "-f", str "c"] = .ok (accounts.map (fun p => lineText (colons p) ⟨total' p⟩)) ∧
      ∀ p ∈ accounts, ((total' p).map (·.comm)).Nodup ∧ (∀ c, c ∈ (total' p).map (·.comm) ↔ c ∈ (total p).map (·.comm)) ∧
        ∀ c, sumIn c (total' p) = 2 * sumIn c (total p) :=
  C121_twice (is := [.xact pay]) secondSays (fun w hw => everyday2 w (List.mem_cons_of_mem _ hw))
    twiceRoomy (verb := str "bal") (rest := []) (by decide) (by unfold BalanceVerb; decide)
    (verb' := str "bal") (rest' := []) (by decide) (by unfold BalanceVerb; decide)

end AddUpExample

end Ledger
