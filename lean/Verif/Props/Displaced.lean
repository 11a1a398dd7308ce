import Verif.Lemmas.MachineRight
import Verif.Props.Follows
/-
C103: which texts leave an account with a stale pointer to the account above it.
-/
namespace Ledger
open Ledger.Parser Ledger.Cli Ledger.Heap Ledger.Memory

theorem postRefs_paths (i : Nat) (ps : List Post) : (postRefs i ps).map (·.2) = ps.map (·.account) := by
  unfold postRefs
  rw [List.map_map]
  conv_rhs => rw [← List.zipIdx_map_fst 0 ps, List.map_map]
  rfl

theorem bookings_paths (xs : List Xact) : (bookings xs).map (·.2) = xs.flatMap (fun x => x.posts.map (·.account)) := by
  unfold bookings
  rw [List.map_flatMap]
  simp only [postRefs_paths]
  conv_rhs => rw [← List.zipIdx_map_fst 0 xs, List.flatMap_map]

theorem forall₂_map_eq {α β γ : Type} {R : α → β → Prop} {f : α → γ} {g : β → γ} (hR : ∀ a b, R a b → f a = g b) {l : List α} {m : List β}
    (h : List.Forall₂ R l m) : l.map f = m.map g := by
  induction h with
  | nil => rfl
  | cons hc _ ih => rw [List.map_cons, List.map_cons, ih, hR _ _ hc]

theorem settles_accounts {w w' : Writing} (h : Settles w w') : w'.entries.map (·.account) = w.entries.map (·.account) := by
  cases h with
  | kept => rfl
  | filled l r n b h hn => rw [h]; simp
  | rated A B u es h hu hes =>
    refine (forall₂_map_eq ?_ hes).symm
    rintro e e' (⟨_, b, k, _, _, _, rfl⟩ | ⟨_, rfl⟩) <;> rfl

/-- The accounts that were booked to are those written, in the same order. -/
theorem items_paths {is : List Item} {ws' : List Writing} {rs : List Recording} {j : Journal} (h : ItemsOutcome is ws' rs Journal.new j) :
    (bookings j.xacts).map (·.2) = (allEntries (writings is)).map (fun e => pathOf e.account) := by
  obtain ⟨new, hn, hxs⟩ := h.xacts
  rw [show Journal.new.xacts = [] from rfl, List.nil_append] at hn
  rw [bookings_paths, hn, allEntries, List.map_flatMap]
  have hset := h.settled
  clear h hn
  generalize writings is = ws at hset
  induction hset generalizing new with
  | nil => cases hxs; rfl
  | cons hs _ ih =>
    cases hxs with
    | cons hxo hxs =>
      rw [List.flatMap_cons, List.flatMap_cons, ih _ hxs]
      congr 1
      have := congrArg (List.map pathOf) (settles_accounts hs)
      rw [List.map_map, List.map_map] at this
      refine Eq.trans ?_ this
      exact (forall₂_map_eq (fun e p hp => hp.account.symm) hxo.posts).symm

/-- C103: a balance report of a journal in which an account was displaced after it had another account below it follows a
stale pointer, whatever the allocator does. -/
theorem C103_journal (stays : Nat → Bool) {files : Files} {depth : Nat} {args vs fs : List Str} {verb : Str}
    (ha : Options.processArguments args = .ok (verb :: vs, fs)) (hv : verb = str "b" ∨ verb = str "bal" ∨ verb = str "balance")
    {j : Journal} (h : readFiles files depth fs Journal.new = .ok j) {r : List Str} (hr : run files depth args = .ok r)
    (hd : Displaced ((bookings j.xacts).map (·.2))) : Machine.run stays files depth args = .error .danglingPointer := by
  rcases C101_until stays files depth args with hrun | hrun
  rotate_left
  · exact hrun
  exfalso
  have hsim := Machine.readFiles_sim files depth fs Machine.jrnR_new
  rw [h] at hsim
  cases hJ : Machine.readFiles files depth fs Machine.Jrn.new with
  | error e =>
    rw [run_reading_fails stays ha (by simp) hJ, hr] at hrun
    cases hrun
  | ok J =>
    rw [hJ] at hsim
    rw [run_reports ha hv hJ, hr] at hrun
    obtain ⟨homes, hb⟩ := hsim.books
    exact hb.parentsRight.mp (Machine.balanceReport_right hsim hrun) hd

/-- C103: so the written accounts decide it. -/
theorem C103_text (stays : Nat → Bool) {files : Files} {depth : Nat} {args vs fs : List Str} {verb : Str} {is : List Item}
    (ha : Options.processArguments args = .ok (verb :: vs, fs)) (hv : verb = str "b" ∨ verb = str "bal" ∨ verb = str "balance")
    (hf : FilesSay files depth fs is .done) (he : ∀ w ∈ writings is, Everyday w) {r : List Str} (hr : run files depth args = .ok r)
    (hd : Displaced ((allEntries (writings is)).map (fun e => pathOf e.account))) :
    Machine.run stays files depth args = .error .danglingPointer := by
  obtain ⟨j, h⟩ := run_reads ha hr
  obtain ⟨_, _, ws', rs, ho⟩ := decidesItems_ok (readFiles_items files depth hf he) readable_new h
  rw [← items_paths ho] at hd
  exact C103_journal stays ha hv h hr hd

/-- C103: where at most three commodities are mentioned, the numbers of postings and the order of the accounts decide whether a
balance report follows a stale pointer. -/
theorem C103_exact (stays : Nat → Bool) (h4 : stays 4 = false) {files : Files} {depth : Nat} {args vs fs : List Str} {verb : Str} {is : List Item}
    (ha : Options.processArguments args = .ok (verb :: vs, fs)) (hv : verb = str "b" ∨ verb = str "bal" ∨ verb = str "balance")
    (hf : FilesSay files depth fs is .done) (he : ∀ w ∈ writings is, Everyday w) {r : List Str} (hr : run files depth args = .ok r)
    (hc : AtMost 3 (Named is)) :
    ((∀ w ∈ writings is, w.entries.length ≤ 4) ∧ ¬ Displaced ((allEntries (writings is)).map (fun e => pathOf e.account)) →
      Machine.run stays files depth args = .ok r) ∧
    (¬ ((∀ w ∈ writings is, w.entries.length ≤ 4) ∧ ¬ Displaced ((allEntries (writings is)).map (fun e => pathOf e.account))) →
      Machine.run stays files depth args = .error .danglingPointer) := by
  obtain ⟨j, h⟩ := run_reads ha hr
  obtain ⟨_, _, ws', rs, ho⟩ := decidesItems_ok (readFiles_items files depth hf he) readable_new h
  have hj : j.Reachable := readFiles_stays .new h
  constructor
  · rintro ⟨hp, hd⟩
    have hlong : ¬ Machine.Long j := by
      rintro (hb | ⟨x, hx, hl⟩)
      · exact absurd ((items_commodities hj ho).mpr hc) (Nat.not_le.mpr hb)
      · have := (items_posts ho).mpr hp x hx
        omega
    have hsim := Machine.readFiles_sim files depth fs Machine.jrnR_new
    rw [h] at hsim
    cases hJ : Machine.readFiles files depth fs Machine.Jrn.new with
    | error e =>
      rw [hJ] at hsim
      exact absurd (Or.inl hsim.2) hlong
    | ok J =>
      rw [hJ] at hsim
      rw [run_reports ha hv hJ]
      obtain ⟨homes, hb⟩ := hsim.books
      rw [← items_paths ho] at hd
      have hright := hb.parentsRight.mpr hd
      have hrep := Machine.balanceReport_sim' hsim stays
      have hmain : Report.balanceReport j = .ok r := by
        have := hr
        simp only [run, ha, bind, Except.bind, executeCommand, h] at this
        rcases hv with rfl | rfl | rfl <;> simpa [str] using this
      rw [hmain] at hrep
      cases hM : Machine.balanceReport stays J with
      | error e =>
        rw [hM] at hrep
        rcases hrep.2 with hl | hl
        · exact absurd hl hlong
        · exact absurd hright hl
      | ok R => rw [hM] at hrep; rw [show r = R from hrep]
  · intro hn
    by_cases hp : ∀ w ∈ writings is, w.entries.length ≤ 4
    · refine C103_text stays ha hv hf he hr ?_
      by_contra hd
      exact hn ⟨hp, hd⟩
    · rw [← items_posts ho] at hp
      push Not at hp
      obtain ⟨x, hx, hl⟩ := hp
      exact C102_postings stays h4 ha hv h hr hx hl

namespace DisplacedExample
open StaleExample LinesExample FaultsExample CausesExample FoundExample FollowsExample

def debts : Entry := { bread with account := str "Debts" }
def loans : Entry := { bread with account := str "Loans" }
def income : Entry := { cash with account := str "Income" }

theorem debtsLine : EntryLine (str "    Debts  20.50 EUR\n") debts := by
  refine ⟨str "   Debts  20.50 EUR\n", rfl, ?_⟩
  have e : str "   Debts  20.50 EUR\n" =
      str "   " ++ str "Debts" ++ ' ' :: ' ' :: [] ++ (str "20.50" ++ [' '] ++ str "EUR") ++ [] ++ [] ++ str "\n" := by
    decide
  rw [e]
  exact EntryText.full b3 (accountText_of ⟨⟨'D', by decide, by decide, by decide⟩, by decide, by decide⟩) b0
    (amount _ _ _ (by decide) (by decide) (by decide)) noLot noCost (.blank nl) (by intro h; cases h) (by intro h; cases h)

theorem loansLine : EntryLine (str "    Loans  20.50 EUR\n") loans := by
  refine ⟨str "   Loans  20.50 EUR\n", rfl, ?_⟩
  have e : str "   Loans  20.50 EUR\n" =
      str "   " ++ str "Loans" ++ ' ' :: ' ' :: [] ++ (str "20.50" ++ [' '] ++ str "EUR") ++ [] ++ [] ++ str "\n" := by
    decide
  rw [e]
  exact EntryText.full b3 (accountText_of ⟨⟨'L', by decide, by decide, by decide⟩, by decide, by decide⟩) b0
    (amount _ _ _ (by decide) (by decide) (by decide)) noLot noCost (.blank nl) (by intro h; cases h) (by intro h; cases h)

theorem incomeLine : EntryLine (str "    Income\n") income := by
  refine ⟨str "   Income\n", rfl, ?_⟩
  have e : str "   Income\n" = str "   " ++ str "Income" ++ str "\n" := by decide
  rw [e]
  exact EntryText.blank b3 (accountText_of ⟨⟨'I', by decide, by decide, by decide⟩, by decide, by decide⟩) nl
    (not_twoSpaces (by decide))

def later : Writing := { shop with entries := [debts, income] }
def last : Writing := { shop with entries := [loans, cash] }

theorem pairEveryday {a b : Str} : Everyday { shop with entries := [{ bread with account := a }, { cash with account := b }] } := by
  refine .of_billion ?_ ?_ (by decide : 2 ≤ 10 ^ 9) ?_
  · intro e he
    have h : ∀ e ∈ [bread, cash], (∀ a ∈ e.amount, a.qty.scale ≤ 9) ∧ e.worthDecimals ≤ 9 := by decide
    have he : e = { bread with account := a } ∨ e = { cash with account := b } := by simpa using he
    rcases he with rfl | rfl
    · exact h bread (by simp)
    · exact h cash (by simp)
  · change bread.size + (cash.size + 0) ≤ _
    rw [size_bread, size_cash]
    norm_num
  · intro e he pr hp
    have he : e = { bread with account := a } ∨ e = { cash with account := b } := by simpa using he
    rcases he with rfl | rfl <;> cases hp

/-- `Expenses:Food` is there when the fourth account comes. -/
def four : Files := fun f => if f = str "a" then
  some [some (str "2023-05-01 Shop  ; food\n"), some (str "    Expenses:Food  20.50 EUR\n"), some (str "    Assets:Cash\n"), some (str "\n"),
    some (str "2023-05-01 Shop  ; food\n"), some (str "    Debts  20.50 EUR\n"), some (str "    Income\n")] else none

/-- The fourth account is the first one with another account below it. -/
def flat : Files := fun f => if f = str "a" then
  some [some (str "2023-05-01 Shop  ; food\n"), some (str "    Debts  20.50 EUR\n"), some (str "    Income\n"), some (str "\n"),
    some (str "2023-05-01 Shop  ; food\n"), some (str "    Loans  20.50 EUR\n"), some (str "    Assets:Cash\n")] else none

theorem fourSays : FilesSay four 0 [str "a"] [.xact first, .xact later] .done :=
  .read (is := [.xact first, .xact later]) (is' := []) (by decide +kernel)
    (.xact (w := first) (tail := some (str "\n") :: _) shopHeader (.posting (e := bread) foodLine (.posting cashLine
      (.stop (Or.inl ⟨_, Or.inr (Or.inl ⟨_, rfl, Or.inl ⟨'\n', [], rfl, Or.inl rfl⟩⟩)⟩)))) (Or.inr (Or.inl ⟨_, rfl, Or.inl ⟨'\n', [], rfl, Or.inl rfl⟩⟩))
      (.xact (w := later) (tail := []) shopHeader (.posting debtsLine (.posting incomeLine (.stop (Or.inl ⟨_, Or.inl ⟨rfl, rfl⟩⟩)))) (Or.inl ⟨rfl, rfl⟩) .nil)) .nil

theorem flatSays : FilesSay flat 0 [str "a"] [.xact later, .xact last] .done :=
  .read (is := [.xact later, .xact last]) (is' := []) (by decide +kernel)
    (.xact (w := later) (tail := some (str "\n") :: _) shopHeader (.posting debtsLine (.posting incomeLine
      (.stop (Or.inl ⟨_, Or.inr (Or.inl ⟨_, rfl, Or.inl ⟨'\n', [], rfl, Or.inl rfl⟩⟩)⟩)))) (Or.inr (Or.inl ⟨_, rfl, Or.inl ⟨'\n', [], rfl, Or.inl rfl⟩⟩))
      (.xact (w := last) (tail := []) shopHeader (.posting loansLine (.posting cashLine (.stop (Or.inl ⟨_, Or.inl ⟨rfl, rfl⟩⟩)))) (Or.inl ⟨rfl, rfl⟩) .nil)) .nil

example (stays : Nat → Bool) : Machine.run stays four 0 [str "bal", str "-f", str "a"] = .error .danglingPointer := by
  obtain ⟨r, h, _⟩ : ∃ r, run four 0 [str "bal", str "-f", str "a"] = .ok r ∧ True := ok_and (by decide +kernel)
  refine C103_text stays (verb := str "bal") (vs := []) (by decide +kernel) (by simp) fourSays ?_ h ?_
  · intro w hw
    have : w = first ∨ w = later := by simpa [writings] using hw
    rcases this with rfl | rfl <;> exact pairEveryday
  · refine ⟨[[str "Expenses", str "Food"]], [[str "Assets", str "Cash"], [str "Debts"], [str "Income"]], [], str "Expenses", str "Food",
      by decide +kernel, ⟨_, List.mem_cons_self, by simp⟩, ?_⟩
    refine overfills_of (Or.inl rfl) [str "Expenses"] [str "Expenses", str "Assets", str "Debts", str "Income"] ?_ (by decide) (by decide) ?_ (by decide)
    · rintro c ⟨p, hp, hc⟩
      rw [List.mem_singleton] at hp ⊢
      subst hp
      simpa using hc
    · unfold Below
      intro c hc
      simp only [List.mem_cons, List.not_mem_nil, or_false] at hc
      rcases hc with rfl | rfl | rfl | rfl
      · exact ⟨[str "Expenses", str "Food"], by decide +kernel, by decide⟩
      · exact ⟨[str "Assets", str "Cash"], by decide +kernel, by decide⟩
      · exact ⟨[str "Debts"], by decide +kernel, by decide⟩
      · exact ⟨[str "Income"], by decide +kernel, by decide⟩

theorem not_displaced {l : List Path} {p : Path} (h : ∀ q ∈ l, q.length ≤ 1) : ¬ Displaced (l ++ [p]) := by
  rintro ⟨ps₁, ps₂, q, n, m, he, ⟨p', hp, hpre⟩, k, _, h1, h2⟩
  rcases List.eq_nil_or_concat ps₂ with rfl | ⟨ps₃, p₃, rfl⟩
  · rw [List.append_nil] at he
    rw [he] at h2
    exact h2 h1
  · rw [List.concat_eq_append, ← List.append_assoc] at he
    have he := (List.append_inj' he rfl).1
    have := h p' (by rw [he]; exact List.mem_append_left _ hp)
    have := hpre.length_le
    simp at this
    omega

/-- Four accounts, but none displaced. -/
example : Machine.run moving flat 0 [str "bal", str "-f", str "a"] = run flat 0 [str "bal", str "-f", str "a"] := by
  obtain ⟨r, h, _⟩ : ∃ r, run flat 0 [str "bal", str "-f", str "a"] = .ok r ∧ True := ok_and (by decide +kernel)
  rw [h]
  refine (C103_exact moving rfl (verb := str "bal") (vs := []) (by decide +kernel) (by simp) flatSays ?_ h
    (atMost_of_list [str "EUR"] (named_sub (by decide +kernel)) (by decide))).1 ⟨by decide, ?_⟩
  · intro w hw
    have : w = later ∨ w = last := by simpa [writings] using hw
    rcases this with rfl | rfl <;> exact pairEveryday
  · exact not_displaced (l := [[str "Debts"], [str "Income"], [str "Loans"]]) (p := [str "Assets", str "Cash"]) (by decide)

end DisplacedExample

end Ledger
