import Verif.Props.Plain
/-
C125: how postings are grouped into transactions, and what they cost, does not matter for balances.
-/
namespace Ledger
open Ledger.Parser Ledger.Finalize Ledger.Cli Ledger.Output

/-- What a posting says for the balances: its account and its amount. -/
def Entry.booking (e : Entry) : Path × Option Amount := (pathOf e.account, e.amount)

theorem full_written {ws : List Writing} (h : ∀ w ∈ ws, w.Full) :
    writtenBookings ws = ((allEntries ws).map Entry.booking).filterMap (fun x => x.2.map (fun a => (x.1, a))) := by
  unfold writtenBookings allEntries
  rw [List.filterMap_map, List.filterMap_flatMap]
  exact List.flatMap_congr fun w hw => full_bookings (h w hw)

theorem sound_of_ok {files : Files} {depth : Nat} {fs : List Str} {is : List Item} (hf : FilesSay files depth fs is .done)
    (hd : ∀ w ∈ writings is, Everyday w) (ht : Roomy (allEntries (writings is)))
    {args rest : List Str} {verb : Str} (ha : Options.processArguments args = .ok (verb :: rest, fs)) (hv : BalanceVerb verb)
    {out : List Str} (ho : run files depth args = .ok out) : ∀ w ∈ writings is, ¬ Faulty w := by
  intro w hw h
  obtain ⟨k, hk⟩ := firstCause_of_faulty ⟨w, hw, h⟩
  have := (C92_run_panic files depth hf hd ht ha (Or.inl hv) k).mpr (Or.inl hk)
  rw [ho] at this
  cases this

/-- C125: if two lots of files have the same postings without a blank one, in the same order, their reports are the same, digit by
digit, however the postings are grouped into transactions and whatever costs, lots, notes and headers are written with them. -/
theorem C125_text {files files' : Files} {depth depth' : Nat} {fs fs' : List Str} {is is' : List Item}
    (hf : FilesSay files depth fs is .done) (hf' : FilesSay files' depth' fs' is' .done)
    (hw : (allEntries (writings is')).map Entry.booking = (allEntries (writings is)).map Entry.booking)
    (hu : ∀ w ∈ writings is, w.Full)
    (hd : ∀ w ∈ writings is, Everyday w) (ht : Roomy (allEntries (writings is)))
    (hd' : ∀ w ∈ writings is', Everyday w) (ht' : Roomy (allEntries (writings is')))
    {args args' rest rest' : List Str} {verb verb' : Str}
    (ha : Options.processArguments args = .ok (verb :: rest, fs)) (hv : BalanceVerb verb)
    (ha' : Options.processArguments args' = .ok (verb' :: rest', fs')) (hv' : BalanceVerb verb')
    {out out' : List Str} (ho : run files depth args = .ok out) (ho' : run files' depth' args' = .ok out') : out' = out := by
  have hu' : ∀ w ∈ writings is', w.Full := by
    intro w h e he hb
    have : e.booking ∈ (allEntries (writings is)).map Entry.booking := by
      rw [← hw]
      exact List.mem_map_of_mem (List.mem_flatMap.mpr ⟨w, h, he⟩)
    obtain ⟨x, hx, hxe⟩ := List.mem_map.mp this
    obtain ⟨v, h1, h2⟩ := List.mem_flatMap.mp hx
    exact hu v h1 x h2 ((congrArg Prod.snd hxe).trans hb)
  have h1 := C92_report files depth hf hd ht ha hv (sound_of_ok hf hd ht ha hv ho)
  have h2 := C92_report files' depth' hf' hd' ht' ha' hv' (sound_of_ok hf' hd' ht' ha' hv' ho')
  rw [full_written hu, ho] at h1
  rw [full_written hu', hw, ho'] at h2
  injection h1 with h1
  injection h2 with h2
  rw [h1, h2]

/-- C125: if the postings come in another order too, the reports have the same lines in the same order, with the same commodities and
sums on each. -/
theorem C125_sums {files files' : Files} {depth depth' : Nat} {fs fs' : List Str} {is is' : List Item}
    (hf : FilesSay files depth fs is .done) (hf' : FilesSay files' depth' fs' is' .done)
    (hw : ((allEntries (writings is')).map Entry.booking).Perm ((allEntries (writings is)).map Entry.booking))
    (hu : ∀ w ∈ writings is, w.Full)
    (hd : ∀ w ∈ writings is, Everyday w) (ht : Roomy (allEntries (writings is)))
    (hd' : ∀ w ∈ writings is', Everyday w) (ht' : Roomy (allEntries (writings is')))
    {args args' rest rest' : List Str} {verb verb' : Str}
    (ha : Options.processArguments args = .ok (verb :: rest, fs)) (hv : BalanceVerb verb)
    (ha' : Options.processArguments args' = .ok (verb' :: rest', fs')) (hv' : BalanceVerb verb')
    {out out' : List Str} (ho : run files depth args = .ok out) (ho' : run files' depth' args' = .ok out') :
    ∃ (accounts : List Path) (total total' : Path → List Amount),
      out = accounts.map (fun p => lineText (colons p) ⟨total p⟩) ∧
      out' = accounts.map (fun p => lineText (colons p) ⟨total' p⟩) ∧ accounts.Nodup ∧
      ∀ p ∈ accounts, ((total p).map (·.comm)).Nodup ∧ ((total' p).map (·.comm)).Nodup ∧
        ∀ c, (c ∈ (total' p).map (·.comm) ↔ c ∈ (total p).map (·.comm)) ∧ sumIn c (total' p) = sumIn c (total p) := by
  have hu' : ∀ w ∈ writings is', w.Full := by
    intro w h e he hb
    have := hw.mem_iff.mp (List.mem_map_of_mem (f := Entry.booking) (List.mem_flatMap.mpr ⟨w, h, he⟩))
    obtain ⟨x, hx, hxe⟩ := List.mem_map.mp this
    obtain ⟨v, h1, h2⟩ := List.mem_flatMap.mp hx
    exact hu v h1 x h2 ((congrArg Prod.snd hxe).trans hb)
  have hb : (writtenBookings (writings is')).Perm (writtenBookings (writings is)) := by
    rw [full_written hu, full_written hu']
    exact hw.filterMap _
  have hl : (writtenBookings (writings is')).listed = (writtenBookings (writings is)).listed := listed_mem fun x => hb.mem_iff
  have h1 := C92_report files depth hf hd ht ha hv (sound_of_ok hf hd ht ha hv ho)
  have h2 := C92_report files' depth' hf' hd' ht' ha' hv' (sound_of_ok hf' hd' ht' ha' hv' ho')
  rw [report_listed, ho] at h1
  rw [report_listed, ho', hl] at h2
  injection h1 with h1
  injection h2 with h2
  refine ⟨_, _, _, h1, h2, listedFrom_nodup _ _ _, fun p hp => ⟨figure_nodup _ p hp, figure_nodup _ p (hl ▸ hp), fun c => ⟨?_, ?_⟩⟩⟩
  · rw [(figure_sums_any _ c p).2, (figure_sums_any _ c p).2]
    unfold Bookings.below
    exact (((hb.filter _).map _).map _).mem_iff
  · rw [(figure_sums_any _ c p).1, (figure_sums_any _ c p).1, below_perm hb]

theorem accounts_sound {files : Files} {depth : Nat} {fs : List Str} {is : List Item} (hf : FilesSay files depth fs is .done)
    (hd : ∀ w ∈ writings is, Everyday w) {args rest : List Str} {verb : Str}
    (ha : Options.processArguments args = .ok (verb :: rest, fs)) (hv : AccountsVerb verb)
    {out : List Str} (ho : run files depth args = .ok out) : ∀ w ∈ writings is, ¬ Faulty w := by
  intro w hw h
  obtain ⟨k, hk⟩ := firstCause_of_faulty ⟨w, hw, h⟩
  have := (C92_accounts_panic files depth hf hd ha hv k).mpr (Or.inl hk)
  rw [ho] at this
  cases this

/-- C125: what the accounts command prints depends only on which accounts are named, with blank postings and without. -/
theorem C125_accounts {files files' : Files} {depth depth' : Nat} {fs fs' : List Str} {is is' : List Item}
    (hf : FilesSay files depth fs is .done) (hf' : FilesSay files' depth' fs' is' .done)
    (hw : ∀ q, q ∈ (allEntries (writings is')).map (fun e => pathOf e.account) ↔
      q ∈ (allEntries (writings is)).map (fun e => pathOf e.account))
    (hd : ∀ w ∈ writings is, Everyday w) (hd' : ∀ w ∈ writings is', Everyday w)
    {args args' rest rest' : List Str} {verb verb' : Str}
    (ha : Options.processArguments args = .ok (verb :: rest, fs)) (hv : AccountsVerb verb)
    (ha' : Options.processArguments args' = .ok (verb' :: rest', fs')) (hv' : AccountsVerb verb')
    {out out' : List Str} (ho : run files depth args = .ok out) (ho' : run files' depth' args' = .ok out') : out' = out := by
  obtain ⟨o, a1, a2, ps, a3, a4, a5⟩ := C92_accounts files depth hf hd ha hv (accounts_sound hf hd ha hv ho)
  obtain ⟨o', b1, b2, ps', b3, b4, b5⟩ := C92_accounts files' depth' hf' hd' ha' hv' (accounts_sound hf' hd' ha' hv' ho')
  rw [ho] at a1
  rw [ho'] at b1
  injection a1 with a1
  injection b1 with b1
  subst a1 b1
  have hnamed : ∀ (ws : List Writing) (p : Path), (∃ e ∈ allEntries ws, p <+: pathOf e.account) ↔
      ∃ q ∈ (allEntries ws).map (fun e => pathOf e.account), p <+: q := by
    intro ws p
    simp only [List.mem_map, exists_exists_and_eq_and]
  have hp : ps'.Perm ps := by
    refine (List.perm_ext_iff_of_nodup b3 a3).mpr fun p => ?_
    rw [a4, b4, hnamed, hnamed]
    simp only [hw]
  refine (b5.trans ((hp.map lastPart).trans a5.symm)).eq_of_pairwise (fun a b _ _ hab hba => ?_) b2 a2
  rcases hab with hab | hab
  · rcases hba with hba | hba
    · exact absurd (strBefore_trans hab hba) (strBefore_irrefl a)
    · exact hba.symm
  · exact hab

/-! ### examples -/

namespace RegroupExample
open BooksExample LinesExample FaultsExample CausesExample FoundExample CancelExample

def both : Writing := { shop with entries := [bank, wage, bank.turned, wage.turned] }
def mixed : Writing := { shop with entries := [wage.turned, bank, wage, bank.turned] }

def bothText : Source :=
  [some (str "2023-05-01 Shop  ; food\n"), some (str "    Assets:Bank  100 EUR\n"), some (str "    Income  -100 EUR\n"),
    some (str "    Assets:Bank  -100 EUR\n"), some (str "    Income  100 EUR\n")]

def mixedText : Source :=
  [some (str "2023-05-01 Shop  ; food\n"), some (str "    Income  100 EUR\n"), some (str "    Assets:Bank  100 EUR\n"),
    some (str "    Income  -100 EUR\n"), some (str "    Assets:Bank  -100 EUR\n")]

def office : Files := fun f =>
  if f = str "c" then some payday else if f = str "d" then some payback else if f = str "e" then some bothText
  else if f = str "m" then some mixedText else none

theorem forth' : SaysUpTo office 0 payday [.xact pay] .done :=
  .xact (w := pay) (tail := []) shopHeader
    (.posting (e := bank) bankLine (.posting wageLine (.stop (Or.inl ⟨_, Or.inl ⟨rfl, rfl⟩⟩)))) (Or.inl ⟨rfl, rfl⟩) .nil

theorem back' : SaysUpTo office 0 payback [.xact pay.turned] .done :=
  .xact (w := pay.turned) (tail := []) shopHeader
    (.posting (e := bank.turned) bankBack (.posting wageBack (.stop (Or.inl ⟨_, Or.inl ⟨rfl, rfl⟩⟩)))) (Or.inl ⟨rfl, rfl⟩) .nil

theorem bothSays : SaysUpTo office 0 bothText [.xact both] .done :=
  .xact (w := both) (tail := []) shopHeader
    (.posting (e := bank) bankLine (.posting wageLine (.posting (e := bank.turned) bankBack (.posting wageBack
      (.stop (Or.inl ⟨_, Or.inl ⟨rfl, rfl⟩⟩)))))) (Or.inl ⟨rfl, rfl⟩) .nil

theorem mixedSays : SaysUpTo office 0 mixedText [.xact mixed] .done :=
  .xact (w := mixed) (tail := []) shopHeader
    (.posting (e := wage.turned) wageBack (.posting bankLine (.posting wageLine (.posting (e := bank.turned) bankBack
      (.stop (Or.inl ⟨_, Or.inl ⟨rfl, rfl⟩⟩)))))) (Or.inl ⟨rfl, rfl⟩) .nil

theorem apart : FilesSay office 0 [str "c", str "d"] [.xact pay, .xact pay.turned] .done :=
  filesSay_append (.read (f := str "c") (is' := []) (by decide) forth' .nil)
    (.read (f := str "d") (is' := []) (by decide) back' .nil)

theorem together : FilesSay office 0 [str "e"] [.xact both] .done := .read (is' := []) (by decide) bothSays .nil

theorem shuffled : FilesSay office 0 [str "m"] [.xact mixed] .done := .read (is' := []) (by decide) mixedSays .nil

theorem four {w : Writing} (h : w.entries.Perm [bank, wage, bank.turned, wage.turned]) : Everyday w ∧ Roomy w.entries := by
  have hs : (w.entries.map (·.size)).sum = 400 := by
    rw [(h.map _).sum_eq]
    simp only [List.map_cons, List.map_nil, List.sum_cons, List.sum_nil, (turned_worth _).2.2.2.2, size_bank, size_wage]
    norm_num
  have h9 : ∀ e ∈ [bank, wage, bank.turned, wage.turned], (∀ a ∈ e.amount, a.qty.scale ≤ 9) ∧ e.worthDecimals ≤ 9 := by decide
  have hl : ∀ e ∈ [bank, wage, bank.turned, wage.turned], e.lot.price = none := by decide
  refine ⟨.of_billion (fun e he => h9 e (h.mem_iff.mp he)) (by rw [hs]; norm_num) ?_ ?_,
    roomy_of (fun e he => h9 e (h.mem_iff.mp he)) (by rw [hs]; norm_num)⟩
  · rw [h.length_eq]; decide
  · intro e he pr hp
    rw [hl e (h.mem_iff.mp he)] at hp; cases hp

theorem apartEveryday : ∀ w ∈ writings [.xact pay, .xact pay.turned], Everyday w := by
  intro w hw
  have h : w ∈ [pay, pay.turned] := hw
  simp only [List.mem_cons, List.not_mem_nil, or_false] at h
  rcases h with rfl | rfl
  · exact payEveryday
  · exact payEveryday.turned

theorem apartFull : ∀ w ∈ writings [.xact pay, .xact pay.turned], w.Full := by
  have : ∀ w ∈ [[bank, wage], [bank.turned, wage.turned]], ∀ e ∈ w, e.amount ≠ none := by decide
  intro w hw
  have h : w ∈ [pay, pay.turned] := hw
  simp only [List.mem_cons, List.not_mem_nil, or_false] at h
  rcases h with rfl | rfl
  · exact this [bank, wage] (by simp)
  · exact this [bank.turned, wage.turned] (by simp)

theorem apartReport : run office 0 [str "bal", str "-f", str "c", str "-f", str "d"] =
    .ok [str "Account  has balance 0 EUR", str "Account Assets has balance 0 EUR",
      str "Account Assets:Bank has balance 0 EUR", str "Account Income has balance 0 EUR"] := by decide +kernel

theorem togetherReport : run office 0 [str "bal", str "-f", str "e"] =
    .ok [str "Account  has balance 0 EUR", str "Account Assets has balance 0 EUR",
      str "Account Assets:Bank has balance 0 EUR", str "Account Income has balance 0 EUR"] := by decide +kernel

theorem shuffledReport : run office 0 [str "bal", str "-f", str "m"] =
    .ok [str "Account  has balance 0 EUR", str "Account Assets has balance 0 EUR",
      str "Account Assets:Bank has balance 0 EUR", str "Account Income has balance 0 EUR"] := by decide +kernel

theorem onlyOne {P : Writing → Prop} {v : Writing} (h : P v) : ∀ w ∈ writings [.xact v], P w := by
  intro w hw
  have : w ∈ [v] := hw
  simp only [List.mem_singleton] at this
  rw [this]
  exact h

/-- Two transactions, and one with the postings of both. -/
example : [str "Account  has balance 0 EUR", str "Account Assets has balance 0 EUR",
      str "Account Assets:Bank has balance 0 EUR", str "Account Income has balance 0 EUR"] =
    [str "Account  has balance 0 EUR", str "Account Assets has balance 0 EUR",
      str "Account Assets:Bank has balance 0 EUR", str "Account Income has balance 0 EUR"] :=
  C125_text apart together rfl apartFull apartEveryday
    ((four (w := both) (.refl _)).2) (onlyOne (four (w := both) (.refl _)).1) ((four (w := both) (.refl _)).2)
    (args := [str "bal", str "-f", str "c", str "-f", str "d"]) (verb := str "bal") (rest := []) (by decide)
    (by unfold BalanceVerb; decide)
    (args' := [str "bal", str "-f", str "e"]) (verb' := str "bal") (rest' := []) (by decide) (by unfold BalanceVerb; decide)
    apartReport togetherReport

/-- The same in another order. -/
example : ∃ (accounts : List Path) (total total' : Path → List Amount),
      [str "Account  has balance 0 EUR", str "Account Assets has balance 0 EUR",
        str "Account Assets:Bank has balance 0 EUR", str "Account Income has balance 0 EUR"] =
        accounts.map (fun p => lineText (colons p) ⟨total p⟩) ∧
      [str "Account  has balance 0 EUR", str "Account Assets has balance 0 EUR",
        str "Account Assets:Bank has balance 0 EUR", str "Account Income has balance 0 EUR"] =
        accounts.map (fun p => lineText (colons p) ⟨total' p⟩) ∧ accounts.Nodup ∧
      ∀ p ∈ accounts, ((total p).map (·.comm)).Nodup ∧ ((total' p).map (·.comm)).Nodup ∧
        ∀ c, (c ∈ (total' p).map (·.comm) ↔ c ∈ (total p).map (·.comm)) ∧ sumIn c (total' p) = sumIn c (total p) :=
  have hp : mixed.entries.Perm [bank, wage, bank.turned, wage.turned] :=
    (List.perm_append_comm (l₁ := [wage.turned]) (l₂ := [bank, wage, bank.turned]))
  C125_sums apart shuffled (hp.map Entry.booking) apartFull apartEveryday
    ((four (w := both) (.refl _)).2) (onlyOne (four hp).1) ((four hp).2)
    (args := [str "bal", str "-f", str "c", str "-f", str "d"]) (verb := str "bal") (rest := []) (by decide)
    (by unfold BalanceVerb; decide)
    (args' := [str "bal", str "-f", str "m"]) (verb' := str "bal") (rest' := []) (by decide) (by unfold BalanceVerb; decide)
    apartReport shuffledReport

/-- The accounts of the two transactions, and of the one with their postings in another order. -/
example : [[], str "Assets", str "Bank", str "Income"] = [[], str "Assets", str "Bank", str "Income"] :=
  have hp : mixed.entries.Perm [bank, wage, bank.turned, wage.turned] :=
    (List.perm_append_comm (l₁ := [wage.turned]) (l₂ := [bank, wage, bank.turned]))
  C125_accounts apart shuffled (fun q => (hp.map (fun e => pathOf e.account)).mem_iff) apartEveryday (onlyOne (four hp).1)
    (args := [str "acc", str "-f", str "c", str "-f", str "d"]) (verb := str "acc") (rest := []) (by decide)
    (by unfold AccountsVerb; decide)
    (args' := [str "acc", str "-f", str "m"]) (verb' := str "acc") (rest' := []) (by decide) (by unfold AccountsVerb; decide)
    (show run office 0 [str "acc", str "-f", str "c", str "-f", str "d"] = .ok [[], str "Assets", str "Bank", str "Income"] by
      decide +kernel)
    (show run office 0 [str "acc", str "-f", str "m"] = .ok [[], str "Assets", str "Bank", str "Income"] by decide +kernel)

end RegroupExample

end Ledger
