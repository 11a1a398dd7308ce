import Verif.Lemmas.Totals
import Verif.Lemmas.DecText
import Verif.Model.Report
/-
C25-C29: account totals and reports.
-/
namespace Ledger

/-- A journal with two transactions: three accounts below two parents, two commodities. -/
def exampleJournal : Journal where
  master := .mk [] [] [.mk (str "A") [] [.mk (str "B") [(0, 0), (1, 0)] [], .mk (str "C") [(1, 1)] []], .mk (str "X") [(0, 1)] []]
  pool := Pool.empty
  xacts := [⟨none, none, str "one", [⟨[str "A", str "B"], some ⟨⟨false, 105, 1⟩, some (str "EUR")⟩, none, none⟩,
                                     ⟨[str "X"], some ⟨⟨true, 105, 1⟩, some (str "EUR")⟩, none, none⟩], none⟩,
            ⟨none, none, str "two", [⟨[str "A", str "B"], some ⟨⟨false, 3, 0⟩, some (str "USD")⟩, none, none⟩,
                                     ⟨[str "A", str "C"], some ⟨⟨true, 2, 0⟩, some (str "EUR")⟩, none, none⟩], none⟩]

/-- C25: the total of an account exists and is, for every commodity, the sum of the amounts of all postings to the
account and its descendants; it has one entry for every commodity that occurs. -/
theorem C25_total_is_subtree_sum (j : Journal) (a : Account) (hv : RefsValid j (subtreePosts a))
    (hr : InRange (amountsOf j (subtreePosts a))) :
    ∃ b, j.accountTotal a = .ok b ∧ (∀ c, b.totalIn c = sumIn c (amountsOf j (subtreePosts a))) ∧ b.OneEach ∧
      ∀ c, c ∈ b.amounts.map (·.comm) ↔ c ∈ (amountsOf j (subtreePosts a)).map (·.comm) := by
  obtain ⟨S, hS, hg, hm⟩ := hr
  obtain ⟨b, h, hs⟩ := accountTotal_sum hS j a hv hg hm
  exact ⟨b, h, hs.total, hs.each, hs.comms⟩

/-- C25: the total of a parent is its own amount plus the totals of its children. -/
theorem C25_total_of_parent (j : Journal) (n : Str) (ps : List PostRef) (cs : List Account)
    (hv : RefsValid j (subtreePosts (.mk n ps cs))) (hr : InRange (amountsOf j (subtreePosts (.mk n ps cs)))) :
    ∃ b own, ∃ sub : Account → Balance, j.accountTotal (.mk n ps cs) = .ok b ∧ j.accountAmount (.mk n ps cs) = .ok own ∧
      (∀ c ∈ cs, j.accountTotal c = .ok (sub c)) ∧
      ∀ s, b.totalIn s = own.totalIn s + (cs.map (fun c => (sub c).totalIn s)).sum := by
  have hp := hr
  obtain ⟨S, hS, hg, hm⟩ := hr
  obtain ⟨b, hb, hs⟩ := accountTotal_sum hS j _ hv hg hm
  rw [subtreePosts_mk, amountsOf_append, amountsOf_flatMap] at hg hm hs
  rw [subtreePosts_mk, refsValid_append] at hv
  have hpos := Dec.pow10_pos S
  obtain ⟨own, ho, hso⟩ := SumOf.addAll hS (as := amountsOf j ps) (fun x hx => hg x (List.mem_append_left _ hx)) (by
    refine lt_of_le_of_lt (mul_le_mul_of_nonneg_right ?_ (le_of_lt hpos)) hm
    exact mass_sublist (List.Perm.refl _))
  have hc : ∀ c ∈ cs, ∃ r, j.accountTotal c = .ok r ∧ SumOf S r (amountsOf j (subtreePosts c)) := by
    intro c hc
    obtain ⟨l1, l2, rfl⟩ := List.append_of_mem hc
    apply accountTotal_sum hS
    · intro r hr; exact hv.2 r (List.mem_flatMap.mpr ⟨c, hc, hr⟩)
    · intro x hx; exact hg x (List.mem_append_right _ (List.mem_flatMap.mpr ⟨c, hc, hx⟩))
    · refine lt_of_le_of_lt (mul_le_mul_of_nonneg_right ?_ (le_of_lt hpos)) hm
      simp only [List.flatMap_append, List.flatMap_cons, mass_append]
      have h1 := mass_nonneg (amountsOf j ps)
      have h2 := mass_nonneg (l1.flatMap (fun c => amountsOf j (subtreePosts c)))
      have h3 := mass_nonneg (l2.flatMap (fun c => amountsOf j (subtreePosts c)))
      linarith
  refine ⟨b, own, fun c => match j.accountTotal c with | .ok r => r | .error _ => Balance.empty, hb, ?_, ?_, ?_⟩
  · unfold Journal.accountAmount
    rw [Account.posts, amountGo_eq j ps _ hv.1]; exact ho
  · intro c hc'
    obtain ⟨r, hr, _⟩ := hc c hc'
    simp only [hr]
  · intro s
    rw [hs.total, sumIn_append, hso.total]
    congr 1
    clear hs hm hg hv hb ho hso hp
    induction cs with
    | nil => rfl
    | cons x xs ih =>
      obtain ⟨r, hr, hsr⟩ := hc x (by simp)
      rw [List.flatMap_cons, sumIn_append, ih (fun c h => hc c (List.mem_cons_of_mem _ h)), List.map_cons, List.sum_cons]
      simp only [hr]
      rw [hsr.total]

example : exampleJournal.accountTotal exampleJournal.master =
    .ok ⟨[⟨⟨true, 20, 1⟩, some (str "EUR")⟩, ⟨⟨false, 3, 0⟩, some (str "USD")⟩]⟩ ∧
    RefsValid exampleJournal (subtreePosts exampleJournal.master) := by
  decide +kernel

/-- C26: the balance report has exactly one line for each account, in the order of the flattened tree (the master
first, parents before children, siblings sorted, see C24), with the full name of the account and the entries of its
total. -/
theorem C26_balance_report (j : Journal) (hw : j.master.WF) (hv : RefsValid j (subtreePosts j.master))
    (hr : InRange (amountsOf j (subtreePosts j.master))) :
    ∃ t : Path → Balance, (∀ p a, j.master.at? p = some a → j.accountTotal a = .ok (t p)) ∧
      Report.balanceReport j =
        .ok (j.master.flatten.map (fun x => lineText (Account.fullname x.1) (t x.1))) := by
  -- the postings of a subtree are among those of the tree
  have hsub : ∀ (a : Account) (p : Path) (b : Account), a.at? p = some b →
      ∃ rest, (subtreePosts a).Perm (subtreePosts b ++ rest) := by
    intro a p
    induction p generalizing a with
    | nil => intro b h; rw [Account.at?_nil] at h; cases h; exact ⟨[], by simp⟩
    | cons n p ih =>
      intro b h
      obtain ⟨an, ap, cs⟩ := a
      rw [Account.at?_cons] at h
      cases hx : Account.getChild n cs with
      | none => rw [hx] at h; cases h
      | some c =>
        rw [hx] at h
        obtain ⟨rest, hrest⟩ := ih c b h
        obtain ⟨l1, l2, e⟩ := List.append_of_mem (Account.getChild_some hx).1
        refine ⟨rest ++ (ap ++ l1.flatMap subtreePosts ++ l2.flatMap subtreePosts), ?_⟩
        rw [subtreePosts_mk, e, List.flatMap_append, List.flatMap_cons]
        have h1 : (ap ++ (l1.flatMap subtreePosts ++ (subtreePosts c ++ l2.flatMap subtreePosts))).Perm
            (subtreePosts c ++ (ap ++ l1.flatMap subtreePosts ++ l2.flatMap subtreePosts)) := by
          rw [← List.append_assoc, ← List.append_assoc]
          have := (List.perm_append_comm (l₁ := ap ++ l1.flatMap subtreePosts) (l₂ := subtreePosts c)).append_right (l2.flatMap subtreePosts)
          simpa [List.append_assoc] using this
        refine h1.trans ?_
        rw [← List.append_assoc (subtreePosts b)]
        exact hrest.append_right _
  have htot : ∀ p a, j.master.at? p = some a → ∃ b, j.accountTotal a = .ok b := by
    intro p a h
    obtain ⟨rest, hrest⟩ := hsub _ p a h
    have hv' := (refsValid_append _ _ _).mp ((refsValid_perm j hrest).mp hv)
    have hr' := inRange_perm (amountsOf_perm j hrest) hr
    rw [amountsOf_append] at hr'
    obtain ⟨b, hb, _⟩ := C25_total_is_subtree_sum j a hv'.1 (inRange_append_left hr')
    exact ⟨b, hb⟩
  let t : Path → Balance := fun p => match j.master.at? p with
    | some a => (match j.accountTotal a with | .ok b => b | .error _ => Balance.empty)
    | none => Balance.empty
  have ht : ∀ p a, j.master.at? p = some a → j.accountTotal a = .ok (t p) := by
    intro p a h
    obtain ⟨b, hb⟩ := htot p a h
    simp only [t, h, hb]
  refine ⟨t, ht, ?_⟩
  unfold Report.balanceReport
  rw [childrenLines_eq j _ hw t ht []]
  simp

/-- C26: whenever the report succeeds at all, its lines are as they should be. -/
theorem C26_balance_report_sound (j : Journal) (hw : j.master.WF) (t : Path → Balance)
    (ht : ∀ p a, j.master.at? p = some a → j.accountTotal a = .ok (t p)) :
    Report.balanceReport j = .ok (j.master.flatten.map (fun x => lineText (Account.fullname x.1) (t x.1))) := by
  unfold Report.balanceReport
  rw [childrenLines_eq j _ hw t ht []]
  simp

example : Report.balanceReport exampleJournal = .ok
    [str "Account  has balance -2.0 EUR3 USD", str "Account A has balance 8.5 EUR3 USD",
     str "Account A:B has balance 10.5 EUR3 USD", str "Account A:C has balance -2 EUR", str "Account X has balance -10.5 EUR"] := by
  decide +kernel

/-- C27 is violated: in one journal account `A` holds 20 (without commodity) and 5 EUR, in another it holds 205 EUR;
the lines are the same. -/
theorem C27_line_violated :
    ∃ j1 j2 : Journal, ∃ a1 a2 b1 b2,
      Parser.parseText (fun _ => none) 0 (str "2023-01-01 x\n A  20\n B  -20\n\n2023-01-01 y\n A  5 EUR\n B  -5 EUR\n") Journal.new = .ok j1 ∧
      Parser.parseText (fun _ => none) 0 (str "2023-01-01 x\n A  205 EUR\n B  -205 EUR\n") Journal.new = .ok j2 ∧
      j1.master.at? [str "A"] = some a1 ∧ j2.master.at? [str "A"] = some a2 ∧
      j1.accountTotal a1 = .ok b1 ∧ j2.accountTotal a2 = .ok b2 ∧
      (∃ c, b1.totalIn c ≠ b2.totalIn c) ∧ Report.balanceLine (str "A") b1 = Report.balanceLine (str "A") b2 := by
  have h1 : ∃ j1, Parser.parseText (fun _ => none) 0 (str "2023-01-01 x\n A  20\n B  -20\n\n2023-01-01 y\n A  5 EUR\n B  -5 EUR\n") Journal.new = .ok j1 ∧
      ∃ a1, j1.master.at? [str "A"] = some a1 ∧
      j1.accountTotal a1 = .ok ⟨[⟨⟨false, 20, 0⟩, none⟩, ⟨⟨false, 5, 0⟩, some (str "EUR")⟩]⟩ := by
    refine ⟨_, rfl, ?_⟩
    refine ⟨_, rfl, ?_⟩
    decide +kernel
  have h2 : ∃ j2, Parser.parseText (fun _ => none) 0 (str "2023-01-01 x\n A  205 EUR\n B  -205 EUR\n") Journal.new = .ok j2 ∧
      ∃ a2, j2.master.at? [str "A"] = some a2 ∧
      j2.accountTotal a2 = .ok ⟨[⟨⟨false, 205, 0⟩, some (str "EUR")⟩]⟩ := by
    refine ⟨_, rfl, ?_⟩
    refine ⟨_, rfl, ?_⟩
    decide +kernel
  obtain ⟨j1, p1, a1, q1, t1⟩ := h1
  obtain ⟨j2, p2, a2, q2, t2⟩ := h2
  refine ⟨j1, j2, a1, a2, _, _, p1, p2, q1, q2, t1, t2, ⟨none, ?_⟩, by decide +kernel⟩
  simp [Balance.totalIn, sumIn, Amount.valIn, Dec.val, Dec.signed, str]

/-- A symbol without digits and without minus sign; these are the symbols the scanner reads. -/
def PlainSymbol (s : Str) : Prop := ∀ c ∈ s, isDig c = false ∧ c ≠ '-'

theorem span_unique {p : Char → Bool} {l1 l2 r1 r2 : Str} (h1 : ∀ c ∈ l1, p c = true) (h2 : ∀ c ∈ l2, p c = true)
    (s1 : ∀ c, r1.head? = some c → p c = false) (s2 : ∀ c, r2.head? = some c → p c = false) (h : l1 ++ r1 = l2 ++ r2) :
    l1 = l2 ∧ r1 = r2 := by
  induction l1 generalizing l2 with
  | nil =>
    cases l2 with
    | nil => exact ⟨rfl, h⟩
    | cons y ys =>
      exfalso
      have := s1 y (by simp only [List.nil_append] at h; rw [h]; rfl)
      rw [h2 y (by simp)] at this; cases this
  | cons x xs ih =>
    cases l2 with
    | nil =>
      exfalso
      have := s2 x (by simp only [List.nil_append] at h; rw [← h]; rfl)
      rw [h1 x (by simp)] at this; cases this
    | cons y ys =>
      simp only [List.cons_append, List.cons.injEq] at h
      obtain ⟨e1, e2⟩ := ih (fun c hc => h1 c (List.mem_cons_of_mem _ hc)) (fun c hc => h2 c (List.mem_cons_of_mem _ hc)) h.2
      exact ⟨by rw [h.1, e1], e2⟩

/-- C27: for totals in which only the last entry may be without commodity and the symbols are plain, the line
determines the balance.  Missing: an entry without commodity followed by another entry, for which the claim is false
(`C27_line_violated`). -/
theorem C27_line_partial (n : Str) (b1 b2 : Balance)
    (h1 : ∀ a ∈ b1.amounts, a.qty.Valid ∧ ∀ s, a.comm = some s → PlainSymbol s)
    (h2 : ∀ a ∈ b2.amounts, a.qty.Valid ∧ ∀ s, a.comm = some s → PlainSymbol s)
    (n1 : ∀ a ∈ b1.amounts.dropLast, a.comm ≠ none) (n2 : ∀ a ∈ b2.amounts.dropLast, a.comm ≠ none)
    (h : Report.balanceLine n b1 = Report.balanceLine n b2) : b1 = b2 := by
  rw [balanceLine_eq, balanceLine_eq] at h
  have h' : (b1.amounts.map entryText).flatten = (b2.amounts.map entryText).flatten := by
    unfold lineText at h; exact List.append_cancel_left h
  clear h
  obtain ⟨l1⟩ := b1
  obtain ⟨l2⟩ := b2
  simp only at *
  congr 1
  have entry : ∀ a : Amount, ∀ s, a.comm = some s → entryText a = a.qty.display ++ ' ' :: s := by
    intro a s e
    unfold entryText; rw [e]; simp only [List.append_assoc]; rfl
  have bare : ∀ a : Amount, a.comm = none → entryText a = a.qty.display := by
    intro a e
    unfold entryText; rw [e]
  -- an entry begins with a digit or a minus sign
  have begins : ∀ a : Amount, ∃ c r, entryText a = c :: r ∧ (!(isDig c || c == '-')) = false := by
    intro a
    obtain ⟨c', s', ed, hd, _⟩ := Dec.display_head a.qty
    have hc : (!(isDig c' || c' == '-')) = false := by rcases hd with hd | hd <;> simp [hd]
    cases e : a.comm with
    | none => exact ⟨c', s', by rw [bare a e, ed], hc⟩
    | some s => exact ⟨c', s' ++ ' ' :: s, by rw [entry a s e, ed]; rfl, hc⟩
  have head : ∀ l : List Amount, ∀ c, ((l.map entryText).flatten).head? = some c → (!(isDig c || c == '-')) = false := by
    intro l c hc
    cases l with
    | nil => simp at hc
    | cons a l =>
      obtain ⟨c', r, e, hd⟩ := begins a
      simp only [List.map_cons, List.flatten_cons, e, List.cons_append, List.head?_cons, Option.some.injEq] at hc
      subst hc
      exact hd
  have hdisp : ∀ d : Dec, ∀ c ∈ d.display, (!(c == ' ')) = true := by
    intro d c hc
    rcases Dec.display_chars d c hc with h | h | h
    · simp only [Bool.not_eq_true', beq_eq_false_iff_ne, ne_eq]
      intro e; rw [e] at h; revert h; decide
    · subst h; decide
    · subst h; decide
  have hplain : ∀ s, PlainSymbol s → ∀ c ∈ s, (!(isDig c || c == '-')) = true := by
    intro s hs c hc
    have := hs c hc
    simp [this.1, this.2]
  -- an entry without commodity is the last one
  have last : ∀ (a : Amount) (l : List Amount), (∀ x ∈ (a :: l).dropLast, x.comm ≠ none) → a.comm = none → l = [] := by
    intro a l hl ha
    cases l with
    | nil => rfl
    | cons b l => exact absurd ha (hl a (by simp))
  have tailOk : ∀ (a : Amount) (l : List Amount), (∀ x ∈ (a :: l).dropLast, x.comm ≠ none) → ∀ x ∈ l.dropLast, x.comm ≠ none := by
    intro a l hl x hx
    cases l with
    | nil => cases hx
    | cons b l => exact hl x (by rw [List.dropLast_cons_cons]; exact List.mem_cons_of_mem _ hx)
  -- a number followed by a space is not a number
  have space : ∀ (d e : Dec) (r : Str), d.display ≠ e.display ++ ' ' :: r := by
    intro d e r h
    have := hdisp d ' ' (by rw [h]; simp)
    simp at this
  induction l1 generalizing l2 with
  | nil =>
    cases l2 with
    | nil => rfl
    | cons a l2 =>
      exfalso
      obtain ⟨c, r, e, _⟩ := begins a
      simp [e] at h'
  | cons a l1 ih =>
    cases l2 with
    | nil =>
      exfalso
      obtain ⟨c, r, e, _⟩ := begins a
      simp [e] at h'
    | cons b l2 =>
      have hq1 := (h1 a (by simp)).1
      have hq2 := (h2 b (by simp)).1
      cases ea : a.comm with
      | none =>
        have := last a l1 n1 ea
        subst this
        cases eb : b.comm with
        | none =>
          have := last b l2 n2 eb
          subst this
          simp only [List.map_cons, List.map_nil, List.flatten_cons, List.flatten_nil, List.append_nil, bare a ea, bare b eb] at h'
          have hq := Dec.display_inj _ _ hq1 hq2 h'
          obtain ⟨q, c⟩ := a
          obtain ⟨q', c'⟩ := b
          simp only at hq ea eb
          rw [hq, ea, eb]
        | some u =>
          exfalso
          simp only [List.map_cons, List.map_nil, List.flatten_cons, List.flatten_nil, List.append_nil, bare a ea, entry b u eb,
            List.append_assoc, List.cons_append] at h'
          exact space _ _ _ h'
      | some s =>
        cases eb : b.comm with
        | none =>
          exfalso
          have := last b l2 n2 eb
          subst this
          simp only [List.map_cons, List.map_nil, List.flatten_cons, List.flatten_nil, List.append_nil, bare b eb, entry a s ea,
            List.append_assoc, List.cons_append] at h'
          exact space _ _ _ h'.symm
        | some u =>
          simp only [List.map_cons, List.flatten_cons, entry a s ea, entry b u eb, List.append_assoc, List.cons_append] at h'
          obtain ⟨k1, k2⟩ := span_unique (p := fun c => !(c == ' ')) (hdisp a.qty) (hdisp b.qty)
            (by intro c hc; simp at hc; subst hc; rfl) (by intro c hc; simp at hc; subst hc; rfl) h'
          injection k2 with _ k2
          obtain ⟨m1, m2⟩ := span_unique (p := fun c => !(isDig c || c == '-')) (hplain s ((h1 a (by simp)).2 s ea))
            (hplain u ((h2 b (by simp)).2 u eb)) (head l1) (head l2) k2
          have hq := Dec.display_inj _ _ hq1 hq2 k1
          have hab : a = b := by
            obtain ⟨q, c⟩ := a
            obtain ⟨q', c'⟩ := b
            simp only at hq ea eb
            rw [hq, ea, eb, m1]
          rw [hab, ih (fun x hx => h1 x (List.mem_cons_of_mem _ hx)) (tailOk a l1 n1) l2
            (fun x hx => h2 x (List.mem_cons_of_mem _ hx)) (tailOk b l2 n2) m2]

example : lineText (str "A") ⟨[⟨⟨false, 105, 1⟩, some (str "EUR")⟩, ⟨⟨true, 3, 0⟩, some (str "USD")⟩]⟩ =
    str "Account A has balance 10.5 EUR-3 USD" ∧ (Dec.Valid ⟨false, 105, 1⟩) ∧ (∀ c ∈ str "EUR", isDig c = false ∧ c ≠ '-') := by
  decide +kernel

example : lineText (str "A") ⟨[⟨⟨false, 105, 1⟩, some (str "EUR")⟩, ⟨⟨true, 3, 0⟩, none⟩]⟩ =
    str "Account A has balance 10.5 EUR-3" := by
  decide +kernel

/-- The names the accounts command prints for a journal. -/
def accountsOutput (j : Journal) : List Str := (sortByKey ((Report.reportAccounts j).map (fun s => (s, ())))).map (·.1)

/-- C28: every verb that begins with `a` prints the accounts of the journal read from the files. -/
theorem C28_accounts_command (files : Parser.Files) (depth : Nat) (v : Str) (more fs : List Str) :
    Cli.executeCommand files depth (('a' :: v) :: more) fs =
      (Cli.readFiles files depth fs Journal.new).map accountsOutput := by
  unfold Cli.executeCommand
  cases hx : Cli.readFiles files depth fs Journal.new with
  | error e => rfl
  | ok j => simp [bind, Except.bind, Except.map, accountsOutput]

/-- C28: the output is in ascending order and consists of the names of the accounts, each account once. -/
theorem C28_accounts_sorted (j : Journal) (hw : j.master.WF) :
    (accountsOutput j).Pairwise (fun a b => StrBefore a b ∨ a = b) ∧
    ∃ ps : List (Path × Str), (ps.map (·.1)).Nodup ∧
      (∀ p x, (p, x) ∈ ps ↔ ∃ b, j.master.at? p = some b ∧ b.name = x) ∧
      (accountsOutput j).Perm (ps.map (·.2)) := by
  constructor
  · unfold accountsOutput
    rw [List.pairwise_map]
    exact (sortByKey_sorted _).imp (fun {a b} h => (strLe_iff a.1 b.1).mp h)
  · refine ⟨j.master.flatten, ?_, Account.mem_flatten hw, ?_⟩
    · unfold List.Nodup
      rw [List.pairwise_map]
      refine (Account.flatten_sorted hw).imp ?_
      intro x y h e
      rw [e] at h
      exact pathBefore_irrefl _ h
    · unfold accountsOutput
      refine ((sortByKey_perm _).map _).trans ?_
      rw [List.map_map]
      have : ((fun x : Str × Unit => x.1) ∘ fun s => (s, ())) = id := rfl
      rw [this, List.map_id]
      exact List.Perm.refl _

/-- C28: the output depends only on which accounts exist. -/
theorem C28_accounts_independent (j k : Journal) (hj : j.master.WF) (hk : k.master.WF) (hn : j.master.name = k.master.name)
    (h : ∀ p, j.master.Has p ↔ k.master.Has p) : accountsOutput j = accountsOutput k := by
  unfold accountsOutput Report.reportAccounts
  rw [Account.flatten_eq_of_same hj hk hn h]

example : accountsOutput exampleJournal = [[], str "A", str "B", str "C", str "X"] := by decide +kernel

/-- C29: two journals with the same accounts, in which every account has the same amounts up to their order, have the
same total in every commodity for every account. -/
theorem C29_order_irrelevant (j k : Journal) (a b : Account) (ha : a.WF) (hb : b.WF) (hn : a.name = b.name)
    (hh : ∀ p, a.Has p ↔ b.Has p)
    (hp : ∀ p r s, a.postsAt p = some r → b.postsAt p = some s → (amountsOf j r).Perm (amountsOf k s))
    (hva : RefsValid j (subtreePosts a)) (hvb : RefsValid k (subtreePosts b))
    (hr : InRange (amountsOf j (subtreePosts a))) :
    ∃ x y, j.accountTotal a = .ok x ∧ k.accountTotal b = .ok y ∧ (∀ c, x.totalIn c = y.totalIn c) ∧
      ∀ c, c ∈ x.amounts.map (·.comm) ↔ c ∈ y.amounts.map (·.comm) := by
  have hfl := Account.flatten_eq_of_same ha hb hn hh
  have hperm : (amountsOf j (subtreePosts a)).Perm (amountsOf k (subtreePosts b)) := by
    have e1 := amountsOf_perm j (subtreePosts_flatten ha)
    have e2 := amountsOf_perm k (subtreePosts_flatten hb)
    refine e1.trans (List.Perm.trans ?_ e2.symm)
    have gen : ∀ (j : Journal) (l : List (Path × Str)) (f : Path × Str → List PostRef),
        amountsOf j (l.flatMap f) = l.flatMap (fun x => amountsOf j (f x)) := by
      intro j l f
      induction l with
      | nil => rfl
      | cons c cs ih => rw [List.flatMap_cons, List.flatMap_cons, amountsOf_append, ih]
    rw [gen, gen, ← hfl]
    apply flatMap_perm_fun
    rintro ⟨p, n⟩ hx
    obtain ⟨d, hd, _⟩ := (Account.mem_flatten ha p n).mp hx
    have h1 : a.Has p := by simp [Account.Has, hd]
    have h2 := (hh p).mp h1
    rw [Account.has_iff_postsAt] at h1 h2
    obtain ⟨r, hr⟩ := Option.isSome_iff_exists.mp h1
    obtain ⟨s, hs⟩ := Option.isSome_iff_exists.mp h2
    simp only [hr, hs, Option.getD_some]
    exact hp p r s hr hs
  obtain ⟨x, h1, h2, _, h3⟩ := C25_total_is_subtree_sum j a hva hr
  obtain ⟨y, g1, g2, _, g3⟩ := C25_total_is_subtree_sum k b hvb (inRange_perm hperm hr)
  refine ⟨x, y, h1, g1, fun c => by rw [h2, g2, sumIn_perm c hperm], fun c => ?_⟩
  rw [h3, g3, (hperm.map _).mem_iff]

end Ledger
