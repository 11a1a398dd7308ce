import Verif.Lemmas.Fine
import Verif.Props.Journal
import Verif.Props.Totals
import Verif.Model.Report
/-
Properties C27 (journals), C74 and C75: the amounts of journals and the texts of balances.
-/
namespace Ledger
open Ledger.Parser

/-- C74: every amount and every cost of every posting has a quantity that fits a decimal (96 bits, at most 28 decimals),
and its commodity, if any, is a symbol as the scanner reads it: not empty, without white space, `@`, digits and minus
signs. -/
theorem C74_amounts_fine {j : Journal} (h : j.Reachable) (p : Post) (hp : p ∈ j.allPosts) :
    (∀ a, p.amount = some a → a.qty.Valid ∧ ∀ s, a.comm = some s → ScannedSymbol s) ∧
    ∀ c, p.cost = some c → c.qty.Valid ∧ ∀ s, c.comm = some s → ScannedSymbol s :=
  h.fine p hp

/-- C74: the same holds for the entries of every total of an account. -/
theorem C74_totals_fine {j : Journal} (h : j.Reachable) (a : Account) (b : Balance) (hb : j.accountTotal a = .ok b) :
    ∀ x ∈ b.amounts, x.qty.Valid ∧ ∀ s, x.comm = some s → ScannedSymbol s :=
  accountTotal_fine h.fine a b hb

/-- C27 for journals: if two accounts of journals have the same line in the balance report, their totals are the same,
entry by entry, provided that only the last entry may be without commodity.  Missing: an entry without commodity
followed by another entry (`C27_line_violated`). -/
theorem C27_journal_partial {j1 j2 : Journal} (h1 : j1.Reachable) (h2 : j2.Reachable) (n : Str) (a1 a2 : Account)
    (b1 b2 : Balance) (t1 : j1.accountTotal a1 = .ok b1) (t2 : j2.accountTotal a2 = .ok b2)
    (n1 : ∀ a ∈ b1.amounts.dropLast, a.comm ≠ none) (n2 : ∀ a ∈ b2.amounts.dropLast, a.comm ≠ none)
    (h : Report.balanceLine n b1 = Report.balanceLine n b2) : b1 = b2 := by
  have plain : ∀ s, ScannedSymbol s → PlainSymbol s := fun s hs c hc => (hs.2 c hc).2.2
  refine C27_line_partial n b1 b2 ?_ ?_ n1 n2 h
  · intro a ha
    exact ⟨(C74_totals_fine h1 a1 b1 t1 a ha).1, fun s hs => plain s ((C74_totals_fine h1 a1 b1 t1 a ha).2 s hs)⟩
  · intro a ha
    exact ⟨(C74_totals_fine h2 a2 b2 t2 a ha).1, fun s hs => plain s ((C74_totals_fine h2 a2 b2 t2 a ha).2 s hs)⟩

example : readExample.Reachable := readExample_reachable

example : readExample.allPosts.length = 4 ∧ readExample.accountTotal readExample.master =
    .ok ⟨[⟨⟨true, 50, 0⟩, some (str "EUR")⟩, ⟨⟨false, 10, 0⟩, some (str "VEUR")⟩]⟩ := by
  decide +kernel

/-! ### the report with commas -/

/-- Number and symbol of an amount; without commodity or with an empty symbol just the number. -/
def plainEntry (a : Amount) : Str :=
  a.qty.display ++ (match a.comm.getD [] with | [] => [] | s => ' ' :: s)

/-- Entries separated by comma and space. -/
def commaText : List Amount → Str
  | [] => []
  | [a] => plainEntry a
  | a :: b :: as => plainEntry a ++ str ", " ++ commaText (b :: as)

theorem plainEntry_ne (a : Amount) : plainEntry a ≠ [] := by
  obtain ⟨c', s', ed, _, _⟩ := Dec.display_head a.qty
  unfold plainEntry
  rw [ed]
  simp

theorem showEntries_step (text : Str) (a : Amount) (as : List Amount) :
    Report.showEntries text (a :: as) = Report.showEntries ((if text = [] then text else text ++ str ", ") ++ plainEntry a) as := by
  rw [Report.showEntries]
  unfold plainEntry
  cases h : a.comm with
  | none => simp
  | some s =>
    cases s with
    | nil => simp
    | cons c cs => simp [List.append_assoc]

theorem showEntries_text (text : Str) (l : List Amount) (ht : text ≠ []) :
    Report.showEntries text l = text ++ (match l with | [] => [] | _ => str ", " ++ commaText l) := by
  induction l generalizing text with
  | nil => simp [Report.showEntries]
  | cons a l ih =>
    rw [showEntries_step, if_neg ht, ih _ (by simp [plainEntry_ne])]
    cases l with
    | nil => simp [commaText]
    | cons b l => simp [commaText]

theorem showEntries_comma (l : List Amount) : Report.showEntries [] l = commaText l := by
  cases l with
  | nil => rfl
  | cons a l =>
    rw [showEntries_step, if_pos rfl, List.nil_append, showEntries_text _ _ (plainEntry_ne a)]
    cases l with
    | nil => simp [commaText]
    | cons b l => simp [commaText]

/-- What follows an entry. -/
def commaRest : List Amount → Str
  | [] => []
  | l => ',' :: ' ' :: commaText l

theorem commaText_cons (a : Amount) (l : List Amount) : commaText (a :: l) = plainEntry a ++ commaRest l := by
  cases l with
  | nil => simp [commaText, commaRest]
  | cons b l => simp [commaText, commaRest, str]

theorem fine_entry (a : Amount) (ha : a.Fine) :
    plainEntry a = a.qty.display ++ (match a.comm with | some s => ' ' :: s | none => []) := by
  unfold plainEntry
  cases h : a.comm with
  | none => rfl
  | some s =>
    have := (ha.2 s h).1
    cases s with
    | nil => exact absurd rfl this
    | cons c cs => rfl

theorem symbol_rest {s1 s2 : Str} {l1 l2 : List Amount} (h1 : ' ' ∉ s1) (h2 : ' ' ∉ s2)
    (h : s1 ++ commaRest l1 = s2 ++ commaRest l2) : s1 = s2 ∧ commaRest l1 = commaRest l2 := by
  have nosp : ∀ s : Str, ' ' ∉ s → ∀ c ∈ s, (!(c == ' ')) = true := by
    intro s hs c hc
    simp only [Bool.not_eq_true', beq_eq_false_iff_ne, ne_eq]
    rintro rfl; exact hs hc
  cases l1 with
  | nil =>
    cases l2 with
    | nil => simpa [commaRest] using h
    | cons b l2 =>
      exfalso; apply h1
      simp only [commaRest, List.append_nil] at h
      rw [h]; simp
  | cons a l1 =>
    cases l2 with
    | nil =>
      exfalso; apply h2
      simp only [commaRest, List.append_nil] at h
      rw [← h]; simp
    | cons b l2 =>
      simp only [commaRest] at h ⊢
      have h' : (s1 ++ [',']) ++ ' ' :: commaText (a :: l1) = (s2 ++ [',']) ++ ' ' :: commaText (b :: l2) := by
        simpa [List.append_assoc] using h
      obtain ⟨e1, e2⟩ := span_unique (p := fun c => !(c == ' ')) (nosp _ (by simp [h1])) (nosp _ (by simp [h2]))
        (by intro c hc; simp at hc; subst hc; rfl) (by intro c hc; simp at hc; subst hc; rfl) h'
      exact ⟨List.append_cancel_right e1, by rw [List.cons.injEq]; exact ⟨rfl, e2⟩⟩

theorem commaText_inj (l1 l2 : List Amount) (h1 : FineAll l1) (h2 : FineAll l2) (h : commaText l1 = commaText l2) :
    l1 = l2 := by
  have nosp : ∀ a : Amount, a.Fine → ∀ s, a.comm = some s → ' ' ∉ s := by
    intro a ha s hs hc
    have := ((ha.2 s hs).2 ' ' hc).1
    revert this; decide
  have hdisp : ∀ d : Dec, ∀ c ∈ d.display, (!(c == ' ' || c == ',')) = true := by
    intro d c hc
    rcases Dec.display_chars d c hc with h | h | h
    · simp only [Bool.not_eq_true', Bool.or_eq_false_iff, beq_eq_false_iff_ne, ne_eq]
      constructor
      · intro e; rw [e] at h; revert h; decide
      · intro e; rw [e] at h; revert h; decide
    · subst h; decide
    · subst h; decide
  have stops : ∀ (a : Amount) (l : List Amount) (c : Char),
      ((match a.comm with | some s => ' ' :: s | none => []) ++ commaRest l).head? = some c → (!(c == ' ' || c == ',')) = false := by
    intro a l c hc
    cases e : a.comm with
    | some s => rw [e] at hc; simp at hc; subst hc; rfl
    | none =>
      rw [e] at hc
      cases l with
      | nil => simp [commaRest] at hc
      | cons b l => simp [commaRest] at hc; subst hc; rfl
  induction l1 generalizing l2 with
  | nil =>
    cases l2 with
    | nil => rfl
    | cons b l2 =>
      rw [commaText_cons] at h
      exact absurd h.symm (by simp [commaText, plainEntry_ne])
  | cons a l1 ih =>
    cases l2 with
    | nil =>
      rw [commaText_cons] at h
      exact absurd h (by simp [commaText, plainEntry_ne])
    | cons b l2 =>
      rw [commaText_cons, commaText_cons] at h
      rw [fine_entry a (h1 a (by simp)), fine_entry b (h2 b (by simp)), List.append_assoc, List.append_assoc] at h
      obtain ⟨e1, e2⟩ := span_unique (p := fun c => !(c == ' ' || c == ',')) (hdisp a.qty) (hdisp b.qty) (stops a l1) (stops b l2) h
      have ha := h1 a (by simp)
      have hb := h2 b (by simp)
      have hq := Dec.display_inj _ _ ha.1 hb.1 e1
      have key : a.comm = b.comm ∧ commaRest l1 = commaRest l2 := by
        cases ca : a.comm with
        | none =>
          cases cb : b.comm with
          | none => rw [ca, cb] at e2; exact ⟨rfl, by simpa using e2⟩
          | some u =>
            rw [ca, cb] at e2
            exfalso
            cases l1 with
            | nil => simp [commaRest] at e2
            | cons x l1 => simp [commaRest] at e2
        | some s =>
          cases cb : b.comm with
          | none =>
            rw [ca, cb] at e2
            exfalso
            cases l2 with
            | nil => simp [commaRest] at e2
            | cons x l1 => simp [commaRest] at e2
          | some u =>
            rw [ca, cb] at e2
            simp only [List.cons_append, List.cons.injEq, true_and] at e2
            obtain ⟨k1, k2⟩ := symbol_rest (nosp a ha s ca) (nosp b hb u cb) e2
            exact ⟨by rw [k1], k2⟩
      have hl : l1 = l2 := by
        cases l1 with
        | nil =>
          cases l2 with
          | nil => rfl
          | cons y l2 => simp [commaRest] at key
        | cons x l1 =>
          cases l2 with
          | nil => simp [commaRest] at key
          | cons y l2 =>
            refine ih _ (fun z hz => h1 z (List.mem_cons_of_mem _ hz)) (fun z hz => h2 z (List.mem_cons_of_mem _ hz)) ?_
            simpa [commaRest] using key.2
      obtain ⟨q, c⟩ := a
      obtain ⟨q', c'⟩ := b
      simp only at hq key
      rw [hq, key.1, hl]

/-- The line of the report with commas. -/
def commaLine (n : Str) (b : Balance) : Str := str "Account " ++ n ++ str " has balance " ++ commaText b.amounts

theorem insertByKey_stable {β : Type} (x : Str × β) (l : List (Str × β)) (k : Str)
    (h : l.Pairwise (fun a b => strLe a.1 b.1 = true)) :
    (insertByKey x l).filter (fun y => y.1 = k) = (x :: l).filter (fun y => y.1 = k) := by
  induction l with
  | nil => rfl
  | cons y ys ih =>
    unfold insertByKey
    split
    · rfl
    · rename_i hxy
      have hne : x.1 ≠ y.1 := by
        intro e; apply hxy; rw [strLe_iff]; exact Or.inr e
      rw [List.pairwise_cons] at h
      have := ih h.2
      rw [List.filter_cons, this]
      by_cases h1 : x.1 = k
      · have h2 : y.1 ≠ k := fun e => hne (by rw [h1, e])
        simp [h1, h2]
      · simp [h1, List.filter_cons]

theorem sortByKey_stable {β : Type} (l : List (Str × β)) (k : Str) :
    (sortByKey l).filter (fun y => y.1 = k) = l.filter (fun y => y.1 = k) := by
  induction l with
  | nil => rfl
  | cons x xs ih => rw [sortByKey, insertByKey_stable _ _ _ (sortByKey_sorted xs), List.filter_cons, List.filter_cons, ih]

/-- C75: the report has one line for each of the given balances, by name in ascending order, balances with the same name
in the order given; each line names the account and lists the entries of the balance in order, separated by commas. -/
theorem C75_comma_report (bs : List (Str × Balance)) :
    ∃ l : List (Str × Balance), l.Perm bs ∧ l.Pairwise (fun x y => StrBefore x.1 y.1 ∨ x.1 = y.1) ∧
      (∀ n, l.filter (fun x => x.1 = n) = bs.filter (fun x => x.1 = n)) ∧
      Report.formatBalanceReport bs = l.map (fun x => commaLine x.1 x.2) := by
  refine ⟨sortByKey bs, sortByKey_perm bs, ?_, sortByKey_stable bs, ?_⟩
  · exact (sortByKey_sorted bs).imp fun h => (strLe_iff _ _).mp h
  · unfold Report.formatBalanceReport commaLine
    simp only [showEntries_comma]

/-- C75: the line determines the balance, entry by entry, for amounts as they occur in journals (C74). -/
theorem C75_comma_read_back (n : Str) (b1 b2 : Balance)
    (h1 : ∀ a ∈ b1.amounts, a.qty.Valid ∧ ∀ s, a.comm = some s → ScannedSymbol s)
    (h2 : ∀ a ∈ b2.amounts, a.qty.Valid ∧ ∀ s, a.comm = some s → ScannedSymbol s)
    (h : commaLine n b1 = commaLine n b2) : b1 = b2 := by
  unfold commaLine at h
  have := commaText_inj _ _ h1 h2 (List.append_cancel_left h)
  obtain ⟨l1⟩ := b1
  obtain ⟨l2⟩ := b2
  simp only at this
  rw [this]

example : Report.formatBalanceReport
      [(str "B", ⟨[⟨⟨false, 20, 0⟩, none⟩, ⟨⟨false, 5, 0⟩, some (str "EUR")⟩]⟩), (str "A", ⟨[⟨⟨true, 205, 1⟩, some (str "EUR")⟩]⟩),
       (str "B", ⟨[]⟩)] =
    [str "Account A has balance -20.5 EUR", str "Account B has balance 20, 5 EUR", str "Account B has balance "] := by
  decide +kernel

end Ledger
