import Verif.Lemmas.Rounding
import Verif.Lemmas.MachineReport
import Verif.Props.Amounts
import Verif.Props.Finalize
/-
C112: how far sums can be off by rounding, and that they fail only if they are too large.
-/
namespace Ledger
open Ledger.Parser Ledger.Finalize

/-- C112: `n` roundings make up at most `2n` parts in `10^28`. -/
theorem C112_slack (n : Nat) (h : n ≤ 5 * 10 ^ 27) : slack n ≤ 2 * n / 10 ^ 28 := slack_le n h

theorem room_of {n : Nat} {as : List Amount} (hn : n ≤ 10 ^ 27) (hs : ∀ c, sizeIn c as ≤ 6 * 10 ^ 28) : Room n as := by
  intro c
  have h1 := slack_half n hn
  have h2 := sizeIn_nonneg c as
  have h3 := hs c
  have h4 : (1 + slack n) * sizeIn c as ≤ (1 + 1 / 5) * (6 * 10 ^ 28) :=
    mul_le_mul (by linarith) h3 h2 (by norm_num)
  refine lt_of_le_of_lt h4 ?_
  norm_num

/-- C112: the sum of any amounts is right up to one rounding for each, and has one entry for each of their commodities. -/
theorem C112_sum (as : List Amount) (hv : ∀ a ∈ as, a.qty.Valid) {b : Balance} (h : Balance.empty.addAll as = .ok b) :
    b.Approximates as.length as ∧ b.OneEach ∧ ∀ c, c ∈ b.amounts.map (·.comm) ↔ c ∈ as.map (·.comm) := by
  have := Near.empty.addAll as hv h
  rw [Nat.zero_add, List.nil_append] at this
  exact ⟨this.close, this.each, this.comms⟩

/-- C112: amounts of not more than 6·10^28 in each commodity can always be added up. -/
theorem C112_sum_succeeds (as : List Amount) (hv : ∀ a ∈ as, a.qty.Valid) (hn : as.length ≤ 10 ^ 27)
    (hs : ∀ c, sizeIn c as ≤ 6 * 10 ^ 28) : ∃ b, Balance.empty.addAll as = .ok b := by
  refine Near.empty.addAll_ok as hv ?_
  rw [Nat.zero_add, List.nil_append]
  exact room_of hn hs

theorem below_valid {j : Journal} (h : j.Reachable) (p : Path) : ValidAmounts (amountsBelow j p) := by
  intro a ha
  unfold amountsBelow at ha
  obtain ⟨q, hq, hqa⟩ := List.mem_filterMap.mp ha
  exact ((C74_amounts_fine h q (List.mem_filter.mp hq).1).1 a hqa).1

/-- C112: the total of an account is right up to one rounding for each posting and two for each account. -/
theorem C112_totals {j : Journal} (h : j.Reachable) {p : Path} {a : Account} (ha : j.master.at? p = some a) {b : Balance}
    (hb : j.accountTotal a = .ok b) :
    b.Approximates ((amountsBelow j p).length + 2 * a.flatten.length) (amountsBelow j p) ∧ b.OneEach ∧
      ∀ c, c ∈ b.amounts.map (·.comm) ↔ c ∈ (amountsBelow j p).map (·.comm) := by
  obtain ⟨hv, hp⟩ := h.booked.amounts ha
  have hg : ValidAmounts (amountsOf j (subtreePosts a)) := fun x hx => below_valid h p x (hp.mem_iff.mp hx)
  have := ((accountTotal_near j a hg b hb).perm hp).mono (m := (amountsBelow j p).length + 2 * a.flatten.length) (by
    unfold roundings; rw [hp.length_eq]; omega)
  exact ⟨this.close, this.each, this.comms⟩

/-- C112: if the postings below an account are not more than 6·10^28 in each commodity, it has a total. -/
theorem C112_totals_succeed {j : Journal} (h : j.Reachable) {p : Path} {a : Account} (ha : j.master.at? p = some a)
    (hn : (amountsBelow j p).length + 2 * a.flatten.length ≤ 10 ^ 27)
    (hs : ∀ c, sizeIn c (amountsBelow j p) ≤ 6 * 10 ^ 28) : ∃ b, j.accountTotal a = .ok b := by
  obtain ⟨hv, hp⟩ := h.booked.amounts ha
  have hg : ValidAmounts (amountsOf j (subtreePosts a)) := fun x hx => below_valid h p x (hp.mem_iff.mp hx)
  refine accountTotal_ok j a hv hg (room_of ?_ (fun c => by rw [sizeIn_perm c hp]; exact hs c))
  unfold roundings; rw [hp.length_eq]; omega

theorem amountsBelow_root (j : Journal) : amountsBelow j [] = allAmounts j := by
  unfold amountsBelow allAmounts
  rw [List.filter_eq_self.mpr (fun b _ => by simp)]

theorem report_total {j : Journal} {out : List Str} (hr : Report.balanceReport j = .ok out) :
    ∃ b, j.accountTotal j.master = .ok b := by
  rw [← linesFold_total]
  unfold Report.balanceReport Report.childrenLines at hr
  generalize j.master = m at hr ⊢
  obtain ⟨n, ps, cs⟩ := m
  rw [linesFold_mk] at hr ⊢
  simp only at hr ⊢
  generalize (Journal.totalGo _ Balance.empty >>= _ : Res Balance) = t at hr ⊢
  cases t with
  | ok b => exact ⟨b, rfl⟩
  | error e => simp [bind, Except.bind] at hr

/-- C112: whatever balance report is printed, it has one line for each account with its total, which is right up to one rounding
for each posting and two for each account below it. -/
theorem C112_report {j : Journal} (h : j.Reachable) {out : List Str} (hr : Report.balanceReport j = .ok out) :
    ∃ t : Path → Balance, out = j.master.flatten.map (fun x => lineText (Account.fullname x.1) (t x.1)) ∧
      ∀ p a, j.master.at? p = some a →
        (t p).Approximates ((amountsBelow j p).length + 2 * a.flatten.length) (amountsBelow j p) ∧ (t p).OneEach ∧
        ∀ c, c ∈ (t p).amounts.map (·.comm) ↔ c ∈ (amountsBelow j p).map (·.comm) := by
  obtain ⟨b, hb⟩ := report_total hr
  have hex : ∀ p, ∃ b, ∀ a, j.master.at? p = some a → j.accountTotal a = .ok b := by
    intro p
    cases hp : j.master.at? p with
    | none => exact ⟨Balance.empty, by intro a ha; cases ha⟩
    | some a =>
      obtain ⟨s, hs⟩ := Machine.total_below p hb hp
      exact ⟨s, by intro a' ha'; injection ha' with ha'; rw [← ha']; exact hs⟩
  choose t ht using hex
  refine ⟨t, ?_, fun p a ha => C112_totals h ha (ht p a ha)⟩
  rw [C26_balance_report_sound j h.booked.wf t ht] at hr
  injection hr with hr
  exact hr.symm

/-- C112: there is a balance report if the postings are not more than 6·10^28 in each commodity. -/
theorem C112_report_succeeds {j : Journal} (h : j.Reachable)
    (hn : (allAmounts j).length + 2 * j.master.flatten.length ≤ 10 ^ 27)
    (hs : ∀ c, sizeIn c (allAmounts j) ≤ 6 * 10 ^ 28) : ∃ out, Report.balanceReport j = .ok out := by
  rw [← amountsBelow_root] at hn hs
  obtain ⟨b, hb⟩ := C112_totals_succeed h (Account.at?_nil _) hn hs
  have hex : ∀ p, ∃ b, ∀ a, j.master.at? p = some a → j.accountTotal a = .ok b := by
    intro p
    cases hp : j.master.at? p with
    | none => exact ⟨Balance.empty, by intro a ha; cases ha⟩
    | some a =>
      obtain ⟨s, hs⟩ := Machine.total_below p hb hp
      exact ⟨s, by intro a' ha'; injection ha' with ha'; rw [← ha']; exact hs⟩
  choose t ht using hex
  exact ⟨_, C26_balance_report_sound j h.booked.wf t ht⟩

/-- C112: a blank posting gets the absolute value of the sum of the others, negated, right up to one rounding for each of
them. -/
theorem C112_blank (x x' : Xact) (pool pool' : Pool) (h : finalize x pool = .ok (x', pool'))
    (hv : ∀ a ∈ bookedAmounts x.posts, a.qty.Valid) (hb : ∃ p ∈ x.posts, p.Blank) :
    ∃ l p r a, x.posts = l ++ p :: r ∧ p.Blank ∧ x'.posts = l ++ { p with amount := some a } :: r ∧
      (∀ q ∈ bookedAmounts x.posts, q.comm = a.comm) ∧
      abs (a.qty.val + abs (sumIn a.comm (bookedAmounts x.posts))) ≤
        slack (bookedAmounts x.posts).length * sizeIn a.comm (bookedAmounts x.posts) := by
  obtain ⟨l, p, r, a, h1, h2, h3, h4, h5, _⟩ := finalize_blank _ _ _ _ h hb
  rw [← bookedAmounts_blank l r p h2, ← h1] at h4
  obtain ⟨k1, _, k3⟩ := C112_sum _ hv h4
  have hva : a.qty.Valid := by
    have := Near.empty.addAll _ hv h4
    exact this.valid a (by simp)
  have hval : a.inverse.qty.val = -|a.qty.val| := by
    rcases le_or_gt 0 a.qty.val with h0 | h0
    · rw [(C03_inverse_partial a hva h0).1, abs_of_nonneg h0]
    · have hn : a.qty.neg = true := by
        by_contra hn
        rw [Bool.not_eq_true] at hn
        have : 0 ≤ a.qty.val := by
          rw [Dec.val_eq, hn]; simp only [Dec.sgn, Bool.false_eq_true, if_false]; positivity
        linarith
      rw [C03_inverse_of_negative_unchanged a hn, abs_of_neg h0, neg_neg]
  refine ⟨l, p, r, a.inverse, h1, h2, by rw [h5], ?_, ?_⟩
  · intro q hq
    have : q.comm ∈ (⟨[a]⟩ : Balance).amounts.map (·.comm) := (k3 _).mpr (List.mem_map_of_mem hq)
    show q.comm = a.comm
    simpa using this
  · have := k1 a.comm
    simp only [Balance.totalIn, sumIn, Amount.valIn, if_true, add_zero] at this
    show abs (a.inverse.qty.val + abs (sumIn a.comm (bookedAmounts x.posts))) ≤ _
    refine le_trans ?_ this
    rw [hval, neg_add_eq_sub, abs_sub_comm a.qty.val]
    exact abs_abs_sub_abs_le_abs_sub _ _

/-! ### a journal with rounded sums -/

/-- A large amount and a small one. -/
def roundedText : String :=
  "2023-01-01 x\n A:L  25000000000000000000000000000 EUR\n A:S  0.04 EUR\n B  -25000000000000000000000000000 EUR\n C  -0.04 EUR\n"

def roundedExample : Journal := (parsed roundedText).toOption.getD Journal.new

theorem roundedExample_ok : parsed roundedText = .ok roundedExample := by decide +kernel

theorem roundedExample_reachable : roundedExample.Reachable := .parse _ _ _ .new roundedExample_ok

/-- The total of `A` lacks the small amount. -/
example : ∃ a b, roundedExample.master.at? [str "A"] = some a ∧ roundedExample.accountTotal a = .ok b ∧
    b.amounts = [⟨⟨false, 25000000000000000000000000000, 0⟩, some (str "EUR")⟩] ∧
    amountsBelow roundedExample [str "A"] =
      [⟨⟨false, 25000000000000000000000000000, 0⟩, some (str "EUR")⟩, ⟨⟨false, 4, 2⟩, some (str "EUR")⟩] := by
  have h1 : (roundedExample.master.at? [str "A"]).isSome = true := by decide +kernel
  obtain ⟨a, ha⟩ := Option.isSome_iff_exists.mp h1
  have h2 : ((roundedExample.master.at? [str "A"]).map roundedExample.accountTotal) =
      some (.ok ⟨[⟨⟨false, 25000000000000000000000000000, 0⟩, some (str "EUR")⟩]⟩) := by decide +kernel
  rw [ha] at h2
  refine ⟨a, _, ha, ?_, rfl, by decide +kernel⟩
  injection h2

/-- And it has a report. -/
example : ∃ out, Report.balanceReport roundedExample = .ok out := by
  refine C112_report_succeeds roundedExample_reachable (by decide +kernel) (fun c => ?_)
  have : allAmounts roundedExample = [⟨⟨false, 25000000000000000000000000000, 0⟩, some (str "EUR")⟩,
      ⟨⟨false, 4, 2⟩, some (str "EUR")⟩, ⟨⟨true, 25000000000000000000000000000, 0⟩, some (str "EUR")⟩,
      ⟨⟨true, 4, 2⟩, some (str "EUR")⟩] := by decide +kernel
  rw [this]
  simp only [sizeIn, Amount.valIn]
  by_cases hc : some (str "EUR") = c
  · simp only [hc, if_true, Dec.val, Dec.signed]
    norm_num
  · simp only [hc, if_false]
    norm_num

/-- A blank posting beside them. -/
example : ∃ x x' pool pool', finalize x pool = .ok (x', pool') ∧ (∀ a ∈ bookedAmounts x.posts, a.qty.Valid) ∧
    (∃ p ∈ x.posts, p.Blank) ∧ x'.posts.map (·.amount) =
      [some ⟨⟨false, 25000000000000000000000000000, 0⟩, none⟩, some ⟨⟨false, 4, 2⟩, none⟩,
        some ⟨⟨true, 25000000000000000000000000000, 0⟩, none⟩] := by
  have hk : resAnd (finalize ⟨none, none, [], [⟨[str "A"], some ⟨⟨false, 25000000000000000000000000000, 0⟩, none⟩, none, none⟩,
      ⟨[str "A"], some ⟨⟨false, 4, 2⟩, none⟩, none, none⟩, ⟨[str "B"], none, none, none⟩], none⟩ Journal.new.pool)
      (fun r => r.1.posts.map (·.amount) =
      [some ⟨⟨false, 25000000000000000000000000000, 0⟩, none⟩, some ⟨⟨false, 4, 2⟩, none⟩,
        some ⟨⟨true, 25000000000000000000000000000, 0⟩, none⟩]) = true := by decide +kernel
  obtain ⟨⟨x', pool'⟩, h, e⟩ := ok_and hk
  exact ⟨_, x', _, pool', h, by decide, by decide, e⟩

end Ledger
