import Verif.Spec.Rounding
import Verif.Lemmas.Totals
import Verif.Lemmas.DecRange
import Mathlib.Tactic.NormNum
import Mathlib.Tactic.Positivity
import Mathlib.Tactic.Linarith
import Mathlib.Algebra.Order.Ring.Pow
/-
How far computed sums are off.
-/
namespace Ledger
open List

/-! ### one addition -/

theorem grid_close {x y : ℚ} (hx : OnGrid 28 x) (hy : OnGrid 28 y) (h : |x - y| ≤ 1 / 2 / 10 ^ 28) : x = y := by
  obtain ⟨a, rfl⟩ := hx
  obtain ⟨b, rfl⟩ := hy
  rw [← sub_div, abs_div, abs_of_pos (Dec.pow10_pos 28), div_le_div_iff_of_pos_right (Dec.pow10_pos 28)] at h
  have h2 : |((a - b : Int) : ℚ)| ≤ 1 / 2 := by push_cast; exact h
  have h3 : a - b = 0 := by
    by_contra hne
    have : (1 : ℚ) ≤ |((a - b : Int) : ℚ)| := by exact_mod_cast Int.one_le_abs hne
    linarith
  have : a = b := by omega
  rw [this]

/-- A sum is off by at most one part in `10^28`. -/
theorem dec_add_error (a b r : Dec) (ha : a.Valid) (hb : b.Valid) (h : a.add b = .ok r) :
    |r.val - (a.val + b.val)| ≤ |a.val + b.val| * (1 / 10 ^ 28) := by
  have hp := Dec.add_precise a b r ha hb h
  have hv := (Dec.add_rounded a b r ha hb h).2
  have h0 : 0 ≤ |a.val + b.val| := abs_nonneg _
  rcases Dec.precise_error hp with h | h
  · have := grid_close (onGrid_val r 28 hv.2) ((onGrid_val a 28 ha.2).add (onGrid_val b 28 hb.2)) h
    rw [this, sub_self, abs_zero]
    positivity
  · refine h.trans (mul_le_mul_of_nonneg_left ?_ h0)
    norm_num

/-! ### arithmetic of the bound -/

theorem slack_zero : slack 0 = 0 := by simp [slack]

theorem slack_mono {n m : Nat} (h : n ≤ m) : slack n ≤ slack m := by
  unfold slack
  have : (1 + 1 / 10 ^ 28 : ℚ) ^ n ≤ (1 + 1 / 10 ^ 28) ^ m := pow_le_pow_right₀ (by norm_num) h
  linarith

theorem slack_nonneg (n : Nat) : 0 ≤ slack n := by rw [← slack_zero]; exact slack_mono (Nat.zero_le n)

theorem slack_succ (n : Nat) : slack (n + 1) = slack n + (1 + slack n) * (1 / 10 ^ 28) := by
  unfold slack; rw [pow_succ]; ring

theorem slack_le (n : Nat) (h : n ≤ 5 * 10 ^ 27) : slack n ≤ 2 * n / 10 ^ 28 := by
  have hn : (n : ℚ) ≤ 5 * 10 ^ 27 := by exact_mod_cast h
  have h0 : (0 : ℚ) ≤ n := Nat.cast_nonneg n
  have hb : 1 + (n : ℚ) * (-(1 / 10 ^ 28)) ≤ (1 + -(1 / 10 ^ 28)) ^ n := one_add_mul_le_pow (by norm_num) n
  have hm : (1 + 1 / 10 ^ 28 : ℚ) ^ n * (1 + -(1 / 10 ^ 28)) ^ n ≤ 1 := by
    rw [← mul_pow]; exact pow_le_one₀ (by norm_num) (by norm_num)
  have hpos : (0 : ℚ) ≤ (1 + 1 / 10 ^ 28) ^ n := by positivity
  have h1 : (1 + 1 / 10 ^ 28 : ℚ) ^ n * (1 + (n : ℚ) * (-(1 / 10 ^ 28))) ≤ 1 :=
    (mul_le_mul_of_nonneg_left hb hpos).trans hm
  unfold slack
  generalize (1 + 1 / 10 ^ 28 : ℚ) ^ n = y at *
  have hx : (n : ℚ) * (1 / 10 ^ 28) ≤ 1 / 2 := by
    have := mul_le_mul_of_nonneg_right hn (by norm_num : (0 : ℚ) ≤ 1 / 10 ^ 28)
    refine this.trans (by norm_num)
  have e : 2 * (n : ℚ) / 10 ^ 28 = 2 * (n * (1 / 10 ^ 28)) := by ring
  rw [e]
  have h0' : (0 : ℚ) ≤ n * (1 / 10 ^ 28) := by positivity
  generalize (n : ℚ) * (1 / 10 ^ 28) = t at *
  have h2 : y * (1 - t) ≤ 1 := by
    have : (1 + (n : ℚ) * (-(1 / 10 ^ 28))) = 1 - (n : ℚ) * (1 / 10 ^ 28) := by ring
    nlinarith
  by_contra hc
  rw [not_le] at hc
  nlinarith

theorem slack_half (n : Nat) (h : n ≤ 10 ^ 27) : slack n ≤ 1 / 5 := by
  refine (slack_le n (by omega)).trans ?_
  have hn : (n : ℚ) ≤ 10 ^ 27 := by exact_mod_cast h
  rw [div_le_iff₀ (by norm_num)]
  linarith

/-- Two sums that are off, and the rounded sum of the two. -/
theorem near_add {n m : Nat} {x y A x' y' A' r : ℚ} (h : |x - y| ≤ slack n * A) (h' : |x' - y'| ≤ slack m * A')
    (hA : |y| ≤ A) (hA' : |y'| ≤ A') (hr : |r - (x + x')| ≤ |x + x'| * (1 / 10 ^ 28)) :
    |r - (y + y')| ≤ slack (max n m + 1) * (A + A') := by
  have a0 : 0 ≤ A := (abs_nonneg _).trans hA
  have a0' : 0 ≤ A' := (abs_nonneg _).trans hA'
  have k1 : |x - y| ≤ slack (max n m) * A := h.trans (mul_le_mul_of_nonneg_right (slack_mono (le_max_left _ _)) a0)
  have k2 : |x' - y'| ≤ slack (max n m) * A' := h'.trans (mul_le_mul_of_nonneg_right (slack_mono (le_max_right _ _)) a0')
  have k3 : |(x + x') - (y + y')| ≤ slack (max n m) * (A + A') := by
    have : (x + x') - (y + y') = (x - y) + (x' - y') := by ring
    rw [this]
    refine (abs_add_le _ _).trans ?_
    linarith
  have k4 : |x + x'| ≤ (1 + slack (max n m)) * (A + A') := by
    have : x + x' = ((x + x') - (y + y')) + (y + y') := by ring
    rw [this]
    refine (abs_add_le _ _).trans ?_
    have := abs_add_le y y'
    linarith
  rw [slack_succ]
  have : r - (y + y') = (r - (x + x')) + ((x + x') - (y + y')) := by ring
  rw [this]
  refine (abs_add_le _ _).trans ?_
  have k5 : |x + x'| * (1 / 10 ^ 28) ≤ (1 + slack (max n m)) * (A + A') * (1 / 10 ^ 28) :=
    mul_le_mul_of_nonneg_right k4 (by norm_num)
  linarith

/-! ### sizes -/

theorem sizeIn_cons (c : Option Str) (a : Amount) (as : List Amount) : sizeIn c (a :: as) = |a.valIn c| + sizeIn c as := rfl

theorem sizeIn_nonneg (c : Option Str) (as : List Amount) : 0 ≤ sizeIn c as := by
  induction as with
  | nil => exact le_refl _
  | cons a as ih => rw [sizeIn_cons]; have := abs_nonneg (a.valIn c); linarith

theorem sizeIn_append (c : Option Str) (as bs : List Amount) : sizeIn c (as ++ bs) = sizeIn c as + sizeIn c bs := by
  induction as with
  | nil => simp [sizeIn]
  | cons a as ih => rw [cons_append, sizeIn_cons, sizeIn_cons, ih]; ring

theorem sizeIn_perm (c : Option Str) {as bs : List Amount} (h : as.Perm bs) : sizeIn c as = sizeIn c bs := by
  induction h with
  | nil => rfl
  | cons x _ ih => rw [sizeIn_cons, sizeIn_cons, ih]
  | swap x y l => simp only [sizeIn_cons]; ring
  | trans _ _ h1 h2 => exact h1.trans h2

theorem abs_sumIn_le (c : Option Str) (as : List Amount) : |sumIn c as| ≤ sizeIn c as := by
  induction as with
  | nil => simp [sumIn, sizeIn]
  | cons a as ih => rw [sizeIn_cons, sumIn_cons]; exact (abs_add_le _ _).trans (by linarith)

theorem sumIn_absent (c : Option Str) (as : List Amount) (h : c ∉ as.map (·.comm)) : sumIn c as = 0 := by
  induction as with
  | nil => rfl
  | cons a as ih =>
    rw [map_cons, mem_cons, not_or] at h
    rw [sumIn_cons, ih h.2, Amount.valIn, if_neg (fun e => h.1 e.symm), add_zero]

/-! ### adding to a balance -/

/-- The amounts are quantities the library can hold. -/
def ValidAmounts (as : List Amount) : Prop := ∀ a ∈ as, a.qty.Valid

theorem amount_add_near (x a r : Amount) (hx : x.qty.Valid) (ha : a.qty.Valid) (h : x.add a = .ok r) :
    r.comm = x.comm ∧ r.qty.Valid ∧ |r.qty.val - (x.qty.val + a.qty.val)| ≤ |x.qty.val + a.qty.val| * (1 / 10 ^ 28) := by
  unfold Amount.add at h
  split at h
  · cases h
  · split at h
    · rename_i hz
      cases h
      refine ⟨rfl, hx, ?_⟩
      rw [Dec.zero_val _ hz, add_zero, sub_self, abs_zero]
      positivity
    · cases hq : x.qty.add a.qty with
      | error e => rw [hq] at h; simp [bind, Except.bind] at h
      | ok q =>
        rw [hq] at h
        simp only [bind, Except.bind, Except.ok.injEq] at h
        subst h
        exact ⟨rfl, (Dec.add_rounded _ _ _ hx ha hq).2, dec_add_error _ _ _ hx ha hq⟩

theorem amount_add_ok (x a : Amount) (hx : x.qty.Valid) (ha : a.qty.Valid) (hc : x.comm = a.comm)
    (hm : Moderate (x.qty.val + a.qty.val)) : ∃ r, x.add a = .ok r := by
  unfold Amount.add
  rw [if_neg (by simpa using hc)]
  split
  · exact ⟨_, rfl⟩
  · obtain ⟨q, hq⟩ := (Dec.add_ok_iff _ _ hx ha).mpr hm
    rw [hq]
    exact ⟨_, rfl⟩

theorem addGo_near (l : List Amount) (a : Amount) (hl : ValidAmounts l) (ha : a.qty.Valid) (hn : (l.map (·.comm)).Nodup)
    (l' : List Amount) (h : Balance.addGo l a = .ok l') :
    ValidAmounts l' ∧ (∀ c, c ≠ a.comm → sumIn c l' = sumIn c l) ∧
    |sumIn a.comm l' - (sumIn a.comm l + a.qty.val)| ≤ |sumIn a.comm l + a.qty.val| * (1 / 10 ^ 28) := by
  induction l generalizing l' with
  | nil =>
    simp only [Balance.addGo, Except.ok.injEq] at h
    subst h
    refine ⟨?_, ?_, ?_⟩
    · intro x hx; rw [mem_singleton] at hx; rw [hx]; exact ha
    · intro c hc; simp [sumIn, Amount.valIn, Ne.symm hc]
    · simp only [sumIn, Amount.valIn, if_true, add_zero, zero_add, sub_self, abs_zero]; positivity
  | cons x xs ih =>
    rw [map_cons, nodup_cons] at hn
    have hx := hl x (by simp)
    have hxs : ValidAmounts xs := fun y hy => hl y (mem_cons_of_mem _ hy)
    unfold Balance.addGo at h
    by_cases hc : x.comm = a.comm
    · rw [if_pos hc] at h
      cases hq : x.add a with
      | error e => rw [hq] at h; simp [bind, Except.bind] at h
      | ok q =>
        rw [hq] at h
        simp only [bind, Except.bind, Except.ok.injEq] at h
        subst h
        obtain ⟨q1, q2, q3⟩ := amount_add_near x a q hx ha hq
        have h0 : sumIn a.comm xs = 0 := sumIn_absent _ _ (by rw [← hc]; exact hn.1)
        refine ⟨?_, ?_, ?_⟩
        · intro y hy
          rcases mem_cons.mp hy with rfl | hy
          · exact q2
          · exact hxs y hy
        · intro c hcc
          rw [sumIn_cons, sumIn_cons, Amount.valIn, Amount.valIn, q1, hc, if_neg (Ne.symm hcc), if_neg (Ne.symm hcc)]
        · rw [sumIn_cons, sumIn_cons, h0, add_zero, add_zero, Amount.valIn, Amount.valIn, q1, if_pos hc, if_pos hc]
          exact q3
    · rw [if_neg hc] at h
      cases hg : Balance.addGo xs a with
      | error e => rw [hg] at h; simp [bind, Except.bind] at h
      | ok l2 =>
        rw [hg] at h
        simp only [bind, Except.bind, Except.ok.injEq] at h
        subst h
        obtain ⟨v, n, e⟩ := ih hxs hn.2 l2 hg
        refine ⟨?_, ?_, ?_⟩
        · intro y hy
          rcases mem_cons.mp hy with rfl | hy
          · exact hx
          · exact v y hy
        · intro c hcc; rw [sumIn_cons, sumIn_cons, n c hcc]
        · rw [sumIn_cons, sumIn_cons, Amount.valIn, if_neg hc, zero_add, zero_add]; exact e

theorem addGo_ok (l : List Amount) (a : Amount) (hl : ValidAmounts l) (ha : a.qty.Valid) (hn : (l.map (·.comm)).Nodup)
    (hm : Moderate (sumIn a.comm l + a.qty.val)) : ∃ l', Balance.addGo l a = .ok l' := by
  induction l with
  | nil => exact ⟨_, rfl⟩
  | cons x xs ih =>
    rw [map_cons, nodup_cons] at hn
    unfold Balance.addGo
    by_cases hc : x.comm = a.comm
    · rw [if_pos hc]
      have h0 : sumIn a.comm xs = 0 := sumIn_absent _ _ (by rw [← hc]; exact hn.1)
      rw [sumIn_cons, h0, add_zero, Amount.valIn, if_pos hc] at hm
      obtain ⟨q, hq⟩ := amount_add_ok x a (hl x (by simp)) ha hc hm
      rw [hq]; exact ⟨_, rfl⟩
    · rw [if_neg hc]
      rw [sumIn_cons, Amount.valIn, if_neg hc, zero_add] at hm
      obtain ⟨l2, h2⟩ := ih (fun y hy => hl y (mem_cons_of_mem _ hy)) hn.2 hm
      rw [h2]; exact ⟨_, rfl⟩

theorem add_oneEach (b b' : Balance) (a : Amount) (hn : b.OneEach) (h : b.add a = .ok b') : b'.OneEach := by
  have h' : b.addAll [a] = .ok b' := by simp only [Balance.addAll, h, bind, Except.bind]
  unfold Balance.OneEach
  rw [addAll_comms _ _ _ h']
  exact foldl_addComm_nodup _ _ hn

/-- Adding amounts of different commodities: each sum is rounded at most once. -/
theorem addAll_near (as : List Amount) (b r : Balance) (hb : ValidAmounts b.amounts) (ha : ValidAmounts as) (hn : b.OneEach)
    (hd : (as.map (·.comm)).Nodup) (h : b.addAll as = .ok r) :
    ValidAmounts r.amounts ∧ (∀ c, c ∉ as.map (·.comm) → r.totalIn c = b.totalIn c) ∧
    ∀ c, |r.totalIn c - (b.totalIn c + sumIn c as)| ≤ |b.totalIn c + sumIn c as| * (1 / 10 ^ 28) := by
  induction as generalizing b with
  | nil =>
    simp only [Balance.addAll, Except.ok.injEq] at h
    subst h
    refine ⟨hb, fun _ _ => rfl, fun c => ?_⟩
    rw [sumIn, add_zero, sub_self, abs_zero]; positivity
  | cons a as ih =>
    rw [map_cons, nodup_cons] at hd
    unfold Balance.addAll at h
    cases hx : b.add a with
    | error e => rw [hx] at h; simp [bind, Except.bind] at h
    | ok b1 =>
      rw [hx] at h
      simp only [bind, Except.bind] at h
      have hn1 := add_oneEach b b1 a hn hx
      unfold Balance.add at hx
      cases hg : Balance.addGo b.amounts a with
      | error e => rw [hg] at hx; simp [bind, Except.bind] at hx
      | ok l =>
        rw [hg] at hx
        simp only [bind, Except.bind, Except.ok.injEq] at hx
        subst hx
        obtain ⟨v, n, e⟩ := addGo_near b.amounts a hb (ha a (by simp)) hn l hg
        obtain ⟨v2, n2, e2⟩ := ih ⟨l⟩ v (fun x hx => ha x (mem_cons_of_mem _ hx)) hn1 hd.2 h
        refine ⟨v2, ?_, ?_⟩
        · intro c hc
          rw [map_cons, mem_cons, not_or] at hc
          rw [n2 c hc.2]; exact n c hc.1
        · intro c
          by_cases hc : c = a.comm
          · subst hc
            rw [n2 _ hd.1, sumIn_cons, sumIn_absent _ _ hd.1, add_zero, Amount.valIn, if_pos rfl]
            exact e
          · have := e2 c
            have hl : Balance.totalIn ⟨l⟩ c = b.totalIn c := n c hc
            rw [hl] at this
            rw [sumIn_cons, Amount.valIn, if_neg (Ne.symm hc), zero_add]
            exact this

theorem moderate_sum (l : List Amount) (hl : ValidAmounts l) (hn : (l.map (·.comm)).Nodup) (c : Option Str) :
    Moderate (sumIn c l) := by
  induction l with
  | nil => unfold Moderate sumIn; norm_num
  | cons a as ih =>
    rw [map_cons, nodup_cons] at hn
    rw [sumIn_cons, Amount.valIn]
    by_cases hc : a.comm = c
    · rw [if_pos hc, sumIn_absent c as (by rw [← hc]; exact hn.1), add_zero]
      exact Dec.moderate_val _ (hl a (by simp))
    · rw [if_neg hc, zero_add]
      exact ih (fun y hy => hl y (mem_cons_of_mem _ hy)) hn.2

theorem addAll_ok (as : List Amount) (b : Balance) (hb : ValidAmounts b.amounts) (ha : ValidAmounts as) (hn : b.OneEach)
    (hd : (as.map (·.comm)).Nodup) (hm : ∀ c, Moderate (b.totalIn c + sumIn c as)) : ∃ r, b.addAll as = .ok r := by
  induction as generalizing b with
  | nil => exact ⟨_, rfl⟩
  | cons a as ih =>
    rw [map_cons, nodup_cons] at hd
    obtain ⟨l, hg⟩ := addGo_ok b.amounts a hb (ha a (by simp)) hn (by
      have := hm a.comm
      rw [sumIn_cons, sumIn_absent _ _ hd.1, add_zero, Amount.valIn, if_pos rfl] at this
      exact this)
    have hx : b.add a = .ok ⟨l⟩ := by unfold Balance.add; rw [hg]; rfl
    obtain ⟨v, n, e⟩ := addGo_near b.amounts a hb (ha a (by simp)) hn l hg
    obtain ⟨r, hr⟩ := ih ⟨l⟩ v (fun x hx => ha x (mem_cons_of_mem _ hx)) (add_oneEach _ _ _ hn hx) hd.2 (by
      intro c
      by_cases hc : c = a.comm
      · subst hc
        rw [sumIn_absent _ _ hd.1, add_zero]
        show Moderate (sumIn a.comm l)
        exact moderate_sum l v (add_oneEach _ _ _ hn hx) _
      · have := hm c
        rw [sumIn_cons, Amount.valIn, if_neg (Ne.symm hc), zero_add] at this
        have hl : Balance.totalIn ⟨l⟩ c = b.totalIn c := n c hc
        rw [hl]; exact this)
    refine ⟨r, ?_⟩
    unfold Balance.addAll
    rw [hx]; exact hr

/-! ### sums of many amounts -/

/-- The balance is the sum of the amounts up to `n` roundings. -/
structure Near (n : Nat) (b : Balance) (as : List Amount) : Prop where
  valid : ValidAmounts b.amounts
  each : b.OneEach
  close : b.Approximates n as
  comms : ∀ c, c ∈ b.amounts.map (·.comm) ↔ c ∈ as.map (·.comm)

/-- There is room for the sums of these amounts, with `n` roundings. -/
def Room (n : Nat) (as : List Amount) : Prop := ∀ c, (1 + slack n) * sizeIn c as < 2 ^ 96 - 1 / 2

theorem Near.empty : Near 0 Balance.empty [] where
  valid := fun _ h => by cases h
  each := by simp [Balance.OneEach, Balance.empty]
  close := fun c => by simp [Balance.empty, Balance.totalIn, sumIn, sizeIn]
  comms := fun c => by simp [Balance.empty]

theorem Near.one (a : Amount) (ha : a.qty.Valid) : Near 0 ⟨[a]⟩ [a] where
  valid := fun x h => by rw [mem_singleton] at h; rw [h]; exact ha
  each := by simp [Balance.OneEach]
  close := fun c => by simp [Balance.totalIn, slack_zero]
  comms := fun _ => Iff.rfl

theorem Near.mono {n m : Nat} {b : Balance} {as : List Amount} (h : Near n b as) (hm : n ≤ m) : Near m b as where
  valid := h.valid
  each := h.each
  close := fun c => (h.close c).trans (mul_le_mul_of_nonneg_right (slack_mono hm) (sizeIn_nonneg c as))
  comms := h.comms

theorem Near.perm {n : Nat} {b : Balance} {as bs : List Amount} (h : Near n b as) (hp : as.Perm bs) : Near n b bs where
  valid := h.valid
  each := h.each
  close := fun c => by rw [← sumIn_perm c hp, ← sizeIn_perm c hp]; exact h.close c
  comms := fun c => by rw [h.comms, (hp.map _).mem_iff]

theorem Room.mono {n m : Nat} {as bs cs : List Amount} (h : Room m cs) (hm : n ≤ m) (hp : (as ++ bs).Perm cs) : Room n as := by
  intro c
  refine lt_of_le_of_lt ?_ (h c)
  rw [← sizeIn_perm c hp, sizeIn_append]
  have h1 := sizeIn_nonneg c as
  have h2 := sizeIn_nonneg c bs
  have h3 := slack_mono hm
  have h4 := slack_nonneg n
  exact mul_le_mul (by linarith) (by linarith) h1 (by linarith)

theorem Near.merge {n m : Nat} {b b2 r : Balance} {as bs : List Amount} (h : Near n b as) (h2 : Near m b2 bs)
    (hr : b.addBalance b2 = .ok r) : Near (max n m + 1) r (as ++ bs) := by
  obtain ⟨v, _, e⟩ := addAll_near b2.amounts b r h.valid h2.valid h.each h2.each hr
  refine ⟨v, ?_, ?_, ?_⟩
  · unfold Balance.OneEach; rw [addAll_comms _ _ _ hr]; exact foldl_addComm_nodup _ _ h.each
  · intro c
    rw [sumIn_append, sizeIn_append]
    exact near_add (h.close c) (h2.close c) (abs_sumIn_le c as) (abs_sumIn_le c bs) (e c)
  · intro c
    rw [addAll_comms _ _ _ hr, mem_foldl_addComm, h.comms, h2.comms, map_append, mem_append]

theorem Near.merge_ok {n m : Nat} {b b2 : Balance} {as bs : List Amount} (h : Near n b as) (h2 : Near m b2 bs)
    (hm : Room (max n m) (as ++ bs)) : ∃ r, b.addBalance b2 = .ok r := by
  refine addAll_ok b2.amounts b h.valid h2.valid h.each h2.each (fun c => ?_)
  have k := hm c
  rw [sizeIn_append] at k
  have k1 : |b.totalIn c - sumIn c as| ≤ slack (max n m) * sizeIn c as :=
    (h.close c).trans (mul_le_mul_of_nonneg_right (slack_mono (le_max_left _ _)) (sizeIn_nonneg c as))
  have k2 : |b2.totalIn c - sumIn c bs| ≤ slack (max n m) * sizeIn c bs :=
    (h2.close c).trans (mul_le_mul_of_nonneg_right (slack_mono (le_max_right _ _)) (sizeIn_nonneg c bs))
  have k3 := abs_sumIn_le c as
  have k4 := abs_sumIn_le c bs
  have e : b.totalIn c + sumIn c b2.amounts = (b.totalIn c - sumIn c as) + sumIn c as + ((b2.totalIn c - sumIn c bs) + sumIn c bs) := by
    unfold Balance.totalIn; ring
  unfold Moderate
  rw [e]
  have k5 := abs_add_le ((b.totalIn c - sumIn c as) + sumIn c as) ((b2.totalIn c - sumIn c bs) + sumIn c bs)
  have k6 := abs_add_le (b.totalIn c - sumIn c as) (sumIn c as)
  have k7 := abs_add_le (b2.totalIn c - sumIn c bs) (sumIn c bs)
  linarith

theorem add_addBalance (b : Balance) (a : Amount) : b.add a = b.addBalance ⟨[a]⟩ := by
  simp only [Balance.addBalance, Balance.addAll]
  cases b.add a <;> rfl

theorem Near.addAll {n : Nat} {b : Balance} {as : List Amount} (h : Near n b as) (bs : List Amount) (hb : ValidAmounts bs)
    {r : Balance} (hr : b.addAll bs = .ok r) : Near (n + bs.length) r (as ++ bs) := by
  induction bs generalizing n b as with
  | nil =>
    simp only [Balance.addAll, Except.ok.injEq] at hr
    subst hr; simpa using h
  | cons a bs ih =>
    unfold Balance.addAll at hr
    cases hx : b.add a with
    | error e => rw [hx] at hr; simp [bind, Except.bind] at hr
    | ok b1 =>
      rw [hx] at hr
      rw [add_addBalance] at hx
      have h1 := h.merge (Near.one a (hb a (by simp))) hx
      rw [Nat.max_zero] at h1
      have := ih h1 (fun x hx => hb x (mem_cons_of_mem _ hx)) hr
      rw [append_assoc] at this
      exact this.mono (by simp; omega)

theorem Near.addAll_ok {n : Nat} {b : Balance} {as : List Amount} (h : Near n b as) (bs : List Amount) (hb : ValidAmounts bs)
    (hm : Room (n + bs.length) (as ++ bs)) : ∃ r, b.addAll bs = .ok r := by
  induction bs generalizing n b as with
  | nil => exact ⟨_, rfl⟩
  | cons a bs ih =>
    have ha := Near.one a (hb a (by simp))
    have e : as ++ a :: bs = as ++ [a] ++ bs := by simp
    obtain ⟨b1, hx⟩ := h.merge_ok ha (hm.mono (by simp) (Perm.of_eq e.symm))
    have h1 := h.merge ha hx
    rw [Nat.max_zero] at h1
    obtain ⟨r, hr⟩ := ih h1 (fun x hx => hb x (mem_cons_of_mem _ hx)) (by
      rw [← e]
      exact (hm.mono (by simp; omega) (Perm.of_eq (append_nil _))))
    refine ⟨r, ?_⟩
    unfold Balance.addAll
    rw [add_addBalance, hx]; exact hr

/-! ### totals of accounts -/

theorem totalGo_near (f : Account → Res Balance) (g : Account → List Amount) (k : Account → Nat) (cs : List Account)
    (b r : Balance) (n : Nat) (as : List Amount) (hb : Near n b as)
    (hc : ∀ c ∈ cs, ∀ r, f c = .ok r → Near (k c) r (g c))
    (hr : Journal.totalGo (cs.map (fun c => (c.name, f c))) b = .ok r) :
    Near (n + (cs.map (fun c => k c + 1)).sum) r (as ++ cs.flatMap g) := by
  induction cs generalizing b n as with
  | nil =>
    simp only [map_nil, Journal.totalGo, Except.ok.injEq] at hr
    subst hr; simpa using hb
  | cons c cs ih =>
    simp only [map_cons, Journal.totalGo] at hr
    cases hf : f c with
    | error e => rw [hf] at hr; simp [bind, Except.bind] at hr
    | ok t =>
      rw [hf] at hr
      simp only [bind, Except.bind] at hr
      cases hx : b.addBalance t with
      | error e => rw [hx] at hr; cases hr
      | ok b1 =>
        rw [hx] at hr
        have h1 := hb.merge (hc c (by simp) t hf) hx
        have := ih b1 _ _ h1 (fun c hc' => hc c (mem_cons_of_mem _ hc')) hr
        rw [append_assoc] at this
        rw [flatMap_cons]
        exact this.mono (by simp; omega)

theorem totalGo_ok (f : Account → Res Balance) (g : Account → List Amount) (k : Account → Nat) (cs : List Account)
    (b : Balance) (n : Nat) (as : List Amount) (hb : Near n b as)
    (hc : ∀ c ∈ cs, ∃ r, f c = .ok r ∧ Near (k c) r (g c))
    (hm : Room (n + (cs.map (fun c => k c + 1)).sum) (as ++ cs.flatMap g)) :
    ∃ r, Journal.totalGo (cs.map (fun c => (c.name, f c))) b = .ok r := by
  induction cs generalizing b n as with
  | nil => exact ⟨_, rfl⟩
  | cons c cs ih =>
    obtain ⟨t, hf, ht⟩ := hc c (by simp)
    have e : as ++ (c :: cs).flatMap g = as ++ g c ++ cs.flatMap g := by rw [flatMap_cons, append_assoc]
    rw [e] at hm
    obtain ⟨b1, hx⟩ := hb.merge_ok ht (hm.mono (by simp; omega) (Perm.refl _))
    obtain ⟨r, hr⟩ := ih b1 _ _ (hb.merge ht hx) (fun c hc' => hc c (mem_cons_of_mem _ hc'))
      (hm.mono (by simp; omega) (Perm.of_eq (append_nil _)))
    refine ⟨r, ?_⟩
    simp only [map_cons, Journal.totalGo, hf, bind, Except.bind, hx]
    exact hr

/-- How many roundings the total of an account can take: one for each amount, and one less than two for each account. -/
def roundings (j : Journal) (a : Account) : Nat := (amountsOf j (subtreePosts a)).length + 2 * a.flatten.length - 1

theorem flatten_length (n : Str) (ps : List PostRef) (cs : List Account) :
    (Account.mk n ps cs).flatten.length = 1 + (cs.map (fun c => c.flatten.length)).sum := by
  obtain ⟨ds, hd, hs⟩ := sortByKey_map (fun c => (c.name, Account.flatten c)) cs
  rw [Account.flatten_mk, hs]
  simp only [length_cons, length_flatMap, map_map]
  have : (ds.map (fun c => c.flatten.length)).sum = (cs.map (fun c => c.flatten.length)).sum := (hd.map _).sum_eq
  rw [← this]
  simp only [Function.comp_def, length_map]
  omega

theorem roundings_mk (j : Journal) (n : Str) (ps : List PostRef) (cs cs' : List Account) (hp : cs'.Perm cs) :
    0 + (cs'.map (fun c => roundings j c + 1)).sum + (amountsOf j ps).length + 1 = roundings j (.mk n ps cs) := by
  have h1 : (cs'.map (fun c => roundings j c + 1)).sum = (cs.map (fun c => roundings j c + 1)).sum :=
    (hp.map _).sum_eq
  rw [h1]
  unfold roundings
  rw [flatten_length, subtreePosts_mk, amountsOf_append, amountsOf_flatMap, length_append, length_flatMap]
  clear h1 hp
  induction cs with
  | nil => simp
  | cons c cs ih =>
    have h3 : 0 < c.flatten.length := by
      obtain ⟨n, ps, cs⟩ := c
      rw [flatten_length]; omega
    simp only [map_cons, sum_cons] at ih ⊢
    omega

theorem accountTotal_near (j : Journal) (a : Account) (hg : ValidAmounts (amountsOf j (subtreePosts a))) (r : Balance)
    (hr : j.accountTotal a = .ok r) : Near (roundings j a) r (amountsOf j (subtreePosts a)) := by
  induction a using Account.ind generalizing r with
  | h n ps cs ih =>
    rw [accountTotal_mk] at hr
    obtain ⟨cs', hperm, hs⟩ := sortByKey_map (fun c => (c.name, j.accountTotal c)) cs
    have hperm2 := flatMap_perm_left (fun c => amountsOf j (subtreePosts c)) hperm
    rw [← roundings_mk j n ps cs cs' hperm]
    rw [subtreePosts_mk, amountsOf_append, amountsOf_flatMap] at hg ⊢
    rw [hs] at hr
    cases ht : Journal.totalGo (cs'.map (fun c => (c.name, j.accountTotal c))) Balance.empty with
    | error e => rw [ht] at hr; simp [bind, Except.bind] at hr
    | ok b =>
      rw [ht] at hr
      simp only [bind, Except.bind] at hr
      have h1 := totalGo_near j.accountTotal (fun c => amountsOf j (subtreePosts c)) (roundings j) cs' Balance.empty b 0 []
        Near.empty (fun c hc r hr => ih c (hperm.mem_iff.mp hc)
          (fun x hx => hg x (mem_append_right _ (mem_flatMap.mpr ⟨c, hperm.mem_iff.mp hc, hx⟩))) r hr) ht
      cases ho : Journal.amountGo j ps Balance.empty with
      | error e => rw [ho] at hr; cases hr
      | ok own =>
        rw [ho] at hr
        rw [amountGo_eq j ps _ (amountGo_error j ps _ ho)] at ho
        have h2 := Near.empty.addAll (amountsOf j ps) (fun x hx => hg x (mem_append_left _ hx)) ho
        rw [nil_append] at h1 h2
        exact (((h1.perm hperm2).merge h2 hr).perm perm_append_comm).mono (by omega)

theorem accountTotal_ok (j : Journal) (a : Account) (hv : RefsValid j (subtreePosts a))
    (hg : ValidAmounts (amountsOf j (subtreePosts a))) (hm : Room (roundings j a) (amountsOf j (subtreePosts a))) :
    ∃ r, j.accountTotal a = .ok r := by
  induction a using Account.ind with
  | h n ps cs ih =>
    rw [accountTotal_mk]
    obtain ⟨cs', hperm, hs⟩ := sortByKey_map (fun c => (c.name, j.accountTotal c)) cs
    have hperm2 := flatMap_perm_left (fun c => amountsOf j (subtreePosts c)) hperm
    rw [← roundings_mk j n ps cs cs' hperm] at hm
    rw [subtreePosts_mk, refsValid_append] at hv
    rw [subtreePosts_mk, amountsOf_append, amountsOf_flatMap] at hg hm
    rw [hs]
    have hg1 : ∀ c ∈ cs', ValidAmounts (amountsOf j (subtreePosts c)) := fun c hc x hx =>
      hg x (mem_append_right _ (mem_flatMap.mpr ⟨c, hperm.mem_iff.mp hc, hx⟩))
    have hc : ∀ c ∈ cs', ∃ r, j.accountTotal c = .ok r ∧ Near (roundings j c) r (amountsOf j (subtreePosts c)) := by
      intro c hc
      have hk : roundings j c ≤ (cs'.map (fun c => roundings j c + 1)).sum :=
        (Nat.le_succ _).trans (single_le_sum (fun _ _ => Nat.zero_le _) _ (mem_map.mpr ⟨c, hc, rfl⟩))
      obtain ⟨l1, l2, e⟩ := append_of_mem hc
      obtain ⟨r, hr⟩ := ih c (hperm.mem_iff.mp hc)
        (fun r hr => hv.2 r (mem_flatMap.mpr ⟨c, hperm.mem_iff.mp hc, hr⟩)) (hg1 c hc)
        (hm.mono (bs := l1.flatMap (fun c => amountsOf j (subtreePosts c)) ++ l2.flatMap (fun c => amountsOf j (subtreePosts c))
            ++ amountsOf j ps) (by omega) (by
          refine Perm.trans ?_ perm_append_comm
          rw [← append_assoc]
          refine Perm.append_right _ (Perm.trans ?_ hperm2)
          rw [e, flatMap_append, flatMap_cons, ← append_assoc, ← append_assoc]
          exact perm_append_comm.append_right _))
      exact ⟨r, hr, accountTotal_near j c (hg1 c hc) r hr⟩
    obtain ⟨b, ht⟩ := totalGo_ok j.accountTotal (fun c => amountsOf j (subtreePosts c)) (roundings j) cs' Balance.empty 0 []
      Near.empty hc (hm.mono (bs := amountsOf j ps) (by omega) (by
        rw [nil_append]; exact (hperm2.append_right _).trans perm_append_comm))
    have h1 := totalGo_near j.accountTotal (fun c => amountsOf j (subtreePosts c)) (roundings j) cs' Balance.empty b 0 []
        Near.empty (fun c hc r hr => accountTotal_near j c (hg1 c hc) r hr) ht
    obtain ⟨own, ho⟩ := Near.empty.addAll_ok (amountsOf j ps) (fun x hx => hg x (mem_append_left _ hx))
      (hm.mono (by omega) (Perm.refl _))
    have h2 := Near.empty.addAll (amountsOf j ps) (fun x hx => hg x (mem_append_left _ hx)) ho
    rw [nil_append] at h1 h2
    obtain ⟨r, hr⟩ := (h1.perm hperm2).merge_ok h2 (hm.mono (bs := []) (by omega) (by
      rw [append_nil]; exact perm_append_comm))
    refine ⟨r, ?_⟩
    rw [ht]
    simp only [bind, Except.bind, amountGo_eq j ps _ hv.1, ho]
    exact hr

end Ledger
