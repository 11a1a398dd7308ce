import Verif.Lemmas.Classify
import Verif.Props.Finalize
/-
Which transactions are accepted: all phases together.
-/
namespace Ledger
open Finalize

/-! ### the implied rate -/

theorem topPost_head (ps : List Post) (t : Amount) :
    (writtenAmounts ps).head? = some t ↔ ∃ top, topPost ps = some top ∧ top.amount = some t := by
  induction ps with
  | nil => simp [writtenAmounts, topPost]
  | cons p ps ih =>
    unfold writtenAmounts topPost at *
    cases ha : p.amount with
    | none => rw [List.filterMap_cons_none ha, List.find?_cons_of_neg (by rw [ha]; simp)]; exact ih
    | some a =>
      rw [List.filterMap_cons_some ha, List.find?_cons_of_pos (by rw [ha]; rfl)]
      simp [ha]

theorem foldl_addComm_head (cs ds : List (Option Str)) (d : Option Str) :
    (cs.foldl addComm (d :: ds)).head? = some d := by
  induction cs generalizing ds with
  | nil => rfl
  | cons c cs ih =>
    rw [List.foldl_cons]
    unfold addComm
    split
    · exact ih ds
    · rw [List.cons_append]; exact ih _

/-- The first entry of a balance is in the commodity of the first amount added. -/
theorem addAll_first (as : List Amount) (b : Balance) (h : Balance.empty.addAll as = .ok b) (f : Amount)
    (hf : as.head? = some f) : (b.amounts.map (·.comm)).head? = some f.comm := by
  rw [addAll_comms _ _ _ h]
  cases as with
  | nil => cases hf
  | cons a as =>
    injection hf with hf
    subst hf
    rw [List.map_cons, List.foldl_cons]
    exact foldl_addComm_head _ _ _

theorem sumIn_absent (c : Option Str) (as : List Amount) (h : c ∉ as.map (·.comm)) : sumIn c as = 0 := by
  induction as with
  | nil => rfl
  | cons q as ih =>
    rw [List.map_cons, List.mem_cons, not_or] at h
    rw [sumIn_cons, ih h.2]
    unfold Amount.valIn
    rw [if_neg (Ne.symm h.1)]; simp

theorem implied_pair (ps : List Post) (b : Balance) (hr : InRange (bookedAmounts ps))
    (hb : Balance.empty.addAll (bookedAmounts ps) = .ok b) (c1 c2 : Option Str) (h : Implied ps c1 c2) :
    ∃ (e1 e2 f t : Amount) (top : Post), ((b.amounts = [e1, e2] ∧ f.comm = c1) ∨ (b.amounts = [e2, e1] ∧ f.comm = c2)) ∧ e1.comm = c1 ∧ e2.comm = c2 ∧
      e1.qty.val = sumIn c1 (bookedAmounts ps) ∧ e2.qty.val = sumIn c2 (bookedAmounts ps) ∧ e1.isZero = false ∧ e2.isZero = false ∧
      topPost ps = some top ∧ top.amount = some t ∧ (f.comm = c1 ↔ t.comm = f.comm) := by
  obtain ⟨_, hne, hc, h1, h2, f, t, hf, ht, hft⟩ := h
  obtain ⟨t1, t2, t3, t4⟩ := twoEntries _ _ hr hb
  have hm1 : c1 ∈ b.amounts.map (·.comm) := by
    rw [t3]; by_contra hn; exact h1 (sumIn_absent _ _ hn)
  have hm2 : c2 ∈ b.amounts.map (·.comm) := by
    rw [t3]; by_contra hn; exact h2 (sumIn_absent _ _ hn)
  have honly : ∀ a ∈ b.amounts, a.comm = c1 ∨ a.comm = c2 := by
    intro a ha
    obtain ⟨a', ha', e⟩ := List.mem_map.mp ((t3 a.comm).mp (List.mem_map_of_mem ha))
    rw [← e]; exact hc a' ha'
  have hfirst := addAll_first _ _ hb f hf
  obtain ⟨top, htop, hta⟩ := (topPost_head ps t).mp ht
  have hpair : ∃ e1 e2, ((b.amounts = [e1, e2] ∧ f.comm = c1) ∨ (b.amounts = [e2, e1] ∧ f.comm = c2)) ∧
      e1.comm = c1 ∧ e2.comm = c2 := by
    obtain ⟨am⟩ := b
    unfold Balance.OneEach at t2
    simp only at hm1 hm2 honly t2 hfirst ⊢
    match am, hm1, hm2, honly, t2, hfirst with
    | [], hm1, _, _, _, _ => simp at hm1
    | [e], hm1, hm2, _, _, _ => simp at hm1 hm2; exact absurd (hm1.trans hm2.symm) hne
    | [e, g], hm1, hm2, ho, hnd, hfi =>
      simp only [List.map_cons, List.head?_cons, Option.some.injEq] at hfi
      rcases ho e (by simp) with he | he
      · rcases ho g (by simp) with hg | hg
        · simp [he, hg] at hnd
        · exact ⟨e, g, Or.inl ⟨rfl, by rw [← hfi, he]⟩, he, hg⟩
      · rcases ho g (by simp) with hg | hg
        · exact ⟨g, e, Or.inr ⟨rfl, by rw [← hfi, he]⟩, hg, he⟩
        · simp [he, hg] at hnd
    | e :: f :: g :: rest, _, _, ho, hnd, _ =>
      exfalso
      simp only [List.map_cons, List.nodup_cons, List.mem_cons, not_or] at hnd
      obtain ⟨⟨n1, n2, _⟩, ⟨n3, _⟩, _⟩ := hnd
      rcases ho e (by simp) with he | he <;> rcases ho f (by simp) with hf | hf <;>
        rcases ho g (by simp) with hg | hg <;>
        first | exact n1 (he.trans hf.symm) | exact n2 (he.trans hg.symm) | exact n3 (hf.trans hg.symm)
  obtain ⟨e1, e2, hbe, hc1, hc2⟩ := hpair
  have hme1 : e1 ∈ b.amounts := by rcases hbe with ⟨hb, _⟩ | ⟨hb, _⟩ <;> rw [hb] <;> simp
  have hme2 : e2 ∈ b.amounts := by rcases hbe with ⟨hb, _⟩ | ⟨hb, _⟩ <;> rw [hb] <;> simp
  have hv1 : e1.qty.val = sumIn c1 (bookedAmounts ps) := by rw [t4 e1 hme1, hc1]
  have hv2 : e2.qty.val = sumIn c2 (bookedAmounts ps) := by rw [t4 e2 hme2, hc2]
  have hz1 : e1.isZero = false := by
    cases hz : e1.isZero with
    | false => rfl
    | true => exact absurd (hv1 ▸ (Dec.isZero_iff _).mp hz) h1
  have hz2 : e2.isZero = false := by
    cases hz : e2.isZero with
    | false => rfl
    | true => exact absurd (hv2 ▸ (Dec.isZero_iff _).mp hz) h2
  exact ⟨e1, e2, f, t, top, hbe, hc1, hc2, hv1, hv2, hz1, hz2, htop, hta, hft⟩

/-- What the two-commodity phase does if a rate is implied. -/
theorem impliedCosts_implied (ps : List Post) (b : Balance) (hr : InRange (bookedAmounts ps))
    (hb : Balance.empty.addAll (bookedAmounts ps) = .ok b) (c1 c2 : Option Str) (h : Implied ps c1 c2) :
    ∃ x y, x ∈ b.amounts ∧ y ∈ b.amounts ∧ x.comm = c1 ∧ y.comm = c2 ∧
      x.qty.val = sumIn c1 (bookedAmounts ps) ∧ y.qty.val = sumIn c2 (bookedAmounts ps) ∧
      impliedCosts ps b none = (do let u ← y.div x; assignCosts c1 u.abs ps b) := by
  obtain ⟨e1, e2, f, t, top, hbe, hc1, hc2, hv1, hv2, hz1, hz2, htop, hta, hft⟩ := implied_pair ps b hr hb c1 c2 h
  obtain ⟨_, hne, _⟩ := h
  have hme1 : e1 ∈ b.amounts := by rcases hbe with ⟨hb, _⟩ | ⟨hb, _⟩ <;> rw [hb] <;> simp
  have hme2 : e2 ∈ b.amounts := by rcases hbe with ⟨hb, _⟩ | ⟨hb, _⟩ <;> rw [hb] <;> simp
  refine ⟨e1, e2, hme1, hme2, hc1, hc2, hv1, hv2, ?_⟩
  unfold impliedCosts
  rcases hbe with ⟨hbe, hfc⟩ | ⟨hbe, hfc⟩
  · have htc : t.comm = c1 := by rw [← hfc]; exact hft.mp hfc
    rw [hbe]
    simp only [htop, hz1, hz2, hta, htc, hc1]
    simp
    rw [hc1]
  · have htc : t.comm ≠ c2 := by
      intro e
      exact hne ((hft.mpr (by rw [e, hfc])).symm.trans hfc)
    rw [hbe]
    simp only [htop, hz1, hz2, hta, hc2]
    simp [Ne.symm htc]
    rw [hc1]

theorem implied_branch (ps : List Post) (b : Balance) (hr : InRange (bookedAmounts ps))
    (hnb : ∀ p ∈ ps, ¬ p.Blank) (hb : Balance.empty.addAll (bookedAmounts ps) = .ok b)
    (hcase : ∃ x y top, b.amounts = [x, y] ∧ topPost ps = some top ∧ x.isZero = false ∧ y.isZero = false) :
    ∃ c1 c2, Implied ps c1 c2 := by
  obtain ⟨t1, t2, t3, t4⟩ := twoEntries _ _ hr hb
  obtain ⟨x, y, top, hxy, htop, hx, hy⟩ := hcase
  have hta : top.amount.isSome := by
    have := List.find?_some htop
    simpa using this
  obtain ⟨t, ht⟩ := Option.isSome_iff_exists.mp hta
  have hne : x.comm ≠ y.comm := by
    unfold Balance.OneEach at t2; rw [hxy] at t2; simpa using t2
  have hsx : sumIn x.comm (bookedAmounts ps) ≠ 0 := by
    rw [← t4 x (by rw [hxy]; simp)]; intro e
    have := (Dec.isZero_iff _).mpr e
    unfold Amount.isZero at hx; rw [this] at hx; cases hx
  have hsy : sumIn y.comm (bookedAmounts ps) ≠ 0 := by
    rw [← t4 y (by rw [hxy]; simp)]; intro e
    have := (Dec.isZero_iff _).mpr e
    unfold Amount.isZero at hy; rw [this] at hy; cases hy
  have honly : ∀ a ∈ bookedAmounts ps, a.comm = x.comm ∨ a.comm = y.comm := by
    intro a ha
    have := (t3 a.comm).mpr (List.mem_map_of_mem ha)
    rw [hxy] at this; simpa using this
  cases hf : (bookedAmounts ps).head? with
  | none =>
    rw [List.head?_eq_none_iff] at hf
    rw [hf] at hsx; exact absurd rfl hsx
  | some f =>
    have hfc := addAll_first _ _ hb f hf
    rw [hxy] at hfc
    simp only [List.map_cons, List.head?_cons, Option.some.injEq] at hfc
    have hth := (topPost_head ps t).mpr ⟨top, htop, ht⟩
    by_cases htc : t.comm = x.comm
    · exact ⟨x.comm, y.comm, hnb, hne, honly, hsx, hsy, f, t, hf, hth, by rw [htc, ← hfc]⟩
    · refine ⟨y.comm, x.comm, hnb, Ne.symm hne, fun a ha => (honly a ha).symm, hsy, hsx, f, t, hf, hth, ?_⟩
      rw [← hfc]
      exact ⟨fun e => absurd e hne, fun e => absurd e htc⟩

/-- The two-commodity phase does nothing unless a rate is implied. -/
theorem impliedCosts_else (ps : List Post) (b : Balance) (hr : InRange (bookedAmounts ps))
    (hnb : ∀ p ∈ ps, ¬ p.Blank) (hb : Balance.empty.addAll (bookedAmounts ps) = .ok b) :
    impliedCosts ps b none = .ok (ps, b) ∨ ∃ c1 c2, Implied ps c1 c2 := by
  by_cases hcase : ∃ x y top, b.amounts = [x, y] ∧ topPost ps = some top ∧ x.isZero = false ∧ y.isZero = false
  · exact Or.inr (implied_branch ps b hr hnb hb hcase)
  · left
    unfold impliedCosts
    split
    · rename_i x y _ hxy
      cases htop : topPost ps with
      | none => rfl
      | some top =>
        simp only
        rw [if_neg]
        intro hz
        exact hcase ⟨x, y, top, hxy, htop, by simpa using hz.1, by simpa using hz.2⟩
    · rfl

theorem sumIn_le_mass (c : Option Str) (as : List Amount) : |sumIn c as| ≤ mass as := by
  induction as with
  | nil => simp [sumIn, mass]
  | cons a as ih =>
    rw [sumIn_cons, mass_cons]
    refine le_trans (abs_add_le _ _) ?_
    have : |a.valIn c| ≤ |a.qty.val| := by
      unfold Amount.valIn
      split
      · exact le_refl _
      · rw [abs_zero]; exact abs_nonneg _
    linarith

theorem le_mass {a : Amount} {as : List Amount} (h : a ∈ as) : |a.qty.val| ≤ mass as := by
  induction as with
  | nil => cases h
  | cons b as ih =>
    rw [mass_cons]
    rcases List.mem_cons.mp h with rfl | h
    · have := mass_nonneg as; linarith
    · have := ih h; have := abs_nonneg b.qty.val; linarith

theorem booked_written {ps : List Post} {a : Amount} (h : a ∈ bookedAmounts ps) :
    a ∈ writtenAmounts ps ++ writtenCosts ps := by
  obtain ⟨p, hp, hb⟩ := List.mem_filterMap.mp h
  unfold Post.booked at hb
  cases hc : p.cost with
  | some c =>
    rw [hc] at hb
    exact List.mem_append_right _ (List.mem_filterMap.mpr ⟨p, hp, by rw [hc]; exact hb⟩)
  | none =>
    rw [hc] at hb
    exact List.mem_append_left _ (List.mem_filterMap.mpr ⟨p, hp, hb⟩)

theorem mass_booked (ps : List Post) : mass (bookedAmounts ps) ≤ mass (writtenAmounts ps ++ writtenCosts ps) := by
  rw [mass_append]
  induction ps with
  | nil => exact le_of_eq (by simp [bookedAmounts, writtenAmounts, writtenCosts, mass])
  | cons p ps ih =>
    unfold bookedAmounts writtenAmounts writtenCosts at *
    have hb : p.booked = match p.cost with | some c => some c | none => p.amount := rfl
    rw [List.filterMap_cons, List.filterMap_cons, List.filterMap_cons, hb]
    cases hc : p.cost <;> cases ha : p.amount <;> simp only [mass_cons]
    · exact ih
    · linarith
    · linarith
    · rename_i c a
      have := abs_nonneg a.qty.val
      linarith

theorem ten_le {m n : Nat} (h : m ≤ n) : (10 : ℚ) ^ m ≤ 10 ^ n := pow_le_pow_right₀ (by norm_num) h

theorem mass_room {D T : Nat} (h : D + T ≤ 28) {as : List Amount} (ha : mass as ≤ 10 ^ T) : mass as * 10 ^ D < 2 ^ 96 := by
  have h1 : mass as * 10 ^ D ≤ 10 ^ T * 10 ^ D := mul_le_mul_of_nonneg_right ha (by positivity)
  rw [← pow_add] at h1
  have h2 := ten_le (show T + D ≤ 28 by omega)
  have : (10 : ℚ) ^ 28 < 2 ^ 96 := by norm_num
  linarith

/-- A quotient of sums is moderate. -/
theorem quotient_le {D T : Nat} {x y : ℚ} (hx : 1 / 10 ^ D ≤ |x|) (hy : |y| ≤ 10 ^ T) : |y / x| ≤ 10 ^ (T + D) := by
  have h0 : 0 < |x| := lt_of_lt_of_le (by positivity) hx
  rw [abs_div, div_le_iff₀ h0]
  have h1 : (10 : ℚ) ^ (T + D) * (1 / 10 ^ D) ≤ 10 ^ (T + D) * |x| := mul_le_mul_of_nonneg_left hx (by positivity)
  have h2 : (10 : ℚ) ^ T = 10 ^ (T + D) * (1 / 10 ^ D) := by
    rw [pow_add, mul_one_div, mul_div_assoc, div_self (by positivity), mul_one]
  linarith

/-- The costs at an implied rate do not exceed what a quantity can hold. -/
theorem load_room {D T : Nat} (h : D + 2 * T ≤ 27) {u m n : ℚ} (hu : u ≤ 10 ^ (T + D) + 1 / 2) (hm : m ≤ 10 ^ T) (h0 : 0 ≤ m)
    (hn : n ≤ 10 ^ 9) : 10 ^ T + ((1 + u) * m + 2 * n) ≤ 10 ^ 28 := by
  have h1 : (1 + u) * m ≤ (1 + (10 ^ (T + D) + 1 / 2)) * 10 ^ T := mul_le_mul (by linarith) hm h0 (by positivity)
  have h2 : (10 : ℚ) ^ (T + D) * 10 ^ T ≤ 10 ^ 27 := by rw [← pow_add]; exact ten_le (by omega)
  have h3 := ten_le (show T ≤ 13 by omega)
  have : (10 : ℚ) ^ 27 + 3 * 10 ^ 13 + 2 * 10 ^ 9 ≤ 10 ^ 28 := by norm_num
  linarith

/-- The price of a posting at an implied rate is moderate. -/
theorem rate_room {D T : Nat} (h : D + 2 * T ≤ 27) {u a c : ℚ} (hu : |u| ≤ 10 ^ (T + D) + 1 / 2) (ha : 1 / 10 ^ D ≤ |a|)
    (hc : |c| ≤ |u * a| + 1 / 2) : |c / a| ≤ 10 ^ 28 := by
  have h0 : 0 < |a| := lt_of_lt_of_le (by positivity) ha
  rw [abs_div, div_le_iff₀ h0]
  rw [abs_mul] at hc
  have t2 : |u| * |a| ≤ (10 ^ (T + D) + 1 / 2) * |a| := mul_le_mul_of_nonneg_right hu (abs_nonneg _)
  have t3 : (1 : ℚ) / 2 ≤ 10 ^ D * |a| := by
    have : (10 : ℚ) ^ D * (1 / 10 ^ D) ≤ 10 ^ D * |a| := mul_le_mul_of_nonneg_left ha (by positivity)
    have : (10 : ℚ) ^ D * (1 / 10 ^ D) = 1 := by rw [mul_one_div, div_self (by positivity)]
    linarith
  have t4 : ((10 : ℚ) ^ (T + D) + 1 / 2 + 10 ^ D) * |a| ≤ 10 ^ 28 * |a| := by
    refine mul_le_mul_of_nonneg_right ?_ (abs_nonneg _)
    have h3 := ten_le (show T + D ≤ 27 by omega)
    have h4 := ten_le (show D ≤ 27 by omega)
    have : (10 : ℚ) ^ 27 + 1 / 2 + 10 ^ 27 ≤ 10 ^ 28 := by norm_num
    linarith
  linarith

/-- What a lot is worth is moderate. -/
theorem lot_room {D T : Nat} (h : D + 2 * T ≤ 27) {p a : ℚ} (hp : |p| ≤ 10 ^ 15) (ha : |a| ≤ 10 ^ T) : |p * a| ≤ 10 ^ 28 := by
  rw [abs_mul]
  have h3 := ten_le (show T ≤ 13 by omega)
  calc |p| * |a| ≤ 10 ^ 15 * 10 ^ 13 := mul_le_mul hp (le_trans ha h3) (abs_nonneg _) (by norm_num)
    _ = 10 ^ 28 := by norm_num

theorem ordinary_inRange {ps : List Post} (h : Ordinary ps) : InRange (bookedAmounts ps) := by
  obtain ⟨D, T, hDT, hdec, htot⟩ := h.numbers
  have hDT : D + T ≤ 28 := by omega
  exact ⟨D, by omega, fun a ha => hdec a (booked_written ha), mass_room hDT (le_trans (mass_booked ps) htot)⟩

/-- Where there are costs. -/
theorem Ordinary.costed {ps : List Post} (h : Ordinary ps) (hc : ¬ Costless ps) : ∃ D T : Nat, D + 2 * T ≤ 27 ∧
    (∀ a ∈ writtenAmounts ps ++ writtenCosts ps, a.qty.Valid ∧ a.qty.scale ≤ D) ∧
    mass (writtenAmounts ps ++ writtenCosts ps) ≤ 10 ^ T := by
  obtain ⟨D, T, hDT, hn⟩ := h.numbers
  exact ⟨D, T, hDT.resolve_right fun h => hc h.2, hn⟩

theorem not_costless {ps : List Post} {p : Post} {c : Amount} (hp : p ∈ ps) (hc : p.cost = some c) : ¬ Costless ps := by
  intro h
  rw [h.1 p hp] at hc
  cases hc

theorem grid_least {a : Amount} {D : Nat} (h : a.qty.scale ≤ D) (h0 : a.qty.val ≠ 0) : 1 / 10 ^ D ≤ |a.qty.val| := by
  rw [Dec.abs_val]
  have hm : 1 ≤ a.qty.mant := by
    rcases Nat.eq_zero_or_pos a.qty.mant with e | e
    · exact absurd ((Dec.val_zero_iff _).mpr e) h0
    · exact e
  have hm' : (1 : ℚ) ≤ a.qty.mant := by exact_mod_cast hm
  have hp : (10 : ℚ) ^ a.qty.scale ≤ 10 ^ D := pow_le_pow_right₀ (by norm_num) h
  rw [div_le_div_iff₀ (by positivity) (Dec.pow10_pos _)]
  calc (1 : ℚ) * 10 ^ a.qty.scale ≤ 1 * 10 ^ D := by linarith
    _ ≤ a.qty.mant * 10 ^ D := by apply mul_le_mul_of_nonneg_right hm'; positivity

theorem implied_unique {ps : List Post} {c1 c2 d1 d2 : Option Str} (h : Implied ps c1 c2) (g : Implied ps d1 d2) :
    c1 = d1 := by
  obtain ⟨_, hne, hc, h1, h2, f, t, hf, ht, hft⟩ := h
  obtain ⟨_, gne, gc, g1, g2, f', t', hf', ht', gft⟩ := g
  rw [hf] at hf'; injection hf' with hf'; subst hf'
  rw [ht] at ht'; injection ht' with ht'; subst ht'
  have hm : ∀ c, sumIn c (bookedAmounts ps) ≠ 0 → ∃ a ∈ bookedAmounts ps, a.comm = c := by
    intro c hcn
    by_contra hn
    apply hcn
    apply sumIn_absent
    intro hm
    obtain ⟨a, ha, e⟩ := List.mem_map.mp hm
    exact hn ⟨a, ha, e⟩
  by_cases e : t.comm = f.comm
  · exact (hft.mpr e).symm.trans (gft.mpr e)
  · have e1 : f.comm ≠ c1 := fun k => e (hft.mp k)
    have e2 : f.comm ≠ d1 := fun k => e (gft.mp k)
    have hfm : f ∈ bookedAmounts ps := List.mem_of_head? hf
    have e3 : f.comm = c2 := (hc f hfm).resolve_left e1
    obtain ⟨a, ha, ea⟩ := hm d1 g1
    rcases hc a ha with k | k
    · rw [← ea, k]
    · exact absurd (by rw [e3, ← k, ea]) e2

/-! ### refused -/

/-- The commodity of an implied cost. -/
theorem impliedCost_comm {x y u a c : Amount} (hu : y.div x = .ok u) (hc : u.abs.mul a = .ok c) (hax : a.comm = x.comm) :
    c.comm = if y.comm = none then x.comm else y.comm := by
  have h1 := ((C06_sound y x u).2 hu).2
  have h2 := ((C06_sound u.abs a c).1 hc).2
  rw [h2]
  unfold resultComm at h1 ⊢
  rw [(C04_abs u).2.1]
  cases hy : y.comm with
  | some s => rw [hy] at h1; rw [h1]; rfl
  | none =>
    rw [hy] at h1
    rw [h1, hax]
    cases x.comm <;> rfl

/-- A defective transaction is refused. -/
theorem finalize_defective (x : Xact) (pool : Pool) (hr : InRange (bookedAmounts x.posts)) (hd : Defective x)
    (r : Xact × Pool) : finalize x pool ≠ .ok r := by
  obtain ⟨x', pool'⟩ := r
  intro hf
  -- the three shapes
  have refused : (x.posts.length = 1 ∨
      (∃ l p m q r, x.posts = l ++ p :: m ++ q :: r ∧ p.Blank ∧ q.Blank) ∨
      (∃ p ∈ x.posts, p.Blank ∧ ∃ a ∈ bookedAmounts x.posts, ∃ b ∈ bookedAmounts x.posts, a.comm ≠ b.comm)) → False := by
    intro h
    obtain ⟨e, he⟩ := C32_ambiguous_refused x pool h
    rw [hf] at he; cases he
  by_cases hb : ∃ p ∈ x.posts, p.Blank
  · obtain ⟨l, p0, r0, a0, _, _, _, _, _, hrec⟩ := finalize_blank _ _ _ _ hf hb
    cases hd with
    | single h => exact refused (Or.inl h)
    | blanks l m r p q h hp hq => exact refused (Or.inr (Or.inl ⟨l, p, m, q, r, h, hp, hq⟩))
    | mixed p hp hb a b ha hb' hne => exact refused (Or.inr (Or.inr ⟨p, hp, hb, a, ha, b, hb', hne⟩))
    | lone p hp hc ha =>
      obtain ⟨c, hc⟩ := Option.ne_none_iff_exists'.mp hc
      obtain ⟨a, h1, _⟩ := recordPrices_prices _ _ _ _ _ hrec p hp c hc
      rw [ha] at h1; cases h1
    | cost p hp a c ha hc hbad hkeep =>
      obtain ⟨a', h1, h2⟩ := recordPrices_prices _ _ _ _ _ hrec p hp c hc
      rw [ha] at h1; injection h1 with h1; subst h1
      exact h2 hbad
    | rate c1 c2 h p hp a ha hac hbad =>
      obtain ⟨q, hq, hqb⟩ := hb
      exact h.1 q hq hqb
  · simp only [not_exists, not_and] at hb
    obtain ⟨b, b1, g1, _, g3, _, g5⟩ := finalize_full _ _ _ _ hf hb
    have himp : ∀ c1 c2, Implied x.posts c1 c2 → ∃ xx y u : Amount, xx.comm = c1 ∧ y.comm = c2 ∧ y.div xx = .ok u ∧
        List.Forall₂ (CostAssigned c1 u.abs) x.posts x'.posts := by
      intro c1 c2 h
      obtain ⟨xx, y, _, _, k1, k2, _, _, k5⟩ := impliedCosts_implied _ _ hr g1 c1 c2 h
      rw [k5] at g3
      cases hd : y.div xx with
      | error e => rw [hd] at g3; simp [bind, Except.bind] at g3
      | ok u =>
        rw [hd] at g3
        simp only [bind, Except.bind] at g3
        exact ⟨xx, y, u, k1, k2, hd, assignCosts_ok _ _ _ _ _ _ g3⟩
    cases hd with
    | single h => exact refused (Or.inl h)
    | blanks l m r p q h hp hq => exact refused (Or.inr (Or.inl ⟨l, p, m, q, r, h, hp, hq⟩))
    | mixed p hp hb a b ha hb' hne => exact refused (Or.inr (Or.inr ⟨p, hp, hb, a, ha, b, hb', hne⟩))
    | lone p hp hc ha =>
      rcases impliedCosts_else _ _ hr hb g1 with h | ⟨c1, c2, h⟩
      · rw [g3] at h
        simp only [Except.ok.injEq, Prod.mk.injEq] at h
        rw [h.1] at g5
        obtain ⟨c, hc⟩ := Option.ne_none_iff_exists'.mp hc
        obtain ⟨a, h1, _⟩ := recordPrices_prices _ _ _ _ _ g5 p hp c hc
        rw [ha] at h1; cases h1
      · obtain ⟨_, _, _, _, _, _, hall⟩ := himp c1 c2 h
        obtain ⟨_, _, a, h1, _⟩ := forall₂_left hall hp
        rw [ha] at h1; cases h1
    | cost p hp a c ha hc hbad hkeep =>
      rcases impliedCosts_else _ _ hr hb g1 with h | ⟨c1, c2, h⟩
      · rw [g3] at h
        simp only [Except.ok.injEq, Prod.mk.injEq] at h
        rw [h.1] at g5
        obtain ⟨a', h1, h2⟩ := recordPrices_prices _ _ _ _ _ g5 p hp c hc
        rw [ha] at h1; injection h1 with h1; subst h1
        exact h2 hbad
      · obtain ⟨_, _, _, _, _, _, hall⟩ := himp c1 c2 h
        obtain ⟨q, hq, a', h1, h2⟩ := forall₂_left hall hp
        rw [ha] at h1; injection h1 with h1; subst h1
        rcases h2 with ⟨h2, _⟩ | ⟨_, h2⟩
        · exact hkeep c2 (h2 ▸ h)
        · subst h2
          obtain ⟨a', h1, h2⟩ := recordPrices_prices _ _ _ _ _ g5 q hq c hc
          rw [ha] at h1; injection h1 with h1; subst h1
          exact h2 hbad
    | rate c1 c2 h p hp a ha hac hbad =>
      obtain ⟨xx, y, u, k1, k2, k3, hall⟩ := himp c1 c2 h
      obtain ⟨q, hq, a', h1, h2⟩ := forall₂_left hall hp
      rw [ha] at h1; injection h1 with h1; subst h1
      rcases h2 with ⟨_, c, hc, rfl⟩ | ⟨h2, _⟩
      · obtain ⟨a', h1, h2⟩ := recordPrices_prices _ _ _ _ _ g5 _ hq c rfl
        simp only at h1
        rw [ha] at h1; injection h1 with h1; subst h1
        apply h2
        rcases hbad with e | e | e
        · exact Or.inl (hac.trans e)
        · right; left
          rw [impliedCost_comm k3 hc (hac.trans k1.symm), k2, if_pos e, k1, hac]
        · exact Or.inr (Or.inr (Or.inl e))
      · exact h2 hac

/-! ### accepted -/

theorem ordinary_sized {ps : List Post} {pool : Pool} (h : Ordinary ps) (hl : pool.OrdinaryLots) {p : Post} (hp : p ∈ ps) :
    Sized pool p := by
  intro a c ha hc
  have hma : a ∈ writtenAmounts ps ++ writtenCosts ps :=
    List.mem_append_left _ (List.mem_filterMap.mpr ⟨p, hp, ha⟩)
  have hmc : c ∈ writtenAmounts ps ++ writtenCosts ps :=
    List.mem_append_right _ (List.mem_filterMap.mpr ⟨p, hp, hc⟩)
  obtain ⟨D, T, hDT, hdec, htot⟩ := h.costed (not_costless hp hc)
  have hab := le_trans (le_mass hma) htot
  have hcb := le_trans (le_mass hmc) htot
  refine ⟨fun h0 => moderate_of_le ?_, fun A ann pr _ hann hpr => moderate_of_le (lot_room hDT (hl A ann pr hann hpr) hab)⟩
  exact le_trans (quotient_le (grid_least (hdec a hma).2 h0) hcb) (ten_le (by omega))

/-- Postings by their number of blanks. -/
theorem blanks_cases (ps : List Post) : (∀ p ∈ ps, ¬ p.Blank) ∨
    (∃ l p r, ps = l ++ p :: r ∧ p.Blank ∧ ∀ q ∈ l ++ r, ¬ q.Blank) ∨
    (∃ l p m q r, ps = l ++ p :: m ++ q :: r ∧ p.Blank ∧ q.Blank) := by
  induction ps with
  | nil => left; simp
  | cons p ps ih =>
    by_cases hp : p.Blank
    · by_cases h : ∃ q ∈ ps, q.Blank
      · obtain ⟨q, hq, hqb⟩ := h
        obtain ⟨m, r, rfl⟩ := List.mem_iff_append.mp hq
        exact Or.inr (Or.inr ⟨[], p, m, q, r, rfl, hp, hqb⟩)
      · simp only [not_exists, not_and] at h
        exact Or.inr (Or.inl ⟨[], p, ps, rfl, hp, h⟩)
    · rcases ih with h | ⟨l, q, r, rfl, h2, h3⟩ | ⟨l, q, m, q', r, rfl, h2, h3⟩
      · left
        intro q hq
        rcases List.mem_cons.mp hq with rfl | hq
        · exact hp
        · exact h q hq
      · right; left
        refine ⟨p :: l, q, r, rfl, h2, ?_⟩
        intro z hz
        rcases List.mem_cons.mp hz with rfl | hz
        · exact hp
        · exact h3 z hz
      · exact Or.inr (Or.inr ⟨p :: l, q, m, q', r, rfl, h2, h3⟩)

theorem known_of {pool : Pool} {ps : List Post} (hk : pool.Knows ps) {p : Post} (hp : p ∈ ps) {a : Amount}
    (ha : p.amount = some a ∨ p.cost = some a) (s : Str) (hs : a.comm = some s) : (pool.find s).isSome := by
  apply hk a _ s hs
  rcases ha with ha | ha
  · exact List.mem_append_left _ (List.mem_filterMap.mpr ⟨p, hp, ha⟩)
  · exact List.mem_append_right _ (List.mem_filterMap.mpr ⟨p, hp, ha⟩)

/-- A transaction without defect is accepted unless a number overflows, and that needs numbers that are not of everyday
size. -/
theorem finalize_sound (x : Xact) (pool : Pool) (hp : Pool.empty.Later pool) (hk : pool.Knows x.posts)
    (hr : InRange (bookedAmounts x.posts)) (hd : ¬ Defective x) :
    (∃ r, finalize x pool = .ok r) ∨
    (finalize x pool = .error .decimalOverflow ∧ ¬ (Ordinary x.posts ∧ pool.OrdinaryLots)) := by
  obtain ⟨ops, hops⟩ := hp
  have hi : pool.Inv := Pool.inv_runOps Pool.inv_empty ops hops
  obtain ⟨b, e1, _⟩ := C07_balance_is_sum _ hr
  have hlone : ∀ p ∈ x.posts, p.cost ≠ none → p.amount ≠ none := fun p hp hc ha => hd (.lone p hp hc ha)
  have hlen : x.posts.length ≠ 1 := fun h => hd (.single h)
  rcases blanks_cases x.posts with hnb | ⟨l, p, r, hx, hpb, hnb⟩ | ⟨l, p, m, q, r, hx, h1, h2⟩
  · have hamt : ∀ p ∈ x.posts, p.amount ≠ none := by
      intro p hp ha
      apply hnb p hp
      cases hc : p.cost with
      | none => unfold Post.Blank Post.booked; rw [hc]; exact ha
      | some c => exact absurd ha (hlone p hp (by rw [hc]; simp))
    have hrun : finalize x pool = (do
        let (ps, _) ← impliedCosts x.posts b none
        let (ps, pool) ← recordPrices x.date ps pool
        .ok ({ x with posts := ps }, pool)) := by
      unfold finalize
      rw [sumPosts_none _ _ _ _ e1 hnb]
      simp only [bind, Except.bind]
      rw [if_neg hlen]
      cases impliedCosts x.posts b none with
      | error e => rfl
      | ok z =>
        simp only
        cases recordPrices x.date z.1 pool with
        | error e => rfl
        | ok w => simp only [fillNull]
    by_cases hsome : ∃ c1 c2, Implied x.posts c1 c2
    · obtain ⟨c1, c2, h⟩ := hsome
      obtain ⟨ex, ey, mx, my, k1, k2, k3, k4, k5⟩ := impliedCosts_implied _ _ hr e1 c1 c2 h
      obtain ⟨_, hne, hbc, hs1, hs2, _⟩ := id h
      have hx0 : ex.qty.val ≠ 0 := by rw [k3]; exact hs1
      -- the entries of the balance, for numbers of everyday size
      have hgrid : ∀ D T : Nat, D + 2 * T ≤ 27 →
          (∀ a ∈ writtenAmounts x.posts ++ writtenCosts x.posts, a.qty.Valid ∧ a.qty.scale ≤ D) →
          mass (writtenAmounts x.posts ++ writtenCosts x.posts) ≤ 10 ^ T →
          Bounded (10 ^ T) b.amounts ∧ 1 / 10 ^ D ≤ |ex.qty.val| := by
        intro D T hDT hdec htot
        obtain ⟨b', f1, f2, f3, _⟩ := addAll_grid (S := D) (by omega) (bookedAmounts x.posts) Balance.empty
          (by intro a ha; cases ha) (fun a ha => hdec a (booked_written ha)) (by
            simp only [Balance.empty, mass, zero_add]
            exact mass_room (by omega) (le_trans (mass_booked x.posts) htot))
        rw [e1] at f1; injection f1 with f1; subst f1
        refine ⟨fun a ha => ⟨(f2 a ha).1, ?_⟩, grid_least (f2 ex mx).2 hx0⟩
        refine le_trans (le_mass ha) (le_trans f3 ?_)
        simp only [Balance.empty, mass, zero_add]
        exact le_trans (mass_booked x.posts) htot
      cases hdv : ey.div ex with
      | error e =>
        right
        refine ⟨?_, fun ho => ?_⟩
        · rw [hrun, k5, hdv, amount_div_error _ _ _ hx0 hdv]; rfl
        · obtain ⟨D, T, hDT, hdec, htot⟩ := ho.1.costed (fun hn => hn.2 _ _ h)
          obtain ⟨g1, g2⟩ := hgrid D T hDT hdec htot
          obtain ⟨u, hu⟩ := (C06_accepted ey ex).2.2.mpr
            ⟨hx0, moderate_of_le (le_trans (quotient_le g2 (g1 ey my).2) (ten_le (by omega)))⟩
          rw [hdv] at hu; cases hu
      | ok u =>
        have hrate : ∀ D T : Nat, Bounded (10 ^ T) b.amounts → 1 / 10 ^ D ≤ |ex.qty.val| →
            |u.abs.qty.val| ≤ 10 ^ (T + D) + 1 / 2 := by
          intro D T g1 g2
          rw [(C04_abs u).1, abs_abs]
          refine le_trans (precise_le ((C06_sound ey ex u).2 hdv).1) ?_
          have := quotient_le g2 (g1 ey my).2
          linarith
        cases has : assignCosts c1 u.abs x.posts b with
        | error e =>
          right
          refine ⟨?_, fun ho => ?_⟩
          · have := assignCosts_class _ _ _ _ hamt e has
            rw [this] at has
            rw [hrun, k5, hdv]
            simp only [bind, Except.bind, has]
          · obtain ⟨D, T, hDT, hdec, htot⟩ := ho.1.costed (fun hn => hn.2 _ _ h)
            obtain ⟨g1, g2⟩ := hgrid D T hDT hdec htot
            have hw := hrate D T g1 g2
            obtain ⟨ps', b', hok⟩ := assignCosts_bounded c1 u.abs x.posts b (10 ^ T) (by positivity) g1
              (fun p hp => by
                obtain ⟨a, ha⟩ := Option.ne_none_iff_exists'.mp (hamt p hp)
                exact ⟨a, ha, (hdec a (List.mem_append_left _ (List.mem_filterMap.mpr ⟨p, hp, ha⟩))).1⟩)
              (by
                unfold load
                rw [mass_append] at htot
                have t2 := mass_nonneg (writtenCosts x.posts)
                exact load_room hDT hw (by linarith) (mass_nonneg _) (by exact_mod_cast ho.1.count))
            rw [has] at hok; cases hok
        | ok z =>
          obtain ⟨ps', b'⟩ := z
          have hall := assignCosts_ok _ _ _ _ _ _ has
          -- the commodities
          have hcomm2 : ∀ s, c2 = some s → (pool.find s).isSome := by
            intro s hs
            by_contra hn
            apply hs2
            apply sumIn_absent
            intro hm
            obtain ⟨a, ha, e⟩ := List.mem_map.mp hm
            exact hn (hk a (booked_written ha) s (e.trans hs))
          have hpr : ∀ q ∈ ps', Priceable x.date pool q := by
            intro q hq c hc
            obtain ⟨p, hp, a, ha, hcase⟩ := forall₂_right hall hq
            rcases hcase with ⟨hac, c', hc', rfl⟩ | ⟨hac, rfl⟩
            · simp only [Option.some.injEq] at hc
              subst hc
              have hgood : c1 ≠ none ∧ c2 ≠ none ∧ x.date ≠ none := by
                refine ⟨?_, ?_, ?_⟩ <;> intro e <;> exact hd (.rate c1 c2 h p hp a ha hac (by tauto))
              have hcc : c'.comm = c2 := by
                rw [impliedCost_comm hdv hc' (hac.trans k1.symm), k2, if_neg hgood.2.1]
              refine ⟨a, ha, ?_, known_of hk hp (Or.inl ha), fun s hs => hcomm2 s (hcc.symm.trans hs)⟩
              rintro (n | n | n | ⟨n, _⟩)
              · exact hgood.1 (hac.symm.trans n)
              · exact hne (by rw [← hac, n, hcc])
              · exact hgood.2.2 n
              · exact hgood.2.1 (hcc.symm.trans n)
            · refine ⟨a, ha, fun hn => hd (.cost q hp a c ha hc hn fun d2 hi => hac ?_), known_of hk hp (Or.inl ha),
                known_of hk hp (Or.inr hc)⟩
              exact implied_unique hi h
          rw [hrun, k5, hdv]
          simp only [bind, Except.bind, has]
          rcases recordPrices_class _ _ _ hi hpr with ⟨pool', e⟩ | ⟨e, hn⟩
          · rw [e]; exact Or.inl ⟨_, rfl⟩
          · rw [e]
            refine Or.inr ⟨rfl, fun ho => hn fun q hq => ?_⟩
            obtain ⟨p, hp, a, ha, hcase⟩ := forall₂_right hall hq
            rcases hcase with ⟨hac, c', hc', rfl⟩ | ⟨hac, rfl⟩
            · intro a' c'' ha' hc''
              simp only at ha'
              rw [ha] at ha'; injection ha' with ha'; subst ha'
              simp only [Option.some.injEq] at hc''
              subst hc''
              have hma : a ∈ writtenAmounts x.posts ++ writtenCosts x.posts :=
                List.mem_append_left _ (List.mem_filterMap.mpr ⟨p, hp, ha⟩)
              obtain ⟨D, T, hDT, hdec, htot⟩ := ho.1.costed (fun hn => hn.2 _ _ h)
              obtain ⟨g1, g2⟩ := hgrid D T hDT hdec htot
              exact ⟨fun h0 => moderate_of_le (rate_room hDT (hrate D T g1 g2) (grid_least (hdec a hma).2 h0)
                  (precise_le ((C06_sound u.abs a c').1 hc').1)),
                fun A ann pr _ hann hpr => moderate_of_le (lot_room hDT (ho.2 A ann pr hann hpr) (le_trans (le_mass hma) htot))⟩
            · exact ordinary_sized ho.1 ho.2 hp
    · have h := (impliedCosts_else _ _ hr hnb e1).resolve_right hsome
      have hpr : ∀ p ∈ x.posts, Priceable x.date pool p := by
        intro p hp c hc
        obtain ⟨a, ha⟩ := Option.ne_none_iff_exists'.mp (hamt p hp)
        exact ⟨a, ha, fun hn => hd (.cost p hp a c ha hc hn fun c2 hi => hsome ⟨_, _, hi⟩), known_of hk hp (Or.inl ha),
          known_of hk hp (Or.inr hc)⟩
      rw [hrun, h]
      simp only [bind, Except.bind]
      rcases recordPrices_class _ _ _ hi hpr with ⟨pool', e⟩ | ⟨e, hn⟩
      · rw [e]; exact Or.inl ⟨_, rfl⟩
      · rw [e]
        exact Or.inr ⟨rfl, fun ho => hn fun p hp => ordinary_sized ho.1 ho.2 hp⟩
  · have hno : ∀ c1 c2, ¬ Implied x.posts c1 c2 := fun c1 c2 hi => hi.1 p (by rw [hx]; simp) hpb
    have hpr : ∀ p ∈ x.posts, Priceable x.date pool p := by
      intro p hp c hc
      obtain ⟨a, ha⟩ := Option.ne_none_iff_exists'.mp (hlone p hp (by rw [hc]; simp))
      exact ⟨a, ha, fun hn => hd (.cost p hp a c ha hc hn fun c2 hi => hno _ _ hi), known_of hk hp (Or.inl ha),
        known_of hk hp (Or.inr hc)⟩
    -- the balance has one entry
    have hone : ∃ a, b.amounts = [a] := by
      obtain ⟨_, t2, t3, _⟩ := twoEntries _ _ hr e1
      have hsame : ∀ c ∈ b.amounts.map (·.comm), ∀ d ∈ b.amounts.map (·.comm), c = d := by
        intro c hc d hd'
        obtain ⟨a, ha, rfl⟩ := List.mem_map.mp ((t3 c).mp hc)
        obtain ⟨a', ha', rfl⟩ := List.mem_map.mp ((t3 d).mp hd')
        by_contra hne
        exact hd (.mixed p (by rw [hx]; simp) hpb a a' ha ha' hne)
      obtain ⟨am⟩ := b
      unfold Balance.OneEach at t2
      cases am with
      | nil =>
        exfalso
        have hlr : l ++ r ≠ [] := by
          intro e
          apply hlen
          rw [hx, List.length_append, List.length_cons]
          have := congrArg List.length e
          rw [List.length_append, List.length_nil] at this
          omega
        cases hq : l ++ r with
        | nil => exact hlr hq
        | cons q qs =>
          have hqm : q ∈ l ++ r := by rw [hq]; simp
          obtain ⟨a, ha⟩ := Option.ne_none_iff_exists'.mp (hnb q hqm)
          have hqx : q ∈ x.posts := by
            rw [hx]
            rcases List.mem_append.mp hqm with h | h
            · exact List.mem_append_left _ h
            · exact List.mem_append_right _ (List.mem_cons_of_mem _ h)
          have := (t3 a.comm).mpr (List.mem_map_of_mem (List.mem_filterMap.mpr ⟨q, hqx, ha⟩))
          simp at this
      | cons a am =>
        cases am with
        | nil => exact ⟨a, rfl⟩
        | cons a' am =>
          exfalso
          have := hsame a.comm (by simp) a'.comm (by simp)
          simp [this] at t2
    obtain ⟨a, hba⟩ := hone
    have hrun : finalize x pool = (do
        let (ps, pool) ← recordPrices x.date x.posts pool
        .ok ({ x with posts := ps.modify l.length (fun p => { p with amount := some a.inverse }) }, pool)) := by
      unfold finalize
      rw [show sumPosts x.posts 0 Balance.empty none = .ok (b, some l.length) by
        rw [hx] at e1 ⊢
        have := sumPosts_one l r p 0 Balance.empty b e1 hpb hnb
        rwa [Nat.zero_add] at this]
      simp only [bind, Except.bind]
      rw [if_neg hlen]
      unfold impliedCosts
      simp only
      cases recordPrices x.date x.posts pool with
      | error e => rfl
      | ok w => simp only [fillNull, hba]
    rw [hrun]
    simp only [bind, Except.bind]
    rcases recordPrices_class _ _ _ hi hpr with ⟨pool', e⟩ | ⟨e, hn⟩
    · rw [e]; exact Or.inl ⟨_, rfl⟩
    · rw [e]
      exact Or.inr ⟨rfl, fun ho => hn fun p hp => ordinary_sized ho.1 ho.2 hp⟩
  · exact absurd (.blanks l m r p q hx h1 h2) hd

end Ledger
