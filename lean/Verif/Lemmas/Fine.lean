import Verif.Lemmas.Parse
import Verif.Lemmas.Booking
import Verif.Lemmas.Totals
/-
The amounts of a journal: the quantities fit a decimal and the symbols are symbols the scanner reads.  Holds for all
amounts of all postings of every journal a program can have, and for all totals of accounts.
-/
namespace Ledger
open Ledger.Parser Ledger.Finalize

/-- A symbol as the scanner reads it: not empty, no white space, `@`, digit or minus sign. -/
def ScannedSymbol (s : Str) : Prop := s ≠ [] ∧ ∀ c ∈ s, isWs c = false ∧ c ≠ '@' ∧ isDig c = false ∧ c ≠ '-'

/-- An amount with a quantity that fits a decimal and a symbol as the scanner reads it, if any. -/
def Amount.Fine (a : Amount) : Prop := a.qty.Valid ∧ ∀ s, a.comm = some s → ScannedSymbol s

def FineAll (l : List Amount) : Prop := ∀ a ∈ l, a.Fine

def Post.Fine (p : Post) : Prop := (∀ a, p.amount = some a → a.Fine) ∧ ∀ c, p.cost = some c → c.Fine

theorem setSign_valid (d : Dec) (h : d.Valid) : d.setSignPositive.Valid ∧ d.setSignNegative.Valid := ⟨h, h⟩

theorem Amount.Fine.add {a b r : Amount} (ha : a.Fine) (hb : b.Fine) (h : a.add b = .ok r) : r.Fine := by
  unfold Amount.add at h
  split at h
  · simp at h
  split at h
  · injection h with h; subst h; exact ha
  cases hq : a.qty.add b.qty with
  | error e => rw [hq] at h; simp [bind, Except.bind] at h
  | ok q =>
    rw [hq] at h
    simp only [bind, Except.bind, Except.ok.injEq] at h
    subst h
    exact ⟨(Dec.add_rounded _ _ _ ha.1 hb.1 hq).2, ha.2⟩

theorem Amount.Fine.div {a b r : Amount} (ha : a.Fine) (hb : b.Fine) (h : a.div b = .ok r) : r.Fine := by
  unfold Amount.div at h
  cases hq : a.qty.div b.qty with
  | error e => rw [hq] at h; simp [bind, Except.bind] at h
  | ok q =>
    rw [hq] at h
    simp only [bind, Except.bind, Except.ok.injEq] at h
    subst h
    refine ⟨Dec.div_valid _ _ _ hq, ?_⟩
    intro s hs
    simp only at hs
    split at hs
    · exact hb.2 s hs
    · exact ha.2 s hs

theorem Amount.Fine.mul {a b r : Amount} (ha : a.Fine) (hb : b.Fine) (h : a.mul b = .ok r) : r.Fine := by
  unfold Amount.mul at h
  cases hq : a.qty.mul b.qty with
  | error e => rw [hq] at h; simp [bind, Except.bind] at h
  | ok q =>
    rw [hq] at h
    simp only [bind, Except.bind, Except.ok.injEq] at h
    subst h
    refine ⟨(Dec.mul_rounded _ _ _ hq).2, ?_⟩
    intro s hs
    simp only at hs
    split at hs
    · exact hb.2 s hs
    · exact ha.2 s hs

theorem Amount.Fine.mulAssign {a b r : Amount} (ha : a.Fine) (hb : b.Fine) (h : a.mulAssign b = .ok r) : r.Fine := by
  unfold Amount.mulAssign at h
  cases hq : a.qty.mul b.qty with
  | error e => rw [hq] at h; simp [bind, Except.bind] at h
  | ok q =>
    rw [hq] at h
    simp only [bind, Except.bind, Except.ok.injEq] at h
    subst h
    refine ⟨(Dec.mul_rounded _ _ _ hq).2, ?_⟩
    intro s hs
    simp only at hs
    split at hs
    · exact hb.2 s hs
    · exact ha.2 s hs

theorem Amount.Fine.abs {a : Amount} (ha : a.Fine) : a.abs.Fine := ⟨ha.1, ha.2⟩

theorem Amount.Fine.inverse {a : Amount} (ha : a.Fine) : a.inverse.Fine := by
  refine ⟨?_, ha.2⟩
  unfold Amount.inverse
  simp only
  split
  · exact ha.1
  · exact ha.1

/-! ### balances -/

theorem addGo_fine {l l' : List Amount} {a : Amount} (hl : FineAll l) (ha : a.Fine) (h : Balance.addGo l a = .ok l') :
    FineAll l' := by
  induction l generalizing l' with
  | nil =>
    simp only [Balance.addGo, Except.ok.injEq] at h
    subst h
    intro x hx
    simp only [List.mem_singleton] at hx
    rw [hx]; exact ha
  | cons y l ih =>
    rw [Balance.addGo] at h
    split at h
    · cases hq : y.add a with
      | error e => rw [hq] at h; simp [bind, Except.bind] at h
      | ok z =>
        rw [hq] at h
        simp only [bind, Except.bind, Except.ok.injEq] at h
        subst h
        intro x hx
        rcases List.mem_cons.mp hx with rfl | hx
        · exact (hl y (by simp)).add ha hq
        · exact hl x (List.mem_cons_of_mem _ hx)
    · cases hq : Balance.addGo l a with
      | error e => rw [hq] at h; simp [bind, Except.bind] at h
      | ok z =>
        rw [hq] at h
        simp only [bind, Except.bind, Except.ok.injEq] at h
        subst h
        intro x hx
        rcases List.mem_cons.mp hx with rfl | hx
        · exact hl _ (by simp)
        · exact ih (fun w hw => hl w (List.mem_cons_of_mem _ hw)) hq x hx

theorem balanceAdd_fine {b b' : Balance} {a : Amount} (hb : FineAll b.amounts) (ha : a.Fine) (h : b.add a = .ok b') :
    FineAll b'.amounts := by
  unfold Balance.add at h
  cases hq : Balance.addGo b.amounts a with
  | error e => rw [hq] at h; simp [bind, Except.bind] at h
  | ok l =>
    rw [hq] at h
    simp only [bind, Except.bind, Except.ok.injEq] at h
    subst h
    exact addGo_fine hb ha hq

theorem addAll_fine {as : List Amount} {b b' : Balance} (hb : FineAll b.amounts) (ha : FineAll as)
    (h : b.addAll as = .ok b') : FineAll b'.amounts := by
  induction as generalizing b with
  | nil => simp only [Balance.addAll, Except.ok.injEq] at h; subst h; exact hb
  | cons a as ih =>
    rw [Balance.addAll] at h
    cases hq : b.add a with
    | error e => rw [hq] at h; simp [bind, Except.bind] at h
    | ok b1 =>
      rw [hq] at h
      exact ih (balanceAdd_fine hb (ha a (by simp)) hq) (fun x hx => ha x (List.mem_cons_of_mem _ hx)) h

/-! ### finalisation -/

theorem sumPosts_fine {ps : List Post} {i : Nat} {b b' : Balance} {np np' : Option Nat} (hp : ∀ p ∈ ps, p.Fine)
    (hb : FineAll b.amounts) (h : sumPosts ps i b np = .ok (b', np')) : FineAll b'.amounts := by
  induction ps generalizing i b np with
  | nil =>
    simp only [sumPosts, Except.ok.injEq, Prod.mk.injEq] at h
    obtain ⟨rfl, _⟩ := h; exact hb
  | cons p ps ih =>
    have hp' : ∀ q ∈ ps, q.Fine := fun q hq => hp q (List.mem_cons_of_mem _ hq)
    have hpf := hp p (by simp)
    have go : ∀ a : Amount, a.Fine → (do let b' ← b.add a; sumPosts ps (i + 1) b' np) = .ok (b', np') → FineAll b'.amounts := by
      intro a ha h
      cases hq : b.add a with
      | error e => rw [hq] at h; simp [bind, Except.bind] at h
      | ok b1 =>
        rw [hq] at h
        exact ih hp' (balanceAdd_fine hb ha hq) h
    cases hc : p.cost with
    | some c => rw [sumPosts_cons, show p.booked = some c by simp [Post.booked, hc]] at h; exact go c (hpf.2 c hc) h
    | none =>
      cases ha : p.amount with
      | some a => rw [sumPosts_cons, show p.booked = some a by simp [Post.booked, hc, ha]] at h; exact go a (hpf.1 a ha) h
      | none =>
        rw [sumPosts_cons, show p.booked = none by simp [Post.booked, hc, ha]] at h
        cases np with
        | some k => simp at h
        | none => exact ih hp' hb h

theorem costAssigned_fine {comm : Option Str} {u : Amount} (hu : u.Fine) {ps ps' : List Post}
    (h : List.Forall₂ (CostAssigned comm u) ps ps') (hp : ∀ p ∈ ps, p.Fine) : ∀ p ∈ ps', p.Fine := by
  induction h with
  | nil => intro p hp; cases hp
  | @cons p p' ps ps' hc _ ih =>
    intro q hq
    rcases List.mem_cons.mp hq with rfl | hq
    · obtain ⟨amt, ha, hc⟩ := hc
      have hpf := hp p (by simp)
      rcases hc with ⟨_, c, hm, rfl⟩ | ⟨_, rfl⟩
      · refine ⟨hpf.1, ?_⟩
        intro c' hc'
        simp only [Option.some.injEq] at hc'
        subst hc'
        exact hu.mul (hpf.1 amt ha) hm
      · exact hpf
    · exact ih (fun r hr => hp r (List.mem_cons_of_mem _ hr)) q hq

theorem finalize_fine {x x' : Xact} {pool pool' : Pool} (hp : ∀ p ∈ x.posts, p.Fine)
    (h : finalize x pool = .ok (x', pool')) : ∀ p ∈ x'.posts, p.Fine := by
  obtain ⟨b, np, ps1, b1, ps2, h1, _, h2, _, h4, rfl⟩ := finalize_ok _ _ _ _ h
  have hb : FineAll b.amounts := sumPosts_fine hp (by intro a ha; cases ha) h1
  have hboth : (∀ p ∈ ps1, p.Fine) ∧ (np = none ∨ b1 = b) := by
    rcases impliedCosts_ok _ _ _ _ _ h2 with ⟨rfl, rfl⟩ | ⟨rfl, y, z, top, a, u, e, _, _, _, _, hcase⟩
    · exact ⟨hp, Or.inr rfl⟩
    · refine ⟨?_, Or.inl rfl⟩
      have hy := hb y (by rw [e]; simp)
      have hz := hb z (by rw [e]; simp)
      rcases hcase with ⟨_, hd, hF⟩ | ⟨_, hd, hF⟩
      · exact costAssigned_fine (hz.div hy hd).abs hF hp
      · exact costAssigned_fine (hy.div hz hd).abs hF hp
  unfold fillNull at h4
  cases np with
  | none => injection h4 with h4; subst h4; exact hboth.1
  | some i =>
    obtain ⟨hps, hnb⟩ := hboth
    simp only [reduceCtorEq, false_or] at hnb
    subst hnb
    simp only at h4
    split at h4
    · rename_i a ha
      injection h4 with h4
      subst h4
      intro p hp'
      have haf := hb a (by rw [ha]; simp)
      rw [List.mem_iff_getElem?] at hp'
      obtain ⟨k, hk⟩ := hp'
      rw [List.getElem?_modify] at hk
      cases hg : ps1[k]? with
      | none => rw [hg] at hk; simp at hk
      | some q =>
        rw [hg] at hk
        have hq := hps q (List.mem_of_getElem? hg)
        simp only [Option.map_eq_map, Option.map_some, Option.some.injEq] at hk
        subst hk
        split
        · refine ⟨?_, hq.2⟩
          intro a' ha'
          simp only [Option.some.injEq] at ha'
          subst ha'
          exact haf.inverse
        · exact hq
    · simp at h4

/-! ### posting lines -/

theorem mem_takeWhile_true {α : Type} {p : α → Bool} {l : List α} {x : α} (h : x ∈ l.takeWhile p) : p x = true :=
  (List.all_eq_true.mp (List.all_takeWhile (l := l))) x h

theorem scanSymbol_scanned (input : Str) (h : (Scanner.scanSymbol input).1 ≠ []) : ScannedSymbol (Scanner.scanSymbol input).1 := by
  refine ⟨h, ?_⟩
  intro c hc
  have := mem_takeWhile_true hc
  simp only [Scanner.isSymEnd, Bool.not_eq_true', Bool.or_eq_false_iff, beq_eq_false_iff_ne] at this
  exact ⟨this.1.1.1, this.1.1.2, this.1.2, this.2⟩

theorem scanAmount_scanned {input rest : Str} {t : Scanner.AmountTokens} (h : Scanner.scanAmount input = .ok (t, rest))
    (hs : t.symbol ≠ []) : ScannedSymbol t.symbol := by
  unfold Scanner.scanAmount at h
  simp only at h
  split at h
  · simp at h
  · split at h
    · simp only [Except.ok.injEq, Prod.mk.injEq] at h
      obtain ⟨rfl, _⟩ := h
      exact scanSymbol_scanned _ hs
    · simp only [Except.ok.injEq, Prod.mk.injEq] at h
      obtain ⟨rfl, _⟩ := h
      exact scanSymbol_scanned _ hs

theorem scanCost_scanned {input : Str} {t : Scanner.CostTokens} (h : Scanner.scanCost input = .ok t)
    (hs : t.symbol ≠ []) : ScannedSymbol t.symbol := by
  unfold Scanner.scanCost at h
  split at h
  · simp only [bind, Except.bind] at h
    split at h
    · simp at h
    · split at h
      · simp at h
      · rename_i v hv
        injection h with h
        subst h
        exact scanAmount_scanned (rest := v.2) hv hs
  · injection h with h; subst h; exact absurd rfl hs

theorem scanPost_scanned {input : Str} {t : Scanner.PostTokens} (h : Scanner.scanPost input = .ok t) :
    (t.symbol ≠ [] → ScannedSymbol t.symbol) ∧ (t.costSymbol ≠ [] → ScannedSymbol t.costSymbol) := by
  unfold Scanner.scanPost at h
  simp only at h
  split at h
  · simp at h
  split at h
  · simp at h
  split at h
  · injection h with h; subst h; exact ⟨fun h => absurd rfl h, fun h => absurd rfl h⟩
  simp only [bind, Except.bind] at h
  split at h
  · simp at h
  split at h
  · simp at h
  rename_i va hva
  split at h
  · simp at h
  split at h
  · injection h with h
    subst h
    exact ⟨fun hs => scanAmount_scanned (rest := va.2) hva hs, fun hs => absurd rfl hs⟩
  · split at h
    · simp at h
    · rename_i vc hvc
      injection h with h
      subst h
      exact ⟨fun hs => scanAmount_scanned (rest := va.2) hva hs, fun hs => scanCost_scanned hvc hs⟩

theorem findOrCreate_comm (p : Pool) (s : Str) (ann : Option Annotation) :
    (p.findOrCreate s ann).2 = if s = [] then none else some s := by
  unfold Pool.findOrCreate
  split
  · rfl
  · split <;> rfl

theorem parts_fine {q s : Str} {pool : Pool} (hs : s ≠ [] → ScannedSymbol s) :
    ∀ a, (parseAmountParts q s pool).2 = some a → a.Fine := by
  intro a ha
  unfold parseAmountParts at ha
  simp only [Option.map_eq_some_iff] at ha
  obtain ⟨d, hd, rfl⟩ := ha
  refine ⟨(Dec.fromStr_valid _ _ hd).1, ?_⟩
  intro s' h
  simp only [findOrCreate_comm] at h
  split at h
  · cases h
  · rename_i hne
    injection h with h
    subst h
    exact hs hne

theorem parsePostAmounts_fine {t : Scanner.PostTokens} {pool pool' : Pool} {am c : Option Amount}
    (h1 : t.symbol ≠ [] → ScannedSymbol t.symbol) (h2 : t.costSymbol ≠ [] → ScannedSymbol t.costSymbol)
    (h : parsePostAmounts t pool = .ok (pool', am, c)) : (∀ a, am = some a → a.Fine) ∧ ∀ a, c = some a → a.Fine := by
  unfold parsePostAmounts at h
  simp only [bind, Except.bind] at h
  split at h
  · simp at h
  split at h
  · simp at h
  rename_i v1 _ v2 hv
  simp only [Except.ok.injEq, Prod.mk.injEq] at h
  obtain ⟨_, rfl, rfl⟩ := h
  have hA := parts_fine (q := t.quantity) (pool := pool) h1
  refine ⟨hA, ?_⟩
  intro a ha
  unfold parseCost at hv
  split at hv
  · injection hv with hv; rw [← hv] at ha; cases ha
  · rename_i amt hamt
    split at hv
    · injection hv with hv; rw [← hv] at ha; cases ha
    · split at hv
      · injection hv with hv; rw [← hv] at ha; cases ha
      · rename_i pl cost hcost
        have hcf : cost.Fine := parts_fine h2 cost (by rw [hcost])
        split at hv
        · simp only [bind, Except.bind] at hv
          split at hv
          · simp at hv
          · rename_i c' hc'
            injection hv with hv
            rw [← hv] at ha
            injection ha with ha
            subst ha
            exact hcf.mulAssign (hA amt hamt) hc'
        · injection hv with hv
          rw [← hv] at ha
          injection ha with ha
          subst ha
          exact hcf

theorem noteLast_fine (n : Str) (ps : List Post) (h : ∀ p ∈ ps, p.Fine) : ∀ p ∈ Xact.noteLast n ps, p.Fine := by
  induction ps with
  | nil => intro p hp; cases hp
  | cons p ps ih =>
    cases ps with
    | nil =>
      intro q hq
      simp only [Xact.noteLast, List.mem_singleton] at hq
      subst hq
      exact h p (by simp)
    | cons r ps =>
      intro q hq
      rw [Xact.noteLast] at hq
      rcases List.mem_cons.mp hq with rfl | hq
      · exact h _ (by simp)
      · exact ih (fun s hs => h s (List.mem_cons_of_mem _ hs)) q hq

theorem readBody_fine {src rest : Source} {j j' : Journal} {xs : List Xact} {x : Xact} (hx : j.xacts = xs ++ [x])
    (hf : ∀ p ∈ x.posts, p.Fine) (h : readBody xs.length src j = .ok (j', rest)) :
    ∃ x', j'.xacts = xs ++ [x'] ∧ ∀ p ∈ x'.posts, p.Fine := by
  induction src generalizing j x with
  | nil =>
    simp only [readBody, Except.ok.injEq, Prod.mk.injEq] at h
    obtain ⟨rfl, rfl⟩ := h
    exact ⟨x, hx, hf⟩
  | cons l src ih =>
    cases l with
    | none =>
      simp only [readBody, Except.ok.injEq, Prod.mk.injEq] at h
      obtain ⟨rfl, rfl⟩ := h
      exact ⟨x, hx, hf⟩
    | some line =>
      rw [readBody] at h
      cases hc : classify line with
      | fin =>
        rw [hc] at h
        simp only [Except.ok.injEq, Prod.mk.injEq] at h
        obtain ⟨rfl, rfl⟩ := h
        exact ⟨x, hx, hf⟩
      | bad => rw [hc] at h; simp at h
      | note =>
        rw [hc] at h
        simp only at h
        cases h1 : parseTrailingNote line xs.length j with
        | error e => rw [h1] at h; simp [bind, Except.bind] at h
        | ok j1 =>
          rw [h1] at h
          simp only [bind, Except.bind] at h
          obtain ⟨r, _, hj1⟩ := parseTrailingNote_ok hx h1
          refine ih (x := if trim r = [] then x else x.addNote (trim r)) (by rw [hj1]) ?_ h
          split
          · exact hf
          · unfold Xact.addNote
            split
            · exact hf
            · exact noteLast_fine _ _ hf
      | post input =>
        rw [hc] at h
        simp only at h
        cases h1 : parsePost input xs.length j with
        | error e => rw [h1] at h; simp [bind, Except.bind] at h
        | ok j1 =>
          rw [h1] at h
          simp only [bind, Except.bind] at h
          obtain ⟨t, m, path, pool, am, c, k1, _, k3, k4, hj1⟩ := parsePost_ok hx h1
          refine ih (x := { x with posts := x.posts ++ [⟨path, am, c, none⟩] }) (by rw [hj1]) ?_ h
          intro p hp
          rcases List.mem_append.mp hp with hp | hp
          · exact hf p hp
          · rw [List.mem_singleton] at hp
            subst hp
            obtain ⟨s1, s2⟩ := scanPost_scanned k1
            exact parsePostAmounts_fine s1 s2 k4

theorem xactDirective_fine {line : Str} {rest rest' : Source} {j j' : Journal} (hj : ∀ p ∈ j.allPosts, p.Fine)
    (h : xactDirective line rest j = .ok (j', rest')) : ∀ p ∈ j'.allPosts, p.Fine := by
  unfold xactDirective createXact at h
  cases h1 : Scanner.tokenizeXactHeader line with
  | error e => rw [h1] at h; simp [bind, Except.bind] at h
  | ok r =>
    obtain ⟨d, a, p, n⟩ := r
    rw [h1] at h
    simp only [bind, Except.bind] at h
    cases h2 : Xact.create d a p n with
    | error e => rw [h2] at h; simp at h
    | ok x0 =>
      rw [h2] at h
      simp only [Journal.addXact] at h
      have hp0 : x0.posts = [] := (create_ok h2).2.2.2.1
      cases h3 : readBody j.xacts.length rest { j with xacts := j.xacts ++ [x0] } with
      | error e => rw [h3] at h; simp at h
      | ok r =>
        obtain ⟨j2, rest2⟩ := r
        rw [h3] at h
        simp only at h
        obtain ⟨x1, e1, e2⟩ := readBody_fine rfl (by rw [hp0]; intro p hp; cases hp) h3
        unfold finalizeXact at h
        rw [e1] at h
        simp only [List.getElem?_append_right (Nat.le_refl _), Nat.sub_self, List.getElem?_cons_zero] at h
        cases h5 : Finalize.finalize x1 j2.pool with
        | error e => rw [h5] at h; simp [bind, Except.bind] at h
        | ok r =>
          obtain ⟨x2, pool2⟩ := r
          rw [h5] at h
          simp only [bind, Except.bind, Except.ok.injEq, Prod.mk.injEq] at h
          obtain ⟨rfl, rfl⟩ := h
          have hset : (j.xacts ++ [x1]).set j.xacts.length x2 = j.xacts ++ [x2] := by
            rw [List.set_append_right _ _ (Nat.le_refl _)]; simp
          intro p hp
          unfold Journal.allPosts at hp
          simp only [hset, List.flatMap_append, List.flatMap_singleton, List.mem_append] at hp
          rcases hp with hp | hp
          · exact hj p hp
          · exact finalize_fine e2 h5 p hp

theorem Journal.Reachable.fine {j : Journal} (h : j.Reachable) : ∀ p ∈ j.allPosts, p.Fine := by
  induction h with
  | new => intro p hp; cases hp
  | parse files depth src _ hp ih =>
    exact parse_induct (P := fun j j' => (∀ p ∈ j.allPosts, p.Fine) → ∀ p ∈ j'.allPosts, p.Fine) files
      (fun _ h => h) (fun _ _ _ h1 h2 h => h2 (h1 h)) (fun _ _ _ _ _ h hj => xactDirective_fine hj h)
      (fun _ _ _ _ h => h) depth src _ _ hp ih
  | register n _ hr ih =>
    obtain ⟨_, m, hm, rfl⟩ := registerAccount_ok hr
    exact ih
  | pool _ _ ih => exact ih

/-! ### totals of accounts -/

theorem postAt_mem {j : Journal} {r : PostRef} {p : Post} (h : j.postAt r = some p) : p ∈ j.allPosts := by
  unfold Journal.postAt at h
  split at h
  · rename_i x hx
    exact List.mem_flatMap.mpr ⟨x, List.mem_of_getElem? hx, List.mem_of_getElem? h⟩
  · cases h

theorem amountGo_fine {j : Journal} (hj : ∀ p ∈ j.allPosts, p.Fine) {ps : List PostRef} {b b' : Balance}
    (hb : FineAll b.amounts) (h : j.amountGo ps b = .ok b') : FineAll b'.amounts := by
  induction ps generalizing b with
  | nil => simp only [Journal.amountGo, Except.ok.injEq] at h; subst h; exact hb
  | cons r ps ih =>
    rw [Journal.amountGo] at h
    cases hr : j.postAt r with
    | none => rw [hr] at h; simp at h
    | some p =>
      rw [hr] at h
      simp only at h
      cases ha : p.amount with
      | none => rw [ha] at h; exact ih hb h
      | some a =>
        rw [ha] at h
        simp only [bind, Except.bind] at h
        split at h
        · simp at h
        · rename_i b1 hb1
          exact ih (balanceAdd_fine hb ((hj p (postAt_mem hr)).1 a ha) hb1) h

theorem totalGo_fine {l : List (Str × Res Balance)} (hl : ∀ x ∈ l, ∀ b, x.2 = .ok b → FineAll b.amounts) {b b' : Balance}
    (hb : FineAll b.amounts) (h : Journal.totalGo l b = .ok b') : FineAll b'.amounts := by
  induction l generalizing b with
  | nil => simp only [Journal.totalGo, Except.ok.injEq] at h; subst h; exact hb
  | cons x l ih =>
    obtain ⟨n, r⟩ := x
    rw [Journal.totalGo] at h
    cases r with
    | error e => simp [bind, Except.bind] at h
    | ok s =>
      simp only [bind, Except.bind] at h
      split at h
      · simp at h
      · rename_i b1 hb1
        exact ih (fun x hx => hl x (List.mem_cons_of_mem _ hx)) (addAll_fine hb (hl (n, .ok s) (by simp) s rfl) hb1) h

theorem accountTotal_fine {j : Journal} (hj : ∀ p ∈ j.allPosts, p.Fine) (a : Account) (b : Balance)
    (h : j.accountTotal a = .ok b) : FineAll b.amounts := by
  match a with
  | .mk n ps cs =>
    rw [accountTotal_mk] at h
    simp only [bind, Except.bind] at h
    split at h
    · simp at h
    rename_i b1 hb1
    split at h
    · simp at h
    rename_i own hown
    have he : FineAll Balance.empty.amounts := by intro x hx; cases hx
    refine addAll_fine (totalGo_fine ?_ he hb1) (amountGo_fine hj he hown) h
    intro x hx b hxb
    obtain ⟨cs', hperm, hs⟩ := sortByKey_map (fun c => (c.name, j.accountTotal c)) cs
    rw [hs] at hx
    obtain ⟨c, hc, rfl⟩ := List.mem_map.mp hx
    have hmem : c ∈ cs := hperm.mem_iff.mp hc
    exact accountTotal_fine hj c b hxb
termination_by sizeOf a
decreasing_by
  have := List.sizeOf_lt_of_mem hmem
  simp; omega

end Ledger
