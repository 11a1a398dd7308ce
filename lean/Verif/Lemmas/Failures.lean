import Verif.Spec.Failures
import Verif.Lemmas.Fine
import Verif.Lemmas.Compose
import Verif.Lemmas.Scan
import Mathlib.Data.List.TakeWhile
/-
Function by function: the ways in which reading can fail.
-/
namespace Ledger
open Ledger.Parser

variable {α β : Type} {S T : List Panic}

namespace FailsOnly

theorem okay (a : α) : FailsOnly S (.ok a) := by intro e h; cases h

theorem fail {e : Panic} (h : e ∈ S) : FailsOnly S (.error e : Res α) := by
  intro e' h'; injection h' with h'; subst h'; exact h

theorem chain {r : Res α} {f : α → Res β} (h1 : FailsOnly S r) (h2 : ∀ a, r = .ok a → FailsOnly S (f a)) :
    FailsOnly S (r >>= f) := by
  intro e h
  cases hr : r with
  | error e' =>
    rw [hr] at h
    simp only [bind, Except.bind, Except.error.injEq] at h
    subst h
    exact h1 _ hr
  | ok a => rw [hr] at h; exact h2 a hr e h

theorem mono {r : Res α} (h : FailsOnly S r) (hs : S ⊆ T) : FailsOnly T r := fun e he => hs (h e he)

end FailsOnly

open FailsOnly

/-! ### numbers and balances -/

theorem fails_fitGo (neg : Bool) (m s n k : Nat) : FailsOnly [.decimalOverflow] (Dec.fitGo neg m s n k) := by
  induction n generalizing k with
  | zero => exact fail (by simp)
  | succ n ih =>
    unfold Dec.fitGo
    simp only
    split
    · exact okay _
    · exact ih _

theorem fails_fit (neg : Bool) (m s : Nat) : FailsOnly [.decimalOverflow] (Dec.fit neg m s) := fails_fitGo _ _ _ _ _

theorem fails_dec_add (a b : Dec) : FailsOnly [.decimalOverflow] (a.add b) := by
  unfold Dec.add
  split
  · exact okay _
  split
  · exact okay _
  simp only
  split
  · exact fails_fit _ _ _
  split
  · exact fails_fit _ _ _
  split
  · exact fails_fit _ _ _
  · exact fails_fit _ _ _

theorem fails_dec_sub (a b : Dec) : FailsOnly [.decimalOverflow] (a.sub b) := by
  unfold Dec.sub
  split
  · split <;> exact okay _
  · exact fails_dec_add _ _

theorem fails_dec_mul (a b : Dec) : FailsOnly [.decimalOverflow] (a.mul b) := by
  unfold Dec.mul
  split
  · exact okay _
  · exact fails_fit _ _ _

theorem fails_divGo (neg : Bool) (n d s : Nat) : FailsOnly [.decimalOverflow] (Dec.divGo neg n d s) := by
  induction s with
  | zero =>
    unfold Dec.divGo
    simp only
    split
    · exact okay _
    · exact fail (by simp)
  | succ s ih =>
    unfold Dec.divGo
    simp only
    split
    · exact okay _
    · exact ih

theorem fails_dec_div (a b : Dec) (h : b.isZero = false) : FailsOnly [.decimalOverflow] (a.div b) := by
  unfold Dec.div
  rw [if_neg (by rw [h]; simp)]
  split
  · exact okay _
  · exact fails_divGo _ _ _ _

theorem fails_amount_add (a b : Amount) (h : a.comm = b.comm) : FailsOnly [.decimalOverflow] (a.add b) := by
  unfold Amount.add
  rw [if_neg (by simpa using h)]
  split
  · exact okay _
  · exact chain (fails_dec_add _ _) fun _ _ => okay _

theorem fails_amount_subAssign (a b : Amount) (h : a.comm = b.comm) : FailsOnly [.decimalOverflow] (a.subAssign b) := by
  unfold Amount.subAssign
  rw [if_neg (by simpa using h)]
  exact chain (fails_dec_sub _ _) fun _ _ => okay _

theorem fails_amount_mul (a b : Amount) : FailsOnly [.decimalOverflow] (a.mul b) :=
  chain (fails_dec_mul _ _) fun _ _ => okay _

theorem fails_amount_mulAssign (a b : Amount) : FailsOnly [.decimalOverflow] (a.mulAssign b) :=
  chain (fails_dec_mul _ _) fun _ _ => okay _

theorem fails_amount_div (a b : Amount) (h : b.isZero = false) : FailsOnly [.decimalOverflow] (a.div b) :=
  chain (fails_dec_div _ _ h) fun _ _ => okay _

theorem fails_addGo (l : List Amount) (a : Amount) : FailsOnly [.decimalOverflow] (Balance.addGo l a) := by
  induction l with
  | nil => exact okay _
  | cons x xs ih =>
    unfold Balance.addGo
    split
    · rename_i h
      exact chain (fails_amount_add _ _ h) fun _ _ => okay _
    · exact chain ih fun _ _ => okay _

theorem fails_balance_add (b : Balance) (a : Amount) : FailsOnly [.decimalOverflow] (b.add a) :=
  chain (fails_addGo _ _) fun _ _ => okay _

theorem fails_subGo (l : List Amount) (a : Amount) : FailsOnly [.decimalOverflow] (Balance.subGo l a) := by
  induction l with
  | nil => exact okay _
  | cons x xs ih =>
    unfold Balance.subGo
    split
    · rename_i h
      exact chain (fails_amount_subAssign _ _ h) fun _ _ => okay _
    · exact chain ih fun _ _ => okay _

theorem fails_balance_sub (b : Balance) (a : Amount) : FailsOnly [.decimalOverflow] (b.subAssign a) :=
  chain (fails_subGo _ _) fun _ _ => okay _

theorem fails_addAll (b : Balance) (as : List Amount) : FailsOnly [.decimalOverflow] (b.addAll as) := by
  induction as generalizing b with
  | nil => exact okay _
  | cons a as ih => exact chain (fails_balance_add _ _) fun b' _ => ih b'

/-! ### scanning -/

theorem fails_dropBytes (s : Str) (n : Nat) : FailsOnly [.sliceBoundary] (dropBytes s n) := by
  induction s generalizing n with
  | nil =>
    cases n with
    | zero => exact okay _
    | succ n => exact fail (by simp)
  | cons c cs ih =>
    cases n with
    | zero => exact okay _
    | succ n =>
      unfold dropBytes
      split
      · exact ih _
      · exact fail (by simp)

theorem fails_scanAmount (x : Str) : FailsOnly [.noAmountChar] (Scanner.scanAmount x) := by
  unfold Scanner.scanAmount
  simp only
  split
  · exact fail (by simp)
  · split <;> exact okay _

theorem fails_scanUntil (x : Str) (c : Char) : FailsOnly [.separatorMissing] (Scanner.scanUntil x c) := by
  unfold Scanner.scanUntil
  split
  · exact okay _
  · exact fail (by simp)

theorem fails_scanAnnotationsGo (n : Nat) (r : Scanner.AnnotationTokens) (x : Str) (hn : x.length < n) :
    FailsOnly scanFaults (Scanner.scanAnnotationsGo n r x) := by
  induction n generalizing r x with
  | zero => omega
  | succ n ih =>
    unfold Scanner.scanAnnotationsGo
    split
    · exact okay _
    · rename_i c cs
      split
      · split
        · exact fail (by decide)
        · refine chain ((fails_dropBytes _ _).mono (by decide)) fun y hy => ?_
          refine chain ((fails_scanUntil _ _).mono (by decide)) fun z hz => ?_
          obtain ⟨a, rest⟩ := z
          refine chain ((fails_scanAmount _).mono (by decide)) fun t ht => ?_
          refine chain ((fails_dropBytes _ _).mono (by decide)) fun w hw => ih _ _ ?_
          have h1 := (dropBytes_length hy).1
          have h2 := scanUntil_length hz
          have h3 := (dropBytes_length hw).2 (by omega)
          have h4 := trimStart_length w
          omega
      · split
        · split
          · exact fail (by decide)
          · refine chain ((fails_dropBytes _ _).mono (by decide)) fun y hy => ?_
            refine chain ((fails_scanUntil _ _).mono (by decide)) fun z hz => ?_
            obtain ⟨a, rest⟩ := z
            refine chain ((fails_dropBytes _ _).mono (by decide)) fun w hw => ih _ _ ?_
            have h1 := (dropBytes_length hy).1
            have h2 := scanUntil_length hz
            have h3 := (dropBytes_length hw).2 (by omega)
            have h4 := trimStart_length w
            omega
        · split
          · exact fail (by decide)
          · exact okay _

theorem fails_scanCost (x : Str) : FailsOnly scanFaults (Scanner.scanCost x) := by
  unfold Scanner.scanCost
  split
  · refine chain ((fails_dropBytes _ _).mono (by decide)) fun y _ => ?_
    exact chain ((fails_scanAmount _).mono (by decide)) fun _ _ => okay _
  · exact okay _

/-- A posting that starts with a character other than a blank or a semicolon. -/
theorem fails_scanPost (c : Char) (cs : Str) (hw : isWs c = false) (hc : c ≠ ';') :
    FailsOnly scanFaults (Scanner.scanPost (c :: cs)) := by
  have ht : trimStart (c :: cs) = c :: cs := by unfold trimStart; simp [hw]
  unfold Scanner.scanPost
  rw [ht]
  simp only
  rw [if_neg hc]
  split
  · exact okay _
  · refine chain ((fails_dropBytes _ _).mono (by decide)) fun y _ => ?_
    refine chain ((fails_scanAmount _).mono (by decide)) fun z _ => ?_
    refine chain (fails_scanAnnotationsGo _ _ _ (Nat.lt_succ_self _)) fun t _ => ?_
    split
    · exact okay _
    · exact chain (fails_scanCost _) fun _ _ => okay _

theorem trimEnd_ne_nil {c : Char} {cs : Str} (hw : isWs c = false) : trimEnd (c :: cs) ≠ [] := by
  unfold trimEnd
  intro h
  rw [List.reverse_eq_nil_iff] at h
  have := List.dropWhile_eq_nil_iff.mp h c (by simp)
  rw [hw] at this; cases this

/-- The account of a posting has a name. -/
theorem scanPost_named (c : Char) (cs : Str) (hw : isWs c = false) (hc : c ≠ ';') {t : Scanner.PostTokens}
    (h : Scanner.scanPost (c :: cs) = .ok t) : t.account ≠ [] := by
  have ht : trimStart (c :: cs) = c :: cs := by unfold trimStart; simp [hw]
  unfold Scanner.scanPost at h
  rw [ht] at h
  simp only at h
  rw [if_neg hc] at h
  split at h
  · injection h with h
    subst h
    exact trimEnd_ne_nil hw
  · rename_i account rest hf
    simp only [bind, Except.bind] at h
    split at h
    · simp at h
    split at h
    · simp at h
    split at h
    · simp at h
    have ha : account ≠ [] := by
      rintro rfl
      obtain ⟨h1, h2⟩ := findSub_some hf
      rw [List.nil_append] at h1
      rw [← h1] at h2
      obtain ⟨z, hz⟩ := h2
      injection hz with hz
      rw [← hz] at hw
      cases hw
    split at h
    · injection h with h; subst h; exact ha
    · split at h
      · simp at h
      · injection h with h; subst h; exact ha

/-! ### postings -/

/-- Accounts have one parent and the pool is in order. -/
def InOrder (j : Journal) : Prop := j.master.WF ∧ j.pool.Inv

theorem InOrder.grows {j j' : Journal} (h : InOrder j) (hg : Grows j j') : InOrder j' := by
  obtain ⟨ops, ho⟩ := hg.pool
  exact ⟨Account.later_wf hg.tree h.1, Pool.inv_runOps h.2 ops ho⟩

theorem fails_parseAnnotation (d q s : Str) (pool : Pool) : FailsOnly [.dateParse] (parseAnnotation d q s pool) := by
  unfold parseAnnotation
  simp only
  split
  · exact okay _
  · split
    · exact okay _
    · exact fail (by simp)

theorem fails_parseCost (t : Scanner.PostTokens) (a : Option Amount) (pool : Pool) :
    FailsOnly [.decimalOverflow] (parseCost t a pool) := by
  unfold parseCost
  split
  · exact okay _
  split
  · exact okay _
  split
  · exact okay _
  split
  · exact chain (fails_amount_mulAssign _ _) fun _ _ => okay _
  · exact okay _

theorem fails_parsePostAmounts (t : Scanner.PostTokens) (pool : Pool) :
    FailsOnly [.dateParse, .decimalOverflow] (parsePostAmounts t pool) := by
  unfold parsePostAmounts
  simp only
  refine chain ((fails_parseAnnotation _ _ _ _).mono (by decide)) fun _ _ => ?_
  exact chain ((fails_parseCost _ _ _).mono (by decide)) fun _ _ => okay _

theorem fails_registerAccount {j : Journal} (hj : InOrder j) {n : Str} (hn : n ≠ []) :
    ∃ m path, j.registerAccount n = .ok ({ j with master := m }, some path) := by
  unfold Journal.registerAccount
  rw [if_neg hn, Account.findOrCreate_create _ _ hj.1]
  exact ⟨_, _, rfl⟩

theorem fails_parsePost {j : Journal} (hj : InOrder j) (i : Nat) (c : Char) (cs : Str) (hw : isWs c = false) (hc : c ≠ ';') :
    FailsOnly postFaults (parsePost (c :: cs) i j) := by
  unfold parsePost
  refine chain ((fails_scanPost c cs hw hc).mono (by decide)) fun t ht => ?_
  obtain ⟨m, path, hr⟩ := fails_registerAccount hj (scanPost_named c cs hw hc ht)
  rw [hr]
  show FailsOnly postFaults (do
    let (pool, amount, cost) ← parsePostAmounts t j.pool
    _)
  exact chain ((fails_parsePostAmounts _ _).mono (by decide)) fun _ _ => okay _

/-! ### transactions -/

/-- The commodity of the amount is in the pool. -/
def Amount.In (pool : Pool) (a : Amount) : Prop := ∀ s, a.comm = some s → (pool.find s).isSome

/-- Amount and cost are in known commodities and there is no cost of nothing. -/
structure Post.In (pool : Pool) (p : Post) : Prop where
  amount : ∀ a, p.amount = some a → a.In pool
  cost : ∀ c, p.cost = some c → c.In pool
  both : p.cost ≠ none → p.amount ≠ none

theorem Amount.In.later {pool pool' : Pool} (h : pool.Later pool') {a : Amount} (ha : a.In pool) : a.In pool' := by
  intro s hs
  obtain ⟨c, hc⟩ := Option.isSome_iff_exists.mp (ha s hs)
  rw [h.find hc]; rfl

theorem Post.In.later {pool pool' : Pool} (h : pool.Later pool') {p : Post} (hp : p.In pool) : p.In pool' :=
  ⟨fun a ha => (hp.amount a ha).later h, fun a ha => (hp.cost a ha).later h, hp.both⟩

theorem parts_in (q s : Str) (pool : Pool) {a : Amount} (h : (parseAmountParts q s pool).2 = some a) :
    a.In (parseAmountParts q s pool).1 := by
  unfold parseAmountParts at h ⊢
  simp only [Option.map_eq_some_iff] at h ⊢
  obtain ⟨d, _, rfl⟩ := h
  intro s' hs
  simp only [findOrCreate_comm] at hs
  split at hs
  · cases hs
  · rename_i hne
    injection hs with hs
    subst hs
    unfold Pool.findOrCreate
    rw [if_neg hne]
    cases hf : pool.find s with
    | some c => simp only; rw [hf]; rfl
    | none =>
      simp only [Pool.create, Pool.find]
      rw [assocGet_insert_self]; rfl

theorem parsePostAmounts_in {t : Scanner.PostTokens} {pool pool' : Pool} {am c : Option Amount} (path : Path) (n : Option Str)
    (h : parsePostAmounts t pool = .ok (pool', am, c)) : Post.In pool' ⟨path, am, c, n⟩ := by
  have hl := Pool.later_postAmounts h
  unfold parsePostAmounts at h
  simp only [bind, Except.bind] at h
  split at h
  · simp at h
  split at h
  · simp at h
  rename_i _ v1 hv1 _ v2 hv
  simp only [Except.ok.injEq, Prod.mk.injEq] at h
  obtain ⟨rfl, rfl, rfl⟩ := h
  have l1 := (Pool.quiet_annotation hv1).later
  have l2 := (Pool.quiet_findOrCreate v1.1 t.symbol (some v1.2)).later
  have l3 := (Pool.quiet_cost hv).later
  have hA : ∀ a, (parseAmountParts t.quantity t.symbol pool).2 = some a → a.In v2.1 :=
    fun a ha => (parts_in _ _ _ ha).later ((l1.trans l2).trans l3)
  refine ⟨hA, ?_, ?_⟩
  · intro a ha
    simp only at ha
    unfold parseCost at hv
    split at hv
    · injection hv with hv; rw [← hv] at ha; cases ha
    · rename_i amt hamt
      split at hv
      · injection hv with hv; rw [← hv] at ha; cases ha
      · split at hv
        · injection hv with hv; rw [← hv] at ha; cases ha
        · rename_i pl cost hcost
          have hcf : cost.In pl := by
            have := parts_in t.costQuantity t.costSymbol (v1.1.findOrCreate t.symbol (some v1.2)).1 (a := cost)
              (by rw [hcost])
            rwa [hcost] at this
          split at hv
          · simp only [bind, Except.bind] at hv
            split at hv
            · simp at hv
            · rename_i c' hc'
              injection hv with hv
              subst hv
              injection ha with ha
              subst ha
              intro s hs
              unfold Amount.mulAssign at hc'
              simp only [bind, Except.bind] at hc'
              split at hc'
              · simp at hc'
              · injection hc' with hc'
                subst hc'
                simp only at hs
                split at hs
                · exact hA amt hamt s hs
                · exact hcf s hs
          · injection hv with hv
            subst hv
            injection ha with ha
            subst ha
            exact hcf
  · intro hc ha
    apply hc
    simp only at ha ⊢
    rw [ha] at hv
    simp only [parseCost, Except.ok.injEq] at hv
    rw [← hv]

theorem noteLast_in {pool : Pool} (n : Str) (ps : List Post) (h : ∀ p ∈ ps, p.In pool) :
    ∀ p ∈ Xact.noteLast n ps, p.In pool := by
  induction ps with
  | nil => intro p hp; cases hp
  | cons p ps ih =>
    cases ps with
    | nil =>
      intro q hq
      simp only [Xact.noteLast, List.mem_singleton] at hq
      subst hq
      have := h p (by simp)
      exact ⟨this.amount, this.cost, this.both⟩
    | cons r ps =>
      intro q hq
      rw [Xact.noteLast] at hq
      rcases List.mem_cons.mp hq with rfl | hq
      · exact h _ (by simp)
      · exact ih (fun s hs => h s (List.mem_cons_of_mem _ hs)) q hq

theorem classify_post {line input : Str} (h : classify line = .post input) :
    ∃ c cs, input = c :: cs ∧ isWs c = false ∧ c ≠ ';' := by
  unfold classify at h
  split at h
  · split at h
    · cases h
    · rename_i c cs ht
      split at h
      · cases h
      · rename_i hc
        injection h with h
        refine ⟨c, cs, h.symm, ?_, hc⟩
        have := List.head_dropWhile_not isWs (l := _) (by rw [show List.dropWhile isWs _ = c :: cs from ht]; simp)
        simpa [show List.dropWhile isWs _ = c :: cs from ht] using this
  · cases h
  · cases h
  · cases h

theorem classify_note {line : Str} (h : classify line = .note) : ∃ cs, trimStart line = ';' :: cs := by
  unfold classify at h
  split at h
  · split at h
    · cases h
    · rename_i c cs ht
      split at h
      · rename_i hc; subst hc; exact ⟨cs, ht⟩
      · cases h
  · cases h
  · cases h
  · cases h

theorem readBody_in {src rest : Source} {j j' : Journal} {xs : List Xact} {x : Xact} (hx : j.xacts = xs ++ [x])
    (hf : ∀ p ∈ x.posts, p.In j.pool) (h : readBody xs.length src j = .ok (j', rest)) :
    ∃ x', j'.xacts = xs ++ [x'] ∧ ∀ p ∈ x'.posts, p.In j'.pool := by
  induction src generalizing j x with
  | nil =>
    simp only [readBody, Except.ok.injEq, Prod.mk.injEq] at h
    obtain ⟨rfl, rfl⟩ := h
    exact ⟨x, hx, hf⟩
  | cons l src ih =>
    cases l with
    | none =>
      simp only [readBody, Except.ok.injEq, Prod.mk.injEq] at h
      obtain ⟨rfl, rfl⟩ := h
      exact ⟨x, hx, hf⟩
    | some line =>
      rw [readBody] at h
      cases hc : classify line with
      | fin =>
        rw [hc] at h
        simp only [Except.ok.injEq, Prod.mk.injEq] at h
        obtain ⟨rfl, rfl⟩ := h
        exact ⟨x, hx, hf⟩
      | bad => rw [hc] at h; simp at h
      | note =>
        rw [hc] at h
        simp only at h
        cases h1 : parseTrailingNote line xs.length j with
        | error e => rw [h1] at h; simp [bind, Except.bind] at h
        | ok j1 =>
          rw [h1] at h
          simp only [bind, Except.bind] at h
          obtain ⟨r, _, hj1⟩ := parseTrailingNote_ok hx h1
          refine ih (x := if trim r = [] then x else x.addNote (trim r)) (by rw [hj1]) ?_ h
          rw [hj1]
          split
          · exact hf
          · unfold Xact.addNote
            split
            · exact hf
            · exact noteLast_in _ _ hf
      | post input =>
        rw [hc] at h
        simp only at h
        cases h1 : parsePost input xs.length j with
        | error e => rw [h1] at h; simp [bind, Except.bind] at h
        | ok j1 =>
          rw [h1] at h
          simp only [bind, Except.bind] at h
          obtain ⟨t, m, path, pool, am, c, k1, _, k3, k4, hj1⟩ := parsePost_ok hx h1
          refine ih (x := { x with posts := x.posts ++ [⟨path, am, c, none⟩] }) (by rw [hj1]) ?_ h
          rw [hj1]
          intro p hp
          rcases List.mem_append.mp hp with hp | hp
          · exact (hf p hp).later (Pool.later_postAmounts k4)
          · rw [List.mem_singleton] at hp
            subst hp
            exact parsePostAmounts_in _ _ k4

theorem fails_readBody {src : Source} {j : Journal} {xs : List Xact} {x : Xact} (hj : InOrder j) (hx : j.xacts = xs ++ [x]) :
    FailsOnly (postFaults ++ [.badXactLine]) (readBody xs.length src j) := by
  induction src generalizing j x with
  | nil => exact okay _
  | cons l src ih =>
    cases l with
    | none => exact okay _
    | some line =>
      rw [readBody]
      cases hc : classify line with
      | fin => exact okay _
      | bad => exact fail (by decide)
      | note =>
        refine chain ?_ fun j1 h1 => ?_
        · obtain ⟨cs, hcs⟩ := classify_note hc
          unfold parseTrailingNote
          rw [hcs, dropBytes_one ';' cs rfl]
          simp only [bind, Except.bind]
          split <;> exact okay _
        · obtain ⟨r, _, hj1⟩ := parseTrailingNote_ok hx h1
          exact ih (x := if trim r = [] then x else x.addNote (trim r)) (by rw [hj1]; exact hj) (by rw [hj1])
      | post input =>
        obtain ⟨c, cs, rfl, hw, hs⟩ := classify_post hc
        refine chain ((fails_parsePost hj _ c cs hw hs).mono (by decide)) fun j1 h1 => ?_
        obtain ⟨t, m, path, pool, am, c, k1, _, k3, k4, hj1⟩ := parsePost_ok hx h1
        refine ih (j := j1) (x := { x with posts := x.posts ++ [⟨path, am, c, none⟩] }) (hj.grows ?_) (by rw [hj1])
        rw [hj1]
        exact ⟨.post _ _ (.register _ (.refl _) k3), Pool.later_postAmounts k4⟩

/-! ### finalising -/

open Ledger.Finalize

theorem fails_sumPosts (ps : List Post) (i : Nat) (b : Balance) (np : Option Nat) :
    FailsOnly [.secondNullPost, .decimalOverflow] (sumPosts ps i b np) := by
  induction ps generalizing i b np with
  | nil => exact okay _
  | cons p ps ih =>
    unfold sumPosts
    split
    · exact chain ((fails_balance_add _ _).mono (by decide)) fun _ _ => ih _ _ _
    · split
      · exact fail (by decide)
      · exact ih _ _ _

theorem fails_assignCosts (comm : Option Str) (u : Amount) (ps : List Post) (b : Balance) (h : ∀ p ∈ ps, p.amount ≠ none) :
    FailsOnly [.decimalOverflow] (assignCosts comm u ps b) := by
  induction ps generalizing b with
  | nil => exact okay _
  | cons p ps ih =>
    unfold assignCosts
    split
    · rename_i hp; exact absurd hp (h p (by simp))
    · have ih' := fun b => ih b (fun q hq => h q (List.mem_cons_of_mem _ hq))
      split
      · refine chain (fails_balance_sub _ _) fun _ _ => ?_
        refine chain (fails_amount_mul _ _) fun _ _ => ?_
        refine chain (fails_balance_add _ _) fun _ _ => ?_
        exact chain (ih' _) fun _ _ => okay _
      · exact chain (ih' _) fun _ _ => okay _

theorem fails_impliedCosts (ps : List Post) (b : Balance) (np : Option Nat) (h : np = none → ∀ p ∈ ps, p.amount ≠ none) :
    FailsOnly [.decimalOverflow] (impliedCosts ps b np) := by
  unfold impliedCosts
  split
  · rename_i x y _
    split
    · exact okay _
    · split
      · rename_i top _ hz
        simp only [Bool.not_eq_true'] at hz
        have hsel : ∀ tc : Option Str, (if x.comm ≠ tc then (y, x) else (x, y)).1.isZero = false := by
          intro tc
          split
          · exact hz.2
          · exact hz.1
        exact chain (fails_amount_div _ _ (hsel _)) fun _ _ => fails_assignCosts _ _ _ _ (h rfl)
      · exact okay _
  · exact okay _

/-! commodities of balances and implied costs -/

theorem Amount.In.mul {pool : Pool} {a b r : Amount} (ha : a.In pool) (hb : b.In pool) (h : a.mul b = .ok r) : r.In pool := by
  unfold Amount.mul at h
  simp only [bind, Except.bind] at h
  split at h
  · simp at h
  · injection h with h
    subst h
    intro s hs
    simp only at hs
    split at hs
    · exact hb s hs
    · exact ha s hs

theorem Amount.In.div {pool : Pool} {a b r : Amount} (ha : a.In pool) (hb : b.In pool) (h : a.div b = .ok r) : r.In pool := by
  unfold Amount.div at h
  simp only [bind, Except.bind] at h
  split at h
  · simp at h
  · injection h with h
    subst h
    intro s hs
    simp only at hs
    split at hs
    · exact hb s hs
    · exact ha s hs

theorem Amount.In.abs {pool : Pool} {a : Amount} (ha : a.In pool) : a.abs.In pool := ha

theorem addGo_in {pool : Pool} {l l' : List Amount} {a : Amount} (hl : ∀ x ∈ l, x.In pool) (ha : a.In pool)
    (h : Balance.addGo l a = .ok l') : ∀ x ∈ l', x.In pool := by
  induction l generalizing l' with
  | nil =>
    simp only [Balance.addGo, Except.ok.injEq] at h
    subst h
    intro x hx
    simp only [List.mem_singleton] at hx
    rw [hx]; exact ha
  | cons y l ih =>
    rw [Balance.addGo] at h
    simp only [bind, Except.bind] at h
    split at h
    · rename_i hc
      split at h
      · simp at h
      · rename_i z hz
        injection h with h
        subst h
        intro x hx
        rcases List.mem_cons.mp hx with rfl | hx
        · have : x.comm = y.comm := by
            unfold Amount.add at hz
            simp only [bind, Except.bind] at hz
            split at hz
            · simp at hz
            split at hz
            · injection hz with hz; rw [hz]
            split at hz
            · simp at hz
            · injection hz with hz; rw [← hz]
          intro s hs
          rw [this] at hs
          exact hl y (by simp) s hs
        · exact hl x (List.mem_cons_of_mem _ hx)
    · split at h
      · simp at h
      · rename_i z hz
        injection h with h
        subst h
        intro x hx
        rcases List.mem_cons.mp hx with rfl | hx
        · exact hl _ (by simp)
        · exact ih (fun w hw => hl w (List.mem_cons_of_mem _ hw)) hz x hx

theorem addAll_in {pool : Pool} {as : List Amount} {b b' : Balance} (hb : ∀ x ∈ b.amounts, x.In pool)
    (ha : ∀ x ∈ as, x.In pool) (h : b.addAll as = .ok b') : ∀ x ∈ b'.amounts, x.In pool := by
  induction as generalizing b with
  | nil => simp only [Balance.addAll, Except.ok.injEq] at h; subst h; exact hb
  | cons a as ih =>
    rw [Balance.addAll, Balance.add] at h
    cases hq : Balance.addGo b.amounts a with
    | error e => rw [hq] at h; simp [bind, Except.bind] at h
    | ok l =>
      rw [hq] at h
      exact ih (b := ⟨l⟩) (addGo_in hb (ha a (by simp)) hq) (fun x hx => ha x (List.mem_cons_of_mem _ hx)) h

theorem booked_in {pool : Pool} {ps : List Post} (h : ∀ p ∈ ps, p.In pool) : ∀ a ∈ bookedAmounts ps, a.In pool := by
  intro a ha
  obtain ⟨p, hp, he⟩ := List.mem_filterMap.mp ha
  unfold Post.booked at he
  split at he
  · rename_i c hc
    injection he with he; subst he
    exact (h p hp).cost _ hc
  · exact (h p hp).amount _ he

theorem costAssigned_in {pool : Pool} {comm : Option Str} {u : Amount} (hu : u.In pool) {ps ps' : List Post}
    (h : List.Forall₂ (CostAssigned comm u) ps ps') (hp : ∀ p ∈ ps, p.In pool) : ∀ p ∈ ps', p.In pool := by
  induction h with
  | nil => intro p hp; cases hp
  | @cons p p' ps ps' hc _ ih =>
    intro q hq
    rcases List.mem_cons.mp hq with rfl | hq
    · obtain ⟨amt, ha, hc⟩ := hc
      have hpf := hp p (by simp)
      rcases hc with ⟨_, c, hm, rfl⟩ | ⟨_, rfl⟩
      · refine ⟨hpf.amount, ?_, fun _ => by simp [ha]⟩
        intro c' hc'
        simp only [Option.some.injEq] at hc'
        subst hc'
        exact hu.mul (hpf.amount amt ha) hm
      · exact hpf
    · exact ih (fun r hr => hp r (List.mem_cons_of_mem _ hr)) q hq

/-! prices -/

theorem perUnitCost_comm {a c u : Amount} (h : Pool.perUnitCost a c false = .ok u) (hc : c.comm ≠ none) : u.comm = c.comm := by
  unfold Pool.perUnitCost at h
  split at h
  · injection h with h; rw [← h]; rfl
  · simp only [bind, Except.bind, Amount.div] at h
    split at h
    · simp at h
    · rename_i v hv
      split at hv
      · simp at hv
      · injection hv with hv
        injection h with h
        rw [← h, ← hv]
        simp [Amount.abs, hc]

/-- A known commodity priced in a known one other than itself. -/
theorem fails_exchange {pool : Pool} (hi : pool.Inv) {a c : Amount} (ha : a.In pool) (hne : a.comm ≠ c.comm) (t : DateTime) :
    FailsOnly [.amountWithoutCommodity, .decimalOverflow] (pool.exchange a c false t) ∧
    ∀ br np, pool.exchange a c false t = .ok (br, some np) →
      (∃ k, pool.find np.commodity = some k) ∧ np.price.comm = c.comm ∧ some np.commodity ≠ c.comm := by
  unfold Pool.exchange
  cases hs : a.comm with
  | none => exact ⟨fail (by decide), by rintro _ _ h; cases h⟩
  | some sym =>
    obtain ⟨k, hk⟩ := Option.isSome_iff_exists.mp (ha sym hs)
    have hd : pool.deref (some sym) = .ok k := by unfold Pool.deref; simp only; rw [hk]
    have hg : pool.getByIndex k.graphIndex = .ok sym := by
      unfold Pool.getByIndex History.getCommodity; rw [(hi.find hk).2]
    simp only
    rw [hd]
    show FailsOnly _ (pool.getByIndex k.graphIndex >>= _) ∧ ∀ br np, (pool.getByIndex k.graphIndex >>= _) = _ → _
    rw [hg]
    constructor
    · refine chain (r := Except.ok sym) (okay _) fun sym' _ => ?_
      refine chain (r := Pool.perUnitCost a c false) ?_ fun u _ => ?_
      · unfold Pool.perUnitCost
        split
        · exact okay _
        · rename_i hz
          refine chain ((fails_amount_div _ _ ?_).mono (by decide)) fun _ _ => okay _
          simpa using hz
      · refine chain (r := Pool.finalCost a c false) (okay _) fun f _ => ?_
        refine chain (r := Pool.basisCost _ a f) ?_ fun _ _ => okay _
        unfold Pool.basisCost
        split
        · split
          · exact (fails_amount_mul _ _).mono (by decide)
          · exact okay _
        · exact okay _
    · intro br np h
      simp only [bind, Except.bind] at h
      split at h
      · simp at h
      rename_i u hu
      split at h
      · simp at h
      split at h
      · simp at h
      simp only [Except.ok.injEq, Prod.mk.injEq] at h
      obtain ⟨_, h⟩ := h
      have key : ∀ w : Amount, w = (if c.comm = none then u.removeCommodity else u) → w.comm = c.comm := by
        intro w hw
        rw [hw]
        split
        · rename_i hc; rw [hc]; rfl
        · rename_i hc; exact perUnitCost_comm hu hc
      generalize (if c.comm = none then u.removeCommodity else u) = w at h key
      split at h
      · injection h with h
        subst h
        exact ⟨⟨k, hk⟩, key w rfl, by rw [← hs]; exact hne⟩
      · cases h

theorem fails_recordPrices {d : Date} {ps : List Post} {pool : Pool} (hi : pool.Inv) (hp : ∀ p ∈ ps, p.In pool) :
    FailsOnly [.costSameCommodity, .amountWithoutCommodity, .priceWithoutCommodity, .decimalOverflow]
      (recordPrices (some d) ps pool) := by
  induction ps generalizing pool with
  | nil => exact okay _
  | cons p ps ih =>
    have hps : ∀ q ∈ ps, q.In pool := fun q hq => hp q (List.mem_cons_of_mem _ hq)
    have hpf := hp p (by simp)
    unfold recordPrices
    split
    · exact chain (ih hi hps) fun _ _ => okay _
    · rename_i c hc
      split
      · rename_i ha; exact absurd ha (hpf.both (by rw [hc]; simp))
      · rename_i a ha
        split
        · exact fail (by decide)
        · rename_i hne
          simp only
          obtain ⟨e1, e2⟩ := fails_exchange hi (hpf.amount a ha) hne ⟨d, Time.midnight⟩
          refine chain (e1.mono (by decide)) fun r hr => ?_
          obtain ⟨br, np⟩ := r
          cases np with
          | none => exact chain (r := recordPrices (some d) ps pool) (ih hi hps) fun _ _ => okay _
          | some np =>
            obtain ⟨⟨k, hk⟩, hc1, hc2⟩ := e2 br np hr
            refine chain (r := pool.addPriceStruct np) ?_ fun pool' h' => ?_
            · unfold Pool.addPriceStruct Pool.addPrice
              have hd : pool.deref (some np.commodity) = .ok k := by unfold Pool.deref; simp only; rw [hk]
              rw [hd]
              simp only [bind, Except.bind]
              rw [if_neg (by rw [hc1]; exact hc2)]
              split
              · exact fail (by decide)
              · rename_i s hs
                obtain ⟨k', hk'⟩ := Option.isSome_iff_exists.mp (hpf.cost c hc s (by rw [← hc1]; exact hs))
                have hd' : pool.deref np.price.comm = .ok k' := by unfold Pool.deref; rw [hs]; simp only; rw [hk']
                rw [hd']
                exact okay _
            · have hl : pool.Later pool' := ⟨[.addPrice np.commodity np.datetime np.price], by
                simp only [runOps, PoolOp.run]
                rw [show pool.addPrice (some np.commodity) np.datetime np.price = .ok pool' from h']
                rfl⟩
              exact chain (ih (Pool.inv_addPrice hi h') fun q hq => (hps q hq).later hl) fun _ _ => okay _

theorem fails_fillNull (ps : List Post) (b : Balance) (np : Option Nat) :
    FailsOnly [.nullPostCommodities] (fillNull ps b np) := by
  unfold fillNull
  split
  · exact okay _
  · split
    · exact okay _
    · exact fail (by simp)

theorem fails_finalize {x : Xact} {pool : Pool} {d : Date} (hd : x.date = some d) (hi : pool.Inv)
    (hp : ∀ p ∈ x.posts, p.In pool) : FailsOnly xactFaults (finalize x pool) := by
  unfold finalize
  refine chain ((fails_sumPosts _ _ _ _).mono (by decide)) fun r hr => ?_
  obtain ⟨b, np⟩ := r
  simp only
  split
  · exact fail (by decide)
  · obtain ⟨h1, _, h3⟩ := sumPosts_ok _ _ _ _ _ _ hr
    have hb : ∀ a ∈ b.amounts, a.In pool := addAll_in (by intro a ha; cases ha) (booked_in hp) h1
    refine chain ((fails_impliedCosts _ _ _ ?_).mono (by decide)) fun r hr2 => ?_
    · rintro rfl p hpm ha
      rcases h3 rfl with ⟨h, _⟩ | ⟨_, _, _, h⟩
      · apply h p hpm
        unfold Post.Blank Post.booked
        cases hc : p.cost with
        | none => exact ha
        | some c => exact absurd ha ((hp p hpm).both (by rw [hc]; simp))
      · simp_all
    · obtain ⟨ps1, b1⟩ := r
      have hps : ∀ p ∈ ps1, p.In pool := by
        rcases impliedCosts_ok _ _ _ _ _ hr2 with ⟨rfl, rfl⟩ | ⟨rfl, y, z, top, a, u, e, _, _, _, _, hcase⟩
        · exact hp
        · have hy := hb y (by rw [e]; simp)
          have hz := hb z (by rw [e]; simp)
          rcases hcase with ⟨_, hdv, hF⟩ | ⟨_, hdv, hF⟩
          · exact costAssigned_in (u := u.abs) (hz.div hy hdv).abs hF hp
          · exact costAssigned_in (u := u.abs) (hy.div hz hdv).abs hF hp
      simp only
      rw [hd]
      refine chain ((fails_recordPrices hi hps).mono (by decide)) fun _ _ => ?_
      exact chain ((fails_fillNull _ _ _).mono (by decide)) fun _ _ => okay _

/-! ### reading -/

theorem fails_createXact {line : Str} {c : Char} {cs : Str} (hl : line = c :: cs) (j : Journal) :
    FailsOnly [.dateParse] (createXact line j) := by
  unfold createXact
  refine chain ?_ fun r _ => ?_
  · unfold Scanner.tokenizeXactHeader
    rw [if_neg (by rw [hl]; simp)]
    simp only
    refine chain ?_ fun _ _ => okay _
    unfold Scanner.tokenizeNote
    split
    · exact okay _
    · rename_i hne
      unfold Scanner.tokenizePayee at hne ⊢
      split
      · rename_i b r hf
        obtain ⟨_, z, hz⟩ := findSub_some hf
        rw [← hz]
        simp only [List.cons_append, List.nil_append]
        rw [dropBytes_three ' ' ' ' ';' z rfl rfl rfl]
        exact okay _
      · rename_i hf
        rw [hf] at hne
        exact absurd rfl hne
  · obtain ⟨d, a, p, n⟩ := r
    have hpd : ∀ t, FailsOnly [.dateParse] (Xact.parseDate t) := by
      intro t
      unfold Xact.parseDate
      split
      · exact okay _
      · exact fail (by simp)
    simp only
    refine chain (r := Xact.create d a p n) ?_ fun _ _ => okay _
    unfold Xact.create
    simp only
    split
    · refine chain (r := .ok none) (okay _) fun _ _ => ?_
      split
      · exact okay _
      · exact chain (hpd _) fun _ _ => okay _
    · refine chain (hpd _) fun _ _ => ?_
      refine chain (r := .ok (some _)) (okay _) fun _ _ => ?_
      split
      · exact okay _
      · exact chain (hpd _) fun _ _ => okay _

theorem createXact_ok {line : Str} {j : Journal} {r : Journal × Nat} (h : createXact line j = .ok r) :
    ∃ d a p n x0, Scanner.tokenizeXactHeader line = .ok (d, a, p, n) ∧ Xact.create d a p n = .ok x0 ∧
      r = ({ j with xacts := j.xacts ++ [x0] }, j.xacts.length) := by
  unfold createXact at h
  cases h1 : Scanner.tokenizeXactHeader line with
  | error e => rw [h1] at h; simp [bind, Except.bind] at h
  | ok r' =>
    obtain ⟨d, a, p, n⟩ := r'
    rw [h1] at h
    simp only [bind, Except.bind] at h
    cases h2 : Xact.create d a p n with
    | error e => rw [h2] at h; simp at h
    | ok x0 =>
      rw [h2] at h
      simp only [Journal.addXact, Except.ok.injEq] at h
      exact ⟨d, a, p, n, x0, rfl, h2, h.symm⟩

/-- A line that starts with a digit names a date. -/
theorem header_date {c : Char} {cs d a p n : Str} (hc : isDig c = true)
    (h : Scanner.tokenizeXactHeader (c :: cs) = .ok (d, a, p, n)) : d ≠ [] := by
  unfold Scanner.tokenizeXactHeader at h
  rw [if_neg (by simp)] at h
  simp only [bind, Except.bind] at h
  split at h
  · simp at h
  · simp only [Except.ok.injEq, Prod.mk.injEq] at h
    obtain ⟨rfl, _⟩ := h
    have h1 : c ≠ '=' := by rintro rfl; exact absurd hc (by decide)
    have h2 : c ≠ ' ' := by rintro rfl; exact absurd hc (by decide)
    unfold Scanner.scanDate splitAtFirst
    simp [h1, h2]

theorem fails_xactDirective_calm {c : Char} {cs : Str} (hc : isDig c = true) (rest : Source) {j : Journal} (hj : InOrder j) :
    FailsOnly (postFaults ++ xactFaults ++ lineFaults) (xactDirective (c :: cs) rest j) := by
  unfold xactDirective
  refine chain ((fails_createXact rfl j).mono (by decide)) fun r hr => ?_
  obtain ⟨d, a, p, n, x0, h1, h2, rfl⟩ := createXact_ok hr
  simp only
  obtain ⟨hd, _, _, hp0, _⟩ := create_ok h2
  have hj0 : InOrder { j with xacts := j.xacts ++ [x0] } := hj
  refine chain ((fails_readBody hj0 rfl).mono (by decide)) fun r hr2 => ?_
  obtain ⟨j2, rest2⟩ := r
  obtain ⟨x1, e1, e2, e3, _, _⟩ := readBody_ok rfl hr2
  obtain ⟨x1', e1', hin⟩ := readBody_in rfl (by rw [hp0]; intro p hp; cases hp) hr2
  rw [e1] at e1'
  simp only [List.append_cancel_left_eq, List.cons.injEq, and_true] at e1'
  subst e1'
  simp only
  refine chain ?_ fun _ _ => okay _
  unfold finalizeXact
  rw [e1]
  simp only [List.getElem?_append_right (Nat.le_refl _), Nat.sub_self, List.getElem?_cons_zero]
  obtain ⟨d', hd'⟩ : ∃ d', x1.date = some d' := by
    unfold HeaderDate at hd
    have := header_date hc h1
    rw [e2.1]
    cases hx : x0.date with
    | some d' => exact ⟨d', rfl⟩
    | none => rw [hx] at hd; simp_all
  exact chain ((fails_finalize hd' (hj0.grows e3).2 hin).mono (by decide)) fun _ _ => okay _

theorem fails_xactDirective {c : Char} {cs : Str} (hc : isDig c = true) (rest : Source) {j : Journal} (hj : InOrder j) :
    FailsOnly readFaults (xactDirective (c :: cs) rest j) := (fails_xactDirective_calm hc rest hj).mono (by decide)

theorem element_nil {x : Str} (h : (Scanner.scanPriceElement (trimStart x)).1 = []) : trimStart x = [] := by
  cases hx : trimStart x with
  | nil => rfl
  | cons c cs =>
    rw [hx] at h
    have hw : isWs c = false := by
      have := List.head_dropWhile_not isWs (l := x) (by rw [show List.dropWhile isWs x = c :: cs from hx]; simp)
      simpa [show List.dropWhile isWs x = c :: cs from hx] using this
    have h1 : c ≠ ' ' := by rintro rfl; exact absurd hw (by decide)
    have h2 : c ≠ '\t' := by rintro rfl; exact absurd hw (by decide)
    simp [Scanner.scanPriceElement, splitAtFirst, h1, h2] at h

/-- A price line without a commodity has no quantity either. -/
theorem scanPrice_commodity {line d t c q pc : Str} (h : Scanner.scanPriceDirective line = .ok (d, t, c, q, pc)) (hc : c = []) :
    q = [] := by
  unfold Scanner.scanPriceDirective at h
  simp only [bind, Except.bind] at h
  split at h
  · simp at h
  split at h
  · simp at h
  simp only [Except.ok.injEq, Prod.mk.injEq] at h
  obtain ⟨_, _, h3, h4, _⟩ := h
  rw [hc] at h3
  have := element_nil h3
  rw [this] at h4
  rw [← h4]
  rfl

theorem find_findOrCreate_self (p : Pool) {s : Str} (hs : s ≠ []) (ann : Option Annotation) :
    ((p.findOrCreate s ann).1.find s).isSome := by
  unfold Pool.findOrCreate
  rw [if_neg hs]
  cases hf : p.find s with
  | some c =>
    simp only
    cases ann with
    | none => simp only; rw [hf]; rfl
    | some a =>
      simp only
      split
      · show (assocGet s p.commodities).isSome = true
        rw [show assocGet s p.commodities = some c from hf]; rfl
      · rw [hf]; rfl
  | none =>
    simp only [Pool.create, Pool.find]
    rw [assocGet_insert_self]; rfl

theorem fails_scanPriceDirective (line : Str) :
    FailsOnly [.sliceBoundary, .priceLineTooShort] (Scanner.scanPriceDirective line) := by
  unfold Scanner.scanPriceDirective
  refine chain ((fails_dropBytes _ _).mono (by decide)) fun x _ => ?_
  simp only
  split
  · exact fail (by decide)
  · exact okay _

theorem fails_priceDirective (line : Str) (pool : Pool) : FailsOnly priceFaults (pool.parsePriceDirective line) := by
  unfold Pool.parsePriceDirective
  refine chain ((fails_scanPriceDirective line).mono (by decide)) fun r hr => ?_
  obtain ⟨d, t, c, q, pc⟩ := r
  simp only
  split
  · exact fail (by decide)
  split
  · exact fail (by decide)
  split
  · exact fail (by decide)
  rename_i n hq
  have hc : c ≠ [] := by
    intro hc
    rw [scanPrice_commodity hr hc, show Dec.fromStr [] = none by decide] at hq
    cases hq
  have hsrc : (pool.findOrCreate c none).2 = some c := by rw [findOrCreate_comm, if_neg hc]
  obtain ⟨k, hk⟩ := Option.isSome_iff_exists.mp (find_findOrCreate_self pool hc none)
  have hk' := (Pool.quiet_findOrCreate (pool.findOrCreate c none).1 pc none).later.find hk
  unfold Pool.addPrice
  rw [hsrc]
  have hd : ((pool.findOrCreate c none).1.findOrCreate pc none).1.deref (some c) = .ok k := by
    unfold Pool.deref; simp only; rw [hk']
  rw [hd]
  show FailsOnly priceFaults (if _ then _ else _)
  split
  · exact fail (by decide)
  split
  · exact fail (by decide)
  · rename_i s hs
    have hpc : pc = s ∧ pc ≠ [] := by
      simp only [findOrCreate_comm] at hs
      split at hs
      · cases hs
      · rename_i h; injection hs with hs; exact ⟨hs, h⟩
    obtain ⟨k2, hk2⟩ := Option.isSome_iff_exists.mp
      (find_findOrCreate_self (pool.findOrCreate c none).1 hpc.2 none)
    have hd2 : ((pool.findOrCreate c none).1.findOrCreate pc none).1.deref
        ((pool.findOrCreate c none).1.findOrCreate pc none).2 = .ok k2 := by
      rw [findOrCreate_comm, if_neg hpc.2]
      unfold Pool.deref; simp only; rw [hk2]
    rw [hd2]
    exact okay _

theorem includePath_fails {f : Str} {p : Panic} (h : includePath f = .fails p) : p = .includeRoot := by
  unfold includePath at h
  split at h
  · split at h
    · injection h with h; exact h.symm
    · cases h
  · split at h <;> cases h
  · split at h <;> cases h
  · cases h

theorem topLine_fails {line : Str} {p : Panic} (h : topLine line = .fails p) : p ∈ lineFaults := by
  unfold topLine at h
  split at h
  · cases h
  split at h
  · injection h with h; subst h; decide
  split at h
  · cases h
  split at h
  · cases h
  split at h
  · cases h
  split at h
  · cases h
  unfold generalDirective at h
  simp only at h
  split at h
  · injection h with h; subst h; decide
  split at h
  · split at h
    · split at h
      · injection h with h; subst h; decide
      · rw [includePath_fails h]; decide
    · split at h
      · injection h with h; subst h; decide
      · cases h
  · injection h with h; subst h; decide

theorem fails_parseGo {inc : Str → Journal → Res Journal} (hinc : ∀ f j, InOrder j → FailsOnly readFaults (inc f j))
    (hinc' : ∀ f j j', InOrder j → inc f j = .ok j' → InOrder j') (fuel : Nat) (src : Source) (j : Journal) (hj : InOrder j)
    (hf : src.length < fuel) : FailsOnly readFaults (parseGo inc fuel src j) := by
  induction fuel generalizing src j with
  | zero => omega
  | succ fuel ih =>
    cases src with
    | nil => exact okay _
    | cons l rest =>
      cases l with
      | none => exact okay _
      | some line =>
        rw [List.length_cons] at hf
        rw [parseGo]
        cases ht : topLine line with
        | ignored => exact ih rest j hj (by omega)
        | skipped => exact ih rest j hj (by omega)
        | indented => exact fail (by decide)
        | fails p =>
          refine fail ?_
          have : lineFaults ⊆ readFaults := by decide
          exact this (topLine_fails ht)
        | price =>
          refine chain ((fails_priceDirective line j.pool).mono (by decide)) fun pool hp => ih rest _ ?_ (by omega)
          exact hj.grows ⟨.refl _, Pool.later_priceDirective hp⟩
        | includeFile f => exact chain (hinc f j hj) fun j' h' => ih rest j' (hinc' f j j' hj h') (by omega)
        | xact =>
          obtain ⟨c, cs, rfl, hc⟩ := (topLine_xact line).mp ht
          refine chain (fails_xactDirective hc rest hj) fun r hr => ?_
          obtain ⟨j', rest'⟩ := r
          obtain ⟨_, _, _, _, _, _, _, _, _, _, _, hg, _, hl⟩ := xactDirective_ok hr
          exact ih rest' j' (hj.grows hg) (by omega)

theorem fails_parse (files : Files) (depth : Nat) (src : Source) (j : Journal) (hj : InOrder j) :
    FailsOnly readFaults (parse files depth src j) := by
  induction depth generalizing src j with
  | zero =>
    rw [parse]
    refine fails_parseGo ?_ ?_ _ src j hj (Nat.lt_succ_self _)
    · intro f j _
      split
      · exact okay _
      · exact fail (by decide)
    · intro f j j' hj h
      split at h
      · injection h with h; subst h; exact hj
      · cases h
  | succ depth ih =>
    rw [parse]
    refine fails_parseGo ?_ ?_ _ src j hj (Nat.lt_succ_self _)
    · intro f j hj
      split
      · exact okay _
      · exact ih _ j hj
    · intro f j j' hj h
      split at h
      · injection h with h; subst h; exact hj
      · exact hj.grows (parse_ok _ _ _ _ _ h).1

theorem Journal.Reachable.inOrder {j : Journal} (h : j.Reachable) : InOrder j := by
  obtain ⟨ops, ho⟩ := h.pools
  exact ⟨Account.reachable_wf h.tree, Pool.inv_runOps Pool.inv_empty ops ho⟩

/-! ### reports -/

theorem fails_amountGo {j : Journal} {rs : List PostRef} (h : RefsValid j rs) (b : Balance) :
    FailsOnly [.decimalOverflow] (Journal.amountGo j rs b) := by
  rw [amountGo_eq j rs b h]
  exact fails_addAll _ _

theorem fails_totalGo (l : List (Str × Res Balance)) (h : ∀ x ∈ l, FailsOnly [.decimalOverflow] x.2) (b : Balance) :
    FailsOnly [.decimalOverflow] (Journal.totalGo l b) := by
  induction l generalizing b with
  | nil => exact okay _
  | cons x l ih =>
    obtain ⟨n, r⟩ := x
    rw [Journal.totalGo]
    refine chain (h (n, r) (by simp)) fun sub _ => ?_
    exact chain (fails_addAll _ _) fun b' _ => ih (fun y hy => h y (List.mem_cons_of_mem _ hy)) b'

theorem fails_accountTotal {j : Journal} (a : Account) (h : RefsValid j (subtreePosts a)) :
    FailsOnly [.decimalOverflow] (j.accountTotal a) := by
  induction a using Account.ind with
  | h n ps cs ih =>
    rw [subtreePosts_mk, refsValid_append] at h
    rw [accountTotal_mk]
    refine chain (fails_totalGo _ ?_ _) fun b _ => ?_
    · intro x hx
      rw [(sortByKey_perm _).mem_iff, List.mem_map] at hx
      obtain ⟨c, hc, rfl⟩ := hx
      exact ih c hc fun r hr => h.2 r (List.mem_flatMap.mpr ⟨c, hc, hr⟩)
    · exact chain (fails_amountGo h.1 _) fun _ _ => fails_addAll _ _

theorem fails_concatLines (l : List (Res (List Str))) (h : ∀ x ∈ l, FailsOnly [.decimalOverflow] x) :
    FailsOnly [.decimalOverflow] (Report.concatLines l) := by
  induction l with
  | nil => exact okay _
  | cons x l ih =>
    refine chain (h x (by simp)) fun _ _ => ?_
    exact chain (ih fun y hy => h y (List.mem_cons_of_mem _ hy)) fun _ _ => okay _

theorem fails_childrenLines {j : Journal} (a : Account) (h : RefsValid j (subtreePosts a)) (path : Path) :
    FailsOnly [.decimalOverflow] (Report.childrenLines j path a) := by
  induction a using Account.ind generalizing path with
  | h n ps cs ih =>
    have ht := fails_accountTotal (j := j) (.mk n ps cs) h
    have hl := linesFold_total j (.mk n ps cs)
    unfold Report.childrenLines
    rw [linesFold_mk] at hl ⊢
    simp only at hl ⊢
    rw [hl]
    refine chain ht fun b _ => ?_
    refine chain (fails_concatLines _ ?_) fun _ _ => okay _
    intro x hx
    rw [List.mem_map] at hx
    obtain ⟨r, hr, rfl⟩ := hx
    rw [(sortByKey_perm _).mem_iff, List.mem_map] at hr
    obtain ⟨c, hc, rfl⟩ := hr
    rw [subtreePosts_mk, refsValid_append] at h
    exact ih c hc (fun r hr => h.2 r (List.mem_flatMap.mpr ⟨c, hc, hr⟩)) _

theorem fails_balanceReport {j : Journal} (h : j.Reachable) : FailsOnly [.decimalOverflow] (Report.balanceReport j) :=
  fails_childrenLines _ (h.booked.amounts (p := []) (Account.at?_nil _)).1 _

theorem fails_addPosts (ps : List Post) (b : Balance) (h : ∀ p ∈ ps, p.amount ≠ none) :
    FailsOnly [.decimalOverflow] (Report.addPosts ps b) := by
  induction ps generalizing b with
  | nil => exact okay _
  | cons p ps ih =>
    unfold Report.addPosts
    split
    · rename_i hp; exact absurd hp (h p (by simp))
    · exact chain (fails_balance_add _ _) fun _ _ => ih _ fun q hq => h q (List.mem_cons_of_mem _ hq)

theorem fails_accountBalances {j : Journal} (h : j.Reachable) : FailsOnly [.decimalOverflow] (Report.accountBalances j) := by
  have hall : ∀ p ∈ j.allPosts, p.amount ≠ none := by
    intro p hp
    obtain ⟨x, hx, hpx⟩ := List.mem_flatMap.mp hp
    exact (h.complete x hx).1 p hpx
  unfold Report.accountBalances
  generalize (j.master.flatten.map (·.1)) = l
  induction l with
  | nil => exact okay _
  | cons p l ih =>
    unfold Report.balancesGo
    refine chain (fails_addPosts _ _ fun q hq => hall q (List.mem_of_mem_filter hq)) fun _ _ => ?_
    exact chain ih fun _ _ => okay _

/-! ### the command line -/

theorem fails_takeValues (cs : List Char) (args : List Str) : FailsOnly [.missingOptionArgument] (Options.takeValues cs args) := by
  induction cs generalizing args with
  | nil => exact okay _
  | cons c cs ih =>
    cases args with
    | nil => exact fail (by simp)
    | cons v args => exact chain (ih args) fun _ _ => okay _

theorem takeValues_splits {cs : List Char} {args opts rest : List Str} (h : Options.takeValues cs args = .ok (opts, rest)) :
    rest.length ≤ args.length ∧ ∃ k, opts.length = 2 * k := by
  induction cs generalizing args opts with
  | nil =>
    simp only [Options.takeValues, Except.ok.injEq, Prod.mk.injEq] at h
    obtain ⟨rfl, rfl⟩ := h
    exact ⟨Nat.le_refl _, 0, rfl⟩
  | cons c cs ih =>
    cases args with
    | nil => simp [Options.takeValues] at h
    | cons v args =>
      rw [Options.takeValues] at h
      cases hq : Options.takeValues cs args with
      | error e => rw [hq] at h; simp [bind, Except.bind] at h
      | ok r =>
        obtain ⟨o, s⟩ := r
        rw [hq] at h
        simp only [bind, Except.bind, Except.ok.injEq, Prod.mk.injEq] at h
        obtain ⟨rfl, rfl⟩ := h
        obtain ⟨h1, k, h2⟩ := ih hq
        refine ⟨by rw [List.length_cons]; omega, k + 1, ?_⟩
        rw [List.length_cons, List.length_cons, h2]; omega

theorem fails_splitGo (n : Nat) (args : List Str) (h : args.length < n) :
    FailsOnly [.longOption, .missingOptionArgument] (Options.splitGo n args) ∧
    ∀ cs os, Options.splitGo n args = .ok (cs, os) → ∃ k, os.length = 2 * k := by
  induction n generalizing args with
  | zero => omega
  | succ n ih =>
    cases args with
    | nil =>
      refine ⟨okay _, ?_⟩
      intro cs os h
      simp only [Options.splitGo, Except.ok.injEq, Prod.mk.injEq] at h
      obtain ⟨_, rfl⟩ := h
      exact ⟨0, rfl⟩
    | cons arg args =>
      rw [List.length_cons] at h
      unfold Options.splitGo
      split
      · exact ⟨fail (by decide), by intro _ _ h; cases h⟩
      · rename_i letters _
        constructor
        · refine chain ((fails_takeValues _ _).mono (by decide)) fun r hr => ?_
          obtain ⟨opts, rest⟩ := r
          exact chain (ih rest (by have := (takeValues_splits hr).1; omega)).1 fun _ _ => okay _
        · intro cs os h'
          simp only [bind, Except.bind] at h'
          split at h'
          · simp at h'
          rename_i r hr
          obtain ⟨opts, rest⟩ := r
          obtain ⟨hl, k, hk⟩ := takeValues_splits hr
          split at h'
          · simp at h'
          rename_i r2 hr2
          obtain ⟨cs2, os2⟩ := r2
          simp only [Except.ok.injEq, Prod.mk.injEq] at h'
          obtain ⟨k2, hk2⟩ := (ih rest (by omega)).2 _ _ hr2
          refine ⟨k + k2, ?_⟩
          rw [← h'.2, List.length_append, hk, hk2]; omega
      · constructor
        · exact chain (ih args (by omega)).1 fun _ _ => okay _
        · intro cs os h'
          simp only [bind, Except.bind] at h'
          split at h'
          · simp at h'
          rename_i r2 hr2
          obtain ⟨cs2, os2⟩ := r2
          simp only [Except.ok.injEq, Prod.mk.injEq] at h'
          rw [← h'.2]
          exact (ih args (by omega)).2 _ _ hr2

theorem fails_inputOptions (k : Nat) (os : List Str) (h : os.length = 2 * k) :
    FailsOnly [.unrecognizedArgument] (Options.inputOptions os) := by
  induction k generalizing os with
  | zero =>
    have : os = [] := List.eq_nil_of_length_eq_zero (by omega)
    rw [this]; exact okay _
  | succ k ih =>
    match os, h with
    | o :: v :: rest, h =>
      rw [Options.inputOptions]
      split
      · exact chain (ih rest (by simp only [List.length_cons] at h; omega)) fun _ _ => okay _
      · exact fail (by simp)
    | [o], h => simp only [List.length_cons, List.length_nil] at h; omega
    | [], h => simp only [List.length_nil] at h; omega

theorem fails_processArguments (args : List Str) :
    FailsOnly [.longOption, .missingOptionArgument, .unrecognizedArgument] (Options.processArguments args) := by
  unfold Options.processArguments
  obtain ⟨h1, h2⟩ := fails_splitGo (args.length + 1) args (Nat.lt_succ_self _)
  refine chain (h1.mono (by decide)) fun r hr => ?_
  obtain ⟨cs, os⟩ := r
  obtain ⟨k, hk⟩ := h2 cs os hr
  exact chain ((fails_inputOptions k os hk).mono (by decide)) fun _ _ => okay _

theorem fails_parseFile (files : Files) (depth : Nat) (path : Str) {j : Journal} (hj : InOrder j) :
    FailsOnly (.fileOpen :: readFaults) (parseFile files depth path j) := by
  unfold parseFile
  split
  · exact fail (by decide)
  · exact (fails_parse _ _ _ _ hj).mono (by decide)

theorem parseFile_stays {files : Files} {depth : Nat} {path : Str} {j j' : Journal} (hj : j.Reachable)
    (h : parseFile files depth path j = .ok j') : j'.Reachable := by
  unfold parseFile at h
  split at h
  · cases h
  · exact .parse files depth _ hj h

theorem fails_readFiles (files : Files) (depth : Nat) (fs : List Str) {j : Journal} (hj : j.Reachable) :
    FailsOnly (.fileOpen :: readFaults) (Cli.readFiles files depth fs j) := by
  induction fs generalizing j with
  | nil => exact okay _
  | cons f fs ih =>
    exact chain (fails_parseFile _ _ _ hj.inOrder) fun j' h' => ih (parseFile_stays hj h')

theorem readFiles_stays {files : Files} {depth : Nat} {fs : List Str} {j j' : Journal} (hj : j.Reachable)
    (h : Cli.readFiles files depth fs j = .ok j') : j'.Reachable := by
  induction fs generalizing j with
  | nil => simp only [Cli.readFiles, Except.ok.injEq] at h; subst h; exact hj
  | cons f fs ih =>
    rw [Cli.readFiles] at h
    cases hq : parseFile files depth f j with
    | error e => rw [hq] at h; simp [bind, Except.bind] at h
    | ok j1 => rw [hq] at h; exact ih (parseFile_stays hj hq) h

theorem fails_run (files : Files) (depth : Nat) (args : List Str) : FailsOnly runFaults (Cli.run files depth args) := by
  unfold Cli.run
  refine chain ((fails_processArguments args).mono (by decide)) fun r _ => ?_
  obtain ⟨commands, filenames⟩ := r
  simp only
  unfold Cli.executeCommand
  split
  · exact fail (by decide)
  · refine chain ((fails_readFiles files depth _ .new).mono (by decide)) fun j hj => ?_
    have hr := readFiles_stays .new hj
    split
    · exact fail (by decide)
    · split
      · exact okay _
      · split
        · split
          · exact (fails_balanceReport hr).mono (by decide)
          · exact fail (by decide)
        · exact fail (by decide)

end Ledger
