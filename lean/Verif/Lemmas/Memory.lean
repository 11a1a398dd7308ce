import Verif.Model.Memory
import Verif.Lemmas.Parse
/-
Growth of containers and the addresses of their elements.
-/
namespace Ledger
open Ledger.Memory

section growth
variable {next : Nat → Nat} (hn : ∀ c, c < next c) {stays : Nat → Bool}
include hn

theorem room_ge (n : Nat) : n ≤ room next n := by
  induction n with
  | zero => exact Nat.le_refl _
  | succ n ih =>
    simp only [room]
    split
    · omega
    · have := hn (room next n); omega

theorem room_le_succ (n : Nat) : room next n ≤ room next (n + 1) := by
  conv => rhs; unfold room
  split
  · exact Nat.le_refl _
  · exact Nat.le_of_lt (hn _)

theorem room_mono {n m : Nat} (h : n ≤ m) : room next n ≤ room next m := by
  induction h with
  | refl => exact Nat.le_refl _
  | step _ ih => exact Nat.le_trans ih (room_le_succ hn _)

omit hn in
/-- No growth while the elements fit. -/
theorem room_block_fits {n m : Nat} (h : n ≤ m) (hm : m ≤ room next n) :
    room next m = room next n ∧ block next stays m = block next stays n := by
  induction m, h using Nat.le_induction with
  | base => exact ⟨rfl, rfl⟩
  | succ m hle ih =>
    obtain ⟨i1, i2⟩ := ih (by omega)
    have : m < room next m := by rw [i1]; omega
    exact ⟨by rw [room, if_pos this, i1], by rw [block, if_pos this, i2]⟩

omit hn in
theorem block_mono {n m : Nat} (h : n ≤ m) : block next stays n ≤ block next stays m := by
  induction h with
  | refl => exact Nat.le_refl _
  | step _ ih =>
    refine Nat.le_trans ih ?_
    conv => rhs; unfold block
    split
    · exact Nat.le_refl _
    · split <;> omega

/-- A growth that moves the elements. -/
theorem block_grows {n m : Nat} (hm : room next n < m) (hs : stays (room next n) = false) :
    block next stays n < block next stays m := by
  have hr : n ≤ room next n := room_ge hn n
  obtain ⟨e1, e2⟩ := room_block_fits (stays := stays) hr (Nat.le_refl _)
  have : block next stays (room next n + 1) = block next stays (room next n) + 1 := by
    rw [block, if_neg (by rw [e1]; omega), if_neg (by simp [hs])]
  have h2 : block next stays (room next n + 1) ≤ block next stays m := block_mono hm
  omega
end growth

theorem tableNext_gt (c : Nat) : c < tableNext c := by unfold tableNext; split <;> [omega; (split <;> omega)]
theorem vecNext_gt (c : Nat) : c < vecNext c := by unfold vecNext; omega

/-- The address of a key after more keys have been added. -/
theorem tableAddr_later {ks ks' : List Str} (hp : ks <+: ks') {k : Str} {a : Addr} (ha : tableAddr ks k = some a) :
    tableAddr ks' k = some a ↔ ks'.length ≤ room tableNext ks.length := by
  obtain ⟨rest, rfl⟩ := hp
  unfold tableAddr at ha ⊢
  split at ha
  · rename_i hk
    injection ha with ha
    have hk' : k ∈ ks ++ rest := List.mem_append_left _ hk
    rw [if_pos hk', List.idxOf_append_of_mem hk, ← ha]
    simp only [Option.some.injEq, Addr.mk.injEq, and_true]
    constructor
    · intro h
      by_contra hc
      have := block_grows (stays := fun _ => false) tableNext_gt (n := ks.length) (m := (ks ++ rest).length)
        (by omega) rfl
      unfold tableBlock at h
      omega
    · intro h
      exact (room_block_fits (by simp) h).2
  · cases ha

/-- Nothing is left at the address once the table has grown. -/
theorem tableAddr_gone {ks ks' : List Str} {k : Str} {a : Addr} (ha : tableAddr ks k = some a)
    (hg : room tableNext ks.length < ks'.length) (k' : Str) : tableAddr ks' k' ≠ some a := by
  intro h
  unfold tableAddr at ha h
  split at ha <;> [skip; cases ha]
  split at h <;> [skip; cases h]
  injection ha with ha
  injection h with h
  have := block_grows (stays := fun _ => false) tableNext_gt (n := ks.length) (m := ks'.length) hg rfl
  rw [← ha] at h
  injection h with h1 h2
  unfold tableBlock at h1
  omega


theorem findOrCreate_keys (p : Pool) (s : Str) (ann : Option Annotation) :
    p.commodities.map (·.1) <+: (p.findOrCreate s ann).1.commodities.map (·.1) := by
  unfold Pool.findOrCreate
  split
  · exact List.prefix_rfl
  · split
    · cases ann with
      | none => exact List.prefix_rfl
      | some a => simp only; split <;> exact List.prefix_rfl
    · simp only [Pool.create, assocInsert_keys]
      split
      · exact List.prefix_rfl
      · exact List.prefix_append _ _

theorem poolLater_keys {p p' : Pool} (h : p.Later p') : p.commodities.map (·.1) <+: p'.commodities.map (·.1) := by
  obtain ⟨ops, h⟩ := h
  induction ops generalizing p with
  | nil => simp only [runOps, Except.ok.injEq] at h; subst h; exact List.prefix_rfl
  | cons op ops ih =>
    obtain ⟨q, h1, h2⟩ := Pool.runOps_cons p op ops p' h
    refine List.IsPrefix.trans ?_ (ih h2)
    cases op with
    | findOrCreate s a => simp only [PoolOp.run, Except.ok.injEq] at h1; subst h1; exact findOrCreate_keys _ _ _
    | addPrice s t pr =>
      obtain ⟨_, _, _, _, _, _, _, _, _, rfl⟩ := Pool.addPrice_ok h1
      exact List.prefix_rfl

namespace Account

/-- Names of the children of the account at a path. -/
def namesAt (a : Account) (q : Path) : Option (List Str) := (at? a q).map (fun b => b.children.map name)

theorem namesAt_nil (a : Account) : namesAt a [] = some (a.children.map name) := by simp [namesAt, at?_nil]

theorem namesAt_cons (n : Str) (ps : List PostRef) (cs : List Account) (m : Str) (q : Path) :
    namesAt (mk n ps cs) (m :: q) = (getChild m cs).bind (fun c => namesAt c q) := by
  unfold namesAt; rw [at?_cons]; cases getChild m cs <;> rfl

theorem namesAt_ensure (p : Path) (a : Account) (q : Path) (ns : List Str) (h : namesAt a q = some ns) :
    ∃ ns', namesAt (ensure p a) q = some ns' ∧ ns <+: ns' := by
  induction p generalizing a q with
  | nil => exact ⟨ns, h, List.prefix_rfl⟩
  | cons n p ih =>
    obtain ⟨an, ap, cs⟩ := a
    unfold ensure
    cases hx : getChild n cs with
    | some c =>
      simp only
      cases q with
      | nil =>
        rw [namesAt_nil] at h ⊢
        exact ⟨_, rfl, by simp only [children, setChild_names] at h ⊢; injection h with h; rw [h]⟩
      | cons m q =>
        rw [namesAt_cons] at h ⊢
        rw [getChild_setChild, ensure_name, (getChild_some hx).2]
        by_cases hm : m = n
        · subst hm
          rw [hx] at h
          rw [if_pos rfl, hx]
          exact ih c q h
        · rw [if_neg hm]; exact ⟨ns, h, List.prefix_rfl⟩
    | none =>
      simp only
      cases q with
      | nil =>
        rw [namesAt_nil] at h ⊢
        refine ⟨_, rfl, ?_⟩
        simp only [children] at h
        injection h with h
        rw [← h]
        simp [children]
      | cons m q =>
        rw [namesAt_cons] at h ⊢
        rw [getChild_append]
        cases hm : getChild m cs with
        | none => rw [hm] at h; cases h
        | some c => rw [hm] at h; exact ⟨ns, h, List.prefix_rfl⟩

theorem namesAt_pushPost (a : Account) (p : Path) (r : PostRef) (q : Path) : namesAt (a.pushPost p r) q = namesAt a q := by
  induction p generalizing a q with
  | nil =>
    obtain ⟨an, ap, cs⟩ := a
    cases q with
    | nil => rfl
    | cons m q => simp [pushPost, update, namesAt_cons]
  | cons n p ih =>
    obtain ⟨an, ap, cs⟩ := a
    unfold pushPost update
    cases hx : getChild n cs with
    | none => rfl
    | some c =>
      simp only
      cases q with
      | nil => simp [namesAt_nil, children, setChild_names]
      | cons m q =>
        rw [namesAt_cons, namesAt_cons, getChild_setChild, update_name (by rintro ⟨⟩; rfl), (getChild_some hx).2]
        by_cases hm : m = n
        · subst hm
          rw [if_pos rfl, hx]
          exact ih c q
        · rw [if_neg hm]

theorem later_names {a b : Account} (h : Later a b) (hw : WF a) {q : Path} {ns : List Str} (hq : namesAt a q = some ns) :
    ∃ ns', namesAt b q = some ns' ∧ ns <+: ns' := by
  induction h with
  | refl => exact ⟨ns, hq, List.prefix_rfl⟩
  | register n h hc ih =>
    obtain ⟨ns', h1, h2⟩ := ih
    rw [findOrCreate_create _ n (later_wf h hw)] at hc
    injection hc with hc
    injection hc with hc _
    subst hc
    obtain ⟨ns'', h3, h4⟩ := namesAt_ensure (pathOf n) _ q ns' h1
    exact ⟨ns'', h3, h2.trans h4⟩
  | post p r h ih =>
    obtain ⟨ns', h1, h2⟩ := ih
    exact ⟨ns', by rw [namesAt_pushPost]; exact h1, h2⟩

end Account

theorem accountAddr_eq (a : Account) (p : Path) (n : Str) :
    accountAddr a p n = (a.namesAt p).bind (fun ns => tableAddr ns n) := by
  unfold accountAddr Account.namesAt
  cases a.at? p <;> rfl

end Ledger
