import Verif.Lemmas.Parse
import Verif.Lemmas.Totals
/-
Bookings of a journal: the posting lists of the account tree against the transactions.
-/
namespace Ledger
open Ledger.Parser

/-! ### all postings with their references -/

/-- All postings of a list of transactions with their references; the transactions are numbered from `k`. -/
def refPosts (k : Nat) (xs : List Xact) : List (PostRef × Post) :=
  (xs.zipIdx k).flatMap (fun x => x.1.posts.zipIdx.map (fun y => ((x.2, y.2), y.1)))

theorem bookings_refPosts (xs : List Xact) : bookings xs = (refPosts 0 xs).map (fun x => (x.1, x.2.account)) := by
  simp [bookings, refPosts, postRefs, List.map_flatMap, Function.comp_def]

theorem refPosts_cons (k : Nat) (x : Xact) (xs : List Xact) :
    refPosts k (x :: xs) = x.posts.zipIdx.map (fun y => ((k, y.2), y.1)) ++ refPosts (k + 1) xs := by
  simp [refPosts]

theorem refPosts_posts (k : Nat) (xs : List Xact) : (refPosts k xs).map (·.2) = xs.flatMap (·.posts) := by
  induction xs generalizing k with
  | nil => rfl
  | cons x xs ih =>
    rw [refPosts_cons, List.map_append, ih, List.flatMap_cons, List.map_map]
    congr 1
    exact List.zipIdx_map_fst 0 x.posts

theorem mem_refPosts (k : Nat) (xs : List Xact) (r : PostRef) (p : Post) :
    (r, p) ∈ refPosts k xs ↔ k ≤ r.1 ∧ ∃ x, xs[r.1 - k]? = some x ∧ x.posts[r.2]? = some p := by
  obtain ⟨i, n⟩ := r
  simp only [refPosts, List.mem_flatMap, List.mem_map, Prod.mk.injEq, Prod.exists]
  constructor
  · rintro ⟨x, i', hx, q, n', hq, ⟨rfl, rfl⟩, rfl⟩
    rw [List.mk_mem_zipIdx_iff_le_and_getElem?_sub] at hx hq
    exact ⟨hx.1, x, hx.2, by simpa using hq.2⟩
  · rintro ⟨hk, x, hx, hp⟩
    refine ⟨x, i, ?_, p, n, ?_, ⟨rfl, rfl⟩, rfl⟩
    · rw [List.mk_mem_zipIdx_iff_le_and_getElem?_sub]; exact ⟨hk, hx⟩
    · rw [List.mk_mem_zipIdx_iff_le_and_getElem?_sub]; exact ⟨Nat.zero_le _, by simpa using hp⟩

theorem mem_refPosts_postAt (j : Journal) (r : PostRef) (p : Post) :
    (r, p) ∈ refPosts 0 j.xacts ↔ j.postAt r = some p := by
  rw [mem_refPosts]
  unfold Journal.postAt
  constructor
  · rintro ⟨_, x, hx, hp⟩
    rw [Nat.sub_zero] at hx
    rw [hx]; exact hp
  · intro h
    refine ⟨Nat.zero_le _, ?_⟩
    rw [Nat.sub_zero]
    cases hx : j.xacts[r.1]? with
    | none => rw [hx] at h; cases h
    | some x => rw [hx] at h; exact ⟨x, rfl, h⟩

theorem zipIdx_snd_nodup {α : Type} (l : List α) (k : Nat) : ((l.zipIdx k).map (·.2)).Nodup := by
  rw [List.zipIdx_map_snd]; exact List.nodup_range'

theorem refPosts_nodup (k : Nat) (xs : List Xact) : ((refPosts k xs).map (·.1)).Nodup := by
  induction xs generalizing k with
  | nil => exact List.nodup_nil
  | cons x xs ih =>
    rw [refPosts_cons, List.map_append, List.nodup_append]
    refine ⟨?_, ih (k + 1), ?_⟩
    · rw [List.map_map]
      have h := zipIdx_snd_nodup x.posts 0
      rw [show ((fun x => x.1) ∘ fun (y : Post × Nat) => ((k, y.2), y.1)) = (fun n => (k, n)) ∘ (fun y : Post × Nat => y.2)
        from rfl, ← List.map_map]
      exact h.map (fun a b hab => by injection hab)
    · intro a ha b hb e
      subst e
      rw [List.mem_map] at ha hb
      obtain ⟨⟨r, p⟩, hr, rfl⟩ := ha
      obtain ⟨⟨r', p'⟩, hr', e⟩ := hb
      simp only at e; subst e
      rw [List.mem_map] at hr
      obtain ⟨y, _, hy⟩ := hr
      simp only [Prod.mk.injEq] at hy
      have := ((mem_refPosts _ _ _ _).mp hr').1
      rw [← hy.1] at this
      simp only at this
      omega

/-! ### distributing the postings over the accounts -/

theorem flatMap_insert_perm {α β : Type} [DecidableEq α] (l : List α) (f : α → List β) (a : α) (b : β)
    (hn : l.Nodup) (ha : a ∈ l) : (l.flatMap (fun x => if a = x then b :: f x else f x)).Perm (b :: l.flatMap f) := by
  induction l with
  | nil => cases ha
  | cons x l ih =>
    rw [List.flatMap_cons, List.flatMap_cons]
    rw [List.nodup_cons] at hn
    by_cases h : a = x
    · subst h
      rw [if_pos rfl, List.cons_append]
      have : (l.flatMap (fun x => if a = x then b :: f x else f x)) = l.flatMap f := by
        refine List.flatMap_congr fun x hx => ?_
        rw [if_neg]; rintro rfl; exact hn.1 hx
      rw [this]
    · rw [if_neg h]
      have ha' : a ∈ l := by simpa [h] using ha
      exact ((ih hn.2 ha').append_left (f x)).trans List.perm_middle

theorem flatMap_filter_perm {α β : Type} [DecidableEq α] (l : List α) (bs : List β) (g : β → α)
    (hn : l.Nodup) : (l.flatMap (fun x => bs.filter (fun b => g b = x))).Perm (bs.filter (fun b => g b ∈ l)) := by
  induction bs with
  | nil => simp
  | cons b bs ih =>
    rw [List.filter_cons]
    by_cases h : g b ∈ l
    · rw [if_pos (by simpa using h)]
      have e : (fun x => (b :: bs).filter (fun b => g b = x)) =
          (fun x => if g b = x then b :: bs.filter (fun b => g b = x) else bs.filter (fun b => g b = x)) := by
        funext x
        rw [List.filter_cons]
        simp only [decide_eq_true_eq]
      rw [e]
      exact (flatMap_insert_perm l _ (g b) b hn h).trans (ih.cons b)
    · rw [if_neg (by simpa using h)]
      have : (l.flatMap (fun x => (b :: bs).filter (fun b => g b = x))) =
          l.flatMap (fun x => bs.filter (fun b => g b = x)) := by
        refine List.flatMap_congr fun x hx => ?_
        rw [List.filter_cons, if_neg]
        intro e
        simp only [decide_eq_true_eq] at e
        rw [e] at h; exact h hx
      rw [this]; exact ih

theorem flatten_paths_nodup {a : Account} (ha : a.WF) : (a.flatten.map (·.1)).Nodup := by
  unfold List.Nodup
  rw [List.pairwise_map]
  refine (Account.flatten_sorted ha).imp ?_
  intro x y h e
  rw [e] at h
  exact pathBefore_irrefl _ h

/-- The postings booked in the subtree of an account are those that name the account or one below it. -/
theorem Booked.subtree {j : Journal} (hb : Booked j) {p : Path} {a : Account} (ha : j.master.at? p = some a) :
    (subtreePosts a).Perm (((bookings j.xacts).filter (fun b => p.isPrefixOf b.2)).map (·.1)) := by
  have hwa := Account.at?_wf hb.wf ha
  refine (subtreePosts_flatten hwa).trans ?_
  have h1 : a.flatten.flatMap (fun x => (a.postsAt x.1).getD []) =
      (a.flatten.map (fun x => p ++ x.1)).flatMap (fun q => ((bookings j.xacts).filter (fun b => b.2 = q)).map (·.1)) := by
    rw [List.flatMap_map]
    refine List.flatMap_congr fun x hx => ?_
    obtain ⟨b, hb1, _⟩ := (Account.mem_flatten hwa x.1 x.2).mp hx
    have hp1 : j.master.postsAt (p ++ x.1) = some b.posts := by
      unfold Account.postsAt; rw [Account.at?_append, ha, Option.bind_some, hb1]; rfl
    have hp2 : a.postsAt x.1 = some b.posts := by
      unfold Account.postsAt; rw [hb1]; rfl
    rw [hp2]
    exact hb.lists _ _ hp1
  rw [h1, ← List.map_flatMap]
  refine List.Perm.map _ ?_
  have hnd : (a.flatten.map (fun x => p ++ x.1)).Nodup := by
    have := (flatten_paths_nodup hwa).map (f := fun q => p ++ q) (fun x y h => List.append_cancel_left h)
    rwa [List.map_map] at this
  refine (flatMap_filter_perm _ (bookings j.xacts) (fun b => b.2) hnd).trans ?_
  refine List.Perm.of_eq (List.filter_congr ?_)
  intro b hbm
  rw [Bool.eq_iff_iff]
  simp only [decide_eq_true_eq, List.isPrefixOf_iff_prefix, List.mem_map]
  constructor
  · rintro ⟨x, _, e⟩; rw [← e]; exact List.prefix_append _ _
  · rintro ⟨q, e⟩
    have hh := hb.named b hbm
    rw [← e] at hh
    unfold Account.Has at hh
    rw [Account.at?_append, ha, Option.bind_some] at hh
    cases hq : a.at? q with
    | none => rw [hq] at hh; cases hh
    | some c => exact ⟨(q, c.name), (Account.mem_flatten hwa _ _).mpr ⟨c, hq, rfl⟩, e⟩

/-- References and amounts of a subtree. -/
theorem Booked.amounts {j : Journal} (hb : Booked j) {p : Path} {a : Account} (ha : j.master.at? p = some a) :
    RefsValid j (subtreePosts a) ∧ (amountsOf j (subtreePosts a)).Perm (amountsBelow j p) := by
  have hs := hb.subtree ha
  rw [refsValid_perm _ hs]
  have e : ((bookings j.xacts).filter (fun b => p.isPrefixOf b.2)).map (·.1) =
      ((refPosts 0 j.xacts).filter (fun b => p.isPrefixOf b.2.account)).map (·.1) := by
    rw [bookings_refPosts, List.filter_map, List.map_map]; rfl
  refine ⟨?_, (amountsOf_perm _ hs).trans (List.Perm.of_eq ?_)⟩
  · rw [e]
    intro r hr
    rw [List.mem_map] at hr
    obtain ⟨⟨r', q⟩, hm, rfl⟩ := hr
    have := (mem_refPosts_postAt j r' q).mp (List.mem_of_mem_filter hm)
    rw [this]; rfl
  · rw [e]
    unfold amountsOf amountsBelow Journal.allPosts
    rw [← refPosts_posts 0, List.filter_map, List.filterMap_map, List.filterMap_map]
    refine List.filterMap_congr fun x hx => ?_
    obtain ⟨r, q⟩ := x
    have := (mem_refPosts_postAt j r q).mp (List.mem_of_mem_filter hx)
    simp only [Function.comp_apply, this, Option.bind_some]

/-! ### reachable journals -/

theorem registerAccount_ok {j j' : Journal} {n : Str} {r : Option Path} (h : j.registerAccount n = .ok (j', r)) :
    n ≠ [] ∧ ∃ m, j.master.findOrCreate n true = .ok (m, r) ∧ j' = { j with master := m } := by
  unfold Journal.registerAccount at h
  split at h
  · cases h
  · rename_i hn
    cases hf : j.master.findOrCreate n true with
    | error e => rw [hf] at h; simp [bind, Except.bind] at h
    | ok x =>
      obtain ⟨m, r'⟩ := x
      rw [hf] at h
      simp only [bind, Except.bind, Except.ok.injEq, Prod.mk.injEq] at h
      obtain ⟨rfl, rfl⟩ := h
      exact ⟨hn, m, rfl, rfl⟩

theorem Booked.register {j : Journal} (hb : Booked j) {n : Str} {m : Account} {r : Option Path}
    (hf : j.master.findOrCreate n true = .ok (m, r)) : Booked { j with master := m } := by
  rw [Account.findOrCreate_create _ _ hb.wf] at hf
  simp only [Except.ok.injEq, Prod.mk.injEq] at hf
  obtain ⟨rfl, rfl⟩ := hf
  refine ⟨Account.ensure_wf hb.wf (pathOf_parts n), ?_, ?_, ?_⟩
  · show (Account.ensure _ _).name = []
    rw [Account.ensure_name]; exact hb.root
  · intro b hbm
    exact (Account.has_ensure ..).mpr (Or.inl (hb.named b hbm))
  · intro p ps hp
    change Account.postsAt (Account.ensure _ _) p = _ at hp
    rw [Account.postsAt_ensure] at hp
    cases hq : j.master.postsAt p with
    | some qs =>
      rw [hq] at hp
      simp only [Option.some_or, Option.some.injEq] at hp
      rw [← hp]; exact hb.lists p qs hq
    | none =>
      rw [hq] at hp
      have hnil : ((bookings j.xacts).filter (fun b => b.2 = p)).map (·.1) = [] := by
        rw [List.map_eq_nil_iff, List.filter_eq_nil_iff]
        intro b hbm hbp
        have := hb.named b hbm
        rw [Account.has_iff_postsAt] at this
        simp only [decide_eq_true_eq] at hbp
        rw [hbp, hq] at this
        cases this
      show ps = ((bookings j.xacts).filter (fun b => b.2 = p)).map (·.1)
      rw [hnil]
      split at hp
      · simpa using hp.symm
      · cases hp

theorem Journal.Reachable.booked {j : Journal} (h : j.Reachable) : Booked j := by
  induction h with
  | new => exact booked_new
  | parse files depth src _ hp ih => exact (parse_ok _ _ _ _ _ hp).2.1 ih
  | register n _ hr ih =>
    obtain ⟨_, m, hm, rfl⟩ := registerAccount_ok hr
    exact ih.register hm
  | pool _ _ ih => exact ih.congr rfl rfl

theorem Journal.Reachable.complete {j : Journal} (h : j.Reachable) : ∀ x ∈ j.xacts, Complete x := by
  induction h with
  | new => intro x hx; cases hx
  | parse files depth src _ hp ih =>
    obtain ⟨_, _, new, e, hc⟩ := parse_ok _ _ _ _ _ hp
    intro x hx
    rw [e, List.mem_append] at hx
    exact hx.elim (ih x) (hc x)
  | register n _ hr ih =>
    obtain ⟨_, m, hm, rfl⟩ := registerAccount_ok hr
    exact ih
  | pool _ _ ih => exact ih

theorem Journal.Reachable.pools {j : Journal} (h : j.Reachable) : Pool.empty.Later j.pool := by
  induction h with
  | new => exact Pool.Later.refl _
  | parse files depth src _ hp ih => exact ih.trans (parse_ok _ _ _ _ _ hp).1.pool
  | register n _ hr ih =>
    obtain ⟨_, m, hm, rfl⟩ := registerAccount_ok hr
    exact ih
  | pool _ hp ih => exact ih.trans hp

theorem Journal.Reachable.tree {j : Journal} (h : j.Reachable) : Account.Reachable j.master := by
  induction h with
  | new => exact .refl _
  | parse files depth src _ hp ih => exact Account.Later.trans ih (parse_ok _ _ _ _ _ hp).1.tree
  | register n _ hr ih =>
    obtain ⟨_, m, hm, rfl⟩ := registerAccount_ok hr
    exact .register n ih hm
  | pool _ _ ih => exact ih

/-! ### what later pools keep -/

theorem Pool.Later.find {p p' : Pool} (h : p.Later p') {s : Str} {c : Commodity} (hf : p.find s = some c) :
    p'.find s = some c := by
  obtain ⟨ops, h⟩ := h
  exact Pool.find_runOps ops h hf

theorem getDirectPrice_insert (hi : History) (a b : Nat) (t : DateTime) (q : Dec) (i j : Nat)
    (h : (hi.getDirectPrice i j).isSome) :
    (({ hi with edges := History.insertPrice a b t q hi.edges } : History).getDirectPrice i j).isSome := by
  unfold History.getDirectPrice at h ⊢
  simp only
  rw [History.findEdge_insertPrice]
  by_cases he : i = a ∧ j = b
  · rw [if_pos he]
    simp only
    unfold PriceMap.latest
    have hne := PriceMap.insert_ne_nil t q ((History.findEdge a b hi.edges).getD [])
    rw [List.getLast?_eq_getLast_of_ne_nil hne]; rfl
  · rw [if_neg he]; exact h

theorem Pool.Later.priced {p p' : Pool} (h : p.Later p') {i j : Nat} (hp : (p.history.getDirectPrice i j).isSome) :
    (p'.history.getDirectPrice i j).isSome := by
  obtain ⟨ops, h⟩ := h
  induction ops generalizing p with
  | nil => injection h with h; subst h; exact hp
  | cons op ops ih =>
    obtain ⟨q, h1, h2⟩ := Pool.runOps_cons _ _ _ _ h
    refine ih ?_ h2
    cases op with
    | findOrCreate s a =>
      injection h1 with h1
      subst h1
      by_cases hs : s = []
      · subst hs; rw [Pool.findOrCreate_empty]; exact hp
      · cases hf : p.find s with
        | some c => rw [(Pool.findOrCreate_old hs hf a).2.2.1]; exact hp
        | none => rw [(Pool.findOrCreate_new hs hf a).2.2.1]; exact hp
    | addPrice s t pr =>
      obtain ⟨A, B, cA, cB, _, _, _, _, _, rfl⟩ := Pool.addPrice_ok h1
      exact getDirectPrice_insert _ _ _ _ _ _ _ hp

end Ledger
