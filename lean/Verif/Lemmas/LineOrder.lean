import Verif.Lemmas.Booking
import Verif.Spec.LineOrder
/-
The order of the commodities in an account total.
-/
namespace Ledger
open List

/-! ### first occurrences -/

theorem foldl_addComm_eq (cs ds : List (Option Str)) :
    cs.foldl addComm ds = ds ++ (firsts cs).filter (fun c => c ∉ ds) := by
  induction cs generalizing ds with
  | nil => simp [firsts]
  | cons c cs ih =>
    rw [List.foldl_cons, ih, firsts, List.filter_cons, List.filter_filter]
    unfold addComm
    by_cases h : c ∈ ds
    · rw [if_pos h, if_neg (by simpa using h)]
      congr 1
      refine List.filter_congr fun x _ => ?_
      by_cases hx : x = c
      · subst hx; simp [h]
      · simp [hx]
    · rw [if_neg h, if_pos (by simpa using h), List.append_assoc, List.singleton_append]
      congr 2
      refine List.filter_congr fun x _ => ?_
      simp [not_or]

theorem firsts_eq (cs : List (Option Str)) : firsts cs = cs.foldl addComm [] := by
  rw [foldl_addComm_eq]; simp

theorem foldl_addComm_assoc (cs ds es : List (Option Str)) :
    (cs.foldl addComm ds).foldl addComm es = cs.foldl addComm (ds.foldl addComm es) := by
  induction cs generalizing ds with
  | nil => rfl
  | cons c cs ih =>
    rw [List.foldl_cons, List.foldl_cons, ih]
    congr 1
    by_cases h : c ∈ ds
    · have e1 : addComm ds c = ds := if_pos h
      have e2 : addComm (ds.foldl addComm es) c = ds.foldl addComm es :=
        if_pos ((mem_foldl_addComm _ _ _).mpr (Or.inr h))
      rw [e1, e2]
    · have e1 : addComm ds c = ds ++ [c] := if_neg h
      rw [e1, List.foldl_append]; rfl

/-! ### accounts, parents last -/

/-- The paths of an account and everything below it, parents last. -/
def Account.upward (a : Account) : List Path :=
  Account.fold (fun _ _ rs => (sortByKey rs).flatMap (fun r => r.2.map (fun q => r.1 :: q)) ++ [[]]) a

theorem Account.upward_mk (n : Str) (ps : List PostRef) (cs : List Account) :
    upward (.mk n ps cs) = (sortByKey (cs.map (fun c => (c.name, upward c)))).flatMap
      (fun r => r.2.map (fun q => r.1 :: q)) ++ [[]] := by
  unfold upward; rw [fold_mk]

theorem Account.mem_upward {a : Account} (hw : WF a) (p : Path) : p ∈ upward a ↔ a.Has p := by
  induction a using ind generalizing p with
  | h n ps cs ih =>
    have hw' := (wf_mk n ps cs).mp hw
    rw [upward_mk, List.mem_append, List.mem_singleton]
    unfold Has
    cases p with
    | nil => simp [at?_nil]
    | cons m q =>
      simp only [reduceCtorEq, or_false, List.mem_flatMap]
      rw [at?_cons]
      constructor
      · rintro ⟨r, hr, hx⟩
        obtain ⟨y, hy, e⟩ := List.mem_map.mp hx
        rw [(sortByKey_perm _).mem_iff] at hr
        obtain ⟨c, hc, rfl⟩ := List.mem_map.mp hr
        simp only [List.cons.injEq] at e
        rw [← e.1, getChild_mem hw'.1 hc, ← e.2]
        exact (ih c hc (hw'.2.2 c hc) y).mp hy
      · intro hb
        cases hg : getChild m cs with
        | none => rw [hg] at hb; cases hb
        | some c =>
          rw [hg] at hb
          have hc := getChild_some hg
          refine ⟨(c.name, upward c), (sortByKey_perm _).mem_iff.mpr (List.mem_map.mpr ⟨c, hc.1, rfl⟩), ?_⟩
          exact List.mem_map.mpr ⟨q, (ih c hc.1 (hw'.2.2 c hc.1) q).mpr hb, by simp [hc.2]⟩

theorem Account.upward_sorted {a : Account} (hw : WF a) : (upward a).Pairwise ParentLast := by
  induction a using ind with
  | h n ps cs ih =>
    have hw' := (wf_mk n ps cs).mp hw
    rw [upward_mk, List.pairwise_append]
    refine ⟨?_, List.pairwise_singleton _ _, ?_⟩
    · rw [List.pairwise_flatMap]
      constructor
      · intro r hr
        rw [(sortByKey_perm _).mem_iff] at hr
        obtain ⟨c, hc, rfl⟩ := List.mem_map.mp hr
        rw [List.pairwise_map]
        exact (ih c hc (hw'.2.2 c hc)).imp (fun h => Or.inr ⟨rfl, h⟩)
      · have hn : ((cs.map (fun c => (c.name, upward c))).map (·.1)).Nodup := by
          rw [List.map_map]; exact hw'.1
        refine (sortByKey_strict _ hn).imp ?_
        intro r s hrs x hx y hy
        obtain ⟨x', _, rfl⟩ := List.mem_map.mp hx
        obtain ⟨y', _, rfl⟩ := List.mem_map.mp hy
        exact Or.inl hrs
    · intro x hx y hy
      rw [List.mem_singleton] at hy
      subst hy
      obtain ⟨r, _, hr⟩ := List.mem_flatMap.mp hx
      obtain ⟨z, _, rfl⟩ := List.mem_map.mp hr
      trivial

/-! ### totals -/

theorem totalGo_comms (f : Account → Res Balance) (g : Account → List (Option Str)) (cs : List Account) (b r : Balance)
    (hc : ∀ c ∈ cs, ∀ s, f c = .ok s → s.amounts.map (·.comm) = (g c).foldl addComm [])
    (h : Journal.totalGo (cs.map (fun c => (c.name, f c))) b = .ok r) :
    r.amounts.map (·.comm) = (cs.flatMap g).foldl addComm (b.amounts.map (·.comm)) := by
  induction cs generalizing b with
  | nil => cases h; rfl
  | cons c cs ih =>
    simp only [List.map_cons, Journal.totalGo, bind, Except.bind] at h
    cases hf : f c with
    | error e => rw [hf] at h; simp at h
    | ok s =>
      rw [hf] at h
      simp only at h
      cases hb : b.addBalance s with
      | error e => rw [hb] at h; simp at h
      | ok b' =>
        rw [hb] at h
        rw [ih b' (fun c hc' => hc c (List.mem_cons_of_mem _ hc')) h, List.flatMap_cons, List.foldl_append]
        congr 1
        rw [addAll_comms _ _ _ hb, hc c (by simp) s hf, foldl_addComm_assoc]; rfl

/-- The commodities of the own postings of the accounts, parents last. -/
def Account.commsUp (j : Journal) (a : Account) : List (Option Str) :=
  a.upward.flatMap (fun q => (amountsOf j ((a.postsAt q).getD [])).map (·.comm))

theorem Account.commsUp_mk (j : Journal) {n : Str} {ps : List PostRef} {cs cs' : List Account} (hw : WF (.mk n ps cs))
    (hp : cs'.Perm cs) (hs : sortByKey (cs.map (fun c => (c.name, upward c))) = cs'.map (fun c => (c.name, upward c))) :
    commsUp j (.mk n ps cs) = cs'.flatMap (commsUp j) ++ (amountsOf j ps).map (·.comm) := by
  have hw' := (wf_mk n ps cs).mp hw
  unfold commsUp
  rw [upward_mk, hs, List.flatMap_append, List.flatMap_map, List.flatMap_assoc]
  congr 1
  · refine List.flatMap_congr fun c hc => ?_
    rw [List.flatMap_map]
    refine List.flatMap_congr fun q _ => ?_
    have : postsAt (.mk n ps cs) (c.name :: q) = postsAt c q := by
      unfold postsAt
      rw [at?_cons, getChild_mem hw'.1 (hp.mem_iff.mp hc)]; rfl
    rw [this]
  · simp [postsAt, at?_nil, posts]

theorem accountTotal_comms (j : Journal) {a : Account} (hw : a.WF) (hv : RefsValid j (subtreePosts a)) {b : Balance}
    (h : j.accountTotal a = .ok b) : b.amounts.map (·.comm) = firsts (a.commsUp j) := by
  rw [firsts_eq]
  induction a using Account.ind generalizing b with
  | h n ps cs ih =>
    have hw' := (Account.wf_mk n ps cs).mp hw
    rw [subtreePosts_mk, refsValid_append] at hv
    obtain ⟨cs', hperm, hs⟩ := sortByKey_map (fun c => (c.name, (j.accountTotal c, c.upward))) cs
    have hs1 : sortByKey (cs.map (fun c => (c.name, j.accountTotal c))) = cs'.map (fun c => (c.name, j.accountTotal c)) := by
      have := sortByKey_mapVal (fun x : Res Balance × List Path => x.1) (cs.map (fun c => (c.name, (j.accountTotal c, c.upward))))
      rw [hs, List.map_map, List.map_map] at this; exact this
    have hs2 : sortByKey (cs.map (fun c => (c.name, c.upward))) = cs'.map (fun c => (c.name, c.upward)) := by
      have := sortByKey_mapVal (fun x : Res Balance × List Path => x.2) (cs.map (fun c => (c.name, (j.accountTotal c, c.upward))))
      rw [hs, List.map_map, List.map_map] at this; exact this
    rw [accountTotal_mk, hs1, amountGo_eq j ps _ hv.1] at h
    simp only [bind, Except.bind] at h
    split at h
    · cases h
    · rename_i r hr
      split at h
      · cases h
      · rename_i own ho
        rw [Account.commsUp_mk j hw hperm hs2, List.foldl_append, addAll_comms _ _ _ h, addAll_comms _ _ _ ho,
          foldl_addComm_assoc, totalGo_comms _ (Account.commsUp j) cs' _ _ (fun c hc s hf => ?_) hr]
        · rfl
        · have hc' := hperm.mem_iff.mp hc
          exact ih c hc' (hw'.2.2 c hc') (fun x hx => hv.2 x (List.mem_flatMap.mpr ⟨c, hc', hx⟩)) hf

/-- The own amounts of an account, found from the account and from the postings. -/
theorem Booked.ownAmounts {j : Journal} (hb : Booked j) {p : Path} {a : Account} (ha : j.master.at? p = some a) :
    RefsValid j a.posts ∧ amountsOf j a.posts = amountsAt j p := by
  have hl := hb.lists p a.posts (by unfold Account.postsAt; rw [ha]; rfl)
  have e : ((bookings j.xacts).filter (fun b => b.2 = p)).map (·.1) =
      ((refPosts 0 j.xacts).filter (fun b => b.2.account = p)).map (·.1) := by
    rw [bookings_refPosts, List.filter_map, List.map_map]; rfl
  rw [e] at hl
  rw [hl]
  refine ⟨?_, ?_⟩
  · intro r hr
    rw [List.mem_map] at hr
    obtain ⟨⟨r', q⟩, hm, rfl⟩ := hr
    have := (mem_refPosts_postAt j r' q).mp (List.mem_of_mem_filter hm)
    rw [this]; rfl
  · unfold amountsOf amountsAt Journal.allPosts
    rw [← refPosts_posts 0, List.filter_map, List.filterMap_map, List.filterMap_map]
    refine List.filterMap_congr fun x hx => ?_
    obtain ⟨r, q⟩ := x
    have := (mem_refPosts_postAt j r q).mp (List.mem_of_mem_filter hx)
    simp only [Function.comp_apply, this, Option.bind_some]

theorem parentLast_irrefl (p : Path) : ¬ ParentLast p p := by
  induction p with
  | nil => exact id
  | cons m p ih =>
    rintro (h | ⟨_, h⟩)
    · exact strBefore_irrefl _ h
    · exact ih h

end Ledger
