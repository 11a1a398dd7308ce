import Verif.Lemmas.Account
import Verif.Model.Journal
/-
C20-C24: the account tree.
-/
namespace Ledger
open Account

/-- A tree with two top accounts, three levels and a booked posting. -/
def exampleTree : Account :=
  .mk [] [] [.mk (str "Assets") [] [.mk (str "Cash") [(0, 1)] [], .mk (str "Bank") [] [.mk (str "Giro") [] []]],
             .mk (str "Expenses") [(0, 0)] []]

theorem exampleTree_reachable : Reachable exampleTree := by
  have h1 : Later (new []) _ := Later.register (str "Assets:Cash") (Later.refl _) rfl
  have h2 := Later.register (str "Expenses") h1 rfl
  have h3 := Later.post [str "Expenses"] (0, 0) h2
  have h4 := Later.post [str "Assets", str "Cash"] (0, 1) h3
  have h5 := Later.register (str "Assets:Bank:Giro") h4 rfl
  exact h5

/-- C20: after `register_account(name)` the same account is found under the name, whatever is registered or booked
afterwards; and the full name of the account is the name, if no part of the name is empty. -/
theorem C20_registered_found {j : Journal} (hj : Reachable j.master) {n : Str} (hn : n ≠ []) :
    ∃ j' p, j.registerAccount n = .ok (j', some p) ∧ j'.xacts = j.xacts ∧ j'.pool = j.pool ∧
      (∀ k : Journal, Later j'.master k.master → k.findAccount n = .ok (some p) ∧ (k.master.at? p).isSome) ∧
      (ProperName n → fullname p = n) := by
  have hw := reachable_wf hj
  refine ⟨{ j with master := ensure (pathOf n) j.master }, pathOf n, ?_, rfl, rfl, ?_, fullname_pathOf⟩
  · unfold Journal.registerAccount
    rw [if_neg hn, findOrCreate_create _ _ hw]; rfl
  · intro k hk
    have hw' := ensure_wf hw (pathOf_parts n)
    have hh : k.master.Has (pathOf n) := later_has hk hw' ((has_ensure _ _ _).mpr (Or.inr List.prefix_rfl))
    refine ⟨?_, hh⟩
    unfold Journal.findAccount
    rw [findAccount_eq _ _ (later_wf hk hw'), if_pos hh]

example : (Journal.mk exampleTree Pool.empty []).registerAccount (str "Assets:Bank:Depot") =
    .ok (⟨.mk [] [] [.mk (str "Assets") [] [.mk (str "Cash") [(0, 1)] [],
            .mk (str "Bank") [] [.mk (str "Giro") [] [], .mk (str "Depot") [] []]],
          .mk (str "Expenses") [(0, 0)] []], Pool.empty, []⟩, some [str "Assets", str "Bank", str "Depot"]) ∧
    ProperName (str "Assets:Bank:Depot") := by decide +kernel

/-- C21: registering an existing account changes nothing. -/
theorem C21_register_idempotent {a : Account} (ha : Reachable a) {n : Str} {b : Account} {r : Option Path}
    (h : a.findOrCreate n true = .ok (b, r)) : b.findOrCreate n true = .ok (b, r) := by
  have hw := reachable_wf ha
  rw [findOrCreate_create _ _ hw] at h
  cases h
  rw [findOrCreate_create _ _ (ensure_wf hw (pathOf_parts n)),
    ensure_has ((has_ensure _ _ _).mpr (Or.inr List.prefix_rfl))]

/-- C21: an account that is found is left as it is by a registration. -/
theorem C21_register_existing {a : Account} (ha : Reachable a) {n : Str} {p : Path}
    (h : a.findAccount n = .ok (some p)) : a.findOrCreate n true = .ok (a, some p) := by
  have hw := reachable_wf ha
  rw [findAccount_eq _ _ hw] at h
  rw [findOrCreate_create _ _ hw]
  split at h
  · rename_i hh
    simp only [Except.ok.injEq, Option.some.injEq] at h
    rw [ensure_has hh, h]
  · split at h <;> simp at h

/-- C21: registering keeps every account with its postings and adds exactly the missing accounts on the path of the
name, without postings. -/
theorem C21_register_adds {a : Account} (ha : Reachable a) (n : Str) :
    ∃ b p, a.findOrCreate n true = .ok (b, some p) ∧ p = pathOf n ∧
      (∀ q, b.Has q ↔ a.Has q ∨ q <+: p) ∧
      (∀ q, a.Has q → b.postsAt q = a.postsAt q) ∧
      (∀ q, ¬ a.Has q → q <+: p → b.postsAt q = some []) ∧
      b.name = a.name := by
  have hw := reachable_wf ha
  refine ⟨_, _, findOrCreate_create _ _ hw, rfl, fun q => has_ensure _ _ _, ?_, ?_, ensure_name _ _⟩
  · intro q hq
    rw [postsAt_ensure]
    rw [has_iff_postsAt] at hq
    exact Option.or_eq_left_of_isSome hq
  · intro q hq hp
    rw [postsAt_ensure]
    rw [has_iff_postsAt, Option.not_isSome_iff_eq_none] at hq
    simp [hq, hp]

example : exampleTree.findOrCreate (str "Assets:Cash") true = .ok (exampleTree, some [str "Assets", str "Cash"]) ∧
    ¬ exampleTree.Has [str "Assets", str "Cash", str "Coins"] := by decide +kernel

/-- C22 is violated: `Assets` is registered and `Assets:Cash` is not; the lookup panics. -/
theorem C22_lookup_violated :
    ∃ a, Reachable a ∧ ¬ a.Has (pathOf (str "Assets:Cash")) ∧
      a.findAccount (str "Assets:Cash") = .error .accountUnwrapNone := by
  refine ⟨_, Later.register (str "Assets") (Later.refl _) rfl, ?_, ?_⟩ <;> decide +kernel

/-- C22: the outcome of every lookup.  It finds exactly the existing accounts, it changes nothing, and it reports a
missing account properly if and only if the first part of the name is missing. -/
theorem C22_lookup_partial {a : Account} (ha : Reachable a) (n : Str) :
    (a.Has (pathOf n) → a.findOrCreate n false = .ok (a, some (pathOf n))) ∧
    (¬ a.Has (pathOf n) → ¬ a.Has [(splitColon n).headD []] → a.findOrCreate n false = .ok (a, none)) ∧
    (¬ a.Has (pathOf n) → a.Has [(splitColon n).headD []] → a.findOrCreate n false = .error .accountUnwrapNone) := by
  have hw := reachable_wf ha
  have ht : (pathOf n).take 1 = [(splitColon n).headD []] := by
    rw [pathOf_eq, splitColon_eq]; split <;> simp
  rw [findOrCreate_find _ _ hw, ht]
  refine ⟨fun h => by rw [if_pos h], fun h1 h2 => by rw [if_neg h1, if_neg h2], fun h1 h2 => by rw [if_neg h1, if_pos h2]⟩

/-- C22: in particular a name without colon is looked up without failure. -/
theorem C22_lookup_top_partial {a : Account} (ha : Reachable a) {n : Str} (hn : ':' ∉ n) :
    a.findAccount n = .ok (if a.Has [n] then some [n] else none) := by
  rw [findAccount_eq _ _ (reachable_wf ha), pathOf_noColon_name hn]
  simp only [List.take_succ_cons, List.take_zero]
  by_cases h : a.Has [n] <;> simp [h]

example : exampleTree.findAccount (str "Income:Salary") = .ok none ∧ exampleTree.findAccount (str "Assets:Gold") = .error .accountUnwrapNone ∧
    exampleTree.findAccount (str "Assets:Bank:Giro") = .ok (some [str "Assets", str "Bank", str "Giro"]) := by
  decide +kernel

/-- C23 is violated: `A::B` and `A:B` are different accounts with the same full name. -/
theorem C23_fullnames_violated :
    ∃ a, Reachable a ∧ ∃ p q, a.Has p ∧ a.Has q ∧ p ≠ q ∧ fullname p = fullname q := by
  refine ⟨_, Later.register (str "A:B") (Later.register (str "A::B") (Later.refl _) rfl) rfl,
    [str "A", [], str "B"], [str "A", str "B"], ?_⟩
  decide +kernel

/-- C23: accounts without empty parts have different full names. -/
theorem C23_fullnames_partial {a : Account} (ha : Reachable a) {p q : Path} (hp : a.Has p) (hq : a.Has q)
    (hp1 : ∀ x ∈ p, x ≠ []) (hq1 : ∀ x ∈ q, x ≠ []) (h : fullname p = fullname q) : p = q := by
  have hw := reachable_wf ha
  have hnil : ∀ r : Path, (∀ x ∈ r, x ≠ []) → fullname r = [] → r = [] := by
    intro r hr he
    cases r with
    | nil => rfl
    | cons x r =>
      exfalso
      cases r with
      | nil => exact hr x (by simp) he
      | cons y r =>
        rw [fullname_cons (hr x (by simp)) (by simp)] at he
        simp at he
  by_cases h1 : p = []
  · subst h1; exact (hnil q hq1 h.symm).symm
  · by_cases h2 : q = []
    · subst h2; exact hnil p hp1 h
    · rw [← splitColon_fullname h1 hp1 (has_parts hw hp), ← splitColon_fullname h2 hq1 (has_parts hw hq), h]

/-- C23: which accounts share a full name: two accounts below the master exactly if they differ in empty parts above the last
one only, and an account shares the empty name of the master exactly if all parts of it are empty. -/
theorem C23_fullnames_exact_partial {a : Account} (ha : Reachable a) {p q : Path} (hp : a.Has p) (hq : a.Has q) :
    (p ≠ [] → q ≠ [] → (fullname p = fullname q ↔ shown p = shown q)) ∧
    (fullname p = fullname [] ↔ ∀ x ∈ p, x = []) := by
  have hw := reachable_wf ha
  refine ⟨fun h1 h2 => ⟨fun h => ?_, fun h => ?_⟩, fullname_nil_iff p⟩
  · rw [← splitColon_shown h1 (has_parts hw hp), ← splitColon_shown h2 (has_parts hw hq), h]
  · rw [← fullname_shown p, ← fullname_shown q, h]

example : shown [str "A", [], str "B"] = shown [[], str "A", str "B"] ∧ shown [str "A", []] ≠ shown [str "A"] := by decide

/-- C23: in a tree made by registering names without empty parts, different accounts have different full names. -/
theorem C23_fullnames_proper_partial {ns : List Str} (hn : ∀ n ∈ ns, ProperName n) {a : Account}
    (ha : registerAll (new []) ns = .ok a) {p q : Path} (hp : a.Has p) (hq : a.Has q)
    (h : fullname p = fullname q) : p = q := by
  have hlater : ∀ (ns : List Str) (b c : Account), registerAll b ns = .ok c → Later b c := by
    have step : ∀ {x y z : Account}, Later y z → Later x y → Later x z := by
      intro x y z h1 h2
      induction h1 with
      | refl => exact h2
      | register n _ hc ih => exact Later.register n ih hc
      | post p r _ ih => exact Later.post p r ih
    intro ns
    induction ns with
    | nil => intro b c h; cases h; exact Later.refl _
    | cons n ns ih =>
      intro b c h
      unfold registerAll at h
      cases hx : b.findOrCreate n true with
      | error e => rw [hx] at h; cases h
      | ok r =>
        rw [hx] at h
        exact step (ih _ _ h) (Later.register n (Later.refl _) hx)
  have hr : Reachable a := hlater ns _ _ ha
  have hparts : ∀ p, a.Has p → ∀ x ∈ p, x ≠ [] := by
    obtain ⟨b, hb, _, _, hpb⟩ := registerAll_ok (new []) ns (wf_new _)
    rw [ha] at hb; cases hb
    intro p hp x hx
    rw [has_iff_postsAt, hpb, postsAt_new] at hp
    by_cases h0 : p = []
    · subst h0; cases hx
    · rw [if_neg h0] at hp
      by_cases h1 : ∃ n ∈ ns, p <+: pathOf n
      · obtain ⟨n, hn1, hpre⟩ := h1
        have hxm := hpre.subset hx
        rw [pathOf_proper (hn n hn1)] at hxm
        rintro rfl
        exact hn n hn1 hxm
      · rw [if_neg h1] at hp; simp at hp
  exact C23_fullnames_partial hr hp hq (hparts p hp) (hparts q hq) h

example : ∃ a, registerAll (new []) [str "Assets:Cash", str "Assets", str "Cash"] = .ok a ∧
    a.Has [str "Assets", str "Cash"] ∧ a.Has [str "Cash"] ∧ fullname [str "Assets", str "Cash"] ≠ fullname [str "Cash"] := by
  refine ⟨_, rfl, ?_⟩; decide +kernel

/-- C24: the flattened tree has exactly the accounts of the tree, each once and with its name. -/
theorem C24_flatten_each_once {a : Account} (ha : a.WF) :
    (∀ p x, (p, x) ∈ flatten a ↔ ∃ b, a.at? p = some b ∧ b.name = x) ∧ ((flatten a).map (·.1)).Nodup := by
  refine ⟨mem_flatten ha, ?_⟩
  unfold List.Nodup
  rw [List.pairwise_map]
  refine (flatten_sorted ha).imp ?_
  intro x y h e
  rw [e] at h
  exact pathBefore_irrefl _ h

/-- C24: an account comes before its descendants. -/
theorem C24_flatten_parents_first {a : Account} (ha : a.WF) :
    (flatten a).Pairwise (fun x y => ¬ y.1 <+: x.1) := by
  refine (flatten_sorted ha).imp ?_
  intro x y h hp
  by_cases he : y.1 = x.1
  · exact pathBefore_irrefl _ (he ▸ h)
  · exact pathBefore_irrefl _ (pathBefore_trans h (pathBefore_prefix hp he))

/-- C24: siblings come in ascending order of name, and nothing but descendants of the first comes between an account
and what follows its subtree: the whole list ascends in the order of paths. -/
theorem C24_flatten_sorted {a : Account} (ha : a.WF) :
    (flatten a).Pairwise (fun x y => PathBefore x.1 y.1) ∧
    (flatten a).Pairwise (fun x y => ∀ p m n, x.1 = p ++ [m] → y.1 = p ++ [n] → StrBefore m n) := by
  refine ⟨flatten_sorted ha, (flatten_sorted ha).imp ?_⟩
  intro x y h p m n hx hy
  rw [hx, hy] at h
  clear hx hy
  unfold PathBefore at h
  induction p with
  | nil =>
    cases h with
    | rel h => exact h
    | cons h => cases h
  | cons c p ih =>
    cases h with
    | rel h => exact absurd h (strBefore_irrefl c)
    | cons h => exact ih h

/-- C24: the list depends only on which accounts exist, not on the order of the children in the maps. -/
theorem C24_flatten_order_independent {a b : Account} (ha : a.WF) (hb : b.WF) (hn : a.name = b.name)
    (h : ∀ p, a.Has p ↔ b.Has p) : flatten a = flatten b := flatten_eq_of_same ha hb hn h

/-- C24: registering the same names in another order gives the same list. -/
theorem C24_flatten_registration_order {ns ms : List Str} (h : ns.Perm ms) :
    ∃ a b, registerAll (new []) ns = .ok a ∧ registerAll (new []) ms = .ok b ∧ flatten a = flatten b := by
  obtain ⟨a, ha, hwa, hna, hpa⟩ := registerAll_ok (new []) ns (wf_new _)
  obtain ⟨b, hb, hwb, hnb, hpb⟩ := registerAll_ok (new []) ms (wf_new _)
  refine ⟨a, b, ha, hb, flatten_eq_of_same hwa hwb (hna.trans hnb.symm) ?_⟩
  intro p
  rw [has_iff_postsAt, has_iff_postsAt, hpa, hpb]
  have : (∃ n ∈ ns, p <+: pathOf n) ↔ ∃ n ∈ ms, p <+: pathOf n := by
    constructor
    · rintro ⟨n, hn, hp⟩; exact ⟨n, h.mem_iff.mp hn, hp⟩
    · rintro ⟨n, hn, hp⟩; exact ⟨n, h.mem_iff.mpr hn, hp⟩
  simp only [this]

/-- C24: the trees of a program are well-formed. -/
theorem C24_reachable_wf {a : Account} (ha : Reachable a) : a.WF := reachable_wf ha

example : (flatten exampleTree).map (·.2) =
    [[], str "Assets", str "Bank", str "Giro", str "Cash", str "Expenses"] := by decide +kernel

end Ledger
