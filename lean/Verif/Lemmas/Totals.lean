import Verif.Lemmas.Account
import Verif.Lemmas.Balance
import Verif.Spec.Totals
import Verif.Model.Report
/-
Totals of accounts and report lines.
-/
namespace Ledger
open List

/-! ### sorting children -/

theorem insertByKey_map {α β : Type} (f : α → Str × β) (x : α) (l : List α) :
    ∃ l' : List α, l'.Perm (x :: l) ∧ insertByKey (f x) (l.map f) = l'.map f := by
  induction l with
  | nil => exact ⟨[x], Perm.refl _, rfl⟩
  | cons y ys ih =>
    obtain ⟨l', h1, h2⟩ := ih
    simp only [List.map_cons, insertByKey]
    split
    · exact ⟨x :: y :: ys, Perm.refl _, rfl⟩
    · exact ⟨y :: l', (h1.cons y).trans (Perm.swap x y ys), by rw [h2]; rfl⟩

theorem sortByKey_map {α β : Type} (f : α → Str × β) (l : List α) :
    ∃ l' : List α, l'.Perm l ∧ sortByKey (l.map f) = l'.map f := by
  induction l with
  | nil => exact ⟨[], Perm.refl _, rfl⟩
  | cons x xs ih =>
    obtain ⟨l', h1, h2⟩ := ih
    obtain ⟨l'', h3, h4⟩ := insertByKey_map f x l'
    exact ⟨l'', h3.trans (h1.cons x), by rw [List.map_cons, sortByKey, h2, h4]⟩

theorem insertByKey_mapVal {β γ : Type} (g : β → γ) (x : Str × β) (l : List (Str × β)) :
    insertByKey (x.1, g x.2) (l.map (fun r => (r.1, g r.2))) = (insertByKey x l).map (fun r => (r.1, g r.2)) := by
  induction l with
  | nil => rfl
  | cons y ys ih =>
    simp only [List.map_cons, insertByKey]
    split
    · simp
    · rw [ih]; simp

theorem sortByKey_mapVal {β γ : Type} (g : β → γ) (l : List (Str × β)) :
    sortByKey (l.map (fun r => (r.1, g r.2))) = (sortByKey l).map (fun r => (r.1, g r.2)) := by
  induction l with
  | nil => rfl
  | cons x xs ih => rw [List.map_cons, sortByKey, ih, insertByKey_mapVal, sortByKey]

/-! ### postings of a subtree -/

theorem subtreePostsList_eq (cs : List Account) : subtreePostsList cs = cs.flatMap subtreePosts := by
  induction cs with
  | nil => rfl
  | cons c cs ih => simp [subtreePostsList, ih]

theorem subtreePosts_mk (n : Str) (ps : List PostRef) (cs : List Account) :
    subtreePosts (.mk n ps cs) = ps ++ cs.flatMap subtreePosts := by rw [subtreePosts, subtreePostsList_eq]

theorem amountsOf_append (j : Journal) (rs ss : List PostRef) : amountsOf j (rs ++ ss) = amountsOf j rs ++ amountsOf j ss := by
  simp [amountsOf]

theorem amountsOf_cons (j : Journal) (r : PostRef) (rs : List PostRef) :
    amountsOf j (r :: rs) = amountsOf j [r] ++ amountsOf j rs := by
  rw [← amountsOf_append]; rfl

theorem amountsOf_perm (j : Journal) {rs ss : List PostRef} (h : rs.Perm ss) : (amountsOf j rs).Perm (amountsOf j ss) :=
  h.filterMap _

theorem refsValid_append (j : Journal) (rs ss : List PostRef) : RefsValid j (rs ++ ss) ↔ RefsValid j rs ∧ RefsValid j ss := by
  simp only [RefsValid, mem_append]
  exact ⟨fun h => ⟨fun r hr => h r (Or.inl hr), fun r hr => h r (Or.inr hr)⟩,
    fun h r hr => hr.elim (h.1 r) (h.2 r)⟩

theorem refsValid_perm (j : Journal) {rs ss : List PostRef} (h : rs.Perm ss) : RefsValid j rs ↔ RefsValid j ss := by
  simp only [RefsValid, h.mem_iff]

theorem flatMap_perm_fun {α β : Type} {l : List α} {f g : α → List β} (h : ∀ x ∈ l, (f x).Perm (g x)) :
    (l.flatMap f).Perm (l.flatMap g) := by
  induction l with
  | nil => exact Perm.refl _
  | cons x xs ih =>
    rw [List.flatMap_cons, List.flatMap_cons]
    exact (h x (by simp)).append (ih (fun y hy => h y (List.mem_cons_of_mem _ hy)))

theorem flatMap_perm_left {α β : Type} {l m : List α} (f : α → List β) (h : l.Perm m) : (l.flatMap f).Perm (m.flatMap f) := by
  induction h with
  | nil => exact Perm.refl _
  | cons x _ ih => rw [List.flatMap_cons, List.flatMap_cons]; exact ih.append_left _
  | swap x y l =>
    simp only [List.flatMap_cons]
    rw [← List.append_assoc, ← List.append_assoc]
    exact (perm_append_comm).append_right _
  | trans _ _ h1 h2 => exact h1.trans h2

/-- The postings of a subtree, account by account in the order of `flatten`. -/
theorem subtreePosts_flatten {a : Account} (hw : a.WF) :
    (subtreePosts a).Perm ((a.flatten).flatMap (fun x => (a.postsAt x.1).getD [])) := by
  induction a using Account.ind with
  | h n ps cs ih =>
    have hw' := (Account.wf_mk n ps cs).mp hw
    rw [subtreePosts_mk, Account.flatten_mk, List.flatMap_cons]
    have h0 : ((Account.mk n ps cs).postsAt ([], n).1).getD [] = ps := by simp [Account.postsAt, Account.at?_nil, Account.posts]
    rw [h0]
    refine Perm.append_left _ ?_
    obtain ⟨cs', hp, hs⟩ := sortByKey_map (fun c => (c.name, Account.flatten c)) cs
    rw [hs, List.flatMap_map, List.flatMap_assoc]
    refine (flatMap_perm_left _ hp.symm).trans (flatMap_perm_fun ?_)
    intro c hc
    have hc' := hp.mem_iff.mp hc
    rw [List.flatMap_map]
    refine (ih c hc' (hw'.2.2 c hc')).trans ?_
    apply Perm.of_eq
    apply List.flatMap_congr
    intro x _
    rw [Account.postsAt_cons, Account.getChild_mem hw'.1 hc']
    rfl

/-! ### own amount -/

theorem amountGo_eq (j : Journal) (rs : List PostRef) (b : Balance) (h : RefsValid j rs) :
    Journal.amountGo j rs b = b.addAll (amountsOf j rs) := by
  induction rs generalizing b with
  | nil => rfl
  | cons r rs ih =>
    have hr := h r (by simp)
    have hrs : RefsValid j rs := fun x hx => h x (List.mem_cons_of_mem _ hx)
    unfold Journal.amountGo
    obtain ⟨p, hp⟩ := Option.isSome_iff_exists.mp hr
    rw [hp]
    simp only
    cases ha : p.amount with
    | none => simp only [amountsOf, List.filterMap_cons, hp, Option.bind_some, ha]; exact ih b hrs
    | some a =>
      simp only [amountsOf, List.filterMap_cons, hp, Option.bind_some, ha, Balance.addAll]
      cases hx : b.add a with
      | error e => rfl
      | ok b' => exact ih b' hrs

theorem amountGo_error (j : Journal) (rs : List PostRef) (b : Balance) {r : Balance} (h : Journal.amountGo j rs b = .ok r) :
    RefsValid j rs := by
  induction rs generalizing b with
  | nil => intro x hx; cases hx
  | cons x xs ih =>
    unfold Journal.amountGo at h
    cases hp : j.postAt x with
    | none => rw [hp] at h; cases h
    | some p =>
      rw [hp] at h
      simp only at h
      intro y hy
      rcases List.mem_cons.mp hy with rfl | hy
      · rw [hp]; rfl
      · cases ha : p.amount with
        | none => rw [ha] at h; exact ih b h y hy
        | some a =>
          rw [ha] at h
          cases hx : b.add a with
          | error e => simp only [hx, bind, Except.bind] at h; cases h
          | ok b' => simp only [hx, bind, Except.bind] at h; exact ih b' h y hy

/-! ### totals -/

theorem accountTotal_mk (j : Journal) (n : Str) (ps : List PostRef) (cs : List Account) :
    j.accountTotal (.mk n ps cs) = (do
      let b ← Journal.totalGo (sortByKey (cs.map (fun c => (c.name, j.accountTotal c)))) Balance.empty
      let own ← Journal.amountGo j ps Balance.empty
      b.addBalance own) := by
  unfold Journal.accountTotal; rw [Account.fold_mk]

/-- A balance that sums a list of amounts on a grid. -/
structure SumOf (S : Nat) (b : Balance) (as : List Amount) : Prop where
  grid : GridList S b.amounts
  mass : mass b.amounts ≤ mass as
  total : ∀ c, b.totalIn c = sumIn c as
  each : b.OneEach
  comms : ∀ c, c ∈ b.amounts.map (·.comm) ↔ c ∈ as.map (·.comm)

theorem SumOf.empty (S : Nat) : SumOf S Balance.empty [] where
  grid := fun _ h => by cases h
  mass := by simp [Balance.empty, Ledger.mass]
  total := fun c => rfl
  each := by simp [Balance.OneEach, Balance.empty]
  comms := fun c => by simp [Balance.empty]

theorem SumOf.perm {S : Nat} {b : Balance} {as bs : List Amount} (h : SumOf S b as) (hp : as.Perm bs) : SumOf S b bs where
  grid := h.grid
  mass := by rw [← mass_perm hp]; exact h.mass
  total := fun c => by rw [h.total, sumIn_perm c hp]
  each := h.each
  comms := fun c => by rw [h.comms, (hp.map _).mem_iff]

/-- Merging two sums. -/
theorem SumOf.merge {S : Nat} (hS : S ≤ 28) {b b2 : Balance} {as bs : List Amount} (h : SumOf S b as) (h2 : SumOf S b2 bs)
    (hm : Ledger.mass (as ++ bs) * 10 ^ S < 2 ^ 96) : ∃ r, b.addBalance b2 = .ok r ∧ SumOf S r (as ++ bs) := by
  have hp := Dec.pow10_pos S
  rw [mass_append] at hm
  have h1m := h.mass
  have h2m := h2.mass
  obtain ⟨r, h1, g1, g2, g3⟩ := addAll_grid hS b2.amounts b h.grid h2.grid (by
    refine lt_of_le_of_lt (mul_le_mul_of_nonneg_right ?_ (le_of_lt hp)) hm; linarith)
  refine ⟨r, h1, g1, by rw [mass_append]; linarith, ?_, ?_, ?_⟩
  · intro c
    rw [g3, h.total, sumIn_append, ← h2.total]; rfl
  · unfold Balance.OneEach; rw [addAll_comms _ _ _ h1]; exact foldl_addComm_nodup _ _ h.each
  · intro c
    rw [addAll_comms _ _ _ h1, mem_foldl_addComm, h.comms, h2.comms, List.map_append, List.mem_append]

theorem SumOf.addAll {S : Nat} (hS : S ≤ 28) {as : List Amount} (hg : GridList S as) (hm : Ledger.mass as * 10 ^ S < 2 ^ 96) :
    ∃ r, Balance.empty.addAll as = .ok r ∧ SumOf S r as := by
  obtain ⟨r, h1, g1, g2, g3⟩ := addAll_grid hS as Balance.empty (SumOf.empty S).grid hg (by
    simpa [Balance.empty, Ledger.mass] using hm)
  refine ⟨r, h1, g1, by simpa [Balance.empty, Ledger.mass] using g2, ?_, ?_, ?_⟩
  · intro c; rw [g3]; simp [Balance.empty, Balance.totalIn, sumIn]
  · unfold Balance.OneEach; rw [addAll_comms _ _ _ h1]; exact foldl_addComm_nodup _ _ (SumOf.empty S).each
  · intro c; rw [addAll_comms _ _ _ h1, mem_foldl_addComm]; simp [Balance.empty]

theorem mass_sublist {as bs cs : List Amount} (h : (as ++ bs).Perm cs) : Ledger.mass as ≤ Ledger.mass cs := by
  rw [← mass_perm h, mass_append]; have := mass_nonneg bs; linarith

theorem totalGo_sum {S : Nat} (hS : S ≤ 28) (f : Account → Res Balance) (g : Account → List Amount) (cs : List Account)
    (b : Balance) (as : List Amount) (hb : SumOf S b as)
    (hc : ∀ c ∈ cs, ∃ r, f c = .ok r ∧ SumOf S r (g c))
    (hm : Ledger.mass (as ++ cs.flatMap g) * 10 ^ S < 2 ^ 96) :
    ∃ r, Journal.totalGo (cs.map (fun c => (c.name, f c))) b = .ok r ∧ SumOf S r (as ++ cs.flatMap g) := by
  induction cs generalizing b as with
  | nil => exact ⟨b, rfl, by simpa using hb⟩
  | cons c cs ih =>
    obtain ⟨r, hr, hs⟩ := hc c (by simp)
    rw [List.flatMap_cons, ← List.append_assoc] at hm ⊢
    have hp := Dec.pow10_pos S
    obtain ⟨b', hb', hs'⟩ := hb.merge hS hs (by
      refine lt_of_le_of_lt (mul_le_mul_of_nonneg_right ?_ (le_of_lt hp)) hm
      exact mass_sublist (Perm.refl _))
    obtain ⟨r', h1, h2⟩ := ih b' _ hs' (fun c hc' => hc c (List.mem_cons_of_mem _ hc')) hm
    refine ⟨r', ?_, h2⟩
    simp only [List.map_cons, Journal.totalGo, hr, bind, Except.bind, hb']
    exact h1

theorem amountsOf_flatMap (j : Journal) (cs : List Account) (f : Account → List PostRef) :
    amountsOf j (cs.flatMap f) = cs.flatMap (fun c => amountsOf j (f c)) := by
  induction cs with
  | nil => rfl
  | cons c cs ih => rw [List.flatMap_cons, List.flatMap_cons, amountsOf_append, ih]

/-- The total of an account is the sum of the postings of its subtree. -/
theorem accountTotal_sum {S : Nat} (hS : S ≤ 28) (j : Journal) (a : Account) (hv : RefsValid j (subtreePosts a))
    (hg : GridList S (amountsOf j (subtreePosts a)))
    (hm : mass (amountsOf j (subtreePosts a)) * 10 ^ S < 2 ^ 96) :
    ∃ r, j.accountTotal a = .ok r ∧ SumOf S r (amountsOf j (subtreePosts a)) := by
  induction a using Account.ind with
  | h n ps cs ih =>
    have hp := Dec.pow10_pos S
    rw [subtreePosts_mk, amountsOf_append] at hg hm ⊢
    rw [subtreePosts_mk, refsValid_append] at hv
    rw [amountsOf_flatMap] at hg hm ⊢
    have hc : ∀ c ∈ cs, ∃ r, j.accountTotal c = .ok r ∧ SumOf S r (amountsOf j (subtreePosts c)) := by
      intro c hc
      obtain ⟨l1, l2, rfl⟩ := List.append_of_mem hc
      apply ih c hc
      · intro r hr; exact hv.2 r (List.mem_flatMap.mpr ⟨c, hc, hr⟩)
      · intro x hx; exact hg x (List.mem_append_right _ (List.mem_flatMap.mpr ⟨c, hc, hx⟩))
      · refine lt_of_le_of_lt (mul_le_mul_of_nonneg_right ?_ (le_of_lt hp)) hm
        simp only [List.flatMap_append, List.flatMap_cons, mass_append]
        have h1 := mass_nonneg (amountsOf j ps)
        have h2 := mass_nonneg (l1.flatMap (fun c => amountsOf j (subtreePosts c)))
        have h3 := mass_nonneg (l2.flatMap (fun c => amountsOf j (subtreePosts c)))
        linarith
    obtain ⟨cs', hperm, hs⟩ := sortByKey_map (fun c => (c.name, j.accountTotal c)) cs
    have hperm2 := flatMap_perm_left (fun c => amountsOf j (subtreePosts c)) hperm
    obtain ⟨r1, h1, h2⟩ := totalGo_sum hS j.accountTotal (fun c => amountsOf j (subtreePosts c)) cs' Balance.empty []
      (SumOf.empty S) (fun c hc' => hc c (hperm.mem_iff.mp hc')) (by
        rw [List.nil_append, mass_perm hperm2]
        refine lt_of_le_of_lt (mul_le_mul_of_nonneg_right ?_ (le_of_lt hp)) hm
        rw [mass_append]; have := mass_nonneg (amountsOf j ps); linarith)
    obtain ⟨r2, h3, h4⟩ := SumOf.addAll hS (as := amountsOf j ps) (fun x hx => hg x (List.mem_append_left _ hx)) (by
        refine lt_of_le_of_lt (mul_le_mul_of_nonneg_right ?_ (le_of_lt hp)) hm
        exact mass_sublist (Perm.refl _))
    rw [List.nil_append] at h2
    obtain ⟨r, h5, h6⟩ := (h2.perm hperm2).merge hS h4 (by rw [mass_perm perm_append_comm]; exact hm)
    refine ⟨r, ?_, h6.perm perm_append_comm⟩
    rw [accountTotal_mk, hs, h1]
    simp only [bind, Except.bind, amountGo_eq j ps _ hv.1, h3]
    exact h5

/-! ### report lines -/

open Report

theorem linesFold_mk (j : Journal) (n : Str) (ps : List PostRef) (cs : List Account) :
    linesFold j (.mk n ps cs) =
      let rs := cs.map (fun c => (c.name, linesFold j c))
      let total : Res Balance := do
        let b ← Journal.totalGo (sortByKey (rs.map (fun r => (r.1, r.2.1)))) Balance.empty
        let own ← Journal.amountGo j ps Balance.empty
        b.addBalance own
      (total, fun path => do
        let b ← total
        let rest ← concatLines ((sortByKey rs).map (fun r => r.2.2 (path ++ [r.1])))
        .ok (balanceLine (Account.fullname path) b :: rest)) := by
  unfold linesFold; rw [Account.fold_mk]

/-- The total computed along with the lines is the account total. -/
theorem linesFold_total (j : Journal) (a : Account) : (linesFold j a).1 = j.accountTotal a := by
  induction a using Account.ind with
  | h n ps cs ih =>
    rw [linesFold_mk, accountTotal_mk]
    simp only [List.map_map]
    have : (cs.map ((fun r : Str × (Res Balance × (Path → Res (List Str))) => (r.1, r.2.1)) ∘ fun c => (c.name, linesFold j c)))
        = cs.map (fun c => (c.name, j.accountTotal c)) := by
      apply List.map_congr_left
      intro c hc
      simp [ih c hc]
    rw [this]

theorem balanceLine_eq (n : Str) (b : Balance) : balanceLine n b = lineText n b := by
  unfold balanceLine lineText showBalance
  rw [List.flatMap_def]
  congr 2
  apply List.map_congr_left
  intro a _
  unfold showAmount entryText
  cases a.comm with
  | none => simp
  | some s => simp only [List.append_assoc]; rfl

theorem concatLines_ok {α : Type} (l : List α) (f : α → Res (List Str)) (g : α → List Str) (h : ∀ x ∈ l, f x = .ok (g x)) :
    concatLines (l.map f) = .ok (l.flatMap g) := by
  induction l with
  | nil => rfl
  | cons x xs ih =>
    rw [List.map_cons, concatLines, h x (by simp), ih (fun y hy => h y (List.mem_cons_of_mem _ hy))]; rfl

/-- The lines of a subtree, when all totals exist. -/
theorem childrenLines_eq (j : Journal) (a : Account) (hw : a.WF) (t : Path → Balance)
    (ht : ∀ p b, a.at? p = some b → j.accountTotal b = .ok (t p)) (path : Path) :
    childrenLines j path a = .ok (a.flatten.map (fun x => lineText (Account.fullname (path ++ x.1)) (t x.1))) := by
  induction a using Account.ind generalizing path t with
  | h n ps cs ih =>
    have hw' := (Account.wf_mk n ps cs).mp hw
    have h0 := ht [] _ (Account.at?_nil _)
    have hl := linesFold_total j (.mk n ps cs)
    unfold childrenLines
    rw [linesFold_mk] at hl ⊢
    simp only at hl ⊢
    rw [hl, h0]
    simp only [bind, Except.bind]
    obtain ⟨cs', hp, hs⟩ := sortByKey_map (fun c => (c.name, linesFold j c)) cs
    rw [hs, List.map_map]
    have hcs := concatLines_ok cs' (fun c => childrenLines j (path ++ [c.name]) c)
      (fun c => c.flatten.map (fun x => lineText (Account.fullname (path ++ [c.name] ++ x.1)) (t (c.name :: x.1)))) (by
        intro c hc
        have hc' := hp.mem_iff.mp hc
        apply ih c hc' (hw'.2.2 c hc') (fun p => t (c.name :: p))
        intro p b hb
        apply ht
        rw [Account.at?_cons, Account.getChild_mem hw'.1 hc']; exact hb)
    have he : (cs'.map ((fun r : Str × (Res Balance × (Path → Res (List Str))) => r.2.2 (path ++ [r.1])) ∘ fun c => (c.name, linesFold j c)))
        = cs'.map (fun c => childrenLines j (path ++ [c.name]) c) := rfl
    rw [he, hcs, Account.flatten_mk]
    simp only [List.map_cons, List.append_nil, balanceLine_eq]
    congr 2
    -- the sorted children of `flatten` are the same
    have hs2 : sortByKey (cs.map (fun c => (c.name, Account.flatten c))) = cs'.map (fun c => (c.name, Account.flatten c)) := by
      have hnd : ((cs.map (fun c => (c.name, c))).map (·.1)).Nodup := by rw [List.map_map]; exact hw'.1
      have e1 := sortByKey_mapVal (linesFold j) (cs.map (fun c => (c.name, c)))
      have e2 := sortByKey_mapVal Account.flatten (cs.map (fun c => (c.name, c)))
      rw [List.map_map] at e1 e2
      obtain ⟨cs2, hp2, hs3⟩ := sortByKey_map (fun c => (c.name, c)) cs
      rw [hs3, List.map_map] at e1 e2
      have hs' : sortByKey (cs.map (fun c => (c.name, linesFold j c))) = cs'.map (fun c => (c.name, linesFold j c)) := hs
      have e3 : cs'.map (fun c => (c.name, linesFold j c)) = cs2.map (fun c => (c.name, linesFold j c)) := by
        rw [← hs']; exact e1
      have e4 : cs' = cs2 := by
        have hn1 : cs'.map Account.name = cs2.map Account.name := by
          have := congrArg (List.map (·.1)) e3
          simpa [List.map_map, Function.comp_def] using this
        have hnd' : (cs.map Account.name).Nodup := hw'.1
        have key : ∀ (l1 l2 : List Account), (∀ x ∈ l1, x ∈ cs) → (∀ x ∈ l2, x ∈ cs) →
            l1.map Account.name = l2.map Account.name → l1 = l2 := by
          intro l1
          induction l1 with
          | nil => intro l2 _ _ h; cases l2 with
            | nil => rfl
            | cons _ _ => simp at h
          | cons x xs ihx =>
            intro l2 h1 h2 h
            cases l2 with
            | nil => simp at h
            | cons y ys =>
              simp only [List.map_cons, List.cons.injEq] at h
              have hx := Account.getChild_mem hnd' (h1 x (by simp))
              have hy := Account.getChild_mem hnd' (h2 y (by simp))
              rw [h.1, hy] at hx
              cases hx
              rw [ihx ys (fun z hz => h1 z (List.mem_cons_of_mem _ hz)) (fun z hz => h2 z (List.mem_cons_of_mem _ hz)) h.2]
        exact key cs' cs2 (fun x hx => hp.mem_iff.mp hx) (fun x hx => hp2.mem_iff.mp hx) hn1
      rw [e4]; exact e2
    rw [hs2, List.flatMap_map, List.map_flatMap]
    apply List.flatMap_congr
    intro c _
    rw [List.map_map]
    apply List.map_congr_left
    intro x _
    simp

end Ledger
