import Verif.Lemmas.HeapState
import Verif.Props.Journal
import Verif.Props.Parser
/-
C76 to C78: the account tree in memory, full names found through parent pointers, and the balance report that uses them.
-/
namespace Ledger
open Ledger.Parser Ledger.Heap

/-! ### C76 -/

/-- C76: registering a name in memory always works, does to the tree what it does in the model, whatever has to be moved,
and returns the address of the account the name denotes.  No two accounts have the same address, before or after. -/
theorem C76_register {s : State} (h : Reach s) (n : Str) :
    ∃ s' x, s.register n = .ok (s', some x.addr) ∧ s.master.erase.findOrCreate n true = .ok (s'.master.erase, some (pathOf n)) ∧
      s'.master.at? (pathOf n) = some x ∧ s'.deref x.addr = .ok x ∧ Reach s' := by
  have hw := Account.reachable_wf h.erase
  have hm := Account.findOrCreate_create s.master.erase n hw
  have hg := go_sim (n.length + 1) s.next s.master n true
  have hm' : Account.findOrCreateGo (n.length + 1) s.master.erase n true = _ := hm
  have hreg : s.register n = (findOrCreateGo (n.length + 1) s.next s.master n true).bind
      (fun v => .ok (⟨v.1, v.2.1⟩, v.2.2)) := rfl
  revert hg hreg
  cases findOrCreateGo (n.length + 1) s.next s.master n true with
  | error e => intro hg; rw [hm'] at hg; cases hg
  | ok v =>
    obtain ⟨m, next, r⟩ := v
    intro hg hreg
    simp only at hg
    obtain ⟨hst, p?, h1, h2⟩ := hg
    rw [hm'] at h1
    injection h1 with h1
    injection h1 with h1 h1'
    subst h1'
    cases r with
    | none => exact absurd h2 id
    | some b =>
      obtain ⟨_, x, hx, rfl⟩ := h2
      have hr' : Reach ⟨m, next⟩ := .register n h hreg
      exact ⟨⟨m, next⟩, x, hreg, by rw [hm, h1], hx, deref_ok (s := ⟨m, next⟩) hr'.inv.uniq (Node.at?_mem hx), hr'⟩

/-- C76: no two accounts have the same address, and following the address of an account leads to it. -/
theorem C76_addresses {s : State} (h : Reach s) {p q : Path} {x y : Node} (hx : s.master.at? p = some x)
    (hy : s.master.at? q = some y) : (x.addr = y.addr ↔ p = q) ∧ s.deref x.addr = .ok x := by
  refine ⟨⟨Node.at?_inj h.inv.uniq hx hy, ?_⟩, deref_ok h.inv.uniq (Node.at?_mem hx)⟩
  rintro rfl
  rw [hx] at hy; injection hy with hy; rw [hy]

/-- C76: pushing a posting at the address of an account books it there and nowhere else. -/
theorem C76_push {s : State} (h : Reach s) {p : Path} {x : Node} (hx : s.master.at? p = some x) (r : PostRef) :
    (s.push x.addr r).master.erase = s.master.erase.pushPost p r := push_erase h.inv hx r

/-- C76: the trees in memory are the trees of the model: each tree in memory is one of the model, and each tree of a
journal is the tree of some memory. -/
theorem C76_same_trees {s : State} (h : Reach s) {j : Journal} (hj : j.Reachable) :
    Account.Reachable s.master.erase ∧ ∃ s', Reach s' ∧ s'.master.erase = j.master :=
  ⟨h.erase, exists_reach hj.tree⟩

/-- Registering names one after the other and pushing a posting each time. -/
def bookAll (s : State) : List (Str × PostRef) → Res State
  | [] => .ok s
  | (n, r) :: l => do
    let (s, a) ← s.register n
    match a with
    | none => .error .accountUnwrapNone
    | some a => bookAll (s.push a r) l

theorem bookAll_reach {s s' : State} (h : Reach s) (l : List (Str × PostRef)) (hb : bookAll s l = .ok s') : Reach s' := by
  induction l generalizing s with
  | nil => injection hb with hb; rw [← hb]; exact h
  | cons x l ih =>
    obtain ⟨n, r⟩ := x
    rw [bookAll] at hb
    cases hr : s.register n with
    | error e => rw [hr] at hb; cases hb
    | ok v =>
      obtain ⟨s1, a⟩ := v
      rw [hr] at hb
      simp only [bind, Except.bind] at hb
      cases a with
      | none => cases hb
      | some a => exact ih (.push a r (.register n h hr)) hb

/-- The state after registering four top level accounts, the first with a child: it was moved. -/
def movedState : Res State := bookAll State.new [(str "A:B", (0, 0)), (str "C", (0, 1)), (str "D", (1, 0)), (str "E", (1, 1))]

example : ∃ s, movedState = .ok s ∧ (s.master.at? [str "A"]).map Node.addr = some 5 ∧
    (s.master.at? [str "A", str "B"]).map (fun x => (x.addr, x.parent)) = some (2, some 1) ∧
    s.master.erase.flatten.map (·.1) = [[], [str "A"], [str "A", str "B"], [str "C"], [str "D"], [str "E"]] :=
  ok_and (by decide +kernel)

/-! ### C77 -/

/-- C77 is violated: after registering `A:B`, `C`, `D` and `E` the full name of `A:B` is looked for in freed memory. -/
theorem C77_fullname_violated :
    ∃ s, movedState = .ok s ∧ ∃ x, s.master.at? [str "A", str "B"] = some x ∧ s.fullname x.addr = .error .danglingPointer := by
  have : ∃ s, movedState = .ok s ∧ ((s.master.at? [str "A", str "B"]).any
      (fun x => match s.fullname x.addr with | .error .danglingPointer => true | _ => false)) = true :=
    ok_and (by decide +kernel)
  obtain ⟨s, h1, h2⟩ := this
  refine ⟨s, h1, ?_⟩
  cases hx : s.master.at? [str "A", str "B"] with
  | none => rw [hx] at h2; cases h2
  | some x =>
    rw [hx] at h2
    refine ⟨x, rfl, ?_⟩
    simp only [Option.any_some] at h2
    split at h2
    · assumption
    · cases h2

/-- C77 where it holds: the full name found through the parent pointers and the cache is the names of the path joined with
colons, provided no account two or more levels above has more than three children, or the name was asked for before.  Nothing
but the cache is changed.  In any case the result is that name or a read of freed memory, never another text and never an
endless loop.
Missing: accounts below an account whose table has grown; the claim is false for them. -/
theorem C77_fullname_partial {s : State} (h : Reach s) {p : Path} {x : Node} (hx : s.master.at? p = some x) :
    (NarrowAbove s.master.erase p ∨ x.cache ≠ [] → ∃ s', s.fullname x.addr = .ok (s', joined p)) ∧
    ((∃ s', s.fullname x.addr = .ok (s', joined p) ∧ s'.master.erase = s.master.erase ∧
        ∀ q, (s'.master.at? q).map Node.addr = (s.master.at? q).map Node.addr) ∨
      s.fullname x.addr = .error .danglingPointer) := by
  have hf := fullname_spec h.inv hx
  rw [joined_eq] at hf
  refine ⟨fun hc => hf.2 (hc.imp small_of_narrow id), ?_⟩
  rcases hf.1 with ⟨s', h1, _, h3, h4, _⟩ | ⟨h1, _⟩
  · exact Or.inl ⟨s', h1, h3, h4⟩
  · exact Or.inr h1

/-- C77: a full name once found is found again at any later time, whatever is registered or moved in between. -/
theorem C77_fullname_stays {s s1 s2 : State} (h : Reach s) {p : Path} {x : Node} {text : Str} (hx : s.master.at? p = some x)
    (hf : s.fullname x.addr = .ok (s1, text)) (hl : Later s1 s2) (ht : text ≠ []) :
    text = joined p ∧ ∃ y s3, s2.master.at? p = some y ∧ s2.fullname y.addr = .ok (s3, text) := by
  have hr1 : Reach s1 := .fullname h hx hf
  rcases (fullname_spec h.inv hx).1 with ⟨s', h1, _, _, _, _, _, h7⟩ | ⟨h1, _⟩
  · have hft : text = Account.fullname p ∧ s1 = s' := by
      rw [hf] at h1; injection h1 with h1; injection h1 with h1 h1'; exact ⟨h1', h1⟩
    obtain ⟨rfl, rfl⟩ := hft
    refine ⟨joined_eq p, ?_⟩
    have hp : p ≠ [] := by rintro rfl; exact ht rfl
    obtain ⟨y, hy, hc⟩ := h7 hp
    obtain ⟨z, hz, hzc⟩ := hl.cached hr1.inv hy (by rw [hc]; exact ht)
    obtain ⟨s3, h3⟩ := (fullname_spec (hl.inv hr1.inv) hz).2 (Or.inr (by rw [hzc, hc]; exact ht))
    exact ⟨z, s3, hz, h3⟩
  · rw [h1] at hf; cases hf

/-- The full name of `A:B` asked for before the table grows, and afterwards. -/
def askedBefore : Res (Str × Str) := do
  let (s, a) ← State.new.register (str "A:B")
  let (s, before) ← s.fullname (a.getD 0)
  let s ← bookAll s [(str "C", (0, 1)), (str "D", (1, 0)), (str "E", (1, 1))]
  let (s, a) ← s.register (str "A:B")
  let (_, after) ← s.fullname (a.getD 0)
  .ok (before, after)

example : askedBefore = .ok (str "A:B", str "A:B") := by decide +kernel

/-! ### C78 -/

theorem reportGo_spec {j : Journal} {t : Path → Balance}
    (ht : ∀ p a, j.master.at? p = some a → j.accountTotal a = .ok (t p)) (ps : List Path) (hps : ∀ p ∈ ps, j.master.Has p)
    {s : State} (h : Inv s) (he : s.master.erase = j.master) :
    ((∃ s', reportGo j ps s = .ok (s', ps.map (fun p => lineText (Account.fullname p) (t p))) ∧ s'.master.erase = s.master.erase) ∨
      reportGo j ps s = .error .danglingPointer) ∧
    ((∀ p ∈ ps, SmallAbove s.master p) →
      ∃ s', reportGo j ps s = .ok (s', ps.map (fun p => lineText (Account.fullname p) (t p)))) := by
  induction ps generalizing s with
  | nil => exact ⟨Or.inl ⟨s, rfl, rfl⟩, fun _ => ⟨s, rfl⟩⟩
  | cons p ps ih =>
    obtain ⟨a, ha⟩ := Option.isSome_iff_exists.mp (hps p (by simp))
    have hx : ∃ x, s.master.at? p = some x ∧ x.erase = a := by
      rw [← he, Node.at?_erase] at ha
      cases hx : s.master.at? p with
      | none => rw [hx] at ha; cases ha
      | some x => rw [hx] at ha; injection ha with ha; exact ⟨x, rfl, ha⟩
    obtain ⟨x, hx, hxa⟩ := hx
    have htot := ht p a ha
    rw [reportGo, hx]
    simp only [hxa, htot, bind, Except.bind]
    have hf := fullname_spec h hx
    rcases hf.1 with ⟨s', h1, h2, h3, _, _, h6, _⟩ | ⟨h1, _⟩
    · simp only [h1]
      have hrec := ih (fun q hq => hps q (List.mem_cons_of_mem _ hq)) h2 (h3.trans he)
      constructor
      · rcases hrec.1 with ⟨s2, g1, g2⟩ | g1
        · exact Or.inl ⟨s2, by rw [g1]; simp only [balanceLine_eq, List.map_cons], g2.trans h3⟩
        · exact Or.inr (by rw [g1])
      · intro hsm
        obtain ⟨s2, g1⟩ := hrec.2 (fun q hq => h6 q (hsm q (List.mem_cons_of_mem _ hq)))
        exact ⟨s2, by rw [g1]; simp only [balanceLine_eq, List.map_cons]⟩
    · constructor
      · exact Or.inr (by rw [h1])
      · intro hsm
        obtain ⟨s', g1⟩ := hf.2 (Or.inl (hsm p (by simp)))
        rw [h1] at g1; cases g1

theorem narrow_small {t : Node} (h : Narrow t.erase) (p : Path) (hp : (t.at? p).isSome) : SmallAbove t p := by
  apply small_of_narrow
  intro q a hq hl ha
  apply h q a ha
  obtain ⟨r, rfl⟩ := hq
  rw [List.length_append] at hl
  obtain ⟨x, hx⟩ := Option.isSome_iff_exists.mp hp
  have hx' : t.erase.at? (q ++ r) = some x.erase := by rw [Node.at?_erase, hx]; rfl
  rw [Account.at?_append, ha, Option.bind_some] at hx'
  match r, hl with
  | m :: k :: r, _ =>
    obtain ⟨an, ap, cs⟩ := a
    rw [Account.at?_cons] at hx'
    cases hc : Account.getChild m cs with
    | none => rw [hc] at hx'; cases hx'
    | some c =>
      rw [hc, Option.bind_some] at hx'
      obtain ⟨cn, cp, ccs⟩ := c
      rw [Account.at?_cons] at hx'
      refine ⟨_, (Account.getChild_some hc).1, ?_⟩
      intro e
      change ccs = [] at e
      rw [e] at hx'; cases hx'
  | [], hl => simp at hl
  | [m], hl => simp at hl

/-- C78 is violated: the balance report of a small journal with four top level accounts reads freed memory, although the same
tree without pointers has a report. -/
theorem C78_report_violated :
    ∃ j, parsed "2023-05-01 x\n A:B  1 EUR\n C\n\n2023-05-02 y\n D  1 EUR\n E\n" = .ok j ∧
      ∃ s, movedState = .ok s ∧ s.master.erase = j.master ∧
        (match Heap.balanceReport j s with | .error .danglingPointer => true | _ => false) = true ∧
        (Report.balanceReport j).toOption.isSome := by
  have h2 : ∃ s, movedState = .ok s ∧ True := ok_and (by decide +kernel)
  obtain ⟨s, hs, _⟩ := h2
  have h1 : ∃ j, parsed "2023-05-01 x\n A:B  1 EUR\n C\n\n2023-05-02 y\n D  1 EUR\n E\n" = .ok j ∧
      (match movedState with
        | .ok s => s.master.erase = j.master ∧ (match Heap.balanceReport j s with | .error .danglingPointer => true | _ => false) = true
        | .error _ => False) ∧ (Report.balanceReport j).toOption.isSome := by
    have : ∃ j, parsed "2023-05-01 x\n A:B  1 EUR\n C\n\n2023-05-02 y\n D  1 EUR\n E\n" = .ok j ∧
      (match movedState with
        | .ok s => decide (s.master.erase = j.master) && (match Heap.balanceReport j s with | .error .danglingPointer => true | _ => false)
        | .error _ => false) = true ∧ (Report.balanceReport j).toOption.isSome = true := ok_and (by decide +kernel)
    obtain ⟨j, hj, h3, h4⟩ := this
    refine ⟨j, hj, ?_, h4⟩
    rw [hs] at h3 ⊢
    simpa using h3
  obtain ⟨j, hj, h3, h4⟩ := h1
  rw [hs] at h3
  exact ⟨j, hj, s, hs, h3.1, h3.2, h4⟩

/-- C78 where it holds: for every journal a program can have and every memory that holds its account tree, if no account with
grandchildren has more than three children, the balance report has one line for each account, in order, each with the
full name and, for every commodity, the sum of the postings to the account and below.  In any case the report is that one or
ends with a read of freed memory.
Missing: larger tables; the claim is false for them. -/
theorem C78_report_partial {j : Journal} (hj : j.Reachable) (hr : InRange (allAmounts j)) {s : State} (h : Reach s)
    (he : s.master.erase = j.master) :
    ∃ t : Path → Balance,
      (∀ p, j.master.Has p → (∀ c, (t p).totalIn c = sumIn c (amountsBelow j p)) ∧ (t p).OneEach ∧
        ∀ c, c ∈ (t p).amounts.map (·.comm) ↔ c ∈ (amountsBelow j p).map (·.comm)) ∧
      (Narrow j.master → ∃ s', Heap.balanceReport j s =
        .ok (s', j.master.flatten.map (fun x => lineText (joined x.1) (t x.1)))) ∧
      ((∃ s', Heap.balanceReport j s = .ok (s', j.master.flatten.map (fun x => lineText (joined x.1) (t x.1)))) ∨
        Heap.balanceReport j s = .error .danglingPointer) := by
  obtain ⟨t, h1, ht⟩ := journal_totals hj hr
  have hw := hj.booked.wf
  have hps : ∀ p ∈ s.master.erase.flatten.map (·.1), j.master.Has p := by
    intro p hp
    obtain ⟨⟨q, x⟩, hq, rfl⟩ := List.mem_map.mp hp
    rw [he] at hq
    obtain ⟨b, hb, _⟩ := (Account.mem_flatten hw q x).mp hq
    show (j.master.at? q).isSome
    rw [hb]; rfl
  have hg := reportGo_spec ht (s.master.erase.flatten.map (·.1)) hps h.inv he
  rw [List.map_map] at hg
  have e : (fun p => lineText (Account.fullname p) (t p)) ∘ (fun x : Path × Str => x.1) =
      fun x => lineText (joined x.1) (t x.1) := by
    funext x; simp only [Function.comp, joined_eq]
  rw [e] at hg
  refine ⟨t, h1, ?_, ?_⟩
  · intro hn
    obtain ⟨s', g⟩ := hg.2 (fun p hp => narrow_small (by rw [he]; exact hn) p (by
      have := hps p hp
      rw [← he] at this
      unfold Account.Has at this
      rw [Node.at?_erase] at this
      simpa using this))
    exact ⟨s', by unfold Heap.balanceReport; rw [g, he]⟩
  · rcases hg.1 with ⟨s', g, _⟩ | g
    · exact Or.inl ⟨s', by unfold Heap.balanceReport; rw [g, he]⟩
    · exact Or.inr g

/-- A way to check that a tree is narrow. -/
theorem narrow_of_flatten {a : Account} (hw : a.WF)
    (h : (a.flatten.all (fun y => (a.at? y.1).all (fun x => decide (x.children.length ≤ 3)))) = true) : Narrow a := by
  intro q x hx _
  rw [List.all_eq_true] at h
  have := h (q, x.name) ((Account.mem_flatten hw q x.name).mpr ⟨x, hx, rfl⟩)
  simp only [hx, Option.all_some, decide_eq_true_eq] at this
  exact this

/-- A journal with three top level accounts, two of them with children, and its accounts in memory. -/
def narrowText : String := "2023-05-01 x\n A:B  1 EUR\n C:D\n\n2023-05-02 y\n E  2 EUR\n A:F\n"
def narrowState : Res State :=
  bookAll State.new [(str "A:B", (0, 0)), (str "C:D", (0, 1)), (str "E", (1, 0)), (str "A:F", (1, 1))]

example : ∃ j, parsed narrowText = .ok j ∧ Narrow j.master ∧ ∃ s, narrowState = .ok s ∧ Reach s ∧ s.master.erase = j.master := by
  have h1 : ∃ j, parsed narrowText = .ok j ∧
      (j.master.flatten.all (fun y => (j.master.at? y.1).all (fun x => decide (x.children.length ≤ 3)))) = true ∧
      (match narrowState with | .ok s => decide (s.master.erase = j.master) | .error _ => false) = true :=
    ok_and (by decide +kernel)
  obtain ⟨j, hj, h2, h3⟩ := h1
  cases hs : narrowState with
  | error e => rw [hs] at h3; cases h3
  | ok s =>
    rw [hs] at h3
    have h4 : s.master.erase = j.master := by simpa using h3
    have hr : Reach s := bookAll_reach .refl _ hs
    exact ⟨j, hj, narrow_of_flatten (h4 ▸ Account.reachable_wf hr.erase) h2, s, rfl, hr, h4⟩

example : (do let j ← parsed narrowText; let s ← narrowState; let (_, lines) ← Heap.balanceReport j s; .ok lines) =
    .ok [str "Account  has balance 0 EUR", str "Account A has balance -1 EUR", str "Account A:B has balance 1 EUR",
      str "Account A:F has balance -2 EUR", str "Account C has balance -1 EUR", str "Account C:D has balance -1 EUR",
      str "Account E has balance 2 EUR"] := by decide +kernel

end Ledger
