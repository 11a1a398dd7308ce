import Verif.Lemmas.MachineRead
import Verif.Lemmas.HeapNames
/-
The program with its pointers does what the main model says until it follows a pointer to freed memory: reports.
-/
namespace Ledger.Machine
open Ledger Ledger.Memory Ledger.Heap

/-- A run of the main model and one of the machine, as in `Sim` but with nothing said of when the machine follows a dangling pointer in
a run that fails. -/
def Near {α β : Type} (R : α → β → Prop) (L : α → Prop) : Res α → Res β → Prop
  | .ok a, .ok b => R a b
  | .ok a, .error e => e = .danglingPointer ∧ L a
  | .error e, .error e' => e' = e ∨ e' = .danglingPointer
  | .error _, .ok _ => False

theorem Sim.near {α β : Type} {R : α → β → Prop} {L : α → Prop} {m : Res α} {M : Res β} (h : Sim R L m M) : Near R L m M := by
  cases m <;> cases M
  · exact h.imp id (·.1)
  · exact h
  · exact h
  · exact h

theorem Near.dangling {α β : Type} {R : α → β → Prop} {L : α → Prop} {m : Res α} (h : ∀ a, m = .ok a → L a) :
    Near R L m (.error .danglingPointer) := by
  cases m with
  | error e => exact Or.inr rfl
  | ok a => exact ⟨rfl, h a rfl⟩

theorem Near.bind' {α β γ δ : Type} {R : α → β → Prop} {L : α → Prop} {R' : γ → δ → Prop} {L' : γ → Prop} {m : Res α} {M : Res β}
    {f : α → Res γ} {F : β → Res δ} (h : Near R L m M) (hl : ∀ a c, m = .ok a → L a → f a = .ok c → L' c)
    (hf : ∀ a b, m = .ok a → R a b → Near R' L' (f a) (F b)) : Near R' L' (m >>= f) (M >>= F) := by
  cases m with
  | error e =>
    cases M with
    | error e' => exact h
    | ok b => exact h.elim
  | ok a =>
    cases M with
    | error e' =>
      obtain ⟨rfl, h⟩ := h
      exact Near.dangling (fun c hc => hl a c rfl h hc)
    | ok b => exact hf a b rfl h

theorem Near.bind {α β γ δ : Type} {R : α → β → Prop} {L : α → Prop} {R' : γ → δ → Prop} {L' : γ → Prop} {m : Res α} {M : Res β}
    {f : α → Res γ} {F : β → Res δ} (h : Near R L m M) (hl : ∀ a c, L a → f a = .ok c → L' c)
    (hf : ∀ a b, R a b → Near R' L' (f a) (F b)) : Near R' L' (m >>= f) (M >>= F) :=
  Near.bind' h (fun a c _ => hl a c) (fun a b _ => hf a b)

theorem Near.fail {α β : Type} {R : α → β → Prop} {L : α → Prop} (e : Panic) : Near R L (.error e) (.error e) := Or.inl rfl

theorem Near.mono {α β : Type} {R R' : α → β → Prop} {L L' : α → Prop} {m : Res α} {M : Res β} (h : Near R L m M)
    (hr : ∀ a b, R a b → R' a b) (hl : ∀ a, L a → L' a) : Near R' L' m M := by
  cases m <;> cases M
  · exact h
  · exact h
  · exact ⟨h.1, hl _ h.2⟩
  · exact hr _ _ h

theorem Near.same {α : Type} {L : α → Prop} (m : Res α) : Near (fun a b => a = b) L m m := by
  cases m with
  | error e => exact Or.inl rfl
  | ok a => rfl

/-- Many commodities, or a transaction with many postings. -/
def Long (j : Journal) : Prop := Big j ∨ ∃ x ∈ j.xacts, 4 < x.posts.length

section
variable {j : Journal} {J : Jrn} (h : JrnR j J) (stays : Nat → Bool)
include h

theorem JrnR.big (hl : 3 < J.store.keys.length) : Long j := by
  left
  show 3 < j.pool.len
  rw [← h.pool]; simpa [Pool.len, Store.er, Store.keys] using hl

theorem derefPost_cases (r : PostRef) :
    (∃ x X, j.postAt r = some x ∧ derefPost stays J r = .ok X ∧ PostR J.store.keys x X) ∨
      (derefPost stays J r = .error .danglingPointer ∧ ((j.postAt r).isSome → Long j)) := by
  unfold Journal.postAt derefPost
  rcases forall₂_getElem? r.1 h.xacts with ⟨n1, n2⟩ | ⟨x, X, n1, n2, n3⟩
  · rw [n1, n2]; exact Or.inr ⟨rfl, by intro e; cases e⟩
  · rw [n1, n2]
    simp only
    rcases forall₂_getElem? r.2 n3.posts with ⟨m1, m2⟩ | ⟨y, Y, m1, m2, m3⟩
    · rw [m1, m2]
      right
      refine ⟨?_, by intro e; cases e⟩
      split <;> rfl
    · rw [m1, m2]
      by_cases hb : storedPost stays r = ⟨block vecNext stays X.posts.length, r.2⟩
      · rw [if_pos hb]; exact Or.inl ⟨y, Y, rfl, rfl, m3⟩
      · rw [if_neg hb]
        refine Or.inr ⟨rfl, fun _ => ?_⟩
        right
        refine ⟨x, List.mem_of_getElem? n1, ?_⟩
        by_contra hc
        apply hb
        have hr : r.2 < X.posts.length := (List.getElem?_eq_some_iff.mp m2).1
        have hx : X.posts.length ≤ 4 := by have := n3.posts.length_eq; omega
        unfold storedPost
        rw [(room_block_fits (next := vecNext) (stays := stays) (n := 1) (m := r.2 + 1) (by omega) (by show _ ≤ 4; omega)).2,
          (room_block_fits (next := vecNext) (stays := stays) (n := 1) (m := X.posts.length) (by omega) hx).2]

end

theorem Sound.mono {p : Store} {Q : Addr → Prop} {E E' : Prop} (h : Sound p Q E) (he : E → E') : Sound p Q E' :=
  ⟨h.fine, h.taken, fun a ha => (h.live a ha).imp_right he⟩

/-- Pointers to postings that can be followed to amounts whose pointers can be followed, or the journal is such that it cannot
be told. -/
structure Fair (stays : Nat → Bool) (j : Journal) (J : Jrn) (Q : Addr → Prop) (L : Prop) : Prop where
  sound : Sound J.store Q L
  posts : ∀ r, (∃ x X, j.postAt r = some x ∧ derefPost stays J r = .ok X ∧ OptRQ J.store.keys Q x.amount X.amount) ∨
    (derefPost stays J r = .error .danglingPointer ∧ ((j.postAt r).isSome → L))

theorem fair_long {j : Journal} {J : Jrn} (h : JrnR j J) (stays : Nat → Bool) : Fair stays j J (Taken J.store.keys) (Long j) :=
  ⟨(sound_taken h.fine).mono h.big, fun r => (derefPost_cases h stays r).imp_left
    (fun ⟨x, X, e1, e2, e3⟩ => ⟨x, X, e1, e2, e3.amount⟩)⟩

section
variable {j : Journal} {J : Jrn} {stays : Nat → Bool} {Q : Addr → Prop} {L : Prop} (g : Fair stays j J Q L)
include g

theorem amountGo_sim (rs : List PostRef) {b : Balance} {B : List Amt} (hb : AmtsQ J.store.keys Q b.amounts B) :
    Near (fun r R => AmtsQ J.store.keys Q r.amounts R) (fun _ => L) (j.amountGo rs b) (amountGo stays J rs B) := by
  induction rs generalizing b B with
  | nil => exact hb
  | cons r rs ih =>
    rw [Journal.amountGo, amountGo]
    rcases g.posts r with ⟨x, X, e1, e2, e3⟩ | ⟨e1, e2⟩
    · rw [e1, e2]
      show Near _ _ (match x.amount with | none => _ | some a => _) (match X.amount with | none => _ | some a => _)
      obtain ⟨f1, f2⟩ := e3
      rw [f1]
      cases hX : X.amount with
      | none => exact ih hb
      | some A =>
        exact Near.bind (add_bal_sim g.sound hb (f2 A hX)).near (fun _ _ hl _ => hl) (fun a c hac => ih hac)
    · rw [e1]
      refine Near.dangling ?_
      intro a ha
      cases hp : j.postAt r with
      | none => rw [hp] at ha; cases ha
      | some x => exact e2 (by rw [hp]; rfl)

theorem totalGo_sim {α : Type} (f : α → Res Balance) (F : α → Res (List Amt)) (l : List (Str × α))
    (hf : ∀ x ∈ l, Near (fun r R => AmtsQ J.store.keys Q r.amounts R) (fun _ => L) (f x.2) (F x.2))
    {b : Balance} {B : List Amt} (hb : AmtsQ J.store.keys Q b.amounts B) :
    Near (fun r R => AmtsQ J.store.keys Q r.amounts R) (fun _ => L) (Journal.totalGo (l.map (fun r => (r.1, f r.2))) b)
      (totalGo J.store (l.map (fun r => (r.1, F r.2))) B) := by
  induction l generalizing b B with
  | nil => exact hb
  | cons x l ih =>
    rw [List.map_cons, List.map_cons, Journal.totalGo, totalGo]
    refine Near.bind (hf x (by simp)) (fun _ _ hl _ => hl) ?_
    intro s S hs
    exact Near.bind (addAll_sim g.sound hb hs).near (fun _ _ hl _ => hl)
      (fun a c hac => ih (fun y hy => hf y (List.mem_cons_of_mem _ hy)) hac)

omit g in
theorem accountTotal_mk' (n : Str) (ps : List PostRef) (cs : List Account) :
    accountTotal stays J (.mk n ps cs) = (do
      let b ← totalGo J.store (sortByKey (cs.map (fun c => (c.name, accountTotal stays J c)))) []
      let own ← amountGo stays J ps []
      addAll J.store b own) := by
  unfold accountTotal; rw [Account.fold_mk]

theorem accountTotal_sim (a : Account) :
    Near (fun r R => AmtsQ J.store.keys Q r.amounts R) (fun _ => L) (j.accountTotal a) (accountTotal stays J a) := by
  induction a using Account.ind with
  | h n ps cs ih =>
    rw [accountTotal_mk, accountTotal_mk']
    have e1 : ∀ {β : Type} (f : Account → β), cs.map (fun c => (c.name, f c)) =
        (cs.map (fun c => (c.name, c))).map (fun r => (r.1, f r.2)) := by intro β f; simp
    rw [e1 (fun c => j.accountTotal c), e1 (fun c => accountTotal stays J c), sortByKey_mapVal (fun c => j.accountTotal c),
      sortByKey_mapVal (fun c => accountTotal stays J c)]
    refine Near.bind (totalGo_sim g _ _ _ ?_ (AmtsQ.nil _ _)) (fun _ _ hl _ => hl) ?_
    · intro x hx
      rw [(sortByKey_perm _).mem_iff, List.mem_map] at hx
      obtain ⟨c, hc, rfl⟩ := hx
      exact ih c hc
    · intro b B hb
      refine Near.bind (amountGo_sim g ps (AmtsQ.nil _ _)) (fun _ _ hl _ => hl) ?_
      intro own OWN ho
      exact (addAll_sim g.sound hb ho).near.mono (fun _ _ h => h) (fun _ hl => hl)

theorem showBalance_cases {l : List Amount} {B : List Amt} (hl : AmtsQ J.store.keys Q l B) :
    showBalance J.store B = .ok (Report.showBalance ⟨l⟩) ∨ (showBalance J.store B = .error .danglingPointer ∧ L) := by
  obtain ⟨rfl, hl⟩ := hl
  induction B with
  | nil => exact Or.inl rfl
  | cons a B ih =>
    rw [showBalance]
    rcases look_cases g.sound (hl a (by simp)) with ⟨x, x1, x2, _, _⟩ | ⟨x1, x2⟩
    · rw [x1]
      rcases ih (fun b hb => hl b (List.mem_cons_of_mem _ hb)) with e | ⟨e1, e2⟩
      · left
        rw [e]
        have hc : (a.er J.store.keys).comm = x.map (·.symbol) := by rw [x2]; rfl
        show _ = Except.ok (Report.showAmount (a.er J.store.keys) ++ Report.showBalance ⟨B.map (Amt.er J.store.keys)⟩)
        unfold Report.showAmount
        rw [hc]
        cases x <;> rfl
      · exact Or.inr ⟨by rw [e1]; rfl, e2⟩
    · exact Or.inr ⟨by rw [x1]; rfl, x2⟩

theorem reportGo_sim {t : Path → Balance} (ht : ∀ p a, j.master.at? p = some a → j.accountTotal a = .ok (t p)) (ps : List Path)
    (hps : ∀ p ∈ ps, j.master.Has p) {s : State} (hi : Inv s) (he : s.master.erase = j.master) :
    (∃ s', reportGo stays J ps s = .ok (s', ps.map (fun p => Report.balanceLine (Account.fullname p) (t p)))) ∨
      (reportGo stays J ps s = .error .danglingPointer ∧ (L ∨ ¬ ParentsRight s)) := by
  induction ps generalizing s with
  | nil => exact Or.inl ⟨s, rfl⟩
  | cons p ps ih =>
    obtain ⟨a, ha⟩ := Option.isSome_iff_exists.mp (hps p (by simp))
    have hx : ∃ x, s.master.at? p = some x ∧ x.erase = a := by
      rw [← he, Node.at?_erase] at ha
      cases hx : s.master.at? p with
      | none => rw [hx] at ha; cases ha
      | some x => rw [hx] at ha; injection ha with ha; exact ⟨x, rfl, ha⟩
    obtain ⟨x, hx, hxa⟩ := hx
    have htot := ht p a ha
    have hsim := accountTotal_sim g a
    rw [htot] at hsim
    rw [reportGo, hx]
    simp only [hxa, bind, Except.bind]
    cases hM : accountTotal stays J a with
    | error e =>
      rw [hM] at hsim
      obtain ⟨rfl, hl⟩ := hsim
      exact Or.inr ⟨rfl, Or.inl hl⟩
    | ok T =>
      rw [hM] at hsim
      simp only
      rcases showBalance_cases g hsim with e | ⟨e, hl⟩
      · rw [e]
        simp only
        have hf := fullname_spec hi hx
        have hr := fullname_right hi (hx := hx)
        rcases hf.1 with ⟨s', h1, h2, h3, _, _, h6, _⟩ | ⟨h1, _⟩
        · simp only [h1]
          rcases ih (fun q hq => hps q (List.mem_cons_of_mem _ hq)) h2 (h3.trans he) with ⟨s2, g1⟩ | ⟨g1, g2⟩
          · exact Or.inl ⟨s2, by rw [g1]; rfl⟩
          · refine Or.inr ⟨by rw [g1], g2.imp_right (fun g hp => g ?_)⟩
            obtain ⟨s2, n, e1, e2⟩ := hr hp
            rw [h1] at e1
            injection e1 with e1
            injection e1 with e1
            rw [e1]; exact e2
        · refine Or.inr ⟨by rw [h1], Or.inr ?_⟩
          intro hp
          obtain ⟨s2, n, e1, _⟩ := hr hp
          rw [h1] at e1; cases e1
      · rw [e]; exact Or.inr ⟨rfl, Or.inl hl⟩

end

/-- A journal in which a pointer to freed memory may be followed when a report is made. -/
def Loose (j : Journal) : Prop := Long j ∨ ¬ Narrow j.master


theorem totalGo_parts {l : List (Str × Res Balance)} {b r : Balance} (h : Journal.totalGo l b = .ok r) : ∀ x ∈ l, ∃ s, x.2 = .ok s := by
  induction l generalizing b with
  | nil => intro x hx; cases hx
  | cons y l ih =>
    obtain ⟨n, y⟩ := y
    rw [Journal.totalGo] at h
    cases y with
    | error e => cases h
    | ok s =>
      cases hb : b.addBalance s with
      | error e => simp [hb, bind, Except.bind] at h
      | ok b' =>
        simp only [hb, bind, Except.bind] at h
        intro x hx
        rcases List.mem_cons.mp hx with rfl | hx
        · exact ⟨s, rfl⟩
        · exact ih h x hx

/-- If an account has a total, so have the accounts below. -/
theorem total_below {j : Journal} (p : Path) {a b : Account} {r : Balance} (h : j.accountTotal a = .ok r) (hp : a.at? p = some b) :
    ∃ s, j.accountTotal b = .ok s := by
  induction p generalizing a r with
  | nil => rw [Account.at?_nil] at hp; injection hp with hp; rw [← hp]; exact ⟨r, h⟩
  | cons n p ih =>
    obtain ⟨an, ap, cs⟩ := a
    rw [Account.at?_cons] at hp
    cases hc : Account.getChild n cs with
    | none => rw [hc] at hp; cases hp
    | some c =>
      rw [hc] at hp
      rw [accountTotal_mk] at h
      cases ht : Journal.totalGo (sortByKey (cs.map (fun c => (c.name, j.accountTotal c)))) Balance.empty with
      | error e => rw [ht] at h; cases h
      | ok v =>
        have hm : (c.name, j.accountTotal c) ∈ sortByKey (cs.map (fun c => (c.name, j.accountTotal c))) := by
          rw [(sortByKey_perm _).mem_iff]
          exact List.mem_map.mpr ⟨c, (Account.getChild_some hc).1, rfl⟩
        obtain ⟨s, hs⟩ := totalGo_parts ht _ hm
        exact ih hs hp

theorem balanceReport_fair {j : Journal} {J : Jrn} (h : JrnR j J) {stays : Nat → Bool} {Q : Addr → Prop} {L : Prop} (g : Fair stays j J Q L) :
    Near (fun r R => r = R) (fun _ => L ∨ ¬ ParentsRight J.tree) (Report.balanceReport j) (balanceReport stays J) := by
  have hw : j.master.WF := by rw [← h.erase]; exact Account.reachable_wf h.tree.erase
  have hsim := accountTotal_sim g j.master
  unfold balanceReport
  rw [h.erase]
  cases ht : j.accountTotal j.master with
  | error e =>
    rw [ht] at hsim
    have hmain : Report.balanceReport j = .error e := by
      unfold Report.balanceReport Report.childrenLines
      have hl := linesFold_total j j.master
      revert hl ht
      cases j.master with
      | mk n ps cs =>
        intro ht hl
        rw [linesFold_mk] at hl ⊢
        simp only at hl ⊢
        rw [hl, ht]
        rfl
    rw [hmain]
    obtain ⟨tl, hfl⟩ : ∃ tl, j.master.flatten.map (·.1) = [] :: tl := by
      cases hm : j.master with
      | mk n ps cs => exact ⟨_, by rw [Account.flatten_mk]; rfl⟩
    rw [hfl, reportGo, Node.at?_nil]
    simp only [h.erase]
    cases hM : accountTotal stays J j.master with
    | error e' => rw [hM] at hsim; exact hsim
    | ok T => rw [hM] at hsim; exact hsim.elim
  | ok r =>
    have hex : ∀ p, ∃ b, ∀ a, j.master.at? p = some a → j.accountTotal a = .ok b := by
      intro p
      cases hp : j.master.at? p with
      | none => exact ⟨Balance.empty, by intro a ha; cases ha⟩
      | some a =>
        obtain ⟨s, hs⟩ := total_below p ht hp
        exact ⟨s, by intro a' ha'; injection ha' with ha'; rw [← ha']; exact hs⟩
    choose t ht' using hex
    have hmain : Report.balanceReport j = .ok (j.master.flatten.map (fun x => lineText (Account.fullname ([] ++ x.1)) (t x.1))) :=
      childrenLines_eq j j.master hw t (fun p b hb => ht' p b hb) []
    rw [hmain]
    have hps : ∀ p ∈ j.master.flatten.map (·.1), j.master.Has p := by
      intro p hp
      obtain ⟨⟨q, x⟩, hq, rfl⟩ := List.mem_map.mp hp
      obtain ⟨b, hb, _⟩ := (Account.mem_flatten hw q x).mp hq
      show (j.master.at? q).isSome
      rw [hb]; rfl
    rcases reportGo_sim g (fun p a ha => ht' p a ha) _ hps h.tree.inv h.erase with ⟨s', e⟩ | ⟨e1, e2⟩
    · rw [e]
      show _ = _
      rw [List.map_map]
      apply List.map_congr_left
      intro x _
      simp only [List.nil_append, Function.comp, balanceLine_eq]
    · rw [e1]; exact ⟨rfl, e2⟩

theorem balanceReport_sim' {j : Journal} {J : Jrn} (h : JrnR j J) (stays : Nat → Bool) :
    Near (fun r R => r = R) (fun _ => Long j ∨ ¬ ParentsRight J.tree) (Report.balanceReport j) (balanceReport stays J) :=
  balanceReport_fair h (fair_long h stays)

theorem balanceReport_sim {j : Journal} {J : Jrn} (h : JrnR j J) (stays : Nat → Bool) :
    Near (fun r R => r = R) (fun _ => Loose j) (Report.balanceReport j) (balanceReport stays J) := by
  refine (balanceReport_sim' h stays).mono (fun _ _ h => h) (fun _ hl => hl.imp_right (fun hp hn => hp ?_))
  refine parents_narrow h.tree.inv (by rw [h.erase]; exact hn) (Account.reachable_wf h.tree.erase)

theorem executeCommand_sim (stays : Nat → Bool) (files : Parser.Files) (depth : Nat) (commands fs : List Str) :
    Near (fun r R => r = R) (fun _ => ∃ j, Cli.readFiles files depth fs Journal.new = .ok j ∧ Loose j)
      (Cli.executeCommand files depth commands fs) (executeCommand stays files depth commands fs) := by
  unfold Cli.executeCommand executeCommand
  cases commands with
  | nil => exact Near.fail _
  | cons verb _ =>
    refine Near.bind' (readFiles_sim files depth fs jrnR_new).near (fun a _ ha hl _ => ⟨a, ha, Or.inl (Or.inl hl)⟩) ?_
    intro j J hj h
    cases verb with
    | nil => exact Near.fail _
    | cons c cs =>
      simp only
      by_cases ha : c = 'a'
      · rw [if_pos ha, if_pos ha, h.erase]; rfl
      · rw [if_neg ha, if_neg ha]
        by_cases hb : c = 'b'
        · rw [if_pos hb, if_pos hb]
          split
          · exact (balanceReport_sim h stays).mono (fun _ _ h => h) (fun _ hl => ⟨j, hj, hl⟩)
          · exact Near.fail _
        · rw [if_neg hb, if_neg hb]; exact Near.fail _

theorem run_sim (stays : Nat → Bool) (files : Parser.Files) (depth : Nat) (args : List Str) :
    Near (fun r R => r = R) (fun _ => ∃ commands fs j, Options.processArguments args = .ok (commands, fs) ∧
      Cli.readFiles files depth fs Journal.new = .ok j ∧ Loose j) (Cli.run files depth args) (run stays files depth args) := by
  unfold Cli.run run
  refine Near.bind' (Near.same (L := fun _ => False) _) (fun _ _ _ hl _ => hl.elim) ?_
  rintro ⟨commands, fs⟩ _ ho rfl
  exact (executeCommand_sim stays files depth commands fs).mono (fun _ _ h => h)
    (fun _ ⟨j, h1, h2⟩ => ⟨commands, fs, j, ho, h1, h2⟩)

end Ledger.Machine
