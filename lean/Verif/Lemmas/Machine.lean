import Verif.Model.Machine
import Verif.Lemmas.Memory
import Verif.Lemmas.Pool
/-
The program with its pointers does what the main model says until it follows a pointer to freed memory: commodities,
amounts, balances and the finalisation of a transaction.
-/
namespace Ledger.Machine
open Ledger Ledger.Memory

/-- A run of the main model and one of the machine: they give related results or the same panic, or the machine follows a
dangling pointer, which after a successful run it does only if the result is large, and otherwise only if it can be large. -/
def Sim {α β : Type} (R : α → β → Prop) (L : α → Prop) : Res α → Res β → Prop
  | .ok a, .ok b => R a b
  | .ok a, .error e => e = .danglingPointer ∧ L a
  | .error e, .error e' => e' = e ∨ (e' = .danglingPointer ∧ ∃ a, L a)
  | .error _, .ok _ => False

instance : Inhabited Pool := ⟨Pool.empty⟩
instance : Inhabited Journal := ⟨Journal.new⟩
instance : Inhabited Amount := ⟨⟨Dec.zero, none⟩⟩
instance : Inhabited Balance := ⟨⟨[]⟩⟩
instance : Inhabited CostBreakdown := ⟨⟨default, default, default⟩⟩
instance : Inhabited Xact := ⟨⟨none, none, [], [], none⟩⟩

/-- If one of two results can be large, so can the other. -/
macro "can_be_large" : tactic => `(tactic| first
  | exact id
  | exact fun h => Exists.elim h (fun _ h => h.elim)
  | exact fun h => Exists.elim h (fun _ h => ⟨default, h⟩)
  | exact fun h => Exists.elim h (fun _ h => ⟨Classical.choice inferInstance, h⟩))

theorem Sim.dangling {α β : Type} {R : α → β → Prop} {L : α → Prop} {m : Res α} (h : ∀ a, m = .ok a → L a) (hx : ∃ a, L a) :
    Sim R L m (.error .danglingPointer) := by
  cases m with
  | error e => exact Or.inr ⟨rfl, hx⟩
  | ok a => exact ⟨rfl, h a rfl⟩

theorem Sim.dangle {α β : Type} [Nonempty α] {R : α → β → Prop} {E : Prop} {m : Res α} (h : E) :
    Sim R (fun _ => E) m (.error .danglingPointer) := Sim.dangling (fun _ _ => h) ⟨Classical.choice inferInstance, h⟩

theorem Sim.bindEq {α β γ δ : Type} {R : α → β → Prop} {L : α → Prop} {R' : γ → δ → Prop} {L' : γ → Prop} {m : Res α} {M : Res β}
    {f : α → Res γ} {F : β → Res δ} (h : Sim R L m M) (hl : ∀ a c, L a → f a = .ok c → L' c)
    (hf : ∀ a b, m = .ok a → R a b → Sim R' L' (f a) (F b)) (hx : (∃ a, L a) → ∃ c, L' c := by can_be_large) :
    Sim R' L' (m >>= f) (M >>= F) := by
  cases m with
  | error e =>
    cases M with
    | error e' => exact h.imp id (fun h => ⟨h.1, hx h.2⟩)
    | ok b => exact h.elim
  | ok a =>
    cases M with
    | error e' =>
      obtain ⟨rfl, h⟩ := h
      exact Sim.dangling (fun c hc => hl a c h hc) (hx ⟨a, h⟩)
    | ok b => exact hf a b rfl h

theorem Sim.bind {α β γ δ : Type} {R : α → β → Prop} {L : α → Prop} {R' : γ → δ → Prop} {L' : γ → Prop} {m : Res α} {M : Res β}
    {f : α → Res γ} {F : β → Res δ} (h : Sim R L m M) (hl : ∀ a c, L a → f a = .ok c → L' c)
    (hf : ∀ a b, R a b → Sim R' L' (f a) (F b)) (hx : (∃ a, L a) → ∃ c, L' c := by can_be_large) :
    Sim R' L' (m >>= f) (M >>= F) := Sim.bindEq h hl (fun a b _ => hf a b) hx

theorem Sim.fail {α β : Type} {R : α → β → Prop} {L : α → Prop} (e : Panic) : Sim R L (.error e) (.error e) := Or.inl rfl

theorem Sim.mono {α β : Type} {R R' : α → β → Prop} {L L' : α → Prop} {m : Res α} {M : Res β} (h : Sim R L m M)
    (hr : ∀ a b, R a b → R' a b) (hl : ∀ a, L a → L' a) : Sim R' L' m M := by
  cases m <;> cases M
  · exact h.imp id (fun h => ⟨h.1, h.2.imp hl⟩)
  · exact h
  · exact ⟨h.1, hl _ h.2⟩
  · exact hr _ _ h

theorem Sim.same {α : Type} {L : α → Prop} (m : Res α) : Sim (fun a b => a = b) L m m := by
  cases m with
  | error e => exact Or.inl rfl
  | ok a => rfl

/-- The symbol with a number. -/
def keyAt (ks : List Str) (i : Nat) : Str := (ks[i]?).getD []

def Amt.er (ks : List Str) (a : Amt) : Amount := ⟨a.qty, a.ptr.map (fun x => keyAt ks x.slot)⟩

def Ann.er (ks : List Str) (a : Ann) : Annotation := ⟨a.price.map (Amt.er ks), a.date⟩

def Store.er (p : Store) : Pool :=
  ⟨p.commodities, p.annotated.map (fun x => (x.1, x.2.er p.keys)), ⟨p.nodes.map (fun a => keyAt p.keys a.slot), p.edges⟩⟩

/-- A pointer that was taken when the table had `n` entries. -/
def Taken (ks : List Str) (a : Addr) : Prop := ∃ n, a.slot < n ∧ n ≤ ks.length ∧ a.block = tableBlock n

/-- The pointer of an amount, if it has one, is of a kind. -/
def GoodQ (Q : Addr → Prop) (a : Amt) : Prop := ∀ x, a.ptr = some x → Q x

abbrev Good (ks : List Str) : Amt → Prop := GoodQ (Taken ks)

structure Store.Fine (p : Store) : Prop where
  inv : p.er.Inv
  nodes : ∀ a ∈ p.nodes, Taken p.keys a
  anns : ∀ x ∈ p.annotated, ∀ pr, x.2.price = some pr → Good p.keys pr

theorem tableBlock_one {n : Nat} (h1 : 1 ≤ n) (h3 : n ≤ 3) : tableBlock n = 1 := by
  unfold tableBlock
  rw [(room_block_fits (n := 1) h1 (by exact h3)).2]
  decide

theorem Taken.small {ks : List Str} {a : Addr} (h : Taken ks a) (hl : ks.length ≤ 3) : a.block = tableBlock ks.length := by
  obtain ⟨n, h1, h2, h3⟩ := h
  rw [h3, tableBlock_one (by omega) (by omega), tableBlock_one (by omega) hl]

theorem Taken.slot {ks : List Str} {a : Addr} (h : Taken ks a) : a.slot < ks.length := by
  obtain ⟨n, h1, h2, _⟩ := h; omega

theorem Taken.mono {ks ks' : List Str} {a : Addr} (h : Taken ks a) (hp : ks <+: ks') : Taken ks' a := by
  obtain ⟨n, h1, h2, h3⟩ := h
  exact ⟨n, h1, Nat.le_trans h2 hp.length_le, h3⟩

theorem Good.mono {ks ks' : List Str} {a : Amt} (h : Good ks a) (hp : ks <+: ks') : Good ks' a := fun x hx => (h x hx).mono hp

theorem keyAt_mono {ks ks' : List Str} {i : Nat} (hi : i < ks.length) (hp : ks <+: ks') : keyAt ks' i = keyAt ks i := by
  obtain ⟨t, rfl⟩ := hp
  unfold keyAt
  rw [List.getElem?_append_left hi]

theorem Good.er {ks ks' : List Str} {a : Amt} (h : Good ks a) (hp : ks <+: ks') : a.er ks' = a.er ks := by
  unfold Amt.er
  cases hx : a.ptr with
  | none => rfl
  | some x => simp only [Option.map_some]; rw [keyAt_mono (h x hx).slot hp]

theorem Store.keys_er (p : Store) : p.er.commodities.map (·.1) = p.keys := rfl

theorem Store.Fine.nodup {p : Store} (h : p.Fine) : p.keys.Nodup := by
  have := h.inv.keys; rw [Store.keys_er] at this; rw [this]; exact h.inv.nodup

/-- Pointers of a kind that can be followed, or the table is such that it cannot be told. -/
structure Sound (p : Store) (Q : Addr → Prop) (E : Prop) : Prop where
  fine : p.Fine
  taken : ∀ a, Q a → Taken p.keys a
  live : ∀ a, Q a → a.block = tableBlock p.keys.length ∨ E

theorem sound_taken {p : Store} (h : p.Fine) : Sound p (Taken p.keys) (3 < p.keys.length) :=
  ⟨h, fun _ h => h, fun a ha => by
    by_cases hl : p.keys.length ≤ 3
    · exact Or.inl (ha.small hl)
    · exact Or.inr (by omega)⟩

/-- The pointers into the table where it is now. -/
def Now (p : Store) (a : Addr) : Prop := Taken p.keys a ∧ a.block = tableBlock p.keys.length

theorem sound_now {p : Store} (h : p.Fine) : Sound p (Now p) False := ⟨h, fun _ h => h.1, fun _ h => Or.inl h.2⟩

/-- Following a pointer. -/
theorem deref_cases {p : Store} {Q : Addr → Prop} {E : Prop} (hs : Sound p Q E) {a : Addr} (hq : Q a) :
    (∃ c, p.deref a = .ok c ∧ c.symbol = keyAt p.keys a.slot ∧ p.er.find (keyAt p.keys a.slot) = some c ∧
      a.block = tableBlock p.keys.length) ∨ (p.deref a = .error .danglingPointer ∧ E) := by
  have ha := hs.taken a hq
  have h := hs.fine
  unfold Store.deref
  by_cases hb : a.block = tableBlock p.keys.length
  · left
    rw [if_pos hb]
    have hi : a.slot < p.commodities.length := by have := ha.slot; simpa [Store.keys] using this
    rw [List.getElem?_eq_getElem hi]
    refine ⟨_, rfl, ?_, ?_, hb⟩
    all_goals
      have hk : keyAt p.keys a.slot = (p.commodities[a.slot]).1 := by
        unfold keyAt Store.keys
        rw [List.getElem?_map, List.getElem?_eq_getElem hi]; rfl
    · rw [hk]
      exact (h.inv.entry a.slot _ _ (List.getElem?_eq_getElem hi)).1
    · rw [hk]
      exact assocGet_of_mem _ _ _ h.nodup (List.getElem_mem hi)
  · right
    rw [if_neg hb]
    exact ⟨rfl, (hs.live a hq).resolve_left hb⟩

/-- `get_commodity`. -/
theorem look_cases {p : Store} {Q : Addr → Prop} {E : Prop} (h : Sound p Q E) {c : Option Addr} (hc : ∀ x, c = some x → Q x) :
    (∃ x, p.look c = .ok x ∧ x.map (·.symbol) = c.map (fun a => keyAt p.keys a.slot) ∧
      (∀ y, x = some y → p.er.find y.symbol = some y) ∧ ∀ a, c = some a → a.block = tableBlock p.keys.length) ∨
      (p.look c = .error .danglingPointer ∧ E) := by
  cases c with
  | none => exact Or.inl ⟨none, rfl, rfl, by simp, by simp⟩
  | some a =>
    rcases deref_cases h (hc a rfl) with ⟨c, h1, h2, h3, h4⟩ | ⟨h1, h2⟩
    · refine Or.inl ⟨some c, ?_, ?_, ?_, ?_⟩
      · unfold Store.look; simp only [h1, bind, Except.bind]
      · simp [h2]
      · intro y hy; injection hy with hy; rw [← hy, h2]; exact h3
      · intro x hx; injection hx with hx; rw [← hx]; exact h4
    · refine Or.inr ⟨?_, h2⟩
      unfold Store.look; simp only [h1, bind, Except.bind]

theorem looks_eq {p : Store} {x y : Option Commodity} (hx : ∀ z, x = some z → p.er.find z.symbol = some z)
    (hy : ∀ z, y = some z → p.er.find z.symbol = some z) : x = y ↔ x.map (·.symbol) = y.map (·.symbol) := by
  constructor
  · rintro rfl; rfl
  · intro h
    cases x with
    | none =>
      cases y with
      | none => rfl
      | some y => cases h
    | some x =>
      cases y with
      | none => cases h
      | some y =>
        simp only [Option.map_some, Option.some.injEq] at h
        have h1 := hx x rfl
        have h2 := hy y rfl
        rw [h, h2] at h1
        exact h1.symm

theorem keyAt_inj {ks : List Str} (hn : ks.Nodup) {i j : Nat} (hi : i < ks.length) (hj : j < ks.length)
    (h : keyAt ks i = keyAt ks j) : i = j := by
  unfold keyAt at h
  rw [List.getElem?_eq_getElem hi, List.getElem?_eq_getElem hj] at h
  exact (hn.getElem_inj_iff).mp h

theorem ptr_eq {ks : List Str} (hn : ks.Nodup) {c d : Option Addr} (hc : ∀ x, c = some x → Taken ks x)
    (hd : ∀ x, d = some x → Taken ks x) (bc : ∀ a, c = some a → a.block = tableBlock ks.length)
    (bd : ∀ a, d = some a → a.block = tableBlock ks.length) :
    c = d ↔ c.map (fun a => keyAt ks a.slot) = d.map (fun a => keyAt ks a.slot) := by
  constructor
  · rintro rfl; rfl
  · intro h
    cases c with
    | none =>
      cases d with
      | none => rfl
      | some d => cases h
    | some c =>
      cases d with
      | none => cases h
      | some d =>
        simp only [Option.map_some, Option.some.injEq] at h
        have h1 := keyAt_inj hn (hc c rfl).slot (hd d rfl).slot h
        have h2 := (bc c rfl).trans (bd d rfl).symm
        obtain ⟨b1, s1⟩ := c
        obtain ⟨b2, s2⟩ := d
        simp only at h1 h2
        rw [h1, h2]

/-- Comparison of the commodities pointed to. -/
theorem same_cases {p : Store} {Q : Addr → Prop} {E : Prop} (h : Sound p Q E) {a b : Amt} (ha : GoodQ Q a) (hb : GoodQ Q b) :
    (same p a b = .ok (decide ((a.er p.keys).comm = (b.er p.keys).comm)) ∧
      (a.ptr = b.ptr ↔ (a.er p.keys).comm = (b.er p.keys).comm)) ∨
      (same p a b = .error .danglingPointer ∧ E) := by
  unfold same
  rcases look_cases h ha with ⟨x, x1, x2, x3, x4⟩ | ⟨x1, x2⟩
  · rcases look_cases h hb with ⟨y, y1, y2, y3, y4⟩ | ⟨y1, y2⟩
    · refine Or.inl ⟨?_, ptr_eq h.fine.nodup (fun x hx => h.taken x (ha x hx)) (fun x hx => h.taken x (hb x hx)) x4 y4⟩
      simp only [x1, y1, bind, Except.bind]
      congr 1
      rw [decide_eq_decide, looks_eq x3 y3, x2, y2]
      rfl
    · exact Or.inr ⟨by simp only [x1, y1, bind, Except.bind], y2⟩
  · exact Or.inr ⟨by simp only [x1, bind, Except.bind], x2⟩

/-- Amounts with and without pointers. -/
def AmtsQ (ks : List Str) (Q : Addr → Prop) (l : List Amount) (L : List Amt) : Prop := l = L.map (Amt.er ks) ∧ ∀ a ∈ L, GoodQ Q a

abbrev Amts (ks : List Str) : List Amount → List Amt → Prop := AmtsQ ks (Taken ks)

theorem AmtsQ.nil (ks : List Str) (Q : Addr → Prop) : AmtsQ ks Q [] [] := ⟨rfl, by simp⟩

theorem AmtsQ.cons {ks : List Str} {Q : Addr → Prop} {l : List Amount} {L : List Amt} {a : Amt} (ha : GoodQ Q a) (h : AmtsQ ks Q l L) :
    AmtsQ ks Q (a.er ks :: l) (a :: L) := ⟨by rw [h.1]; rfl, by
  intro x hx
  rcases List.mem_cons.mp hx with rfl | hx
  · exact ha
  · exact h.2 x hx⟩

theorem isNone_er (ks : List Str) (a : Amt) : (a.er ks).comm = none ↔ a.ptr = none := by
  unfold Amt.er; cases a.ptr <;> simp

/-- Amount with and without pointer. -/
def AmtRQ (ks : List Str) (Q : Addr → Prop) (a : Amount) (A : Amt) : Prop := a = A.er ks ∧ GoodQ Q A

abbrev AmtR (ks : List Str) : Amount → Amt → Prop := AmtRQ ks (Taken ks)

section ops
variable {p : Store} {Q : Addr → Prop} {E : Prop} (h : Sound p Q E)
include h

omit h in
theorem add_sim {a b : Amt} (ha : GoodQ Q a) (he : a.ptr = b.ptr ↔ (a.er p.keys).comm = (b.er p.keys).comm) :
    Sim (AmtRQ p.keys Q) (fun _ => E) ((a.er p.keys).add (b.er p.keys)) (a.add b) := by
  unfold Amount.add Amt.add
  by_cases hp : a.ptr = b.ptr
  · rw [if_neg (not_not.mpr hp), if_neg (not_not.mpr (he.mp hp))]
    show Sim _ _ (if b.qty.isZero = true then _ else _) _
    by_cases hz : b.qty.isZero = true
    · rw [if_pos hz, if_pos hz]; exact ⟨rfl, ha⟩
    · rw [if_neg hz, if_neg hz]
      refine Sim.bind (Sim.same (L := fun _ => E) _) (fun _ _ hl _ => hl) ?_
      rintro q _ rfl
      exact ⟨rfl, ha⟩
  · rw [if_pos hp, if_pos (fun e => hp (he.mpr e))]; exact Sim.fail _

omit h in
theorem subAssign_sim {a b : Amt} (ha : GoodQ Q a) (he : a.ptr = b.ptr ↔ (a.er p.keys).comm = (b.er p.keys).comm) :
    Sim (AmtRQ p.keys Q) (fun _ => E) ((a.er p.keys).subAssign (b.er p.keys)) (a.subAssign b) := by
  unfold Amount.subAssign Amt.subAssign
  by_cases hp : a.ptr = b.ptr
  · rw [if_neg (not_not.mpr hp), if_neg (not_not.mpr (he.mp hp))]
    refine Sim.bind (Sim.same (L := fun _ => E) _) (fun _ _ hl _ => hl) ?_
    rintro q _ rfl
    exact ⟨rfl, ha⟩
  · rw [if_pos hp, if_pos (fun e => hp (he.mpr e))]; exact Sim.fail _

theorem inverse_sim {a : Amt} (ha : GoodQ Q a) :
    Sim (AmtRQ p.keys Q) (fun _ => E) (.ok (a.er p.keys).inverse) (a.inverse p) := by
  unfold Amt.inverse
  rcases look_cases h ha with ⟨x, x1, _⟩ | ⟨x1, x2⟩
  · rw [x1]
    exact ⟨rfl, ha⟩
  · rw [x1]
    exact Sim.dangle x2

omit h in
theorem div_sim {a b : Amt} (ha : GoodQ Q a) (hb : GoodQ Q b) :
    Sim (AmtRQ p.keys Q) (fun _ => E) ((a.er p.keys).div (b.er p.keys)) (a.div b) := by
  unfold Amount.div Amt.div
  refine Sim.bind (Sim.same (L := fun _ => E) _) (fun _ _ hl _ => hl) ?_
  rintro q _ rfl
  by_cases hn : a.ptr = none
  · rw [if_pos hn, if_pos ((isNone_er _ _).mpr hn)]; exact ⟨rfl, hb⟩
  · rw [if_neg hn, if_neg (fun e => hn ((isNone_er _ _).mp e))]; exact ⟨rfl, ha⟩

theorem mul_sim {a b : Amt} (ha : GoodQ Q a) (hb : GoodQ Q b) :
    Sim (AmtRQ p.keys Q) (fun _ => E) ((a.er p.keys).mul (b.er p.keys)) (a.mul p b) := by
  unfold Amount.mul Amt.mul
  refine Sim.bind (Sim.same (L := fun _ => E) _) (fun _ _ hl _ => hl) ?_
  rintro q _ rfl
  by_cases hn : a.ptr = none
  · rw [if_pos hn, if_pos ((isNone_er _ _).mpr hn)]
    rcases look_cases h hb with ⟨x, x1, _⟩ | ⟨x1, x2⟩
    · simp only [x1]; exact ⟨rfl, hb⟩
    · simp only [x1]; exact Sim.dangle x2
  · rw [if_neg hn, if_neg (fun e => hn ((isNone_er _ _).mp e))]
    rcases look_cases h ha with ⟨x, x1, _⟩ | ⟨x1, x2⟩
    · simp only [x1]; exact ⟨rfl, ha⟩
    · simp only [x1]; exact Sim.dangle x2

omit h in
theorem mulAssign_sim {a b : Amt} (ha : GoodQ Q a) (hb : GoodQ Q b) :
    Sim (AmtRQ p.keys Q) (fun _ => E) ((a.er p.keys).mulAssign (b.er p.keys)) (a.mulAssign b) := by
  unfold Amount.mulAssign Amt.mulAssign
  refine Sim.bind (Sim.same (L := fun _ => E) _) (fun _ _ hl _ => hl) ?_
  rintro q _ rfl
  by_cases hn : a.ptr = none ∧ b.ptr ≠ none
  · rw [if_pos hn, if_pos ⟨(isNone_er _ _).mpr hn.1, fun e => hn.2 ((isNone_er _ _).mp e)⟩]; exact ⟨rfl, hb⟩
  · rw [if_neg hn, if_neg (fun e => hn ⟨(isNone_er _ _).mp e.1, fun e' => e.2 ((isNone_er _ _).mpr e')⟩)]; exact ⟨rfl, ha⟩

theorem addTo_sim {l : List Amount} {L : List Amt} (hl : AmtsQ p.keys Q l L) {a : Amt} (ha : GoodQ Q a) :
    Sim (AmtsQ p.keys Q) (fun _ => E) (Balance.addGo l (a.er p.keys)) (addTo p L a) := by
  obtain ⟨rfl, hl⟩ := hl
  induction L with
  | nil => exact (AmtsQ.nil _ _).cons ha
  | cons x L ih =>
    have hx := hl x (by simp)
    rw [List.map_cons, Balance.addGo, addTo]
    rcases same_cases h hx ha with ⟨h1, h2⟩ | ⟨h1, h2⟩
    · rw [h1]
      show Sim _ _ _ (if decide _ = true then _ else _)
      by_cases hc : (x.er p.keys).comm = (a.er p.keys).comm
      · rw [if_pos hc, if_pos (by simpa using hc)]
        refine Sim.bind (add_sim hx h2) (fun _ _ hl _ => hl) ?_
        rintro _ X ⟨rfl, hX⟩
        exact AmtsQ.cons hX ⟨rfl, fun y hy => hl y (by simp [hy])⟩
      · rw [if_neg hc, if_neg (by simpa using hc)]
        refine Sim.bind (ih (fun y hy => hl y (by simp [hy]))) (fun _ _ hl _ => hl) ?_
        rintro _ X ⟨rfl, hX⟩
        exact AmtsQ.cons hx ⟨rfl, hX⟩
    · rw [h1]; exact Sim.dangle h2

theorem subFrom_sim {l : List Amount} {L : List Amt} (hl : AmtsQ p.keys Q l L) {a : Amt} (ha : GoodQ Q a) :
    Sim (AmtsQ p.keys Q) (fun _ => E) (Balance.subGo l (a.er p.keys)) (subFrom p L a) := by
  obtain ⟨rfl, hl⟩ := hl
  induction L with
  | nil =>
    show Sim _ _ ((.ok (a.er p.keys).inverse : Res Amount) >>= fun x => .ok [x]) (a.inverse p >>= fun x => .ok [x])
    refine Sim.bind (inverse_sim h ha) (fun _ _ hl _ => hl) ?_
    rintro _ X ⟨rfl, hX⟩
    exact (AmtsQ.nil _ _).cons hX
  | cons x L ih =>
    have hx := hl x (by simp)
    rw [List.map_cons, Balance.subGo, subFrom]
    rcases same_cases h hx ha with ⟨h1, h2⟩ | ⟨h1, h2⟩
    · rw [h1]
      show Sim _ _ _ (if decide _ = true then _ else _)
      by_cases hc : (x.er p.keys).comm = (a.er p.keys).comm
      · rw [if_pos hc, if_pos (by simpa using hc)]
        refine Sim.bind (subAssign_sim hx h2) (fun _ _ hl _ => hl) ?_
        rintro _ X ⟨rfl, hX⟩
        exact AmtsQ.cons hX ⟨rfl, fun y hy => hl y (by simp [hy])⟩
      · rw [if_neg hc, if_neg (by simpa using hc)]
        refine Sim.bind (ih (fun y hy => hl y (by simp [hy]))) (fun _ _ hl _ => hl) ?_
        rintro _ X ⟨rfl, hX⟩
        exact AmtsQ.cons hx ⟨rfl, hX⟩
    · rw [h1]; exact Sim.dangle h2

/-- Possibly an amount. -/
def OptRQ (ks : List Str) (Q : Addr → Prop) (o : Option Amount) (O : Option Amt) : Prop := o = O.map (Amt.er ks) ∧ ∀ A, O = some A → GoodQ Q A

abbrev OptR (ks : List Str) : Option Amount → Option Amt → Prop := OptRQ ks (Taken ks)

omit h in
theorem OptR.mono {ks ks' : List Str} {o : Option Amount} {O : Option Amt} (hr : OptR ks o O) (hp : ks <+: ks') : OptR ks' o O := by
  refine ⟨?_, fun A hA => Good.mono (hr.2 A hA) hp⟩
  rw [hr.1]
  cases O with
  | none => rfl
  | some A => simp only [Option.map_some]; rw [Good.er (hr.2 A rfl) hp]

/-- A posting with and without pointers; accounts are dealt with elsewhere. -/
structure PostRQ (ks : List Str) (Q : Addr → Prop) (x : Post) (X : Pst) : Prop where
  amount : OptRQ ks Q x.amount X.amount
  cost : OptRQ ks Q x.cost X.cost
  note : x.note = X.note

abbrev PostR (ks : List Str) : Post → Pst → Prop := PostRQ ks (Taken ks)

theorem add_bal_sim {b : Balance} {B : List Amt} (hb : AmtsQ p.keys Q b.amounts B) {a : Amt} (ha : GoodQ Q a) :
    Sim (fun r R => AmtsQ p.keys Q r.amounts R) (fun _ => E) (b.add (a.er p.keys)) (addTo p B a) := by
  unfold Balance.add
  rw [show addTo p B a = (addTo p B a >>= fun x => .ok x) by cases addTo p B a <;> rfl]
  exact Sim.bind (addTo_sim h hb ha) (fun _ _ hl _ => hl) (fun _ _ hr => hr)

theorem sub_bal_sim {b : Balance} {B : List Amt} (hb : AmtsQ p.keys Q b.amounts B) {a : Amt} (ha : GoodQ Q a) :
    Sim (fun r R => AmtsQ p.keys Q r.amounts R) (fun _ => E) (b.subAssign (a.er p.keys)) (subFrom p B a) := by
  unfold Balance.subAssign
  rw [show subFrom p B a = (subFrom p B a >>= fun x => .ok x) by cases subFrom p B a <;> rfl]
  exact Sim.bind (subFrom_sim h hb ha) (fun _ _ hl _ => hl) (fun _ _ hr => hr)

theorem addAll_sim {b : Balance} {B : List Amt} (hb : AmtsQ p.keys Q b.amounts B) {l : List Amount} {L : List Amt} (hl : AmtsQ p.keys Q l L) :
    Sim (fun r R => AmtsQ p.keys Q r.amounts R) (fun _ => E) (b.addAll l) (addAll p B L) := by
  obtain ⟨rfl, hl⟩ := hl
  induction L generalizing b B with
  | nil => exact hb
  | cons a L ih =>
    rw [List.map_cons, Balance.addAll, addAll]
    exact Sim.bind (add_bal_sim h hb (hl a (by simp))) (fun _ _ hl _ => hl) (fun _ _ hr => ih hr (fun y hy => hl y (by simp [hy])))

theorem sumPosts_sim {xs : List Post} {XS : List Pst} (hx : List.Forall₂ (PostRQ p.keys Q) xs XS) (i : Nat) {b : Balance} {B : List Amt}
    (hb : AmtsQ p.keys Q b.amounts B) (np : Option Nat) :
    Sim (fun r R => AmtsQ p.keys Q r.1.amounts R.1 ∧ r.2 = R.2) (fun _ => E)
      (Finalize.sumPosts xs i b np) (sumPosts p XS i B np) := by
  induction hx generalizing i b B np with
  | nil => exact ⟨hb, rfl⟩
  | @cons x X xs XS h1 _ ih =>
    have hc := h1.cost
    have ha := h1.amount
    have step : ∀ A : Amt, GoodQ Q A →
        Sim (fun r R => AmtsQ p.keys Q r.1.amounts R.1 ∧ r.2 = R.2) (fun _ => E)
        (b.add (A.er p.keys) >>= fun b' => Finalize.sumPosts xs (i + 1) b' np) (addTo p B A >>= fun B' => sumPosts p XS (i + 1) B' np) :=
      fun A hA => Sim.bind (add_bal_sim h hb hA) (fun _ _ hl _ => hl) (fun b' B' hb' => ih _ hb' np)
    obtain ⟨xa, xam, xc, xn⟩ := x
    obtain ⟨Xa, Xam, Xc, Xn⟩ := X
    cases Xc with
    | some A =>
      obtain ⟨hc1, hc2⟩ := hc
      subst hc1
      exact step A (hc2 A rfl)
    | none =>
      obtain ⟨hc1, hc2⟩ := hc
      subst hc1
      obtain ⟨ha1, ha2⟩ := ha
      subst ha1
      cases Xam with
      | some A => exact step A (ha2 A rfl)
      | none =>
        cases np with
        | some _ => exact Sim.fail _
        | none => exact ih _ hb _

/-- The parts of a posting that assigning costs leaves alone. -/
def Pst.kept (X : Pst) := (X.account, X.amount)

/-- The commodity that assigning costs looks for. -/
theorem assignCosts_sim {x : Option Commodity} {comm : Option Str} (hx : ∀ z, x = some z → p.er.find z.symbol = some z)
    (hc : x.map (·.symbol) = comm) {u : Amt} (hu : GoodQ Q u) {xs : List Post} {XS : List Pst}
    (hp : List.Forall₂ (PostRQ p.keys Q) xs XS) {b : Balance} {B : List Amt} (hb : AmtsQ p.keys Q b.amounts B) :
    Sim (fun r R => List.Forall₂ (PostRQ p.keys Q) r.1 R.1 ∧ AmtsQ p.keys Q r.2.amounts R.2 ∧ R.1.map Pst.kept = XS.map Pst.kept)
      (fun _ => E) (Finalize.assignCosts comm (u.er p.keys) xs b) (assignCosts p x u XS B) := by
  induction hp generalizing b B with
  | nil => exact ⟨.nil, hb, rfl⟩
  | @cons y Y xs XS h1 h2 ih =>
    rw [Finalize.assignCosts, assignCosts]
    have ha := h1.amount
    cases hY : Y.amount with
    | none => rw [hY] at ha; rw [ha.1]; exact Sim.fail _
    | some A =>
      rw [hY] at ha; rw [ha.1]
      simp only [Option.map_some]
      have hA := ha.2 A rfl
      rcases look_cases h hA with ⟨c, c1, c2, c3, _⟩ | ⟨c1, c2⟩
      · rw [c1]
        show Sim _ _ _ (if c = x then _ else _)
        have heq : (A.er p.keys).comm = comm ↔ c = x := by
          rw [looks_eq c3 hx, c2, hc]; rfl
        by_cases hcx : c = x
        · rw [if_pos hcx, if_pos (heq.mpr hcx)]
          refine Sim.bind (sub_bal_sim h hb hA) (fun _ _ hl _ => hl) (fun b1 B1 hb1 => ?_)
          refine Sim.bind (mul_sim h hu hA) (fun _ _ hl _ => hl) ?_
          rintro _ K ⟨rfl, hK⟩
          refine Sim.bind (add_bal_sim h hb1 hK) (fun _ _ hl _ => hl) (fun b2 B2 hb2 => ?_)
          refine Sim.bind (ih hb2) (fun _ _ hl _ => hl) ?_
          rintro ⟨r1, r2⟩ ⟨R1, R2⟩ ⟨k1, k2, k3⟩
          refine ⟨.cons ⟨⟨rfl, ha.2⟩, ⟨rfl, by intro A hA; injection hA with hA; rw [← hA]; exact hK⟩, h1.note⟩ k1, k2, ?_⟩
          simp only at k3
          simp [k3, Pst.kept, hY]
        · rw [if_neg hcx, if_neg (fun e => hcx (heq.mp e))]
          refine Sim.bind (ih hb) (fun _ _ hl _ => hl) ?_
          rintro ⟨r1, r2⟩ ⟨R1, R2⟩ ⟨k1, k2, k3⟩
          refine ⟨.cons h1 k1, k2, ?_⟩
          simp only at k3
          simp [k3, Pst.kept, hY]
      · rw [c1]; exact Sim.dangle c2

omit h in
theorem topPost_rel {xs : List Post} {XS : List Pst} (hp : List.Forall₂ (PostRQ p.keys Q) xs XS) :
    (Finalize.topPost xs = none ∧ topPost XS = none) ∨
      ∃ t T, Finalize.topPost xs = some t ∧ topPost XS = some T ∧ PostRQ p.keys Q t T := by
  unfold Finalize.topPost topPost
  induction hp with
  | nil => exact Or.inl ⟨rfl, rfl⟩
  | @cons x X xs XS h1 _ ih =>
    have : x.amount.isSome = X.amount.isSome := by rw [h1.amount.1]; simp
    rw [List.find?_cons, List.find?_cons, this]
    cases X.amount.isSome with
    | true => exact Or.inr ⟨x, X, rfl, rfl, h1⟩
    | false => exact ih

theorem impliedCosts_sim {xs : List Post} {XS : List Pst} (hp : List.Forall₂ (PostRQ p.keys Q) xs XS) {b : Balance} {B : List Amt}
    (hb : AmtsQ p.keys Q b.amounts B) (np : Option Nat) :
    Sim (fun r R => List.Forall₂ (PostRQ p.keys Q) r.1 R.1 ∧ AmtsQ p.keys Q r.2.amounts R.2 ∧ R.1.map Pst.kept = XS.map Pst.kept)
      (fun _ => E) (Finalize.impliedCosts xs b np) (impliedCosts p XS B np) := by
  have hdone : Sim (fun r R => List.Forall₂ (PostRQ p.keys Q) r.1 R.1 ∧ AmtsQ p.keys Q r.2.amounts R.2 ∧ R.1.map Pst.kept = XS.map Pst.kept)
      (fun _ => E) (.ok (xs, b)) (.ok (XS, B)) := ⟨hp, hb, rfl⟩
  unfold Finalize.impliedCosts impliedCosts
  cases np with
  | some n => exact hdone
  | none =>
    obtain ⟨bl⟩ := b
    obtain ⟨rfl, hg⟩ := hb
    match B, hg, hdone with
    | [], _, hdone => exact hdone
    | [X], _, hdone => exact hdone
    | X :: Y :: Z :: T, _, hdone => exact hdone
    | [X, Y], hg, hdone =>
      simp only [List.map_cons, List.map_nil]
      have hX := hg X (by simp)
      have hY := hg Y (by simp)
      rcases topPost_rel hp with ⟨e1, e2⟩ | ⟨t, T, e1, e2, ht⟩
      · rw [e1, e2]; exact hdone
      · rw [e1, e2]
        simp only
        by_cases hz : (!X.isZero) = true ∧ (!Y.isZero) = true
        · rw [if_pos hz, if_pos (by exact hz)]
          rcases look_cases h hX with ⟨cx, x1, x2, x3, x4⟩ | ⟨x1, x2⟩
          · rw [x1]
            have key : ∀ {U V : Amt}, GoodQ Q U → GoodQ Q V →
                Sim (fun r R => List.Forall₂ (PostRQ p.keys Q) r.1 R.1 ∧ AmtsQ p.keys Q r.2.amounts R.2 ∧ R.1.map Pst.kept = XS.map Pst.kept)
                (fun _ => E)
                ((V.er p.keys).div (U.er p.keys) >>= fun perUnit => Finalize.assignCosts (U.er p.keys).comm perUnit.abs xs ⟨[X.er p.keys, Y.er p.keys]⟩)
                (p.look U.ptr >>= fun comm => V.div U >>= fun perUnit => assignCosts p comm perUnit.abs XS [X, Y]) := by
              intro U V hU hV
              rcases look_cases h hU with ⟨cu, u1, u2, u3, u4⟩ | ⟨u1, u2⟩
              · rw [u1]
                show Sim _ _ _ (V.div U >>= fun perUnit => assignCosts p cu perUnit.abs XS [X, Y])
                refine Sim.bind (div_sim hV hU) (fun _ _ hl _ => hl) ?_
                rintro _ Q ⟨rfl, hQ⟩
                exact assignCosts_sim h u3 u2 (u := Q.abs) hQ hp ⟨rfl, hg⟩
              · rw [u1]; exact Sim.dangle u2
            have tail : ∀ c : Option Addr, (∀ z, c = some z → Q z) →
                Sim (fun r R => List.Forall₂ (PostRQ p.keys Q) r.1 R.1 ∧ AmtsQ p.keys Q r.2.amounts R.2 ∧ R.1.map Pst.kept = XS.map Pst.kept)
                (fun _ => E)
                ((if (X.er p.keys).comm ≠ c.map (fun a : Addr => keyAt p.keys a.slot) then (Y.er p.keys, X.er p.keys) else (X.er p.keys, Y.er p.keys)).2.div
                  (if (X.er p.keys).comm ≠ c.map (fun a : Addr => keyAt p.keys a.slot) then (Y.er p.keys, X.er p.keys) else (X.er p.keys, Y.er p.keys)).1 >>=
                  fun perUnit => Finalize.assignCosts
                    (if (X.er p.keys).comm ≠ c.map (fun a : Addr => keyAt p.keys a.slot) then (Y.er p.keys, X.er p.keys) else (X.er p.keys, Y.er p.keys)).1.comm
                    perUnit.abs xs ⟨[X.er p.keys, Y.er p.keys]⟩)
                (p.look c >>= fun ct => p.look (if cx ≠ ct then (Y, X) else (X, Y)).1.ptr >>= fun comm =>
                  (if cx ≠ ct then (Y, X) else (X, Y)).2.div (if cx ≠ ct then (Y, X) else (X, Y)).1 >>= fun perUnit =>
                  assignCosts p comm perUnit.abs XS [X, Y]) := by
              intro c hT
              rcases look_cases h hT with ⟨ct, t1, t2, t3, t4⟩ | ⟨t1, t2⟩
              · have hcmp : (X.er p.keys).comm ≠ c.map (fun a : Addr => keyAt p.keys a.slot) ↔ cx ≠ ct := by
                  rw [not_iff_not, looks_eq x3 t3, x2, t2]; rfl
                rw [t1]
                show Sim _ _ _ (p.look (if cx ≠ ct then (Y, X) else (X, Y)).1.ptr >>= _)
                by_cases hne : cx ≠ ct
                · simp only [if_pos hne, if_pos (hcmp.mpr hne)]
                  exact key hY hX
                · simp only [if_neg hne, if_neg (fun e => hne (hcmp.mp e))]
                  exact key hX hY
              · rw [t1]; exact Sim.dangle t2
            have hta := ht.amount
            cases hTa : T.amount with
            | none =>
              rw [hTa] at hta
              simp only [hta.1, Option.map_none]
              exact tail none (by simp)
            | some A =>
              rw [hTa] at hta
              simp only [hta.1, Option.map_some]
              exact tail A.ptr (hta.2 A rfl)
          · rw [x1]; exact Sim.dangle x2
        · rw [if_neg hz, if_neg (by exact hz)]; exact hdone

theorem fillNull_sim {xs : List Post} {XS : List Pst} (hp : List.Forall₂ (PostRQ p.keys Q) xs XS) {b : Balance} {B : List Amt}
    (hb : AmtsQ p.keys Q b.amounts B) (np : Option Nat) :
    Sim (fun r R => List.Forall₂ (PostRQ p.keys Q) r R ∧ R.map (·.account) = XS.map (·.account))
      (fun _ => E) (Finalize.fillNull xs b np) (fillNull p XS B np) := by
  unfold Finalize.fillNull fillNull
  cases np with
  | none => exact ⟨hp, rfl⟩
  | some i =>
    obtain ⟨bl⟩ := b
    obtain ⟨rfl, hg⟩ := hb
    match B, hg with
    | [], _ => exact Sim.fail _
    | X :: Y :: T, _ => exact Sim.fail _
    | [X], hg =>
      simp only [List.map_cons, List.map_nil]
      rw [show (Except.ok (List.modify xs i fun p_1 => { p_1 with amount := some (X.er p.keys).inverse }) : Res (List Post)) =
        ((.ok (X.er p.keys).inverse : Res Amount) >>= fun a => .ok (List.modify xs i fun x => { x with amount := some a })) from rfl]
      refine Sim.bind (inverse_sim h (hg X (by simp))) (fun _ _ hl _ => hl) ?_
      rintro _ K ⟨rfl, hK⟩
      constructor
      · induction hp generalizing i with
        | nil => simp
        | cons h1 h2 ih =>
          cases i with
          | zero =>
            refine .cons ⟨⟨rfl, ?_⟩, h1.cost, h1.note⟩ h2
            intro A hA; injection hA with hA; rw [← hA]; exact hK
          | succ i => exact .cons h1 (ih i)
      · clear hp
        induction XS generalizing i with
        | nil => simp
        | cons x XS ih =>
          cases i with
          | zero => simp
          | succ i => simpa using ih i

/-- The pool after a step that makes no commodity. -/
structure Kept (p : Store) (pool : Pool) (P : Store) : Prop where
  er : P.er = pool
  fine : P.Fine
  keys : P.keys = p.keys
  coms : P.commodities = p.commodities
  nodes : P.nodes = p.nodes
  anns : P.annotated = p.annotated

theorem addPrice_sim {c : Option Addr} (hc : ∀ x, c = some x → Q x) (t : DateTime) {q : Amt} (hq : GoodQ Q q) :
    Sim (Kept p) (fun _ => E) (p.er.addPrice (c.map (fun a => keyAt p.keys a.slot)) t (q.er p.keys)) (p.addPrice c t q) := by
  cases c with
  | none => exact Sim.fail _
  | some a =>
    unfold Pool.addPrice Store.addPrice
    simp only [Option.map_some]
    rcases deref_cases h (hc a rfl) with ⟨x, x1, x2, x3, x4⟩ | ⟨x1, x2⟩
    · rw [x1]
      have hd : p.er.deref (some (keyAt p.keys a.slot)) = .ok x := by unfold Pool.deref; simp only [x3]
      rw [hd]
      rcases look_cases h hq with ⟨y, y1, y2, y3, y4⟩ | ⟨y1, y2⟩
      · simp only [bind, Except.bind, y1]
        have hx3 : ∀ z, some x = some z → p.er.find z.symbol = some z := by
          intro z hz; injection hz with hz; rw [← hz, x2]; exact x3
        have heq : some (keyAt p.keys a.slot) = (q.er p.keys).comm ↔ some x = y := by
          rw [looks_eq hx3 y3, y2, Option.map_some, x2]; rfl
        by_cases he : some x = y
        · rw [if_pos he, if_pos (heq.mpr he)]; exact Sim.fail _
        · rw [if_neg he, if_neg (fun e => he (heq.mp e))]
          have hy : (q.er p.keys).comm = y.map (·.symbol) := by rw [y2]; rfl
          rw [hy]
          cases y with
          | none => exact Sim.fail _
          | some d =>
            have hd' : p.er.deref (some d.symbol) = .ok d := by unfold Pool.deref; simp only [y3 d rfl]
            simp only [Option.map_some, hd']
            exact ⟨rfl, ⟨⟨h.fine.inv.nodup, h.fine.inv.keys, h.fine.inv.entry, h.fine.inv.nonempty⟩, h.fine.nodes, h.fine.anns⟩, rfl, rfl, rfl, rfl⟩
      · simp only [bind, Except.bind, y1]; exact Sim.dangle y2
    · rw [x1]; exact Sim.dangle x2

omit h in
theorem assocGet_map {β γ : Type} (f : β → γ) (k : Str) (l : List (Str × β)) :
    assocGet k (l.map (fun x => (x.1, f x.2))) = (assocGet k l).map f := by
  induction l with
  | nil => rfl
  | cons x l ih =>
    simp only [List.map_cons, assocGet]
    split
    · rfl
    · exact ih

/-- The price to record, with and without pointers. -/
def PriceRQ (ks : List Str) (Q : Addr → Prop) : Option Price → Option (Addr × DateTime × Amt) → Prop
  | none, none => True
  | some pr, some P => pr.commodity = keyAt ks P.1.slot ∧ Q P.1 ∧ pr.datetime = P.2.1 ∧ AmtRQ ks Q pr.price P.2.2
  | _, _ => False

omit h in
theorem perUnit_sim {a c : Amt} (ha : GoodQ Q a) (hc : GoodQ Q c) (u : Bool) :
    Sim (AmtRQ p.keys Q) (fun _ => E) (Pool.perUnitCost (a.er p.keys) (c.er p.keys) u) (perUnitCost a c u) := by
  unfold Pool.perUnitCost perUnitCost
  show Sim _ _ (if (u || a.isZero) = true then _ else _) _
  split
  · exact ⟨rfl, hc⟩
  · refine Sim.bind (div_sim hc ha) (fun _ _ hl _ => hl) ?_
    rintro _ Q ⟨rfl, hQ⟩
    exact ⟨rfl, hQ⟩

theorem basis_sim (o : Option Ann) (ho : ∀ x, o = some x → ∀ pr, x.price = some pr → GoodQ Q pr) {a c : Amt} (ha : GoodQ Q a)
    (hc : GoodQ Q c) :
    Sim (AmtRQ p.keys Q) (fun _ => E) (Pool.basisCost (o.map (Ann.er p.keys)) (a.er p.keys) (c.er p.keys)) (basisCost p o a c) := by
  cases o with
  | none => exact ⟨rfl, hc⟩
  | some x =>
    obtain ⟨pr, d⟩ := x
    cases pr with
    | none => exact ⟨rfl, by intro x hx; cases hx⟩
    | some pr => exact mul_sim h (ho _ rfl pr rfl) ha

/-- The pointers that an exchange of an amount finds in the pool. -/
structure NodesQ (p : Store) (Q : Addr → Prop) (a : Amt) : Prop where
  node : ∀ s c n, a.ptr = some s → p.deref s = .ok c → p.nodes[c.graphIndex]? = some n → Q n
  ann : ∀ s c n d, a.ptr = some s → p.deref s = .ok c → p.nodes[c.graphIndex]? = some n → p.deref n = .ok d →
    ∀ z, assocGet d.symbol p.annotated = some z → ∀ pr, z.price = some pr → GoodQ Q pr

omit h in
theorem NodesQ.kept {pool : Pool} {P : Store} {a : Amt} (hn : NodesQ p Q a) (hk : Kept p pool P) : NodesQ P Q a := by
  have hd : ∀ s, P.deref s = p.deref s := by intro s; unfold Store.deref; rw [hk.keys, hk.coms]
  constructor
  · intro s c n h1 h2 h3
    rw [hd] at h2; rw [hk.nodes] at h3
    exact hn.node s c n h1 h2 h3
  · intro s c n d h1 h2 h3 h4
    rw [hd] at h2 h4; rw [hk.nodes] at h3; rw [hk.anns]
    exact hn.ann s c n d h1 h2 h3 h4

omit h in
theorem nodesQ_taken (hf : p.Fine) (a : Amt) : NodesQ p (Taken p.keys) a :=
  ⟨fun _ _ n _ _ h => hf.nodes n (List.mem_of_getElem? h), fun _ _ _ _ _ _ _ _ _ hz pr hpr => hf.anns _ (assocGet_mem _ _ _ hz) pr hpr⟩

omit h in
theorem Sound.kept {pool : Pool} {P : Store} (hs : Sound p Q E) (hk : Kept p pool P) : Sound P Q E :=
  ⟨hk.fine, by rw [hk.keys]; exact hs.taken, by rw [hk.keys]; exact hs.live⟩

theorem exchange_sim {a c : Amt} (ha : GoodQ Q a) (hc : GoodQ Q c) (hn : NodesQ p Q a) (t : DateTime) :
    Sim (fun r R => r.1.amount = a.er p.keys ∧ R.1 = a ∧ PriceRQ p.keys Q r.2 R.2) (fun _ => E)
      (p.er.exchange (a.er p.keys) (c.er p.keys) false t) (exchange p a c t) := by
  unfold Pool.exchange exchange
  cases hap : a.ptr with
  | none =>
    have : (a.er p.keys).comm = none := (isNone_er _ _).mpr hap
    rw [this]; exact Sim.fail _
  | some s =>
    have : (a.er p.keys).comm = some (keyAt p.keys s.slot) := by unfold Amt.er; rw [hap]; rfl
    simp only [this]
    rcases deref_cases h (ha s hap) with ⟨x, x1, x2, x3, x4⟩ | ⟨x1, x2⟩
    · rw [x1]
      have hd : p.er.deref (some (keyAt p.keys s.slot)) = .ok x := by unfold Pool.deref; simp only [x3]
      rw [hd]
      show Sim _ _ (p.er.getByIndex x.graphIndex >>= _) (p.getByIndex x.graphIndex >>= _)
      refine Sim.bind (R := fun s n => s = n.symbol ∧ ∃ m, p.nodes[x.graphIndex]? = some m ∧ p.deref m = .ok n) (L := fun _ => E) ?_ (fun _ _ hl _ => hl) ?_
      · unfold Pool.getByIndex History.getCommodity Store.getByIndex
        have hnm : p.er.history.nodes[x.graphIndex]? = (p.nodes[x.graphIndex]?).map (fun a => keyAt p.keys a.slot) := List.getElem?_map ..
        rw [hnm]
        cases hx : p.nodes[x.graphIndex]? with
        | none => exact Sim.fail _
        | some n =>
          simp only [Option.map_some]
          rcases deref_cases h (hn.node s x n hap x1 hx) with ⟨y, y1, y2, _⟩ | ⟨y1, y2⟩
          · rw [y1]; exact ⟨y2.symm, n, rfl, y1⟩
          · rw [y1]; exact Sim.dangle y2
      rintro _ node ⟨rfl, m, hm1, hm2⟩
      refine Sim.bind (perUnit_sim ha hc false) (fun _ _ hl _ => hl) ?_
      rintro _ U ⟨rfl, hU⟩
      rcases look_cases h hc with ⟨y, y1, y2, y3, y4⟩ | ⟨y1, y2⟩
      · rw [y1]
        show Sim _ _ _ (newPrice p a (if y = none then U.removeCommodity else U) s t >>= _)
        have hcn : (c.er p.keys).comm = none ↔ y = none := by
          rw [show (c.er p.keys).comm = y.map (·.symbol) by rw [y2]; rfl]; simp
        have hpu : ∃ V, V = (if y = none then U.removeCommodity else U) ∧ GoodQ Q V ∧
            (if (c.er p.keys).comm = none then (U.er p.keys).removeCommodity else U.er p.keys) = V.er p.keys := by
          by_cases hy : y = none
          · rw [if_pos hy, if_pos (hcn.mpr hy)]; exact ⟨_, rfl, (by intro x hx; cases hx), rfl⟩
          · rw [if_neg hy, if_neg (fun e => hy (hcn.mp e))]; exact ⟨_, rfl, hU, rfl⟩
        obtain ⟨V, hV, hVg, hVe⟩ := hpu
        rw [← hV]
        simp only [hVe]
        have hnp : (∃ P, newPrice p a V s t = .ok P ∧ PriceRQ p.keys Q (if (!(V.er p.keys).isZero) = true ∧ some (keyAt p.keys s.slot) ≠ (V.er p.keys).comm
            then some ⟨keyAt p.keys s.slot, t, V.er p.keys⟩ else none) P) ∨ (newPrice p a V s t = .error .danglingPointer ∧ E) := by
          unfold newPrice
          have hz : (V.er p.keys).isZero = V.isZero := rfl
          rw [hz]
          by_cases hvz : V.isZero = true
          · rw [if_pos hvz]
            refine Or.inl ⟨none, rfl, ?_⟩
            rw [if_neg (by simp [hvz])]
            trivial
          · rw [if_neg hvz]
            rcases same_cases h ha hVg with ⟨e1, _⟩ | ⟨e1, e2⟩
            · rw [e1, this]
              by_cases heq : some (keyAt p.keys s.slot) = (V.er p.keys).comm
              · refine Or.inl ⟨none, ?_, ?_⟩
                · simp [bind, Except.bind, heq]
                · rw [if_neg (by simp [heq])]; trivial
              · refine Or.inl ⟨some (s, t, V), ?_, ?_⟩
                · simp [bind, Except.bind, heq]
                · rw [if_pos ⟨by simpa using hvz, heq⟩]
                  exact ⟨rfl, ha s hap, rfl, rfl, hVg⟩
            · rw [e1]; exact Or.inr ⟨rfl, e2⟩
        rcases hnp with ⟨P, n1, n2⟩ | ⟨n1, n2⟩
        · rw [n1]
          show Sim _ _ ((.ok (c.er p.keys) : Res Amount) >>= fun final => _) (basisCost p (assocGet node.symbol p.annotated) a c >>= fun _ => .ok (a, P))
          have hann : assocGet node.symbol p.er.annotated = (assocGet node.symbol p.annotated).map (Ann.er p.keys) := assocGet_map _ _ _
          show Sim _ _ (Pool.basisCost (assocGet node.symbol p.er.annotated) (a.er p.keys) (c.er p.keys) >>= _) _
          rw [hann]
          refine Sim.bind (basis_sim h _ ?_ ha hc) (fun _ _ hl _ => hl) ?_
          · intro z hz pr hpr
            exact hn.ann s x m node hap x1 hm1 hm2 z hz pr hpr
          · intro _ _ _
            exact ⟨rfl, rfl, n2⟩
        · rw [n1]; exact Sim.dangle n2
      · rw [y1]; exact Sim.dangle y2
    · rw [x1]; exact Sim.dangle x2

end ops

theorem recordPrices_sim {Q : Addr → Prop} {E : Prop} (date : Option Date) {xs : List Post} {XS : List Pst} {p : Store} (h : Sound p Q E)
    (hp : List.Forall₂ (PostRQ p.keys Q) xs XS) (hn : ∀ X ∈ XS, X.cost ≠ none → ∀ A, X.amount = some A → NodesQ p Q A) :
    Sim (fun r R => List.Forall₂ (PostRQ p.keys Q) r.1 R.1 ∧ Kept p r.2 R.2 ∧ R.1.map (·.account) = XS.map (·.account))
      (fun _ => E) (Finalize.recordPrices date xs p.er) (recordPrices date XS p) := by
  induction XS generalizing xs p with
  | nil => cases hp; exact ⟨.nil, ⟨rfl, h.fine, rfl, rfl, rfl, rfl⟩, rfl⟩
  | cons X XS ih =>
    obtain ⟨x, xs, h1, h2, rfl⟩ := List.forall₂_cons_right_iff.mp hp
    obtain ⟨xa, xam, xc, xn⟩ := x
    obtain ⟨Xa, Xam, Xc, Xn⟩ := X
    obtain ⟨⟨e1, g1⟩, ⟨e2, g2⟩, e3⟩ := h1
    simp only at e1 g1 e2 g2 e3
    subst e1 e2 e3
    rw [Finalize.recordPrices, recordPrices]
    cases Xc with
    | none =>
      simp only [Option.map_none]
      refine Sim.bind (ih h h2 (fun X hX => hn X (List.mem_cons_of_mem _ hX))) (fun _ _ hl _ => hl) ?_
      rintro ⟨r1, r2⟩ ⟨R1, R2⟩ ⟨k1, k2, k3⟩
      exact ⟨.cons ⟨⟨rfl, g1⟩, ⟨rfl, g2⟩, rfl⟩ k1, k2, by simp only at k3; simp [k3]⟩
    | some C =>
      cases Xam with
      | none => exact Sim.fail _
      | some A =>
        simp only [Option.map_some]
        have hA := g1 A rfl
        have hC := g2 C rfl
        rcases same_cases h hA hC with ⟨s1, _⟩ | ⟨s1, s2⟩
        · rw [s1]
          show Sim _ _ _ (if decide _ = true then _ else _)
          by_cases hcc : (A.er p.keys).comm = (C.er p.keys).comm
          · rw [if_pos hcc, if_pos (by simpa using hcc)]; exact Sim.fail _
          · rw [if_neg hcc, if_neg (by simpa using hcc)]
            cases date with
            | none => exact Sim.fail _
            | some d =>
              simp only
              refine Sim.bind (exchange_sim h hA hC (hn _ List.mem_cons_self (by simp) A rfl) _) (fun _ _ hl _ => hl) ?_
              rintro ⟨bd, np⟩ ⟨amt, NP⟩ ⟨k1, k2, k3⟩
              simp only at k1 k2 k3
              subst k2
              simp only
              have fin : ∀ {pool1 P1}, Kept p pool1 P1 → Sim (fun r R => List.Forall₂ (PostRQ p.keys Q) r.1 R.1 ∧ Kept p r.2 R.2 ∧
                  R.1.map (·.account) = (Pst.mk Xa (some amt) (some C) xn :: XS).map (·.account)) (fun _ => E)
                  (do let (ps', pool) ← Finalize.recordPrices (some d) xs pool1
                      .ok (Post.mk xa (some bd.amount) (some (C.er p.keys)) xn :: ps', pool))
                  (do let (xs', q) ← recordPrices (some d) XS P1
                      .ok (Pst.mk Xa (some amt) (some C) xn :: xs', q)) := by
                rintro pool1 P1 hk
                have ih1 := ih (h.kept hk) (by rw [hk.keys]; exact h2)
                  (fun X hX hc A hA => (hn X (List.mem_cons_of_mem _ hX) hc A hA).kept hk)
                obtain ⟨rfl, f1, f2, f3, f4, f5⟩ := hk
                rw [f2] at ih1
                refine Sim.bind ih1 (fun _ _ hl _ => hl) ?_
                rintro ⟨r1, r2⟩ ⟨R1, R2⟩ ⟨m1, ⟨m2, m3, m4, m6, m7, m8⟩, m5⟩
                refine ⟨.cons ⟨⟨?_, g1⟩, ⟨rfl, g2⟩, rfl⟩ m1, ⟨m2, m3, m4.trans f2, m6.trans f3, m7.trans f4, m8.trans f5⟩, ?_⟩
                · simp only [k1, Option.map_some]
                · simp only at m5; simp [m5]
              cases np with
              | none => cases NP with
                | none => exact fin ⟨rfl, h.fine, rfl, rfl, rfl, rfl⟩
                | some _ => exact k3.elim
              | some np => cases NP with
                | none => exact k3.elim
                | some NP =>
                  obtain ⟨ac, at', aq⟩ := NP
                  obtain ⟨q1, q2, q3, q4, q5⟩ := k3
                  simp only at q2 q5
                  obtain ⟨n1, n2, n3⟩ := np
                  simp only at q1 q3 q4
                  subst q1 q3 q4
                  exact Sim.bind (addPrice_sim h (c := some ac) (by intro x hx; injection hx with hx; rw [← hx]; exact q2) _ q5)
                    (fun _ _ hl _ => hl) (fun _ _ hk => fin hk)
        · rw [s1]; exact Sim.dangle s2

theorem finalize_simQ {Q : Addr → Prop} {E : Prop} {x : Xact} {p : Store} (h : Sound p Q E) {XS : List Pst}
    (hp : List.Forall₂ (PostRQ p.keys Q) x.posts XS)
    (hn : ∀ b np r1 r2, Finalize.sumPosts x.posts 0 Balance.empty none = .ok (b, np) → Finalize.impliedCosts x.posts b np = .ok (r1, r2) →
      ∀ (i : Nat) (q : Post) (X : Pst) (A : Amt), r1[i]? = some q → q.cost ≠ none → XS[i]? = some X → X.amount = some A → NodesQ p Q A) :
    Sim (fun r R => (∃ xs, r.1 = { x with posts := xs } ∧ List.Forall₂ (PostRQ p.keys Q) xs R.1) ∧ Kept p r.2 R.2 ∧
      R.1.map (·.account) = XS.map (·.account))
      (fun _ => E) (Finalize.finalize x p.er) (finalize x.date XS p) := by
  unfold Finalize.finalize finalize
  refine Sim.bindEq (sumPosts_sim h hp 0 (b := Balance.empty) (AmtsQ.nil _ _) none) (fun _ _ hl _ => hl) ?_
  rintro ⟨b, np⟩ ⟨B, NP⟩ hsum ⟨hb, e⟩
  simp only at e
  subst e
  simp only [hp.length_eq]
  split
  · exact Sim.fail _
  · refine Sim.bindEq (impliedCosts_sim h hp hb np) (fun _ _ hl _ => hl) ?_
    rintro ⟨r1, r2⟩ ⟨R1, R2⟩ himp ⟨k1, k2, k3⟩
    have hn' : ∀ X ∈ R1, X.cost ≠ none → ∀ A, X.amount = some A → NodesQ p Q A := by
      intro X hX hc A hA
      obtain ⟨i, hi⟩ := List.getElem?_of_mem hX
      have hl : i < r1.length := by
        have h1 : r1.length = R1.length := k1.length_eq
        obtain ⟨h2, _⟩ := List.getElem?_eq_some_iff.mp hi
        omega
      have hr := k1.get hl (by obtain ⟨h2, _⟩ := List.getElem?_eq_some_iff.mp hi; exact h2)
      have hR : R1.get ⟨i, (List.getElem?_eq_some_iff.mp hi).1⟩ = X := (List.getElem?_eq_some_iff.mp hi).2
      rw [hR] at hr
      have hk : (XS.map Pst.kept)[i]? = some X.kept := by rw [← k3, List.getElem?_map, hi]; rfl
      rw [List.getElem?_map] at hk
      obtain ⟨Y, hY1, hY2⟩ := Option.map_eq_some_iff.mp hk
      refine hn b np r1 r2 hsum himp i r1[i] Y A (List.getElem?_eq_getElem hl) ?_ hY1 ?_
      · have := hr.cost.1
        intro e
        rw [List.get_eq_getElem] at this
        rw [e] at this
        exact hc (by simpa using this.symm)
      · have : Y.amount = X.amount := congrArg Prod.snd hY2
        rw [this, hA]
    refine Sim.bind (recordPrices_sim x.date h k1 hn') (fun _ _ hl _ => hl) ?_
    rintro ⟨r3, pool⟩ ⟨R3, P⟩ ⟨m1, m2, m3⟩
    simp only at k1 k2 k3 m1 m2 m3
    have hf := fillNull_sim (h.kept m2) (by rw [m2.keys]; exact m1) (by rw [m2.keys]; exact k2) np
    rw [m2.keys] at hf
    refine Sim.bind hf (fun _ _ hl _ => hl) ?_
    rintro r4 R4 ⟨n1, n2⟩
    have k4 : R1.map (·.account) = XS.map (·.account) := by
      have := congrArg (List.map Prod.fst) k3
      simpa [List.map_map, Function.comp_def, Pst.kept] using this
    exact ⟨⟨r4, rfl, n1⟩, m2, n2.trans (m3.trans k4)⟩

theorem finalize_sim {x : Xact} {p : Store} (h : p.Fine) {XS : List Pst} (hp : List.Forall₂ (PostR p.keys) x.posts XS) :
    Sim (fun r R => (∃ xs, r.1 = { x with posts := xs } ∧ List.Forall₂ (PostR p.keys) xs R.1) ∧ Kept p r.2 R.2 ∧
      R.1.map (·.account) = XS.map (·.account))
      (fun _ => 3 < p.keys.length) (Finalize.finalize x p.er) (finalize x.date XS p) :=
  finalize_simQ (sound_taken h) hp (fun _ _ _ _ _ _ _ _ _ A _ _ _ _ => nodesQ_taken h A)

end Ledger.Machine
