import Verif.Lemmas.Machine
import Verif.Props.Stale
import Verif.Props.Heap
/-
The program with its pointers does what the main model says until it follows a pointer to freed memory: reading.
-/
namespace Ledger.Machine
open Ledger Ledger.Memory Ledger.Heap

theorem assocInsert_map {β γ : Type} (f : β → γ) (k : Str) (v : β) (l : List (Str × β)) :
    (assocInsert k v l).map (fun x => (x.1, f x.2)) = assocInsert k (f v) (l.map (fun x => (x.1, f x.2))) := by
  induction l with
  | nil => rfl
  | cons x l ih =>
    simp only [List.map_cons, assocInsert]
    split
    · rfl
    · rw [List.map_cons, ih]

theorem mem_assocInsert {β : Type} {k : Str} {v : β} {l : List (Str × β)} {x : Str × β} (h : x ∈ assocInsert k v l) :
    x.2 = v ∨ x ∈ l := by
  induction l with
  | nil => left; rw [List.mem_singleton.mp h]
  | cons y l ih =>
    simp only [assocInsert] at h
    split at h
    · rcases List.mem_cons.mp h with rfl | h
      · exact Or.inl rfl
      · exact Or.inr (List.mem_cons_of_mem _ h)
    · rcases List.mem_cons.mp h with rfl | h
      · exact Or.inr List.mem_cons_self
      · exact (ih h).imp id (List.mem_cons_of_mem _)

/-- The pool after a step that may make commodities, with the pointer it returns. -/
structure Grown (p : Store) (r : Pool × Option Str) (R : Store × Option Addr) : Prop where
  er : R.1.er = r.1
  fine : R.1.Fine
  keys : p.keys <+: R.1.keys
  ptr : r.2 = R.2.map (fun a => keyAt R.1.keys a.slot)
  taken : ∀ a, R.2 = some a → Taken R.1.keys a

def AnnGood (ks : List Str) (a : Ann) : Prop := ∀ pr, a.price = some pr → Good ks pr

theorem AnnGood.er {ks ks' : List Str} {a : Ann} (h : AnnGood ks a) (hp : ks <+: ks') : a.er ks' = a.er ks := by
  unfold Ann.er
  cases hx : a.price with
  | none => rfl
  | some x => simp only [Option.map_some]; rw [(h x hx).er hp]

theorem keyAt_idxOf {ks : List Str} {s : Str} (h : s ∈ ks) : keyAt ks (ks.idxOf s) = s := by
  unfold keyAt
  rw [List.getElem?_eq_getElem (List.idxOf_lt_length_iff.mpr h)]
  simp

theorem findOrCreate_grown {p : Store} (h : p.Fine) (s : Str) (ann : Option Ann) (ha : ∀ a, ann = some a → AnnGood p.keys a) :
    Grown p (p.er.findOrCreate s (ann.map (Ann.er p.keys))) (p.findOrCreate s ann) := by
  have hinv := Pool.inv_findOrCreate h.inv s (ann.map (Ann.er p.keys))
  revert hinv
  unfold Pool.findOrCreate Store.findOrCreate
  by_cases hs : s = []
  · rw [if_pos hs, if_pos hs]
    exact fun _ => ⟨rfl, h, List.prefix_rfl, rfl, by intro a ha; cases ha⟩
  rw [if_neg hs, if_neg hs]
  have hf : p.er.find s = assocGet s p.commodities := rfl
  rw [hf]
  cases hg : assocGet s p.commodities with
  | some c =>
    simp only
    intro hinv
    have hm : s ∈ p.keys := List.mem_map.mpr ⟨_, assocGet_mem _ _ _ hg, rfl⟩
    have htk : Taken p.keys (p.addrOf s) := ⟨p.keys.length, List.idxOf_lt_length_iff.mpr hm, Nat.le_refl _, rfl⟩
    have hka : keyAt p.keys (p.addrOf s).slot = s := keyAt_idxOf hm
    cases ann with
    | none => exact ⟨rfl, h, List.prefix_rfl, by simp [hka], by intro a ha; injection ha with ha; rw [← ha]; exact htk⟩
    | some a =>
      simp only [Option.map_some] at hinv ⊢
      have hi : (assocGet s p.er.annotated).isNone = (assocGet s p.annotated).isNone := by
        rw [show assocGet s p.er.annotated = (assocGet s p.annotated).map (Ann.er p.keys) from assocGet_map _ _ _]
        simp
      rw [hi] at hinv ⊢
      by_cases hn : (assocGet s p.annotated).isNone = true
      · rw [if_pos hn] at hinv ⊢
        rw [if_pos hn]
        have her : Store.er { p with annotated := assocInsert s a p.annotated } =
            { p.er with annotated := assocInsert s (a.er p.keys) p.er.annotated } := by
          unfold Store.er
          simp only [Pool.mk.injEq, true_and]
          exact ⟨assocInsert_map (Ann.er p.keys) s a p.annotated, rfl⟩
        refine ⟨her, ⟨by rw [her]; exact hinv, h.nodes, ?_⟩, List.prefix_rfl, ?_, ?_⟩
        · intro x hx pr hpr
          rcases mem_assocInsert hx with e | hx
          · rw [e] at hpr; exact ha a rfl pr hpr
          · exact h.anns x hx pr hpr
        · exact congrArg some hka.symm
        · intro a ha; injection ha with ha; rw [← ha]; exact htk
      · rw [if_neg hn] at hinv ⊢
        rw [if_neg hn]
        exact ⟨rfl, h, List.prefix_rfl, congrArg some hka.symm, by intro a ha; injection ha with ha; rw [← ha]; exact htk⟩
  | none =>
    simp only
    intro hinv
    have hks : ∀ v : Commodity, (assocInsert s v p.commodities).map (·.1) = p.keys ++ [s] := by
      intro v; rw [assocInsert_new _ _ _ hg]; simp [Store.keys]
    have hns : s ∉ p.keys := (assocGet_none_iff _ _).mp hg
    have hpre : p.keys <+: p.keys ++ [s] := List.prefix_append _ _
    have hidx : (p.keys ++ [s]).idxOf s = p.keys.length := by
      rw [List.idxOf_append_of_notMem hns]; simp
    have hadr : ∀ (v : Commodity) (an : List (Str × Ann)), Store.addrOf ⟨assocInsert s v p.commodities, an, p.nodes, p.edges⟩ s =
        ⟨tableBlock (p.keys.length + 1), p.keys.length⟩ := by
      intro v an
      unfold Store.addrOf Store.keys
      simp only [hks, hidx, List.length_append, List.length_singleton]
      rfl
    have htk : Taken (p.keys ++ [s]) ⟨tableBlock (p.keys.length + 1), p.keys.length⟩ :=
      ⟨p.keys.length + 1, by simp, by simp, rfl⟩
    have hkey : keyAt (p.keys ++ [s]) p.keys.length = s := by unfold keyAt; simp
    have hni : p.er.history.nodes.length = p.nodes.length := List.length_map ..
    have hnodes : p.nodes.map (fun a => keyAt (p.keys ++ [s]) a.slot) = p.nodes.map (fun a => keyAt p.keys a.slot) :=
      List.map_congr_left (fun a ha => keyAt_mono (h.nodes a ha).slot hpre)
    have hanns : p.annotated.map (fun x => (x.1, x.2.er (p.keys ++ [s]))) = p.annotated.map (fun x => (x.1, x.2.er p.keys)) :=
      List.map_congr_left (fun x hx => by rw [AnnGood.er (h.anns x hx) hpre])
    have fin : ∀ (an : List (Str × Ann)) (b : Bool) (an' : List (Str × Annotation)),
        an.map (fun x => (x.1, x.2.er (p.keys ++ [s]))) = an' → (∀ x ∈ an, AnnGood (p.keys ++ [s]) x.2) →
        Pool.Inv ⟨assocInsert s ⟨s, p.nodes.length, b⟩ p.commodities, an', ⟨p.er.history.nodes ++ [s], p.edges⟩⟩ →
        Grown p (⟨assocInsert s ⟨s, p.nodes.length, b⟩ p.commodities, an', ⟨p.er.history.nodes ++ [s], p.edges⟩⟩, some s)
          (⟨assocInsert s ⟨s, p.nodes.length, b⟩ p.commodities, an, p.nodes ++ [⟨tableBlock (p.keys.length + 1), p.keys.length⟩], p.edges⟩,
            some ⟨tableBlock (p.keys.length + 1), p.keys.length⟩) := by
      intro an b an' e1 e2 e3
      have hk : Store.keys ⟨assocInsert s ⟨s, p.nodes.length, b⟩ p.commodities, an, p.nodes ++ [⟨tableBlock (p.keys.length + 1), p.keys.length⟩], p.edges⟩
          = p.keys ++ [s] := hks _
      have her : Store.er ⟨assocInsert s ⟨s, p.nodes.length, b⟩ p.commodities, an, p.nodes ++ [⟨tableBlock (p.keys.length + 1), p.keys.length⟩], p.edges⟩
          = ⟨assocInsert s ⟨s, p.nodes.length, b⟩ p.commodities, an', ⟨p.er.history.nodes ++ [s], p.edges⟩⟩ := by
        unfold Store.er
        rw [hk]
        simp only [e1, List.map_append, hnodes, List.map_cons, List.map_nil, hkey]
      refine ⟨her, ⟨by rw [her]; exact e3, ?_, ?_⟩, by rw [hk]; exact hpre, ?_, ?_⟩
      · intro a ha
        rw [hk]
        rcases List.mem_append.mp ha with ha | ha
        · exact (h.nodes a ha).mono hpre
        · rw [List.mem_singleton.mp ha]; exact htk
      · intro x hx; rw [hk]; exact e2 x hx
      · simp only [Option.map_some]; rw [hk, hkey]
      · intro a ha; injection ha with ha; rw [← ha, hk]; exact htk
    have hold : ∀ x ∈ p.annotated, AnnGood (p.keys ++ [s]) x.2 := fun x hx pr hpr => (h.anns x hx pr hpr).mono hpre
    revert hinv
    unfold Pool.create Store.create History.addCommodity
    rw [hni]
    cases ann with
    | none =>
      simp only [Option.map_none, hadr]
      exact fun hinv => fin _ _ _ hanns hold hinv
    | some a =>
      simp only [Option.map_some, hadr]
      refine fun hinv => fin _ _ _ ?_ ?_ hinv
      · rw [assocInsert_map (Ann.er (p.keys ++ [s])), hanns, AnnGood.er (ha a rfl) hpre]; rfl
      · intro x hx
        rcases mem_assocInsert hx with e | hx
        · rw [e]; exact fun pr hpr => (ha a rfl pr hpr).mono hpre
        · exact hold x hx

/-- The same pool, grown. -/
structure Wider (p : Store) (pool : Pool) (P : Store) : Prop where
  er : P.er = pool
  fine : P.Fine
  keys : p.keys <+: P.keys

theorem Wider.refl {p : Store} (h : p.Fine) : Wider p p.er p := ⟨rfl, h, List.prefix_rfl⟩

theorem Wider.len {p P : Store} {pool : Pool} (h : Wider p pool P) : pool.len = P.keys.length := by
  rw [← h.er]; simp [Pool.len, Store.er, Store.keys]

theorem Grown.wider {p : Store} {r : Pool × Option Str} {R : Store × Option Addr} (h : Grown p r R) : Wider p r.1 R.1 :=
  ⟨h.er, h.fine, h.keys⟩

theorem amountParts_wider {p : Store} (h : p.Fine) (q s : Str) :
    Wider p (Parser.parseAmountParts q s p.er).1 (parseAmountParts q s p).1 ∧
      OptR (parseAmountParts q s p).1.keys (Parser.parseAmountParts q s p.er).2 (parseAmountParts q s p).2 := by
  have hg := findOrCreate_grown h s none (by intro a ha; cases ha)
  rw [Option.map_none] at hg
  revert hg
  unfold Parser.parseAmountParts parseAmountParts
  generalize p.er.findOrCreate s none = r
  generalize p.findOrCreate s none = R
  obtain ⟨r1, r2⟩ := r
  obtain ⟨R1, R2⟩ := R
  intro hg
  have hp := hg.ptr
  have ht := hg.taken
  simp only at hp ht
  subst hp
  refine ⟨hg.wider, ?_, ?_⟩
  · simp only [Option.map_map]; rfl
  · intro A hA x hx
    cases hq : Dec.fromStr q with
    | none => rw [hq] at hA; cases hA
    | some d =>
      rw [hq] at hA
      injection hA with hA
      rw [← hA] at hx
      exact ht x hx

theorem annotation_sim {p : Store} (h : p.Fine) (d q s : Str) :
    Sim (fun r R => Wider p r.1 R.1 ∧ r.2 = R.2.er R.1.keys ∧ AnnGood R.1.keys R.2) (fun _ => False)
      (Parser.parseAnnotation d q s p.er) (parseAnnotation d q s p) := by
  have ⟨h1, h2, h3⟩ := amountParts_wider h q s
  have fin : ∀ x : Option Date, Wider p (Parser.parseAmountParts q s p.er).1 (parseAmountParts q s p).1 ∧
      Annotation.mk (Parser.parseAmountParts q s p.er).2 x = Ann.er (parseAmountParts q s p).1.keys ⟨(parseAmountParts q s p).2, x⟩ ∧
      AnnGood (parseAmountParts q s p).1.keys ⟨(parseAmountParts q s p).2, x⟩ :=
    fun x => ⟨h1, by unfold Ann.er; rw [h2], h3⟩
  unfold Parser.parseAnnotation parseAnnotation
  by_cases hd : d = []
  · simp only [if_pos hd]; exact fin none
  · simp only [if_neg hd]
    cases Chrono.parseDate d with
    | none => exact Sim.fail _
    | some x => exact fin (some x)

theorem cost_sim {p : Store} (h : p.Fine) (t : Scanner.PostTokens) {o : Option Amount} {O : Option Amt} (ho : OptR p.keys o O) :
    Sim (fun r R => Wider p r.1 R.1 ∧ OptR R.1.keys r.2 R.2) (fun _ => False)
      (Parser.parseCost t o p.er) (parseCost t O p) := by
  have hnone : ∀ ks, OptR ks none none := fun ks => ⟨rfl, by intro A hA; cases hA⟩
  obtain ⟨rfl, ho⟩ := ho
  cases O with
  | none => exact ⟨Wider.refl h, hnone _⟩
  | some A =>
    have hA := ho A rfl
    unfold Parser.parseCost parseCost
    simp only [Option.map_some]
    by_cases hq : t.costQuantity = []
    · rw [if_pos hq, if_pos hq]; exact ⟨Wider.refl h, hnone _⟩
    · rw [if_neg hq, if_neg hq]
      have ⟨h1, h2⟩ := amountParts_wider h t.costQuantity t.costSymbol
      revert h1 h2
      generalize Parser.parseAmountParts t.costQuantity t.costSymbol p.er = r
      generalize parseAmountParts t.costQuantity t.costSymbol p = R
      obtain ⟨r1, r2⟩ := r
      obtain ⟨R1, R2⟩ := R
      rintro h1 ⟨h2, h3⟩
      simp only at h1 h2 h3
      subst h2
      cases R2 with
      | none => exact ⟨h1, hnone _⟩
      | some C =>
        simp only [Option.map_some]
        by_cases hu : t.isPerUnit = true
        · rw [if_pos hu, if_pos hu]
          rw [← Good.er hA h1.keys]
          refine Sim.bind (mulAssign_sim (E := False) (h3 C rfl) (Good.mono hA h1.keys)) (fun _ _ hl _ => hl) ?_
          · rintro _ Q ⟨rfl, hQ⟩
            exact ⟨h1, rfl, by intro X hX; injection hX with hX; rw [← hX]; exact hQ⟩
        · rw [if_neg hu, if_neg hu]
          exact ⟨h1, rfl, h3⟩

theorem Wider.trans {p q : Store} {pool : Pool} {P : Store} (h1 : Wider p q.er q) (h2 : Wider q pool P) : Wider p pool P :=
  ⟨h2.er, h2.fine, h1.keys.trans h2.keys⟩

theorem later_len {p p' : Pool} (h : p.Later p') : p.len ≤ p'.len := by
  have := (poolLater_keys h).length_le
  simpa [Pool.len] using this

theorem postAmounts_sim {p : Store} (h : p.Fine) (t : Scanner.PostTokens) :
    Sim (fun r R => Wider p r.1 R.1 ∧ OptR R.1.keys r.2.1 R.2.1 ∧ OptR R.1.keys r.2.2 R.2.2) (fun _ => False)
      (Parser.parsePostAmounts t p.er) (parsePostAmounts t p) := by
  have ⟨h1, h2⟩ := amountParts_wider h t.quantity t.symbol
  unfold Parser.parsePostAmounts parsePostAmounts
  revert h1 h2
  generalize Parser.parseAmountParts t.quantity t.symbol p.er = r
  generalize parseAmountParts t.quantity t.symbol p = R
  obtain ⟨r1, r2⟩ := r
  obtain ⟨R1, R2⟩ := R
  rintro h1 h2
  simp only at h1 h2 ⊢
  obtain rfl := h1.er
  refine Sim.bind (annotation_sim h1.fine _ _ _) (fun _ _ hl _ => hl) ?_
  · rintro ⟨a1, a2⟩ ⟨A1, A2⟩ ⟨k1, k2, k3⟩
    simp only at k1 k2 k3 ⊢
    obtain rfl := k1.er
    subst k2
    have hg := findOrCreate_grown k1.fine t.symbol (some A2) (by intro a ha; injection ha with ha; rw [← ha]; exact k3)
    rw [Option.map_some] at hg
    have hw := hg.wider
    revert hw
    generalize (A1.er.findOrCreate t.symbol (some (A2.er A1.keys))).1 = s1
    generalize (A1.findOrCreate t.symbol (some A2)).1 = S1
    intro hw
    obtain rfl := hw.er
    have hk : R1.keys <+: S1.keys := k1.keys.trans hw.keys
    have hw0 : Wider p S1.er S1 := (h1.trans k1).trans hw
    refine Sim.bind (cost_sim hw.fine t (OptR.mono h2 hk)) (fun _ _ hl _ => hl) ?_
    · rintro ⟨c1, c2⟩ ⟨C1, C2⟩ ⟨m1, m2⟩
      simp only at m1 m2
      exact ⟨hw0.trans m1, OptR.mono (OptR.mono h2 hk) m1.keys, m2⟩

/-- There are large pools. -/
theorem pool_big : ∃ r : Pool, 3 < r.len :=
  ⟨⟨List.replicate 4 ([], ⟨[], 0, false⟩), [], ⟨[], []⟩⟩, by decide⟩

theorem priceDirective_sim {p : Store} (h : p.Fine) (line : Str) :
    Sim (Wider p) (fun r => 3 < r.len) (p.er.parsePriceDirective line) (parsePriceDirective p line) := by
  unfold Pool.parsePriceDirective parsePriceDirective
  refine Sim.bind (Sim.same (L := fun _ => False) _) (fun _ _ hl _ => hl.elim) ?_
  rintro ⟨date, time, c, q, pc⟩ _ rfl
  simp only
  cases Chrono.parseDate date with
  | none => exact Sim.fail _
  | some d =>
    simp only
    cases (if time = [] then some Time.midnight else Chrono.parseTime time) with
    | none => exact Sim.fail _
    | some t =>
      simp only
      cases Dec.fromStr q with
      | none => exact Sim.fail _
      | some q =>
        simp only
        have hg := findOrCreate_grown h c none (by intro a ha; cases ha)
        rw [Option.map_none] at hg
        revert hg
        generalize p.er.findOrCreate c none = r
        generalize p.findOrCreate c none = R
        obtain ⟨r1, r2⟩ := r
        obtain ⟨R1, R2⟩ := R
        intro hg
        obtain rfl : R1.er = r1 := hg.er
        have hg' := findOrCreate_grown hg.fine pc none (by intro a ha; cases ha)
        rw [Option.map_none] at hg'
        simp only
        revert hg'
        generalize R1.er.findOrCreate pc none = u
        generalize R1.findOrCreate pc none = U
        obtain ⟨u1, u2⟩ := u
        obtain ⟨U1, U2⟩ := U
        intro hg'
        obtain rfl : U1.er = u1 := hg'.er
        have e1 : r2 = R2.map (fun a => keyAt U1.keys a.slot) := by
          have := hg.ptr
          simp only at this
          rw [this]
          cases R2 with
          | none => rfl
          | some x => simp only [Option.map_some]; rw [keyAt_mono (hg.taken x rfl).slot hg'.keys]
        have e2 : u2 = U2.map (fun a => keyAt U1.keys a.slot) := hg'.ptr
        subst e1 e2
        have hw : Wider p U1.er U1 := hg.wider.trans hg'.wider
        have hsim := addPrice_sim (sound_taken hg'.fine) (c := R2) (fun x hx => (hg.taken x hx).mono hg'.keys) ⟨d, t⟩ (q := ⟨q, U2⟩) hg'.taken
        have hlen : ∀ r, U1.er.addPrice (R2.map (fun a => keyAt U1.keys a.slot)) ⟨d, t⟩ (Amt.er U1.keys ⟨q, U2⟩) = .ok r →
            3 < U1.keys.length → 3 < r.len := by
          intro r hr hl
          have := later_len (Pool.later_addPrice hr)
          have := hw.len
          omega
        revert hsim hlen
        show Sim _ _ _ _ → _ → Sim _ _ (U1.er.addPrice _ _ (Amt.er U1.keys ⟨q, U2⟩)) _
        generalize U1.er.addPrice (R2.map (fun a => keyAt U1.keys a.slot)) ⟨d, t⟩ (Amt.er U1.keys ⟨q, U2⟩) = m
        generalize U1.addPrice R2 ⟨d, t⟩ ⟨q, U2⟩ = M
        intro hsim hlen
        cases m with
        | error e => cases M with
          | error e' => exact hsim.imp id (fun h => ⟨h.1, pool_big⟩)
          | ok b => exact hsim.elim
        | ok a => cases M with
          | error e' => exact ⟨hsim.1, hlen a rfl hsim.2⟩
          | ok b => exact ⟨hsim.er, hsim.fine, by rw [hsim.keys]; exact hw.keys⟩

/-! ### journals -/

/-- A transaction. -/
structure XctR (ks : List Str) (x : Xact) (X : Xct) : Prop where
  date : x.date = X.date
  aux : x.auxDate = X.auxDate
  payee : x.payee = X.payee
  note : x.note = X.note
  posts : List.Forall₂ (PostR ks) x.posts X.posts

theorem PostR.mono {ks ks' : List Str} {x : Post} {X : Pst} (h : PostR ks x X) (hp : ks <+: ks') : PostR ks' x X :=
  ⟨OptR.mono h.amount hp, OptR.mono h.cost hp, h.note⟩

theorem XctR.mono {ks ks' : List Str} {x : Xact} {X : Xct} (h : XctR ks x X) (hp : ks <+: ks') : XctR ks' x X :=
  ⟨h.date, h.aux, h.payee, h.note, h.posts.imp (fun _ _ h => h.mono hp)⟩

/-- A journal. -/
structure JrnR (j : Journal) (J : Jrn) : Prop where
  pool : J.store.er = j.pool
  fine : J.store.Fine
  books : ∃ homes, Books J.tree homes (bookings j.xacts)
  erase : J.tree.master.erase = j.master
  xacts : List.Forall₂ (XctR J.store.keys) j.xacts J.xacts

theorem JrnR.tree {j : Journal} {J : Jrn} (h : JrnR j J) : Reach J.tree := by
  obtain ⟨_, h⟩ := h.books
  exact h.reach

theorem jrnR_new : JrnR Journal.new Jrn.new :=
  ⟨rfl, ⟨Pool.inv_empty, (by intro a ha; cases ha), (by intro a ha; cases ha)⟩, ⟨[], .new⟩, rfl, .nil⟩

/-- The postings with their accounts depend only on the accounts. -/
theorem bookings_congr {xs ys : List Xact} (h : List.Forall₂ (fun x y => x.posts.map (·.account) = y.posts.map (·.account)) xs ys) :
    bookings xs = bookings ys := by
  unfold bookings
  have : ∀ k, (xs.zipIdx k).flatMap (fun x => postRefs x.2 x.1.posts) = (ys.zipIdx k).flatMap (fun x => postRefs x.2 x.1.posts) := by
    induction h with
    | nil => intro k; rfl
    | cons h _ ih =>
      intro k
      rw [List.zipIdx_cons, List.zipIdx_cons, List.flatMap_cons, List.flatMap_cons, ih, postRefs_congr _ h]
  exact this 0

theorem bookings_modify (xs : List Xact) (i : Nat) {f : Xact → Xact} (hf : ∀ x, (f x).posts.map (·.account) = x.posts.map (·.account)) :
    bookings (xs.modify i f) = bookings xs := by
  apply bookings_congr
  induction xs generalizing i with
  | nil => cases i <;> exact .nil
  | cons x xs ih =>
    cases i with
    | zero => exact .cons (hf x) (List.forall₂_same.mpr fun _ _ => rfl)
    | succ i => exact .cons rfl (ih i)

theorem bookings_set {xs : List Xact} {i : Nat} {x x' : Xact} (hi : xs[i]? = some x) (h : x'.posts.map (·.account) = x.posts.map (·.account)) :
    bookings (xs.set i x') = bookings xs := by
  apply bookings_congr
  induction xs generalizing i with
  | nil => cases hi
  | cons y xs ih =>
    cases i with
    | zero =>
      rw [List.getElem?_cons_zero] at hi
      injection hi with hi
      subst hi
      exact .cons h (List.forall₂_same.mpr fun _ _ => rfl)
    | succ i => exact .cons rfl (ih hi)

theorem forall₂_modify {α β : Type} {R : α → β → Prop} {f : α → α} {g : β → β} (hfg : ∀ a b, R a b → R (f a) (g b)) :
    ∀ {l : List α} {L : List β} (i : Nat), List.Forall₂ R l L → List.Forall₂ R (l.modify i f) (L.modify i g)
  | _, _, i, .nil => by cases i <;> exact .nil
  | _, _, 0, .cons h t => .cons (hfg _ _ h) t
  | _, _, i + 1, .cons h t => .cons h (forall₂_modify hfg i t)

theorem forall₂_set {α β : Type} {R : α → β → Prop} {a : α} {b : β} (hab : R a b) :
    ∀ {l : List α} {L : List β} (i : Nat), List.Forall₂ R l L → List.Forall₂ R (l.set i a) (L.set i b)
  | _, _, i, .nil => by cases i <;> exact .nil
  | _, _, 0, .cons _ t => .cons hab t
  | _, _, i + 1, .cons h t => .cons h (forall₂_set hab i t)

theorem forall₂_getElem? {α β : Type} {R : α → β → Prop} :
    ∀ {l : List α} {L : List β} (i : Nat), List.Forall₂ R l L →
      (l[i]? = none ∧ L[i]? = none) ∨ ∃ a b, l[i]? = some a ∧ L[i]? = some b ∧ R a b
  | _, _, i, .nil => Or.inl (by simp)
  | _, _, 0, .cons h t => Or.inr ⟨_, _, rfl, rfl, h⟩
  | _, _, i + 1, .cons h t => by simpa using forall₂_getElem? i t

theorem modify_snoc {α : Type} (xs : List α) (x : α) (f : α → α) : (xs ++ [x]).modify xs.length f = xs ++ [f x] := by
  induction xs with
  | nil => rfl
  | cons y xs ih => simp only [List.cons_append, List.length_cons, List.modify_succ_cons, ih]

/-- Many commodities. -/
def Big (j : Journal) : Prop := 3 < j.pool.len

theorem journal_big : ∃ j : Journal, Big j := by
  obtain ⟨r, hr⟩ := pool_big
  exact ⟨{ Journal.new with pool := r }, hr⟩

theorem Big.later {j j' : Journal} (h : Big j) (hl : j.pool.Later j'.pool) : Big j' := Nat.lt_of_lt_of_le h (later_len hl)

theorem parsePost_sim (input : Str) {xs : List Xact} {j : Journal} {J : Jrn} (h : JrnR j J) {x0 : Xact} (hxs : j.xacts = xs ++ [x0]) :
    Sim JrnR (fun _ => False) (Parser.parsePost input xs.length j) (parsePost input xs.length J) := by
  obtain ⟨i, hi⟩ : ∃ i, i = xs.length := ⟨_, rfl⟩
  rw [← hi]
  unfold Parser.parsePost parsePost
  refine Sim.bind (Sim.same (L := fun _ => False) _) (fun _ _ hl _ => hl.elim) ?_
  rintro t _ rfl
  unfold Journal.registerAccount
  by_cases ht : t.account = []
  · rw [if_pos ht, if_pos ht]; exact Sim.fail _
  · rw [if_neg ht, if_neg ht]
    obtain ⟨s', x, e1, e2, e3, e4, e5⟩ := C76_register h.tree t.account
    rw [h.erase] at e2
    rw [e1, e2]
    show Sim _ _ (Parser.parsePostAmounts t j.pool >>= _) (parsePostAmounts t J.store >>= _)
    rw [← h.pool]
    refine Sim.bind (postAmounts_sim h.fine t) (fun _ _ hl _ => hl) ?_
    · rintro ⟨r1, r2, r3⟩ ⟨R1, R2, R3⟩ ⟨k1, k2, k3⟩
      simp only at k1 k2 k3
      show Sim _ _ _ (s'.deref x.addr >>= _)
      rw [e4]
      have hx1 : List.Forall₂ (XctR R1.keys) j.xacts J.xacts := h.xacts.imp (fun _ _ h => h.mono k1.keys)
      have hn : (match j.xacts[i]? with | some x => x.posts.length | none => 0) =
          (match J.xacts[i]? with | some x => x.posts.length | none => 0) := by
        rcases forall₂_getElem? i h.xacts with ⟨n1, n2⟩ | ⟨a, b, n1, n2, n3⟩
        · rw [n1, n2]
        · rw [n1, n2]; exact n3.posts.length_eq
      refine ⟨k1.er, k1.fine, ?_, ?_, ?_⟩
      · obtain ⟨homes, hb⟩ := h.books
        refine ⟨homes ++ [x.addr], ?_⟩
        have hx : j.xacts[i]? = some x0 := by rw [hxs, hi]; simp
        rw [hx] at hn
        have hbk : bookings (j.xacts.modify i (fun x => { x with posts := x.posts ++ [⟨pathOf t.account, r2, r3, none⟩] })) =
            bookings j.xacts ++ [((i, x0.posts.length), pathOf t.account)] := by
          rw [hxs, hi, modify_snoc, bookings_snoc, bookings_snoc, postRefs_append, List.append_assoc]
        have := Books.post (i, x0.posts.length) hb e1
        rw [← hbk] at this
        show Books (s'.push x.addr (i, (match J.xacts[i]? with | some x => x.posts.length | none => 0))) _
          (bookings (j.xacts.modify i (fun x => { x with posts := x.posts ++ [⟨pathOf t.account, r2, r3, none⟩] })))
        rw [← hn]
        exact this
      · show (s'.push x.addr (i, (match J.xacts[i]? with | some x => x.posts.length | none => 0))).master.erase =
          (s'.master.erase.pushPost (pathOf t.account) (i, (match j.xacts[i]? with | some x => x.posts.length | none => 0)))
        rw [hn]; exact C76_push e5 e3 _
      · refine forall₂_modify ?_ i hx1
        rintro a b ⟨m1, m2, m3, m4, m5⟩
        exact ⟨m1, m2, m3, m4, List.rel_append m5 (.cons ⟨k2, k3, rfl⟩ .nil)⟩

theorem noteLast_rel {ks : List Str} (n : Str) : ∀ {l : List Post} {L : List Pst}, List.Forall₂ (PostR ks) l L →
    List.Forall₂ (PostR ks) (Xact.noteLast n l) (noteLast n L)
  | _, _, .nil => .nil
  | _, _, .cons h .nil => .cons ⟨h.amount, h.cost, rfl⟩ .nil
  | _, _, .cons h (.cons h' t) => .cons h (noteLast_rel n (.cons h' t))

theorem addNote_rel {ks : List Str} (n : Str) {x : Xact} {X : Xct} (h : XctR ks x X) : XctR ks (x.addNote n) (X.addNote n) := by
  unfold Xact.addNote Xct.addNote
  have : x.posts = [] ↔ X.posts = [] := by
    rw [← List.length_eq_zero_iff, ← List.length_eq_zero_iff, h.posts.length_eq]
  by_cases hx : X.posts = []
  · rw [if_pos hx, if_pos (this.mpr hx)]; exact ⟨h.date, h.aux, h.payee, rfl, h.posts⟩
  · rw [if_neg hx, if_neg (fun e => hx (this.mp e))]; exact ⟨h.date, h.aux, h.payee, h.note, noteLast_rel n h.posts⟩

theorem trailingNote_sim (line : Str) (i : Nat) {j : Journal} {J : Jrn} (h : JrnR j J) :
    Sim JrnR (fun _ => False) (Parser.parseTrailingNote line i j) (parseTrailingNote line i J) := by
  unfold Parser.parseTrailingNote parseTrailingNote
  refine Sim.bind (Sim.same (L := fun _ => False) _) (fun _ _ hl _ => hl.elim) ?_
  rintro r _ rfl
  by_cases hr : trim r = []
  · simp only [if_pos hr]; exact h
  · simp only [if_neg hr]
    refine ⟨h.pool, h.fine, ?_, h.erase, forall₂_modify (fun a b hab => addNote_rel _ hab) i h.xacts⟩
    show ∃ homes, Books J.tree homes (bookings (j.xacts.modify i fun x => x.addNote (trim r)))
    rw [bookings_modify _ _ (fun x => (addNote_keep x _).1)]
    exact h.books

/-- Reading keeps many commodities. -/
theorem parsePost_big {input : Str} {j j' : Journal} {xs : List Xact} {x : Xact} (hx : j.xacts = xs ++ [x])
    (h : Parser.parsePost input xs.length j = .ok j') : (∃ x', j'.xacts = xs ++ [x']) ∧ (Big j → Big j') := by
  obtain ⟨t, m, path, pool, am, c, _, _, _, k4, rfl⟩ := parsePost_ok hx h
  exact ⟨⟨_, rfl⟩, fun hb => hb.later (Pool.later_postAmounts k4)⟩

theorem readBody_sim {xs : List Xact} (src : Parser.Source) {j : Journal} {J : Jrn} (h : JrnR j J) {x : Xact} (hx : j.xacts = xs ++ [x]) :
    Sim (fun r R => JrnR r.1 R.1 ∧ r.2 = R.2) (fun _ => False) (Parser.readBody xs.length src j) (readBody xs.length src J) := by
  induction src generalizing j J x with
  | nil => exact ⟨h, rfl⟩
  | cons l src ih =>
    cases l with
    | none => exact ⟨h, rfl⟩
    | some line =>
      rw [Parser.readBody, readBody]
      cases Parser.classify line with
      | fin => exact ⟨h, rfl⟩
      | bad => exact Sim.fail _
      | note =>
        have hs := trailingNote_sim line xs.length h
        simp only
        cases h1 : Parser.parseTrailingNote line xs.length j with
        | error e =>
          rw [h1] at hs
          cases h2 : parseTrailingNote line xs.length J with
          | error e' => rw [h2] at hs; exact hs.imp id (fun h => ⟨h.1, h.2.elim (fun _ h => h.elim)⟩)
          | ok b => rw [h2] at hs; exact hs.elim
        | ok j1 =>
          rw [h1] at hs
          obtain ⟨r, _, e1⟩ := parseTrailingNote_ok hx h1
          have hx1 : ∃ x', j1.xacts = xs ++ [x'] := ⟨_, by rw [e1]⟩
          obtain ⟨x1, hx1⟩ := hx1
          cases h2 : parseTrailingNote line xs.length J with
          | error e' =>
            rw [h2] at hs
            exact hs.2.elim
          | ok J1 => rw [h2] at hs; exact ih hs hx1
      | post input =>
        have hs := parsePost_sim input h hx
        simp only
        cases h1 : Parser.parsePost input xs.length j with
        | error e =>
          rw [h1] at hs
          cases h2 : parsePost input xs.length J with
          | error e' => rw [h2] at hs; exact hs.imp id (fun h => ⟨h.1, h.2.elim (fun _ h => h.elim)⟩)
          | ok b => rw [h2] at hs; exact hs.elim
        | ok j1 =>
          rw [h1] at hs
          obtain ⟨⟨x1, hx1⟩, _⟩ := parsePost_big hx h1
          cases h2 : parsePost input xs.length J with
          | error e' =>
            rw [h2] at hs
            exact hs.2.elim
          | ok J1 => rw [h2] at hs; exact ih hs hx1

theorem Sim.bind' {α β γ δ : Type} {R : α → β → Prop} {L : α → Prop} {R' : γ → δ → Prop} {L' : γ → Prop} {m : Res α} {M : Res β}
    {f : α → Res γ} {F : β → Res δ} (h : Sim R L m M) (hl : ∀ a c, m = .ok a → L a → f a = .ok c → L' c)
    (hf : ∀ a b, m = .ok a → R a b → Sim R' L' (f a) (F b)) (hx : (∃ a, L a) → ∃ c, L' c := by can_be_large) :
    Sim R' L' (m >>= f) (M >>= F) := by
  cases m with
  | error e =>
    cases M with
    | error e' => exact h.imp id (fun h => ⟨h.1, hx h.2⟩)
    | ok b => exact h.elim
  | ok a =>
    cases M with
    | error e' =>
      obtain ⟨rfl, h⟩ := h
      exact Sim.dangling (fun c hc => hl a c rfl h hc) (hx ⟨a, h⟩)
    | ok b => exact hf a b rfl h

theorem finalizeXact_sim (i : Nat) {j : Journal} {J : Jrn} (h : JrnR j J) :
    Sim JrnR Big (Parser.finalizeXact i j) (finalizeXact i J) := by
  unfold Parser.finalizeXact finalizeXact
  rcases forall₂_getElem? i h.xacts with ⟨n1, n2⟩ | ⟨x, X, n1, n2, n3⟩
  · rw [n1, n2]; exact Sim.fail _
  · rw [n1, n2]
    simp only
    have hs := finalize_sim (x := x) h.fine n3.posts
    rw [h.pool, n3.date] at hs
    refine Sim.bind' hs ?_ ?_ (fun _ => journal_big)
    · rintro ⟨x', pool⟩ c hm hl hc
      injection hc with hc
      rw [← hc]
      show 3 < pool.len
      have h1 := later_len (Pool.later_finalize hm)
      have h2 : j.pool.len = J.store.keys.length := by rw [← h.pool]; simp [Pool.len, Store.er, Store.keys]
      omega
    · rintro ⟨x', pool⟩ ⟨ps, p⟩ hfin ⟨⟨xs, k1, k2⟩, k3, _⟩
      simp only at k1 k2 k3
      have hacc : x'.posts.map (·.account) = x.posts.map (·.account) := by
        obtain ⟨_, _, _, _, k5⟩ := C34_nothing_altered_partial _ _ _ _ hfin
        have : ∀ ps ps' : List Post, List.Forall₂ (fun p p' => p'.account = p.account) ps ps' →
            ps'.map (·.account) = ps.map (·.account) := by
          intro ps ps' hF
          induction hF with
          | nil => rfl
          | cons h _ ih => rw [List.map_cons, List.map_cons, h, ih]
        exact this _ _ (k5.imp fun p p' h => h.1)
      subst k1
      refine ⟨k3.er, k3.fine, by rw [bookings_set n1 hacc]; exact h.books, h.erase, ?_⟩
      show List.Forall₂ (XctR p.keys) _ _
      rw [k3.keys]
      exact forall₂_set ⟨rfl, n3.aux, n3.payee, n3.note, k2⟩ i h.xacts

theorem createXact_sim (line : Str) {j : Journal} {J : Jrn} (h : JrnR j J) :
    Sim (fun r R => JrnR r.1 R.1 ∧ r.2 = R.2 ∧ r.2 = j.xacts.length ∧ ∃ x, r.1.xacts = j.xacts ++ [x]) (fun _ => False)
      (Parser.createXact line j) (createXact line J) := by
  unfold Parser.createXact createXact
  refine Sim.bind (Sim.same (L := fun _ => False) _) (fun _ _ hl _ => hl.elim) ?_
  rintro ⟨d, a, p, n⟩ _ rfl
  refine Sim.bind' (Sim.same (L := fun _ => False) _) (fun _ _ _ hl _ => hl.elim) ?_
  rintro x _ hx rfl
  have hp : x.posts = [] := (create_ok hx).2.2.2.1
  refine ⟨⟨h.pool, h.fine, by show ∃ homes, Books J.tree homes (bookings (j.xacts ++ [x])); rw [bookings_empty_snoc _ _ hp]; exact h.books, h.erase, ?_⟩, h.xacts.length_eq, rfl, x, rfl⟩
  exact List.rel_append h.xacts (.cons ⟨rfl, rfl, rfl, rfl, by rw [hp]; exact .nil⟩ .nil)

theorem xactDirective_sim (line : Str) (rest : Parser.Source) {j : Journal} {J : Jrn} (h : JrnR j J) :
    Sim (fun r R => JrnR r.1 R.1 ∧ r.2 = R.2) (fun r => Big r.1) (Parser.xactDirective line rest j) (xactDirective line rest J) := by
  unfold Parser.xactDirective xactDirective
  refine Sim.bind (createXact_sim line h) (fun _ _ hl _ => hl.elim) ?_
  rintro ⟨j1, i⟩ ⟨J1, _⟩ ⟨h1, rfl, hi, x, hx⟩
  simp only at h1 hi hx ⊢
  subst hi
  refine Sim.bind (readBody_sim rest h1 hx) (fun _ _ hl _ => hl.elim) ?_
  · rintro ⟨j2, rest2⟩ ⟨J2, _⟩ ⟨h2, rfl⟩
    refine Sim.bind (finalizeXact_sim _ h2) ?_ ?_ ?_
    · intro a c hl hc
      injection hc with hc
      rw [← hc]; exact hl
    rotate_left
    · exact fun h => h.elim (fun a h => ⟨(a, []), h⟩)
    · intro a b hab
      exact ⟨hab, rfl⟩

theorem parseGo_big {inc : Str → Journal → Res Journal} (hinc : ∀ f j j', inc f j = .ok j' → Big j → Big j') (fuel : Nat)
    (src : Parser.Source) {j j' : Journal} (h : Parser.parseGo inc fuel src j = .ok j') (hb : Big j) : Big j' := by
  induction fuel generalizing src j with
  | zero => cases h
  | succ fuel ih =>
    cases src with
    | nil => injection h with h; rw [← h]; exact hb
    | cons l rest =>
      cases l with
      | none => injection h with h; rw [← h]; exact hb
      | some line =>
        rw [Parser.parseGo] at h
        split at h
        · exact ih rest h hb
        · exact ih rest h hb
        · cases hx : Parser.xactDirective line rest j with
          | error e => rw [hx] at h; cases h
          | ok v =>
            obtain ⟨j1, rest1⟩ := v
            rw [hx] at h
            obtain ⟨_, _, _, _, _, _, _, _, _, _, _, hg, _⟩ := xactDirective_ok hx
            exact ih rest1 h (hb.later hg.pool)
        · cases h
        · rename_i f _
          cases hx : inc f j with
          | error e => rw [hx] at h; cases h
          | ok j1 => rw [hx] at h; exact ih rest h (hinc f j j1 hx hb)
        · cases hx : j.pool.parsePriceDirective line with
          | error e => rw [hx] at h; cases h
          | ok pool =>
            rw [hx] at h
            exact ih rest (j := { j with pool := pool }) h (Nat.lt_of_lt_of_le hb (later_len (Pool.later_priceDirective hx)))
        · cases h

theorem parseGo_sim {inc : Str → Journal → Res Journal} {INC : Str → Jrn → Res Jrn} (hinc : ∀ f j j', inc f j = .ok j' → Big j → Big j')
    (hs : ∀ f j J, JrnR j J → Sim JrnR Big (inc f j) (INC f J)) (fuel : Nat) (src : Parser.Source) {j : Journal} {J : Jrn}
    (h : JrnR j J) : Sim JrnR Big (Parser.parseGo inc fuel src j) (parseGo INC fuel src J) := by
  induction fuel generalizing src j J with
  | zero => exact Sim.fail _
  | succ fuel ih =>
    cases src with
    | nil => exact h
    | cons l rest =>
      cases l with
      | none => exact h
      | some line =>
        rw [Parser.parseGo, parseGo]
        cases Parser.topLine line with
        | ignored => exact ih rest h
        | skipped => exact ih rest h
        | indented => exact Sim.fail _
        | fails p => exact Sim.fail _
        | includeFile f =>
          refine Sim.bind (hs f j J h) ?_ (fun a b hab => ih rest hab)
          exact fun a c hl hc => parseGo_big hinc fuel rest hc hl
        | xact =>
          refine Sim.bind (xactDirective_sim line rest h) ?_ ?_ ?_
          · rintro ⟨j1, rest1⟩ c hl hc
            exact parseGo_big hinc fuel rest1 hc hl
          rotate_left
          · exact fun _ => journal_big
          · rintro ⟨j1, rest1⟩ ⟨J1, _⟩ ⟨h1, rfl⟩
            exact ih rest1 h1
        | price =>
          have hp := priceDirective_sim h.fine line
          rw [h.pool] at hp
          refine Sim.bind hp ?_ ?_ ?_
          · intro pool c hl hc
            exact parseGo_big hinc fuel rest (j := { j with pool := pool }) hc hl
          rotate_left
          · exact fun _ => journal_big
          · intro pool P hP
            exact ih rest ⟨hP.er, hP.fine, h.books, h.erase, h.xacts.imp (fun _ _ h => h.mono hP.keys)⟩

theorem parse_big (files : Parser.Files) (depth : Nat) (src : Parser.Source) {j j' : Journal}
    (h : Parser.parse files depth src j = .ok j') (hb : Big j) : Big j' := hb.later (parse_ok _ _ _ _ _ h).1.pool

theorem parse_sim (files : Parser.Files) (depth : Nat) (src : Parser.Source) {j : Journal} {J : Jrn} (h : JrnR j J) :
    Sim JrnR Big (Parser.parse files depth src j) (parse files depth src J) := by
  induction depth generalizing src j J with
  | zero =>
    rw [Parser.parse, parse]
    refine parseGo_sim ?_ ?_ _ src h
    · intro f j j' hf hb
      cases hq : files f with
      | none => simp only [hq] at hf; injection hf with hf; rw [← hf]; exact hb
      | some s => simp only [hq] at hf; cases hf
    · intro f j J hj
      cases files f with
      | none => exact hj
      | some s => exact Sim.fail _
  | succ depth ih =>
    rw [Parser.parse, parse]
    refine parseGo_sim ?_ ?_ _ src h
    · intro f j j' hf hb
      cases hq : files f with
      | none => simp only [hq] at hf; injection hf with hf; rw [← hf]; exact hb
      | some s => simp only [hq] at hf; exact parse_big _ _ _ hf hb
    · intro f j J hj
      cases files f with
      | none => exact hj
      | some s => exact ih s hj

theorem parseFile_sim (files : Parser.Files) (depth : Nat) (f : Str) {j : Journal} {J : Jrn} (h : JrnR j J) :
    Sim JrnR Big (Parser.parseFile files depth f j) (parseFile files depth f J) := by
  unfold Parser.parseFile parseFile
  cases files f with
  | none => exact Sim.fail _
  | some src => exact parse_sim files depth src h

theorem readFiles_big (files : Parser.Files) (depth : Nat) (fs : List Str) {j j' : Journal}
    (h : Cli.readFiles files depth fs j = .ok j') (hb : Big j) : Big j' := by
  induction fs generalizing j with
  | nil => injection h with h; rw [← h]; exact hb
  | cons f fs ih =>
    rw [Cli.readFiles] at h
    cases hq : Parser.parseFile files depth f j with
    | error e => rw [hq] at h; cases h
    | ok j1 =>
      rw [hq] at h
      refine ih h ?_
      unfold Parser.parseFile at hq
      split at hq
      · cases hq
      · exact parse_big _ _ _ hq hb

theorem readFiles_sim (files : Parser.Files) (depth : Nat) (fs : List Str) {j : Journal} {J : Jrn} (h : JrnR j J) :
    Sim JrnR Big (Cli.readFiles files depth fs j) (readFiles files depth fs J) := by
  induction fs generalizing j J with
  | nil => exact h
  | cons f fs ih =>
    rw [Cli.readFiles, readFiles]
    exact Sim.bind (parseFile_sim files depth f h) (fun a c hl hc => readFiles_big _ _ _ hc hl) (fun a b hab => ih hab)

end Ledger.Machine
