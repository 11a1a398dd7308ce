import Verif.Spec.Trips
import Verif.Lemmas.MachineThru
import Verif.Lemmas.HeapGrow
import Verif.Props.Quantity
/-
When the pointers to commodities were taken.
-/
namespace Ledger.Machine
open Ledger Ledger.Memory Ledger.Heap Ledger.Parser

/-- The names in the order of their first mentions. -/
def firsts (M : List Str) : List Str := M.foldl (fun l s => if s ∈ l then l else l ++ [s]) []

theorem firsts_snoc (M : List Str) (s : Str) : firsts (M ++ [s]) = if s ∈ firsts M then firsts M else firsts M ++ [s] := by
  unfold firsts; rw [List.foldl_append]; rfl

theorem mem_firsts {M : List Str} {s : Str} : s ∈ firsts M ↔ s ∈ M := by
  induction M using List.reverseRecOn generalizing s with
  | nil => simp [firsts]
  | append_singleton M x ih =>
    rw [firsts_snoc]
    split
    · rename_i h
      rw [ih, List.mem_append, List.mem_singleton]
      constructor
      · exact Or.inl
      · rintro (h' | rfl)
        · exact h'
        · exact ih.mp h
    · rw [List.mem_append, List.mem_append, ih]

theorem firsts_nodup (M : List Str) : (firsts M).Nodup := by
  induction M using List.reverseRecOn with
  | nil => simp [firsts]
  | append_singleton M x ih =>
    rw [firsts_snoc]
    split
    · exact ih
    · rename_i h
      refine List.nodup_append.mpr ⟨ih, by simp, ?_⟩
      intro a ha b hb
      rw [List.mem_singleton] at hb
      subst hb
      rintro rfl
      exact h ha

theorem firsts_prefix {M N : List Str} (h : M <+: N) : firsts M <+: firsts N := by
  obtain ⟨t, rfl⟩ := h
  induction t using List.reverseRecOn with
  | nil => rw [List.append_nil]
  | append_singleton t x ih =>
    rw [← List.append_assoc, firsts_snoc]
    split
    · exact ih
    · exact ih.trans (List.prefix_append _ _)

theorem firsts_mem {M : List Str} {s : Str} (h : s ∈ M) : firsts (M ++ [s]) = firsts M := by
  rw [firsts_snoc, if_pos (mem_firsts.mpr h)]

/-- Where the table of commodities is when these were mentioned. -/
def place (M : List Str) : Nat := tableBlock (firsts M).length

theorem place_mono {M N : List Str} (h : M <+: N) : place M ≤ place N :=
  block_mono (next := tableNext) (stays := fun _ => false) (firsts_prefix h).length_le

theorem moves_place {M N : List Str} (hm : M ≠ []) (hp : M <+: N) : ¬ Moves M N ↔ place M = place N := by
  have hM : ∀ k, AtMost k (· ∈ M) ↔ (firsts M).length ≤ k := fun k => by
    constructor
    · exact fun h => h _ (firsts_nodup M) (fun x hx => mem_firsts.mp hx)
    · exact fun h l hn hl => Nat.le_trans (hn.length_le_of_subset (fun x hx => mem_firsts.mpr (hl x hx))) h
  have hN : ∀ k, AtMost k (· ∈ N) ↔ (firsts N).length ≤ k := fun k => by
    constructor
    · exact fun h => h _ (firsts_nodup N) (fun x hx => mem_firsts.mp hx)
    · exact fun h l hn hl => Nat.le_trans (hn.length_le_of_subset (fun x hx => mem_firsts.mpr (hl x hx))) h
  have hle := (firsts_prefix hp).length_le
  have hpos : 1 ≤ (firsts M).length := by
    cases M with
    | nil => exact absurd rfl hm
    | cons x M =>
      exact List.length_pos_of_mem (mem_firsts.mpr (List.mem_cons_self (a := x) (l := M)))
  unfold Moves Overfills place tableBlock
  constructor
  · intro h
    by_cases hr : (firsts N).length ≤ room tableNext (firsts M).length
    · exact ((room_block_fits (stays := fun _ => false) hle hr).2).symm
    · exact absurd ⟨_, full_room hpos, (hM _).mpr (room_ge tableNext_gt _), by rw [hN]; exact hr⟩ h
  · rintro h ⟨k, hk, h1, h2⟩
    rw [hM] at h1
    rw [hN] at h2
    have h3 : block tableNext (fun _ => false) (firsts M).length ≤ block tableNext (fun _ => false) k :=
      block_mono (next := tableNext) (stays := fun _ => false) h1
    have h4 := block_grows (next := tableNext) (stays := fun _ => false) tableNext_gt (n := k) (m := (firsts N).length)
      (by rw [room_full hk]; omega) rfl
    omega

/-- If the table has not moved since a moment, it has not since a later one. -/
theorem place_between {M M' N : List Str} (h : place M = place N) (h1 : M <+: M') (h2 : M' <+: N) : place M' = place N := by
  have := place_mono h1
  have := place_mono h2
  omega

/-- A store in which these commodities were looked up. -/
structure Timed (M : List Str) (p : Store) : Prop where
  keys : p.keys = firsts M
  stamped : Stamped p
  lots : ∀ s z pr x, assocGet s p.annotated = some z → z.price = some pr → pr.ptr = some x →
    ∃ pre, pre <+: M ∧ s ∈ pre ∧ x.block = place pre

theorem assocGet_insert {β : Type} (k k' : Str) (v : β) (l : List (Str × β)) :
    assocGet k' (assocInsert k v l) = if k' = k then some v else assocGet k' l := by
  induction l with
  | nil =>
    simp only [assocInsert, assocGet]
    by_cases h : k = k'
    · rw [if_pos h, if_pos h.symm]
    · rw [if_neg h, if_neg (fun e => h e.symm)]
  | cons x l ih =>
    obtain ⟨a, b⟩ := x
    simp only [assocInsert]
    by_cases h : a = k
    · subst h
      rw [if_pos rfl]
      simp only [assocGet]
      by_cases h' : a = k'
      · rw [if_pos h', if_pos h'.symm]
      · rw [if_neg h', if_neg (fun e => h' e.symm), if_neg h']
    · rw [if_neg h]
      simp only [assocGet, ih]
      by_cases h' : a = k'
      · rw [if_pos h', if_pos h', if_neg (fun e => h (h'.trans e))]
      · rw [if_neg h', if_neg h']

theorem findOrCreate_keys {p : Store} {s : Str} (hs : s ≠ []) (ann : Option Ann) :
    (p.findOrCreate s ann).1.keys = if s ∈ p.keys then p.keys else p.keys ++ [s] := by
  unfold Store.findOrCreate
  rw [if_neg hs]
  cases hc : assocGet s p.commodities with
  | some c =>
    have hm : s ∈ p.keys := List.mem_map.mpr ⟨(s, c), assocGet_mem _ _ _ hc, rfl⟩
    rw [if_pos hm]
    cases ann with
    | none => rfl
    | some a => simp only; split <;> rfl
  | none =>
    show (assocInsert s _ p.commodities).map (·.1) = _
    rw [keys_insert]; rfl

theorem findOrCreate_some {p : Store} {s : Str} (hs : s ≠ []) (ann : Option Ann) : ∃ a, (p.findOrCreate s ann).2 = some a := by
  unfold Store.findOrCreate
  rw [if_neg hs]
  cases assocGet s p.commodities with
  | some c => exact ⟨_, rfl⟩
  | none => exact ⟨_, rfl⟩

theorem findOrCreate_anns (p : Store) (s : Str) (ann : Option Ann) (s' : Str) (z : Ann)
    (h : assocGet s' (p.findOrCreate s ann).1.annotated = some z) : assocGet s' p.annotated = some z ∨ (s ≠ [] ∧ s' = s ∧ ann = some z) := by
  unfold Store.findOrCreate at h
  split at h
  · exact Or.inl h
  · rename_i hs
    split at h
    · cases ann with
      | none => exact Or.inl h
      | some a =>
        simp only at h
        split at h
        · rw [assocGet_insert] at h
          split at h
          · exact Or.inr ⟨hs, by assumption, h⟩
          · exact Or.inl h
        · exact Or.inl h
    · cases ann with
      | none => exact Or.inl h
      | some a =>
        change assocGet s' (assocInsert s a p.annotated) = some z at h
        rw [assocGet_insert] at h
        split at h
        · exact Or.inr ⟨hs, by assumption, h⟩
        · exact Or.inl h

theorem Timed.mention {M : List Str} {p : Store} (h : Timed M p) {s : Str} (hs : s ≠ []) :
    Timed (M ++ [s]) (p.findOrCreate s none).1 := by
  refine ⟨?_, h.stamped.create s none, ?_⟩
  · rw [findOrCreate_keys hs, h.keys, firsts_snoc]
  · intro s' z pr x h1 h2 h3
    rcases findOrCreate_anns _ _ _ _ _ h1 with h1 | ⟨_, _, h1⟩
    · obtain ⟨pre, g1, g2⟩ := h.lots s' z pr x h1 h2 h3
      exact ⟨pre, g1.trans (List.prefix_append _ _), g2⟩
    · cases h1

theorem findOrCreate_slot {p q : Store} {s : Str} {ann : Option Ann} {a : Addr} (h : p.findOrCreate s ann = (q, some a)) :
    q.keys[a.slot]? = some s := by
  have hmem : s ∈ q.keys ∧ a.slot = q.keys.idxOf s := by
    unfold Store.findOrCreate at h
    split at h
    · cases h
    · rename_i hs
      split at h
      · rename_i c hc
        obtain ⟨h1, h2⟩ := fst_ext h
        injection h2 with h2
        have hk : q.keys = p.keys := by
          rw [← h1]
          cases ann with
          | none => rfl
          | some a => simp only; split <;> rfl
        rw [← h2, hk]
        exact ⟨List.mem_map.mpr ⟨(s, c), assocGet_mem _ _ _ hc, rfl⟩, rfl⟩
      · rename_i hc
        obtain ⟨h1, h2⟩ := fst_ext h
        injection h2 with h2
        rw [← h2, ← h1]
        refine ⟨?_, rfl⟩
        have hk : (p.create s ann).1.keys = p.keys ++ [s] := by
          show (assocInsert s _ p.commodities).map (·.1) = _
          rw [keys_insert, if_neg (assocGet_none_keys hc)]
          rfl
        show s ∈ (p.create s ann).1.keys
        rw [hk]; simp
  rw [hmem.2, List.getElem?_eq_getElem (List.idxOf_lt_length_of_mem hmem.1)]
  simp

theorem symbolOf_none {s : Str} (h : s = []) : symbolOf s = none := if_pos h
theorem symbolOf_some {s : Str} (h : s ≠ []) : symbolOf s = some s := if_neg h

/-- Looking up a symbol, written or not. -/
theorem Timed.look {M : List Str} {p : Store} (h : Timed M p) (s : Str) :
    Timed (M ++ (symbolOf s).toList) (p.findOrCreate s none).1 ∧
    (symbolOf s = none → (p.findOrCreate s none).2 = none) ∧
    ∀ c, symbolOf s = some c → ∃ x, (p.findOrCreate s none).2 = some x ∧ x.block = place (M ++ [c]) ∧ (firsts (M ++ [c]))[x.slot]? = some c := by
  by_cases hs : s = []
  · rw [symbolOf_none hs]
    have : p.findOrCreate s none = (p, none) := by unfold Store.findOrCreate; rw [if_pos hs]
    rw [this]
    exact ⟨by simpa using h, fun _ => rfl, fun _ hc => nomatch hc⟩
  · rw [symbolOf_some hs]
    have ht := h.mention hs
    refine ⟨ht, fun hc => (nomatch hc), ?_⟩
    intro c hc
    injection hc with hc
    subst hc
    obtain ⟨a, ha⟩ := findOrCreate_some (p := p) hs none
    have he : p.findOrCreate s none = ((p.findOrCreate s none).1, some a) := by rw [← ha]
    refine ⟨a, ha, ?_, ?_⟩
    · rw [findOrCreate_ptr he, ht.keys]; rfl
    · rw [← findOrCreate_slot he, ht.keys]

/-- Storing a lot for a commodity that was mentioned. -/
theorem Timed.lot {M : List Str} {p : Store} (h : Timed M p) {s : Str} (hs : s ≠ [] → s ∈ M) (z : Ann)
    (hz : ∀ pr x, z.price = some pr → pr.ptr = some x → x.block = place M) : Timed M (p.findOrCreate s (some z)).1 := by
  refine ⟨?_, h.stamped.create s _, ?_⟩
  · by_cases h0 : s = []
    · have : p.findOrCreate s (some z) = (p, none) := by unfold Store.findOrCreate; rw [if_pos h0]
      rw [this]; exact h.keys
    · rw [findOrCreate_keys h0, if_pos (by rw [h.keys]; exact mem_firsts.mpr (hs h0))]; exact h.keys
  · intro s' z' pr x h1 h2 h3
    rcases findOrCreate_anns _ _ _ _ _ h1 with h1 | ⟨h0, rfl, h4⟩
    · exact h.lots s' z' pr x h1 h2 h3
    · injection h4 with h4
      subst h4
      exact ⟨M, List.prefix_rfl, hs h0, hz pr x h2 h3⟩

theorem Timed.edges {M : List Str} {p q : Store} (h : Timed M p) (h1 : q.commodities = p.commodities) (h2 : q.nodes = p.nodes)
    (h3 : q.annotated = p.annotated) : Timed M q := by
  have hk : q.keys = p.keys := by unfold Store.keys; rw [h1]
  refine ⟨hk.trans h.keys, ⟨by rw [h2, hk]; exact h.stamped.len, by rw [h2]; exact h.stamped.node⟩, by rw [h3]; exact h.lots⟩

theorem numberSays_qty {q s : Str} {a : Option Amount} {st : Option Str} (h : NumberSays q s a st) : Dec.fromStr q = a.map (·.qty) := by
  rcases h with ⟨d, h1, h2, _⟩ | ⟨h1, h2, _⟩
  · rw [h2, (C02_parse_exact q d).mpr h1]; rfl
  · rw [h2]
    cases hd : Dec.fromStr q with
    | none => rfl
    | some d => exact absurd ((C02_parse_exact q d).mp hd) (h1 d)

theorem numberSays_comm {q s : Str} {a : Amount} {st : Option Str} (h : NumberSays q s (some a) st) : symbolOf s = a.comm := by
  rcases h with ⟨d, _, h2, _⟩ | ⟨_, h2, _⟩
  · injection h2 with h2; rw [h2]
  · cases h2

/-- When the pointers of a posting were taken. -/
structure Stamp (M : List Str) (e : Entry) (am c : Option Amt) : Prop where
  blank : e.amount = none → am = none ∧ c = none
  amount : ∀ a, e.amount = some a → ∃ A, am = some A ∧ (a.comm = none → A.ptr = none) ∧
    ∀ s, a.comm = some s → ∃ x, A.ptr = some x ∧ x.block = place (M ++ [s]) ∧ (firsts (M ++ [s]))[x.slot]? = some s
  cost : e.cost = none ↔ c = none
  costPtr : ∀ C x, c = some C → C.ptr = some x → ∃ pre, M ++ e.holder.toList <+: pre ∧ pre <+: M ++ e.mentions ∧ x.block = place pre ∧
    (e.commodity = none → pre = M ++ e.mentions ∧ pre ≠ [])
  booked : ∀ C x, c = some C → C.ptr = some x → x.block = place (M ++ e.bookedAfter)

theorem postAmounts_timed {t : Scanner.PostTokens} {e : Entry} (ht : PartsSay t e) {M : List Str} {p p' : Store} (hp : Timed M p)
    {am c : Option Amt} (h : parsePostAmounts t p = .ok (p', am, c)) : Timed (M ++ e.mentions) p' ∧ Stamp M e am c := by
  have s1 : symbolOf t.symbol = e.holder := by
    unfold Entry.holder Entry.commodity
    exact ht.amount.symbol
  have s2 : symbolOf t.priceCommodity = (e.lot.price.bind (·.comm)).or e.strays.price := ht.price.symbol
  unfold parsePostAmounts parseAmountParts at h
  rw [numberSays_qty ht.amount] at h
  obtain ⟨l1, l2, l3⟩ := hp.look t.symbol
  generalize p.findOrCreate t.symbol none = g at h l1 l2 l3
  obtain ⟨p1, x1⟩ := g
  simp only at h l1 l2 l3
  obtain ⟨⟨p2, an⟩, h2, h⟩ := bind_ok h
  simp only at h
  rw [s1] at l1 l2 l3
  have hA : Timed (M ++ e.holder.toList ++ ((e.lot.price.bind (·.comm)).or e.strays.price).toList) p2 ∧
      ∀ pr x, an.price = some pr → pr.ptr = some x →
        x.block = place (M ++ e.holder.toList ++ ((e.lot.price.bind (·.comm)).or e.strays.price).toList) := by
    unfold parseAnnotation at h2
    obtain ⟨k1, k2, k3⟩ := l1.look t.priceCommodity
    rw [s2] at k1 k2 k3
    generalize p1.findOrCreate t.priceCommodity none = g at h2 k1 k2 k3
    obtain ⟨p1', x2⟩ := g
    simp only at h2 k1 k2 k3
    have e12 : p1' = p2 ∧ an.price = Option.map (fun q => (⟨q, x2⟩ : Amt)) (Dec.fromStr t.priceQuantity) := by
      split at h2
      · injection h2 with h2
        obtain ⟨e1, e2⟩ := fst_ext h2
        exact ⟨e1, by rw [← e2]⟩
      · split at h2
        · injection h2 with h2
          obtain ⟨e1, e2⟩ := fst_ext h2
          exact ⟨e1, by rw [← e2]⟩
        · cases h2
    obtain ⟨rfl, e2⟩ := e12
    refine ⟨k1, ?_⟩
    intro pr x hpr hx
    rw [e2, Option.map_eq_some_iff] at hpr
    obtain ⟨q, _, rfl⟩ := hpr
    simp only at hx
    subst hx
    cases hc : (e.lot.price.bind (·.comm)).or e.strays.price with
    | none => exact absurd (k2 hc) (by simp)
    | some s =>
      obtain ⟨y, hy, hb, _⟩ := k3 s hc
      injection hy with hy
      rw [hy, hb]; rfl
  obtain ⟨k1, k2⟩ := hA
  have k3 := k1.lot (s := t.symbol) (by
    intro hs
    rw [symbolOf_some hs] at s1
    rw [← s1]; simp) an k2
  generalize p2.findOrCreate t.symbol (some an) = g at h k3
  obtain ⟨p3, x3⟩ := g
  simp only at h k3
  obtain ⟨⟨p4, c4⟩, h4, h⟩ := bind_ok h
  injection h with h
  obtain ⟨e1, h⟩ := fst_ext h
  obtain ⟨e2, e3⟩ := fst_ext h
  simp only at e1 e2 e3
  subst e1 e2 e3
  have hhold : ∀ a s, e.amount = some a → a.comm = some s → e.holder = some s := by
    intro a s ha hs
    unfold Entry.holder Entry.commodity
    rw [ha, Option.bind_some, hs]; rfl
  have hamount : ∀ a, e.amount = some a → ∃ A, Option.map (fun q => (⟨q, x1⟩ : Amt)) (e.amount.map (·.qty)) = some A ∧ (a.comm = none → A.ptr = none) ∧
      ∀ s, a.comm = some s → ∃ x, A.ptr = some x ∧ x.block = place (M ++ [s]) ∧ (firsts (M ++ [s]))[x.slot]? = some s := by
    intro a ha
    rw [ha]
    refine ⟨⟨a.qty, x1⟩, rfl, ?_, ?_⟩
    · intro hn
      have := numberSays_comm (ha ▸ ht.amount)
      rw [s1, hn] at this
      exact l2 this
    · intro s hs
      exact l3 s (hhold a s ha hs)
  have hstay : e.mentions = e.holder.toList ++ ((e.lot.price.bind (·.comm)).or e.strays.price).toList ++
      ((e.cost.bind (·.2.comm)).or e.strays.cost).toList := rfl
  unfold parseCost at h4
  rcases ht.cost with ⟨hz, hc, hs⟩ | ⟨ha, hq, k, hk, hc⟩
  · have hm : M ++ e.mentions = M ++ e.holder.toList ++ ((e.lot.price.bind (·.comm)).or e.strays.price).toList := by
      rw [hstay, hc, hs]; simp
    have h5 : p4 = p3 ∧ c4 = none := by
      cases ha : e.amount with
      | none =>
        rw [ha] at h4
        injection h4 with h4
        exact ⟨(fst_ext h4).1.symm, (fst_ext h4).2.symm⟩
      | some a =>
        have hq : t.costQuantity = [] := by
          rcases hz with h | h
          · rw [ha] at h; cases h
          · exact h
        rw [ha] at h4
        simp only [Option.map_some, hq, if_true] at h4
        injection h4 with h4
        exact ⟨(fst_ext h4).1.symm, (fst_ext h4).2.symm⟩
    obtain ⟨rfl, rfl⟩ := h5
    refine ⟨by rw [hm]; exact k3, ⟨fun h => ⟨by rw [h]; rfl, rfl⟩, hamount, by simp [hc], fun C x h => (by cases h), fun C x h => (by cases h)⟩⟩
  · obtain ⟨a, ha'⟩ := Option.ne_none_iff_exists'.mp ha
    have s3 := hk.symbol
    have hcm : (e.cost.bind (·.2.comm)).or e.strays.cost = symbolOf t.costSymbol := by
      rw [s3, hc]
      cases k <;> rfl
    have hm : M ++ e.mentions = M ++ e.holder.toList ++ ((e.lot.price.bind (·.comm)).or e.strays.price).toList ++ (symbolOf t.costSymbol).toList := by
      rw [hstay, hcm]; simp
    simp only [ha', Option.map_some, if_neg hq] at h4
    unfold parseAmountParts at h4
    rw [numberSays_qty hk] at h4
    obtain ⟨m1, m2, m3⟩ := k3.look t.costSymbol
    generalize p3.findOrCreate t.costSymbol none = g at h4 m1 m2 m3
    obtain ⟨p5, x5⟩ := g
    simp only at h4 m1 m2 m3
    rw [← hm] at m1
    have own : ∀ x, x5 = some x → ∃ pre, M ++ e.holder.toList <+: pre ∧ pre <+: M ++ e.mentions ∧ x.block = place pre ∧
    (e.commodity = none → pre = M ++ e.mentions ∧ pre ≠ []) := by
      intro x hx
      cases hc : symbolOf t.costSymbol with
      | none => rw [m2 hc] at hx; cases hx
      | some s =>
        obtain ⟨y, hy, hb, _⟩ := m3 s hc
        rw [hx] at hy
        injection hy with hy
        subst hy
        refine ⟨_, ?_, List.prefix_rfl, by rw [hb, hm, hc]; rfl, fun _ => ⟨rfl, by rw [hm, hc]; simp⟩⟩
        rw [hm, List.append_assoc]
        exact List.prefix_append _ _
    have theirs : ∀ x, x1 = some x → ∃ pre, M ++ e.holder.toList <+: pre ∧ pre <+: M ++ e.mentions ∧ x.block = place pre ∧
    (e.commodity = none → pre = M ++ e.mentions ∧ pre ≠ []) := by
      intro x hx
      cases hh : e.holder with
      | none => rw [l2 hh] at hx; cases hx
      | some s =>
        obtain ⟨y, hy, hb, _⟩ := l3 s hh
        rw [hx] at hy
        injection hy with hy
        subst hy
        refine ⟨_, List.prefix_rfl, ?_, by rw [hb]; rfl, ?_⟩
        rotate_left
        · intro hn
          have := numberSays_comm (ha' ▸ ht.amount)
          rw [s1, hh] at this
          unfold Entry.commodity at hn
          rw [ha', Option.bind_some, ← this] at hn
          cases hn
        rw [hm, List.append_assoc, hh]
        exact List.prefix_append _ _
    have hblank : e.amount = none → Option.map (fun q => (⟨q, x1⟩ : Amt)) (e.amount.map (·.qty)) = none ∧ c4 = none :=
      fun h => absurd h ha
    cases k with
    | none =>
      simp only [Option.map_none] at h4
      injection h4 with h4
      obtain ⟨rfl, rfl⟩ := fst_ext h4
      exact ⟨m1, ⟨hblank, hamount, by simp [hc], fun C x h => (by cases h), fun C x h => (by cases h)⟩⟩
    | some k =>
      simp only [Option.map_some] at h4
      have hkc : e.cost.bind (·.2.comm) = symbolOf t.costSymbol := by rw [hc, numberSays_comm hk]; rfl
      have late : ∀ x, x5 = some x → x.block = place (M ++ e.bookedAfter) := by
        intro x hx
        unfold Entry.bookedAfter
        rw [hkc]
        cases hc : symbolOf t.costSymbol with
        | none => rw [m2 hc] at hx; cases hx
        | some s =>
          obtain ⟨y, hy, hb, _⟩ := m3 s hc
          rw [hx] at hy
          injection hy with hy
          subst hy
          rw [if_neg (by simp), hb, hm, hc]; rfl
      have early : ∀ x, x1 = some x → x5 = none → x.block = place (M ++ e.bookedAfter) := by
        intro x hx h5
        unfold Entry.bookedAfter
        rw [hkc]
        cases hc : symbolOf t.costSymbol with
        | some s =>
          obtain ⟨y, hy, _⟩ := m3 s hc
          rw [h5] at hy; cases hy
        | none =>
          rw [if_pos rfl]
          cases hh : e.holder with
          | none => rw [l2 hh] at hx; cases hx
          | some s =>
            obtain ⟨y, hy, hb, _⟩ := l3 s hh
            rw [hx] at hy
            injection hy with hy
            subst hy
            rw [hb]; rfl
      split at h4
      · obtain ⟨c', hc', h4⟩ := bind_ok h4
        injection h4 with h4
        obtain ⟨rfl, rfl⟩ := fst_ext h4
        obtain ⟨q, _, hc'⟩ := bind_ok hc'
        injection hc' with hc'
        refine ⟨m1, ⟨hblank, hamount, by simp [hc], ?_, ?_⟩⟩
        · intro C x hC hx
          injection hC with hC
          subst hC
          rw [← hc'] at hx
          simp only at hx
          split at hx
          · exact theirs x hx
          · exact own x hx
        · intro C x hC hx
          injection hC with hC
          subst hC
          rw [← hc'] at hx
          simp only at hx
          split at hx
          · rename_i h; exact early x hx h.1
          · exact late x hx
      · injection h4 with h4
        obtain ⟨rfl, rfl⟩ := fst_ext h4
        refine ⟨m1, ⟨hblank, hamount, by simp [hc], ?_, ?_⟩⟩
        · intro C x hC hx
          injection hC with hC
          subst hC
          exact own x hx
        · intro C x hC hx
          injection hC with hC
          subst hC
          exact late x hx

/-- When the pointers of the postings were taken. -/
inductive Stamps : List Str → List Entry → List (Option Amt × Option Amt) → Prop
  | nil {M : List Str} : Stamps M [] []
  | cons {M : List Str} {e : Entry} {es : List Entry} {am c : Option Amt} {r : List (Option Amt × Option Amt)} (h : Stamp M e am c)
      (t : Stamps (M ++ e.mentions) es r) : Stamps M (e :: es) ((am, c) :: r)

/-- The amount and cost of a posting. -/
def Pst.money (X : Pst) : Option Amt × Option Amt := (X.amount, X.cost)

theorem noteLast_money (n : Str) (l : List Pst) : (noteLast n l).map Pst.money = l.map Pst.money := by
  induction l with
  | nil => rfl
  | cons a l ih =>
    cases l with
    | nil => rfl
    | cons b l => rw [noteLast, List.map_cons, ih]; rfl

theorem addNote_money (X : Xct) (n : Str) : (X.addNote n).posts.map Pst.money = X.posts.map Pst.money := by
  unfold Xct.addNote
  split
  · rfl
  · exact noteLast_money n X.posts

theorem trailingNote_money {line : Str} {J J' : Jrn} {xs : List Xct} {X : Xct} (hx : J.xacts = xs ++ [X])
    (h : parseTrailingNote line xs.length J = .ok J') :
    J'.store = J.store ∧ ∃ X', J'.xacts = xs ++ [X'] ∧ X'.posts.map Pst.money = X.posts.map Pst.money := by
  unfold parseTrailingNote at h
  obtain ⟨r, _, h⟩ := bind_ok h
  simp only at h
  split at h
  · injection h with h; rw [← h]; exact ⟨rfl, X, hx, rfl⟩
  · injection h with h
    rw [← h]
    refine ⟨rfl, ?_⟩
    simp only [hx]
    exact ⟨_, modify_snoc xs X _, addNote_money X _⟩

theorem parsePost_timed {text : Str} {e : Entry} (he : EntryText text e) {M : List Str} {J J' : Jrn} {xs : List Xct} {X : Xct}
    (hx : J.xacts = xs ++ [X]) (hp : Timed M J.store) (h : parsePost text xs.length J = .ok J') :
    Timed (M ++ e.mentions) J'.store ∧ ∃ X' am c, J'.xacts = xs ++ [X'] ∧ X'.posts.map Pst.money = X.posts.map Pst.money ++ [(am, c)] ∧
      Stamp M e am c := by
  obtain ⟨t, h1, ht⟩ := he.scan
  unfold parsePost at h
  rw [h1] at h
  obtain ⟨t', ht', h⟩ := bind_ok h
  injection ht' with ht'
  subst ht'
  split at h
  · cases h
  · obtain ⟨⟨tree, acct⟩, _, h⟩ := bind_ok h
    simp only at h
    split at h
    · cases h
    · obtain ⟨⟨p, am, c⟩, h1, h⟩ := bind_ok h
      simp only at h
      obtain ⟨_, _, h⟩ := bind_ok h
      injection h with h
      rw [← h]
      obtain ⟨g1, g2⟩ := postAmounts_timed ht hp h1
      refine ⟨g1, ?_⟩
      simp only [hx]
      refine ⟨_, am, c, modify_snoc xs X _, ?_, g2⟩
      simp [Pst.money]

theorem body_timed {body tail : Source} {ts : List Str} {es : List Entry} (hb : BodyReads body ts es tail)
    {rest : Source} (ha : AfterXact tail rest) {M : List Str} {J J' : Jrn} {xs : List Xct} {X : Xct} (hx : J.xacts = xs ++ [X])
    (hp : Timed M J.store) {r : Source} (h : readBody xs.length body J = .ok (J', r)) :
    r = rest ∧ Timed (M ++ entryMentions es) J'.store ∧ ∃ X' l, J'.xacts = xs ++ [X'] ∧ X'.posts.map Pst.money = X.posts.map Pst.money ++ l ∧
      Stamps M es l := by
  induction hb generalizing M J X with
  | @stop tail _ =>
    have : readBody xs.length tail J = .ok (J, rest) := by
      rcases ha with ⟨rfl, rfl⟩ | ⟨line, rfl, hl⟩ | h
      · rfl
      · rw [readBody, (classify_fin line).mpr hl]
      · rw [h]; rfl
    rw [this] at h
    injection h with h
    obtain ⟨rfl, rfl⟩ := fst_ext h
    refine ⟨rfl, by simpa [entryMentions] using hp, X, [], hx, by simp, .nil⟩
  | comment hc _ ih =>
    obtain ⟨_, _, _, hcl⟩ := hc.trim
    rw [readBody, hcl] at h
    obtain ⟨J1, h1, h⟩ := bind_ok h
    obtain ⟨g1, X1, g2, g3⟩ := trailingNote_money hx h1
    obtain ⟨k1, k2, X', l, k3, k4, k5⟩ := ih ha g2 (g1 ▸ hp) h
    exact ⟨k1, k2, X', l, k3, by rw [k4, g3], k5⟩
  | @posting line e src tail ts es he _ ih =>
    obtain ⟨text, hcl, he⟩ := he.classify
    rw [readBody, hcl] at h
    obtain ⟨J1, h1, h⟩ := bind_ok h
    obtain ⟨g1, X1, am, c, g2, g3, g4⟩ := parsePost_timed he hx hp h1
    obtain ⟨k1, k2, X', l, k3, k4, k5⟩ := ih ha g2 g1 h
    refine ⟨k1, ?_, X', (am, c) :: l, k3, by rw [k4, g3]; simp, .cons (e := { e with comments := ts }) ⟨g4.blank, g4.amount, g4.cost, g4.costPtr, g4.booked⟩ k5⟩
    have : entryMentions ({ e with comments := ts } :: es) = e.mentions ++ entryMentions es := rfl
    rw [this, ← List.append_assoc]
    exact k2

end Ledger.Machine
