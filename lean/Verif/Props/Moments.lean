import Verif.Spec.Moments
import Verif.Lemmas.Recorded
import Verif.Props.Found
/-
C111: the order of things of different moments does not matter for the prices.
-/
namespace Ledger
open Ledger.Parser Ledger.Cli

/-! ### recordings of different times in any order -/

theorem DateTime.before_irrefl (a : DateTime) : ¬ a.Before a := by
  unfold DateTime.Before
  omega

theorem DateTime.before_tri (a b : DateTime) : a.Before b ∨ a = b ∨ b.Before a := by
  rcases a with ⟨⟨y, m, d⟩, ⟨h, n, s⟩⟩
  rcases b with ⟨⟨y', m', d'⟩, ⟨h', n', s'⟩⟩
  simp only [DateTime.Before, DateTime.mk.injEq, Date.mk.injEq, Time.mk.injEq]
  omega

/-- The same recordings at each time, in the same order. -/
def SameTimes (rs rs' : List Recording) : Prop :=
  ∀ t, rs.filter (fun r => r.time = t) = rs'.filter (fun r => r.time = t)

theorem SameTimes.mem {rs rs' : List Recording} (h : SameTimes rs rs') {r : Recording} (hr : r ∈ rs) : r ∈ rs' := by
  have : r ∈ rs.filter (fun x => x.time = r.time) := List.mem_filter.mpr ⟨hr, by simp⟩
  rw [h] at this
  exact (List.mem_filter.mp this).1

theorem SameTimes.symm {rs rs' : List Recording} (h : SameTimes rs rs') : SameTimes rs' rs := fun t => (h t).symm

theorem filter_last {α : Type} {p : α → Bool} {l g : List α} {r : α} (h : l.filter p = g ++ [r]) :
    ∃ pre post, l = pre ++ r :: post ∧ ∀ x ∈ post, p x = false := by
  obtain ⟨l1, l2, rfl, _, h2⟩ := List.filter_eq_append_iff.mp h
  obtain ⟨a, b, rfl, _, _, h3⟩ := List.filter_eq_cons_iff.mp h2
  refine ⟨l1 ++ a, b, by simp, fun x hx => ?_⟩
  by_contra hn
  have : x ∈ b.filter p := List.mem_filter.mpr ⟨hx, by simpa using hn⟩
  rw [h3] at this
  cases this

theorem SameTimes.latest {rs rs' : List Recording} (h : SameTimes rs rs') {A B : Str} {t : DateTime} {q : Dec}
    (hl : IsLatest rs A B t q) : IsLatest rs' A B t q := by
  obtain ⟨pre, post, rfl, h1, h2⟩ := hl
  have all : ∀ r ∈ rs', r.src = A → r.dst = B → ¬ t.Before r.time := by
    intro r hr hA hB
    rcases List.mem_append.mp (h.symm.mem hr) with hr | hr
    · exact h1 r hr hA hB
    · rcases List.mem_cons.mp hr with rfl | hr
      · exact DateTime.before_irrefl _
      · intro hb
        have := h2 r hr hA hB
        unfold DateTime.Before at hb this
        omega
  have hf : ∀ l : List Recording, l.filter (fun r => decide (r.src = A ∧ r.dst = B ∧ r.time = t)) =
      (l.filter (fun r => decide (r.time = t))).filter (fun r => decide (r.src = A ∧ r.dst = B)) := by
    intro l
    rw [List.filter_filter]
    congr 1
    funext r
    rw [← Bool.decide_and]
    congr 1
    rw [and_assoc]
  have hp : post.filter (fun r => decide (r.src = A ∧ r.dst = B ∧ r.time = t)) = [] := by
    rw [List.filter_eq_nil_iff]
    intro r hr
    simp only [decide_eq_true_eq]
    rintro ⟨hA, hB, hT⟩
    have := h2 r hr hA hB
    rw [hT] at this
    exact DateTime.before_irrefl _ this
  have hl : rs'.filter (fun r => decide (r.src = A ∧ r.dst = B ∧ r.time = t)) =
      pre.filter (fun r => decide (r.src = A ∧ r.dst = B ∧ r.time = t)) ++ [⟨A, B, t, q⟩] := by
    rw [hf, ← h t, ← hf, List.filter_append, List.filter_cons_of_pos (by simp), hp]
  obtain ⟨pre', post', rfl, hpost⟩ := filter_last hl
  refine ⟨pre', post', rfl, fun r hr => all r (by simp [hr]), ?_⟩
  intro r hr hA hB
  have h3 := hpost r hr
  simp only [hA, hB, true_and, decide_eq_false_iff_not] at h3
  rcases DateTime.before_tri r.time t with h4 | h4 | h4
  · exact h4
  · exact absurd h4 h3
  · exact absurd h4 (all r (by simp [hr]) hA hB)

theorem SameTimes.priced {rs rs' : List Recording} (h : SameTimes rs rs') {A B : Str} (hp : Priced rs A B) : Priced rs' A B := by
  obtain ⟨r, hr, h1⟩ := hp
  exact ⟨r, h.mem hr, h1⟩

theorem SameTimes.chain {rs rs' : List Recording} (h : SameTimes rs rs') : ∀ {cs : List Str}, PriceChain rs cs → PriceChain rs' cs
  | [], hc => hc
  | [_], hc => hc
  | _ :: _ :: _, hc => ⟨h.priced hc.1, h.chain hc.2⟩

theorem SameTimes.shortest {rs rs' : List Recording} (h : SameTimes rs rs') {A B : Str} {cs : List Str}
    (hc : ShortestChain rs A B cs) : ShortestChain rs' A B cs :=
  ⟨⟨h.chain hc.1.1, hc.1.2⟩, fun cs' hc' => hc.2 cs' ⟨h.symm.chain hc'.1, hc'.2⟩⟩

theorem SameTimes.legs {rs rs' : List Recording} (h : SameTimes rs rs') {cs : List Str} {ls : List (DateTime × Dec)}
    (hl : Legs rs cs ls) : Legs rs' cs ls := by
  induction hl with
  | nil => exact .nil _
  | cons h1 _ ih => exact .cons (h.latest h1) ih

theorem legs_unique {rs : List Recording} {cs : List Str} {ls ls' : List (DateTime × Dec)} (h : Legs rs cs ls)
    (h' : Legs rs cs ls') : ls = ls' := by
  induction h generalizing ls' with
  | nil => cases h'; rfl
  | cons h1 _ ih =>
    cases h' with
    | cons h2 h3 =>
      obtain ⟨rfl, rfl⟩ := isLatest_unique h1 h2
      rw [ih h3]

/-! ### the recordings of texts -/

theorem Item.recorded_moment {i : Item} {r : Recording} (h : r ∈ i.recorded) : i.moment = some r.time := by
  cases i with
  | xact w => rw [Item.moment, Writing.recorded_time h]
  | price x =>
    rw [Item.recorded, List.mem_singleton] at h
    rw [Item.moment, h]
  | gap => cases h

theorem recorded_filter (is : List Item) (t : DateTime) : (is.flatMap Item.recorded).filter (fun r => r.time = t) =
    (is.filter (fun i => i.moment = some t)).flatMap Item.recorded := by
  induction is with
  | nil => rfl
  | cons i is ih =>
    rw [List.flatMap_cons, List.filter_append, ih]
    by_cases hi : i.moment = some t
    · rw [List.filter_cons_of_pos (by simpa using hi), List.flatMap_cons]
      congr 1
      rw [List.filter_eq_self]
      intro r hr
      have := Item.recorded_moment hr
      rw [hi] at this
      simpa using (Option.some.inj this).symm
    · rw [List.filter_cons_of_neg (by simpa using hi)]
      have : i.recorded.filter (fun r => r.time = t) = [] := by
        rw [List.filter_eq_nil_iff]
        intro r hr
        simp only [decide_eq_true_eq]
        rintro rfl
        exact hi (Item.recorded_moment hr)
      rw [this]
      rfl

theorem SameMoments.times {is is' : List Item} (h : SameMoments is is') :
    SameTimes (is.flatMap Item.recorded) (is'.flatMap Item.recorded) := by
  intro t
  rw [recorded_filter, recorded_filter, h t]

theorem recorded_wf {is : List Item} (hv : ItemsValid is) : ∀ r ∈ is.flatMap Item.recorded, r.time.WF := by
  intro r hr
  obtain ⟨i, hi, hr⟩ := List.mem_flatMap.mp hr
  cases i with
  | xact w =>
    obtain ⟨_, k1, k2⟩ := hv.1 w (List.mem_filterMap.mpr ⟨_, hi, rfl⟩)
    rw [Writing.recorded_time hr]
    exact ⟨k1, k2, Nat.zero_le _, Nat.zero_le _, Nat.zero_le _⟩
  | price x =>
    rw [Item.recorded, List.mem_singleton] at hr
    subst hr
    exact hv.2 _ hi
  | gap => cases hr

/-- The direct prices of a pool are the latest recordings. -/
theorem directIn_iff {ops : List PoolOp} {p : Pool} (h : runOps Pool.empty ops = .ok p)
    (hwf : ∀ r ∈ recordings ops, r.time.WF) (A B : Str) (t : DateTime) (q : Dec) :
    directIn p A B = some (t, q) ↔ IsLatest (recordings ops) A B t q := by
  have known : ∀ {p : Pool} {ops : List PoolOp}, runOps Pool.empty ops = .ok p → ∀ r ∈ recordings ops,
      (p.find r.src).isSome ∧ (p.find r.dst).isSome := by
    intro p ops h r hr
    have hinv := Pool.inv_runOps Pool.inv_empty ops h
    obtain ⟨i, k, hi, hk, _⟩ := priced_names h ⟨r, hr, rfl, rfl⟩
    obtain ⟨c, hc, _⟩ := hinv.index hi
    obtain ⟨c', hc', _⟩ := hinv.index hk
    exact ⟨by rw [hc]; rfl, by rw [hc']; rfl⟩
  constructor
  · intro hd
    unfold directIn at hd
    split at hd
    · rename_i i k hi hk
      exact ((C13_direct_price ops p h hwf A B i k hi hk).1 t q).mp hd
    · cases hd
  · intro hl
    obtain ⟨pre, post, e, _⟩ := id hl
    obtain ⟨k1, k2⟩ := known h ⟨A, B, t, q⟩ (by rw [e]; simp)
    obtain ⟨cA, fA⟩ := Option.isSome_iff_exists.mp k1
    obtain ⟨cB, fB⟩ := Option.isSome_iff_exists.mp k2
    have iA := ((C12_nodes ops _ h).1 A cA fA).1
    have iB := ((C12_nodes ops _ h).1 B cB fB).1
    unfold directIn
    rw [iA, iB]
    exact ((C13_direct_price ops p h hwf A B _ _ iA iB).1 t q).mpr hl

theorem directIn_isSome {ops : List PoolOp} {p : Pool} (h : runOps Pool.empty ops = .ok p)
    (hwf : ∀ r ∈ recordings ops, r.time.WF) (A B : Str) : (directIn p A B).isSome ↔ Priced (recordings ops) A B := by
  constructor
  · intro hd
    obtain ⟨⟨t, q⟩, hd⟩ := Option.isSome_iff_exists.mp hd
    obtain ⟨pre, post, e, _⟩ := (directIn_iff h hwf A B t q).mp hd
    exact ⟨⟨A, B, t, q⟩, by rw [e]; simp, rfl, rfl⟩
  · intro hp
    have hinv := Pool.inv_runOps Pool.inv_empty ops h
    obtain ⟨i, k, hi, hk, _⟩ := priced_names h hp
    obtain ⟨c, hc, _⟩ := hinv.index hi
    obtain ⟨c', hc', _⟩ := hinv.index hk
    have iA := ((C12_nodes ops _ h).1 A c hc).1
    have iB := ((C12_nodes ops _ h).1 B c' hc').1
    unfold directIn
    rw [iA, iB]
    simp only
    by_contra hn
    rw [Option.not_isSome_iff_eq_none] at hn
    exact (C13_direct_price ops p h hwf A B _ _ iA iB).2.mp hn hp

theorem linkedIn_iff {ops : List PoolOp} {p : Pool} (h : runOps Pool.empty ops = .ok p)
    (hwf : ∀ r ∈ recordings ops, r.time.WF) : ∀ cs, LinkedIn p cs ↔ PriceChain (recordings ops) cs
  | [] => Iff.rfl
  | [_] => Iff.rfl
  | A :: B :: rest => and_congr (directIn_isSome h hwf A B) (linkedIn_iff h hwf (B :: rest))

theorem shortestIn_iff {ops : List PoolOp} {p : Pool} (h : runOps Pool.empty ops = .ok p)
    (hwf : ∀ r ∈ recordings ops, r.time.WF) (A B : Str) (cs : List Str) :
    ShortestIn p A B cs ↔ ShortestChain (recordings ops) A B cs := by
  have hl := linkedIn_iff h hwf
  unfold ShortestIn ShortestChain ChainFrom
  simp only [hl]
  constructor
  · exact fun h => ⟨h.1, fun cs' h' => h.2 cs' h'.1 h'.2.1 h'.2.2⟩
  · exact fun h => ⟨h.1, fun cs' h1 h2 h3 => h.2 cs' ⟨h1, h2, h3⟩⟩

/-- Two pools whose prices were recorded in orders that agree at each time. -/
structure Alike (p p' : Pool) : Prop where
  ex : ∃ ops ops', runOps Pool.empty ops = .ok p ∧ runOps Pool.empty ops' = .ok p' ∧
    (∀ r ∈ recordings ops, r.time.WF) ∧ (∀ r ∈ recordings ops', r.time.WF) ∧ SameTimes (recordings ops) (recordings ops')

theorem Alike.symm {p p' : Pool} (h : Alike p p') : Alike p' p := by
  obtain ⟨o, o', h1, h2, h3, h4, h5⟩ := h
  exact ⟨o', o, h2, h1, h4, h3, h5.symm⟩

theorem Alike.direct {p p' : Pool} (h : Alike p p') (A B : Str) : directIn p A B = directIn p' A B := by
  obtain ⟨o, o', h1, h2, h3, h4, h5⟩ := h
  apply Option.ext
  rintro ⟨t, q⟩
  rw [directIn_iff h1 h3, directIn_iff h2 h4]
  exact ⟨h5.latest, h5.symm.latest⟩

theorem Alike.none {p p' : Pool} (h : Alike p p') {search : History.Search} (hs : History.IsShortest search) {now m o : DateTime}
    {A B : Str} (hne : A ≠ B) (hA : (p.find A).isSome) (hB : (p.find B).isSome) (hA' : (p'.find A).isSome)
    (hB' : (p'.find B).isSome) : p.findPrice search now A B m o = .ok none ↔ p'.findPrice search now A B m o = .ok none := by
  obtain ⟨ops, ops', h1, h2, h3, h4, h5⟩ := h
  rw [C14_none_iff search hs ops p h1 h3 now m o A B hne hA hB, C14_none_iff search hs ops' p' h2 h4 now m o A B hne hA' hB']
  refine not_congr ⟨?_, ?_⟩
  · rintro ⟨cs, hc⟩
    exact ⟨cs, h5.chain hc.1, hc.2⟩
  · rintro ⟨cs, hc⟩
    exact ⟨cs, h5.symm.chain hc.1, hc.2⟩

theorem Alike.find {p p' : Pool} (h : Alike p p') {search search' : History.Search} (hs : History.IsShortest search)
    (hs' : History.IsShortest search') {now m o : DateTime}
    {A B : Str} (hne : A ≠ B) (hA : (p.find A).isSome) (hB : (p.find B).isSome) (hA' : (p'.find A).isSome)
    (hB' : (p'.find B).isSome) (hu : ∀ cs cs', ShortestIn p A B cs → ShortestIn p A B cs' → cs = cs') :
    p.findPrice search now A B m o = p'.findPrice search' now A B m o := by
  obtain ⟨ops, ops', h1, h2, h3, h4, h5⟩ := h
  have mem : ∀ {p : Pool} {ops : List PoolOp}, runOps Pool.empty ops = .ok p → ∀ X, (p.find X).isSome → X ∈ p.history.nodes := by
    intro p ops h X hX
    have hinv := Pool.inv_runOps Pool.inv_empty ops h
    by_contra hn
    rw [hinv.find_none.mpr hn] at hX; cases hX
  simp only [shortestIn_iff h1 h3] at hu
  rcases findPrice_spec search hs h1 h3 now m o hne (mem h1 A hA) (mem h1 B hB) with ⟨a1, a2⟩ | ⟨cs, legs, a1, a2, a3⟩
  · rcases findPrice_spec search' hs' h2 h4 now m o hne (mem h2 A hA') (mem h2 B hB') with ⟨b1, b2⟩ | ⟨cs', legs', b1, b2, b3⟩
    · rw [a1, b1]
    · exact absurd ⟨h5.symm.chain b1.1.1, b1.1.2⟩ (a2 cs')
  · rcases findPrice_spec search' hs' h2 h4 now m o hne (mem h2 A hA') (mem h2 B hB') with ⟨b1, b2⟩ | ⟨cs', legs', b1, b2, b3⟩
    · exact absurd ⟨h5.chain a1.1.1, a1.1.2⟩ (b2 cs)
    · have := hu cs cs' a1 (h5.symm.shortest b1)
      subst this
      have := legs_unique a2 (h5.symm.legs b2)
      subst this
      rcases a3 with ⟨t, q, e, a3⟩ | ⟨l, a3⟩
      · rcases b3 with ⟨t', q', e', b3⟩ | ⟨l', b3⟩
        · rw [e] at e'
          simp only [List.cons.injEq, Prod.mk.injEq, and_true] at e'
          obtain ⟨rfl, rfl⟩ := e'
          rw [a3, b3]
        · rw [e] at l'; simp at l'
      · rcases b3 with ⟨t', q', e', b3⟩ | ⟨l', b3⟩
        · rw [e'] at l; simp at l
        · rw [a3, b3]

theorem alike_of {is is' : List Item} (hm : SameMoments is is') (hv : ItemsValid is) (hv' : ItemsValid is')
    {run run' : Journal → Res Journal} (hr : Records (is.flatMap Item.recorded) run)
    (hr' : Records (is'.flatMap Item.recorded) run') {j j' : Journal} (h : run Journal.new = .ok j)
    (h' : run' Journal.new = .ok j') : Alike j.pool j'.pool := by
  obtain ⟨o, a1, a2⟩ := hr _ _ h
  obtain ⟨o', b1, b2⟩ := hr' _ _ h'
  exact ⟨o, o', a1, b1, by rw [a2]; exact recorded_wf hv, by rw [b2]; exact recorded_wf hv', by rw [a2, b2]; exact hm.times⟩

/-! ### C111 -/

/-- C111: two texts that say the same of each moment lead to the same direct prices, with the same dates and digits, in
whatever order they say what belongs to different moments. -/
theorem C111_direct_price {files files' : Files} {depth depth' : Nat} {src src' : Source} {is is' : List Item}
    (hs : SaysUpTo files depth src is .done) (hs' : SaysUpTo files' depth' src' is' .done) (hm : SameMoments is is')
    {j j' : Journal} (h : parse files depth src Journal.new = .ok j) (h' : parse files' depth' src' Journal.new = .ok j')
    (A B : Str) : directIn j.pool A B = directIn j'.pool A B :=
  (alike_of hm (saysUpTo_valid _ _ hs) (saysUpTo_valid _ _ hs') (parse_records _ _ hs) (parse_records _ _ hs') h h').direct A B

/-- C111: a price query finds nothing after the one exactly if it finds nothing after the other. -/
theorem C111_no_price {files files' : Files} {depth depth' : Nat} {src src' : Source} {is is' : List Item}
    (hs : SaysUpTo files depth src is .done) (hs' : SaysUpTo files' depth' src' is' .done) (hm : SameMoments is is')
    {j j' : Journal} (h : parse files depth src Journal.new = .ok j) (h' : parse files' depth' src' Journal.new = .ok j')
    {search : History.Search} (hsearch : History.IsShortest search) {now m o : DateTime} {A B : Str} (hne : A ≠ B)
    (hA : (j.pool.find A).isSome) (hB : (j.pool.find B).isSome) (hA' : (j'.pool.find A).isSome)
    (hB' : (j'.pool.find B).isSome) :
    j.pool.findPrice search now A B m o = .ok none ↔ j'.pool.findPrice search now A B m o = .ok none :=
  (alike_of hm (saysUpTo_valid _ _ hs) (saysUpTo_valid _ _ hs') (parse_records _ _ hs) (parse_records _ _ hs') h h').none
    hsearch hne hA hB hA' hB'

/-- C111: a price query finds the same price, or panics in the same way, after both texts if only one chain of direct prices is
shortest, as is the case for a direct price. -/
theorem C111_find_price {files files' : Files} {depth depth' : Nat} {src src' : Source} {is is' : List Item}
    (hs : SaysUpTo files depth src is .done) (hs' : SaysUpTo files' depth' src' is' .done) (hm : SameMoments is is')
    {j j' : Journal} (h : parse files depth src Journal.new = .ok j) (h' : parse files' depth' src' Journal.new = .ok j')
    {search search' : History.Search} (hsearch : History.IsShortest search) (hsearch' : History.IsShortest search')
    {now m o : DateTime} {A B : Str} (hne : A ≠ B)
    (hA : (j.pool.find A).isSome) (hB : (j.pool.find B).isSome) (hA' : (j'.pool.find A).isSome)
    (hB' : (j'.pool.find B).isSome) (hu : ∀ cs cs', ShortestIn j.pool A B cs → ShortestIn j.pool A B cs' → cs = cs') :
    j.pool.findPrice search now A B m o = j'.pool.findPrice search' now A B m o :=
  (alike_of hm (saysUpTo_valid _ _ hs) (saysUpTo_valid _ _ hs') (parse_records _ _ hs) (parse_records _ _ hs') h h').find
    hsearch hsearch' hne hA hB hA' hB' hu

/-- C111: the same for files that are read one after another, in whatever order the files are given. -/
theorem C111_files {files files' : Files} {depth depth' : Nat} {fs fs' : List Str} {is is' : List Item}
    (hs : FilesSay files depth fs is .done) (hs' : FilesSay files' depth' fs' is' .done) (hm : SameMoments is is')
    {j j' : Journal} (h : readFiles files depth fs Journal.new = .ok j) (h' : readFiles files' depth' fs' Journal.new = .ok j')
    (A B : Str) :
    directIn j.pool A B = directIn j'.pool A B ∧
    ∀ (search search' : History.Search), History.IsShortest search → History.IsShortest search' → ∀ (now m o : DateTime), A ≠ B →
      (j.pool.find A).isSome → (j.pool.find B).isSome → (j'.pool.find A).isSome → (j'.pool.find B).isSome →
      (∀ cs cs', ShortestIn j.pool A B cs → ShortestIn j.pool A B cs' → cs = cs') →
      j.pool.findPrice search now A B m o = j'.pool.findPrice search' now A B m o := by
  have ha := alike_of hm (filesSay_items_valid _ _ hs) (filesSay_items_valid _ _ hs') (readFiles_records _ _ hs rfl)
    (readFiles_records _ _ hs' rfl) h h'
  exact ⟨ha.direct A B, fun _ _ h1 h2 _ _ _ hne a b c d hu => ha.find h1 h2 hne a b c d hu⟩

/-! ### examples -/

namespace MomentsExample

def line1 : Str := str "i 2023-05-02 VEUR 26 EUR \n"
def line2 : Str := str "i 2023-05-03 VEUR 27 EUR \n"
def line3 : Str := str "i 2023-05-03 VEUR 28 EUR \n"

def rec1 : Recording := ⟨str "VEUR", str "EUR", ⟨⟨2023, 5, 2⟩, Time.midnight⟩, ⟨false, 26, 0⟩⟩
def rec2 : Recording := ⟨str "VEUR", str "EUR", ⟨⟨2023, 5, 3⟩, Time.midnight⟩, ⟨false, 27, 0⟩⟩
def rec3 : Recording := ⟨str "VEUR", str "EUR", ⟨⟨2023, 5, 3⟩, Time.midnight⟩, ⟨false, 28, 0⟩⟩

theorem says1 : PriceSays line1 rec1 :=
  ⟨str "2023-05-02", [], str "26", (priceLineParts_iff _ _ _ _ _ _).mpr (by decide +kernel),
    (C53_date_text _ _).mp (by decide +kernel), Or.inl ⟨rfl, rfl⟩, (C02_parse_exact _ _).mp (by decide +kernel), by decide, by decide⟩

theorem says2 : PriceSays line2 rec2 :=
  ⟨str "2023-05-03", [], str "27", (priceLineParts_iff _ _ _ _ _ _).mpr (by decide +kernel),
    (C53_date_text _ _).mp (by decide +kernel), Or.inl ⟨rfl, rfl⟩, (C02_parse_exact _ _).mp (by decide +kernel), by decide, by decide⟩

theorem says3 : PriceSays line3 rec3 :=
  ⟨str "2023-05-03", [], str "28", (priceLineParts_iff _ _ _ _ _ _).mpr (by decide +kernel),
    (C53_date_text _ _).mp (by decide +kernel), Or.inl ⟨rfl, rfl⟩, (C02_parse_exact _ _).mp (by decide +kernel), by decide, by decide⟩

theorem top1 : TopPart line1 .price := (C91_top_line _ _).mpr (by decide +kernel)
theorem top2 : TopPart line2 .price := (C91_top_line _ _).mpr (by decide +kernel)
theorem top3 : TopPart line3 .price := (C91_top_line _ _).mpr (by decide +kernel)

/-- Prices of two days in both orders, those of the same day in the same order: the last of the later day counts. -/
example : ∃ is is', SaysUpTo (fun _ => none) 0 [some line1, some line2, some line3] is .done ∧
    SaysUpTo (fun _ => none) 0 [some line2, some line3, some line1] is' .done ∧ SameMoments is is' ∧ is ≠ is' ∧
    ∃ j j', parse (fun _ => none) 0 [some line1, some line2, some line3] Journal.new = .ok j ∧
      parse (fun _ => none) 0 [some line2, some line3, some line1] Journal.new = .ok j' ∧
      directIn j.pool (str "VEUR") (str "EUR") = some (⟨⟨2023, 5, 3⟩, Time.midnight⟩, ⟨false, 28, 0⟩) ∧
      directIn j'.pool (str "VEUR") (str "EUR") = some (⟨⟨2023, 5, 3⟩, Time.midnight⟩, ⟨false, 28, 0⟩) := by
  refine ⟨[.price rec1, .price rec2, .price rec3], [.price rec2, .price rec3, .price rec1],
    .price top1 says1 (.price top2 says2 (.price top3 says3 .nil)),
    .price top2 says2 (.price top3 says3 (.price top1 says1 .nil)), ?_, by decide +kernel, ?_⟩
  · intro t
    simp only [List.filter_cons, List.filter_nil, Item.moment]
    by_cases h1 : rec1.time = t
    · subst h1; decide +kernel
    · by_cases h2 : rec2.time = t
      · subst h2; decide +kernel
      · have h3 : rec3.time ≠ t := fun e => h2 e
        simp [h1, h2, h3]
  · cases hj : parse (fun _ => none) 0 [some line1, some line2, some line3] Journal.new with
    | error e =>
      have : (match parse (fun _ => none) 0 [some line1, some line2, some line3] Journal.new with | .ok _ => true | .error _ => false) = true := by
        decide +kernel
      rw [hj] at this
      cases this
    | ok j =>
      cases hj' : parse (fun _ => none) 0 [some line2, some line3, some line1] Journal.new with
      | error e =>
        have : (match parse (fun _ => none) 0 [some line2, some line3, some line1] Journal.new with | .ok _ => true | .error _ => false) = true := by
          decide +kernel
        rw [hj'] at this
        cases this
      | ok j' =>
        refine ⟨j, j', rfl, rfl, ?_, ?_⟩
        · have : (match parse (fun _ => none) 0 [some line1, some line2, some line3] Journal.new with
            | .ok j => directIn j.pool (str "VEUR") (str "EUR") | .error _ => none) =
              some (⟨⟨2023, 5, 3⟩, Time.midnight⟩, ⟨false, 28, 0⟩) := by decide +kernel
          rw [hj] at this
          exact this
        · have : (match parse (fun _ => none) 0 [some line2, some line3, some line1] Journal.new with
            | .ok j => directIn j.pool (str "VEUR") (str "EUR") | .error _ => none) =
              some (⟨⟨2023, 5, 3⟩, Time.midnight⟩, ⟨false, 28, 0⟩) := by decide +kernel
          rw [hj'] at this
          exact this

/-- The order at the same moment does matter. -/
example : (match parse (fun _ => none) 0 [some line2, some line3] Journal.new with
      | .ok j => directIn j.pool (str "VEUR") (str "EUR") | .error _ => none) ≠
    (match parse (fun _ => none) 0 [some line3, some line2] Journal.new with
      | .ok j => directIn j.pool (str "VEUR") (str "EUR") | .error _ => none) := by decide +kernel

/-- The same for transactions: a purchase with a written cost and an earlier one without, in both orders. -/
example :
    let a := [str "2023-05-03 Broker\n", str "  Assets:Shares  4 VEUR @ 27 EUR\n", str "  Assets:Cash\n", str "\n"]
    let b := [str "2023-05-01 Broker\n", str "  Assets:Shares  2 VEUR\n", str "  Assets:Cash  -50 EUR\n", str "\n"]
    let price := fun src => match parse (fun _ => none) 0 src Journal.new with
      | .ok j => directIn j.pool (str "VEUR") (str "EUR") | .error _ => none
    price ((a ++ b).map some) = some (⟨⟨2023, 5, 3⟩, Time.midnight⟩, ⟨false, 27, 0⟩) ∧
    price ((b ++ a).map some) = some (⟨⟨2023, 5, 3⟩, Time.midnight⟩, ⟨false, 27, 0⟩) ∧
    price (b.map some) = some (⟨⟨2023, 5, 1⟩, Time.midnight⟩, ⟨false, 25, 0⟩) := by decide +kernel

end MomentsExample

end Ledger
