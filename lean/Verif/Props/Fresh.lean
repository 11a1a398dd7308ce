import Verif.Lemmas.MachineExact
import Verif.Props.Displaced
/-
C104: exactly which texts make the program follow a stale pointer.
-/
namespace Ledger
open Ledger.Parser Ledger.Cli Ledger.Heap Ledger.Memory

theorem room_doubled (i : Nat) : room vecNext (4 * 2 ^ i) = 4 * 2 ^ i := by
  induction i with
  | zero => decide
  | succ i ih =>
    have hpos : 0 < 2 ^ i := Nat.pow_pos (by decide)
    generalize hk : 4 * 2 ^ i = k at ih
    have h2 : 4 * 2 ^ (i + 1) = 2 * k := by rw [← hk, Nat.pow_succ]; ring
    have h1 : room vecNext (k + 1) = 2 * k := by
      rw [room, ih, if_neg (by omega)]
      unfold vecNext
      omega
    rw [h2, (room_block_fits (stays := fun _ => false) (n := k + 1) (m := 2 * k) (by omega) (by omega)).1, h1]

theorem doubled_room {k : Nat} (h : 1 ≤ k) : ∃ i, room vecNext k = 4 * 2 ^ i := by
  induction k with
  | zero => omega
  | succ n ih =>
    rw [room]
    cases n with
    | zero => exact ⟨0, rfl⟩
    | succ n =>
      obtain ⟨i, hi⟩ := ih (by omega)
      split
      · exact ⟨i, hi⟩
      · have hpos : 0 < 2 ^ i := Nat.pow_pos (by decide)
        refine ⟨i + 1, ?_⟩
        rw [hi]
        unfold vecNext
        rw [Nat.pow_succ]
        omega

theorem remains_iff (stays : Nat → Bool) {n : Nat} (h : 1 ≤ n) :
    block vecNext stays 1 = block vecNext stays n ↔ Remains stays n := by
  induction n, h using Nat.le_induction with
  | base =>
    refine ⟨fun _ i hi => ?_, fun _ => rfl⟩
    have hpos : 0 < 2 ^ i := Nat.pow_pos (by decide)
    omega
  | succ n hn ih =>
    have hmono := block_mono (next := vecNext) (stays := stays) hn
    have key : Remains stays (n + 1) ↔ Remains stays n ∧ ∀ i, n = 4 * 2 ^ i → stays n = true := by
      constructor
      · exact fun h => ⟨fun i hi => h i (by omega), fun i hi => by rw [hi]; exact h i (by omega)⟩
      · rintro ⟨h1, h2⟩ i hi
        rcases Nat.lt_or_ge (4 * 2 ^ i) n with h | h
        · exact h1 i h
        · have : n = 4 * 2 ^ i := by omega
          rw [← this]
          exact h2 i this
    rw [key, ← ih]
    rw [show block vecNext stays (n + 1) = if n < room vecNext n then block vecNext stays n
      else if n ≠ 0 ∧ stays n then block vecNext stays n else block vecNext stays n + 1 from rfl]
    by_cases hr : n < room vecNext n
    · rw [if_pos hr]
      refine ⟨fun h => ⟨h, fun i hi => ?_⟩, fun h => h.1⟩
      rw [hi, room_doubled] at hr
      omega
    · rw [if_neg hr]
      have hroom := room_ge (next := vecNext) vecNext_gt n
      obtain ⟨i, hi⟩ := doubled_room hn
      by_cases hs : stays n = true
      · rw [if_pos ⟨by omega, hs⟩]
        exact ⟨fun h => ⟨h, fun _ _ => hs⟩, fun h => h.1⟩
      · rw [if_neg (fun h => hs h.2)]
        refine ⟨fun h => ?_, fun h => absurd (h.2 i (by omega)) hs⟩
        omega

theorem timed_new : Machine.Timed [] Machine.Jrn.new.store :=
  ⟨rfl, stamped_new, by intro s z pr x h; cases h⟩

theorem origins_split {M : List Str} {is₁ is₂ : List Item} {w : Writing} {Xs : List Machine.Xct}
    (h : Machine.Origins M (is₁ ++ .xact w :: is₂) Xs) : ∃ X ∈ Xs, Machine.Origin (M ++ mentions is₁) w X := by
  induction is₁ generalizing M Xs with
  | nil =>
    cases h with
    | xact h t => exact ⟨_, List.mem_cons_self, by simpa [mentions] using h⟩
  | cons i is₁ ih =>
    rw [Machine.mentions_cons, ← List.append_assoc]
    cases h with
    | xact h t => obtain ⟨X, h1, h2⟩ := ih t; exact ⟨X, List.mem_cons_of_mem _ h1, h2⟩
    | price t => exact ih t
    | gap t => exact ih t

theorem origins_mem {M : List Str} {is : List Item} {Xs : List Machine.Xct} (h : Machine.Origins M is Xs) {X : Machine.Xct} (hX : X ∈ Xs) :
    ∃ is₁ w is₂, is = is₁ ++ .xact w :: is₂ ∧ Machine.Origin (M ++ mentions is₁) w X := by
  induction h with
  | nil => cases hX
  | @xact M w Y is Xs h t ih =>
    rcases List.mem_cons.mp hX with rfl | hX
    · exact ⟨[], w, is, rfl, by simpa [mentions] using h⟩
    · obtain ⟨is₁, w', is₂, rfl, h2⟩ := ih hX
      exact ⟨.xact w :: is₁, w', is₂, rfl, by rwa [Machine.mentions_cons, ← List.append_assoc]⟩
  | @price M r is Xs t ih =>
    obtain ⟨is₁, w', is₂, rfl, h2⟩ := ih hX
    exact ⟨.price r :: is₁, w', is₂, rfl, by rwa [Machine.mentions_cons, ← List.append_assoc]⟩
  | gap t ih =>
    obtain ⟨is₁, w', is₂, rfl, h2⟩ := ih hX
    exact ⟨.gap :: is₁, w', is₂, rfl, by rwa [Machine.mentions_cons, ← List.append_assoc]⟩

/-- The transactions have as many postings as are written. -/
theorem items_lengths {is : List Item} {ws' : List Writing} {rs : List Recording} {j : Journal}
    (h : ItemsOutcome is ws' rs Journal.new j) (P : Nat → Prop) :
    (∀ x ∈ j.xacts, P x.posts.length) ↔ ∀ w ∈ writings is, P w.entries.length := by
  obtain ⟨new, hn, hxs⟩ := h.xacts
  rw [show Journal.new.xacts = [] from rfl, List.nil_append] at hn
  constructor
  · intro ht w hw'
    obtain ⟨w', hw2, hs⟩ := forall₂_left h.settled hw'
    obtain ⟨x, hx, hxo⟩ := forall₂_left hxs hw2
    rw [← settles_length hs, hxo.posts.length_eq]
    exact ht x (hn ▸ hx)
  · intro ht x hx
    obtain ⟨w', hw2, hxo⟩ := forall₂_right hxs (hn ▸ hx)
    obtain ⟨w, hw1, hs⟩ := forall₂_right h.settled hw2
    rw [← hxo.posts.length_eq, settles_length hs]
    exact ht w hw1

theorem report_prefix {is₁ is₂ : List Item} {w : Writing} {l r : List Entry} {e : Entry} {s : Str} (he : w.entries = l ++ e :: r)
    (hs : e.commodity = some s) : mentions is₁ ++ entryMentions l ++ [s] <+: mentions is₁ ++ entryMentions w.entries ∧
      mentions is₁ ++ entryMentions w.entries <+: mentions (is₁ ++ .xact w :: is₂) := by
  refine ⟨?_, ?_⟩
  · have := Machine.holder_prefix (mentions is₁ ++ entryMentions l) e
    rw [Machine.holder_of hs] at this
    exact this.trans (Machine.mentions_split _ he)
  · rw [Machine.mentions_append, Machine.mentions_cons]
    exact ⟨mentions is₂, by simp [Item.mentions]⟩

theorem fair_now {is : List Item} {j : Journal} {J : Machine.Jrn} (hj : Machine.JrnR j J) (hT : Machine.Timed (mentions is) J.store)
    (ho : Machine.Origins [] is J.xacts) (hf : FreshReport is) {stays : Nat → Bool} (hs : ∀ x ∈ j.xacts, Remains stays x.posts.length) :
    Machine.Fair stays j J (Machine.Now J.store) False := by
  refine ⟨Machine.sound_now hj.fine, fun r => ?_⟩
  unfold Journal.postAt Machine.derefPost
  rcases Machine.forall₂_getElem? r.1 hj.xacts with ⟨n1, n2⟩ | ⟨x, X, n1, n2, n3⟩
  · rw [n1, n2]; exact Or.inr ⟨rfl, by intro e; cases e⟩
  · rw [n1, n2]
    simp only
    rcases Machine.forall₂_getElem? r.2 n3.posts with ⟨m1, m2⟩ | ⟨y, Y, m1, m2, m3⟩
    · rw [m1, m2]
      right
      refine ⟨?_, by intro e; cases e⟩
      split <;> rfl
    · rw [m1, m2]
      left
      have hlen := n3.posts.length_eq
      have hr : r.2 < X.posts.length := (List.getElem?_eq_some_iff.mp m2).1
      have hb : storedPost stays r = ⟨block vecNext stays X.posts.length, r.2⟩ := by
        have h1 := (remains_iff stays (n := x.posts.length) (by omega)).mpr (hs x (List.mem_of_getElem? n1))
        have h2 := block_mono (next := vecNext) (stays := stays) (n := 1) (m := r.2 + 1) (by omega)
        have h3 := block_mono (next := vecNext) (stays := stays) (n := r.2 + 1) (m := X.posts.length) (by omega)
        unfold storedPost
        rw [show block vecNext stays (r.2 + 1) = block vecNext stays X.posts.length by rw [hlen] at h1; omega]
      rw [if_pos hb]
      refine ⟨y, Y, rfl, rfl, m3.amount.1, fun A hA z hz => ⟨m3.amount.2 A hA z hz, ?_⟩⟩
      obtain ⟨is₁, w, is₂, rfl, hX⟩ := origins_mem ho (List.mem_of_getElem? n2)
      obtain ⟨l, e, r', s, pre, e1, e2, e3, e4, e5⟩ := hX.back Y (List.mem_of_getElem? m2) A z hA hz
      rw [List.nil_append] at e3 e4
      obtain ⟨p1, p2⟩ := report_prefix (is₁ := is₁) (is₂ := is₂) e1 e2
      have := (Machine.moves_place (by simp) (p1.trans p2)).mp (hf is₁ w is₂ l e r' s rfl e1 e2)
      rw [hT.block, e5]
      exact Machine.place_between this e3 (e4.trans p2)

theorem walks {files : Files} {depth : Nat} {fs : List Str} {is : List Item} (hf : FilesSay files depth fs is .done)
    (hd : ∀ w ∈ writings is, Everyday w) {j : Journal} (h : readFiles files depth fs Journal.new = .ok j) :
    (Machine.readFiles files depth fs Machine.Jrn.new = .error .danglingPointer ∧ ¬ FreshReading is) ∨
      ∃ J, Machine.readFiles files depth fs Machine.Jrn.new = .ok J ∧ FreshReading is ∧ Machine.JrnR j J ∧
        Machine.Timed (mentions is) J.store ∧ Machine.Origins [] is J.xacts := by
  rw [Machine.freshReading_from]
  refine (Machine.walk_files files depth hf rfl hd [] _ _ readable_new Machine.jrnR_new timed_new _ h).imp_right ?_
  rintro ⟨J, h1, h2⟩
  obtain ⟨new, e1, e2⟩ := h2.xacts
  refine ⟨J, h1, h2.fresh, h2.rel, h2.timed, ?_⟩
  rw [e1, show Machine.Jrn.new.xacts = [] from rfl, List.nil_append]
  exact e2

/-- C104: reading follows a stale pointer exactly if the table of commodities moves at a moment that the text tells, whatever
the allocator does and whatever is to be done with the journal. -/
theorem C104_reading (stays : Nat → Bool) {files : Files} {depth : Nat} {args commands fs : List Str} {is : List Item}
    (ha : Options.processArguments args = .ok (commands, fs)) (hc : commands ≠ [])
    (hf : FilesSay files depth fs is .done) (hd : ∀ w ∈ writings is, Everyday w)
    {j : Journal} (h : readFiles files depth fs Journal.new = .ok j) :
    (FreshReading is → ∃ J, Machine.readFiles files depth fs Machine.Jrn.new = .ok J ∧ Machine.JrnR j J) ∧
    (¬ FreshReading is → Machine.run stays files depth args = .error .danglingPointer) := by
  rcases walks hf hd h with ⟨h1, h2⟩ | ⟨J, h1, h2, h3, _⟩
  · exact ⟨fun h => absurd h h2, fun _ => run_reading_fails stays ha hc h1⟩
  · exact ⟨fun _ => ⟨J, h1, h3⟩, fun h => absurd h2 h⟩

/-- C104: so the list of the accounts is printed as the main model says exactly if reading is fresh. -/
theorem C104_accounts (stays : Nat → Bool) {files : Files} {depth : Nat} {args vs fs : List Str} {verb : Str} {is : List Item}
    (ha : Options.processArguments args = .ok (('a' :: verb) :: vs, fs))
    (hf : FilesSay files depth fs is .done) (hd : ∀ w ∈ writings is, Everyday w) {r : List Str} (hr : run files depth args = .ok r) :
    (FreshReading is → Machine.run stays files depth args = .ok r) ∧
    (¬ FreshReading is → Machine.run stays files depth args = .error .danglingPointer) := by
  obtain ⟨j, h⟩ := run_reads ha hr
  obtain ⟨h1, h2⟩ := C104_reading stays ha (by simp) hf hd h
  refine ⟨fun hfr => ?_, h2⟩
  obtain ⟨J, hJ, hrel⟩ := h1 hfr
  rcases C101_until stays files depth args with hrun | hrun
  · rw [hrun, hr]
  · exfalso
    simp only [Machine.run, ha, bind, Except.bind, Machine.executeCommand, hJ] at hrun
    simp at hrun

/-- C104: a balance report is what the main model says exactly if reading and the amounts are fresh, the postings of each
transaction are where they were put, and no account was displaced after it had another one below it.  Otherwise the program
follows a stale pointer. -/
theorem C104_balance (stays : Nat → Bool) {files : Files} {depth : Nat} {args vs fs : List Str} {verb : Str} {is : List Item}
    (ha : Options.processArguments args = .ok (verb :: vs, fs)) (hv : verb = str "b" ∨ verb = str "bal" ∨ verb = str "balance")
    (hf : FilesSay files depth fs is .done) (hd : ∀ w ∈ writings is, Everyday w) {r : List Str} (hr : run files depth args = .ok r) :
    (FreshReading is ∧ FreshReport is ∧ (∀ w ∈ writings is, Remains stays w.entries.length) ∧
        ¬ Displaced ((allEntries (writings is)).map (fun e => pathOf e.account)) →
      Machine.run stays files depth args = .ok r) ∧
    (¬ (FreshReading is ∧ FreshReport is ∧ (∀ w ∈ writings is, Remains stays w.entries.length) ∧
        ¬ Displaced ((allEntries (writings is)).map (fun e => pathOf e.account))) →
      Machine.run stays files depth args = .error .danglingPointer) := by
  obtain ⟨j, h⟩ := run_reads ha hr
  obtain ⟨_, _, ws', rs, ho⟩ := decidesItems_ok (readFiles_items files depth hf hd) readable_new h
  have hj : j.Reachable := readFiles_stays .new h
  rcases walks hf hd h with ⟨h1, h2⟩ | ⟨J, hJ, h2, hrel, hT, hor⟩
  · exact ⟨fun h => absurd h.1 h2, fun _ => run_reading_fails stays ha (by simp) h1⟩
  · obtain ⟨homes, hb⟩ := hrel.books
    constructor
    · rintro ⟨_, g1, g2, g3⟩
      rw [run_reports ha hv hJ]
      rw [← items_paths ho] at g3
      have hright := hb.parentsRight.mpr g3
      have hrep := Machine.balanceReport_fair hrel (fair_now hrel hT hor g1 ((items_lengths ho (Remains stays)).mpr g2))
      have hmain : Report.balanceReport j = .ok r := by
        have := hr
        simp only [run, ha, bind, Except.bind, executeCommand, h] at this
        rcases hv with rfl | rfl | rfl <;> simpa [str] using this
      rw [hmain] at hrep
      cases hM : Machine.balanceReport stays J with
      | error e =>
        rw [hM] at hrep
        exact (hrep.2.elim id (fun hl => hl hright)).elim
      | ok R => rw [hM] at hrep; rw [show r = R from hrep]
    · intro hn
      rcases C101_until stays files depth args with hrun | hrun
      rotate_left
      · exact hrun
      exfalso
      refine hn ⟨h2, ?_, ?_, fun hdis => ?_⟩
      · rintro is₁ w is₂ l e r' s rfl e1 e2
        obtain ⟨p1, p2⟩ := report_prefix (is₁ := is₁) (is₂ := is₂) e1 e2
        rw [Machine.moves_place (by simp) (p1.trans p2)]
        obtain ⟨X, hX, horig⟩ := origins_split hor
        obtain ⟨P, A, z, o1, o2, o3, o4⟩ := horig.amount l e r' s e1 e2
        obtain ⟨i, hi⟩ := List.mem_iff_getElem?.mp hX
        obtain ⟨xf, hxf, hXf⟩ := Machine.forall₂_getElem?_right hrel.xacts hi
        obtain ⟨pf, hpf, _⟩ := Machine.forall₂_getElem?_right hXf.posts o1
        obtain ⟨q, rs', hq, hmem⟩ := booked_post hj hxf hpf
        rw [← hrel.erase] at hq
        rw [run_reports ha hv hJ, hr] at hrun
        obtain ⟨P', d1, d2⟩ := Machine.balanceReport_follows hrun hq hmem
        obtain ⟨X', f1, _, f2⟩ := derefPost_ok d1
        simp only at f1 f2
        rw [hi] at f1
        injection f1 with f1
        subst f1
        rw [o1] at f2
        injection f2 with f2
        subst f2
        have := live_block (d2 A o2) o3
        rw [o4, hT.block, List.nil_append] at this
        exact this
      · rw [← items_lengths ho (Remains stays)]
        intro x hx
        by_cases hl : x.posts.length = 0
        · intro i hi; omega
        obtain ⟨i, hi⟩ := List.mem_iff_getElem?.mp hx
        obtain ⟨p, hp⟩ : ∃ p, x.posts[0]? = some p := ⟨_, List.getElem?_eq_getElem (by omega)⟩
        obtain ⟨q, rs', hq, hmem⟩ := booked_post hj hi hp
        rw [← hrel.erase] at hq
        rw [run_reports ha hv hJ, hr] at hrun
        obtain ⟨P', d1, _⟩ := Machine.balanceReport_follows hrun hq hmem
        obtain ⟨X, f1, f2, _⟩ := derefPost_ok d1
        rcases Machine.forall₂_getElem? i hrel.xacts with ⟨e1, _⟩ | ⟨x', X', e1, eX, hX⟩
        · rw [hi] at e1; cases e1
        rw [hi] at e1
        injection e1 with e1
        subst e1
        simp only at f1
        rw [eX] at f1
        injection f1 with f1
        subst f1
        rw [← hX.posts.length_eq] at f2
        injection f2 with f2 _
        exact (remains_iff stays (by omega)).mp f2
      · rw [C103_text stays ha hv hf hd hr hdis, hr] at hrun
        cases hrun

namespace FreshExample
open StaleExample LinesExample FaultsExample CausesExample FoundExample FollowsExample DisplacedExample Machine

theorem not_moves {M N : List Str} (hp : M <+: N) (hm : M ≠ []) (h : place M = place N) : ¬ Moves M N := (moves_place hm hp).mpr h

theorem pair_split {a b e : Entry} {l r : List Entry} (h : [a, b] = l ++ e :: r) : (l = [] ∧ e = a) ∨ (l = [a] ∧ e = b) := by
  rcases l with _ | ⟨x, _ | ⟨y, l⟩⟩
  · injection h with h1 h2; exact Or.inl ⟨rfl, h1.symm⟩
  · injection h with h1 h2; injection h2 with h2 h3; exact Or.inr ⟨by rw [h1], h2.symm⟩
  · have := congrArg List.length h
    simp at this

theorem not_costed_first (e : Entry) (he : e ∈ first.entries) : ¬ Costed first e := by
  rintro (h | ⟨A, B, h, _⟩)
  · have : ∀ e ∈ first.entries, e.cost = none := by decide
    exact h (this e he)
  · exact h.1 cash (by decide) rfl

theorem first_fresh (M : List Str) : ItemFresh M (.xact first) := by
  refine ⟨?_, fun e he s _ hc => absurd hc (not_costed_first e he)⟩
  intro l e r s hl hs
  rcases pair_split hl with ⟨rfl, rfl⟩ | ⟨rfl, rfl⟩
  · injection hs with hs
    subst hs
    rw [show M ++ entryMentions [] ++ [str "EUR"] = M ++ entryMentions first.entries by simp [entryMentions]; rfl]
    rintro ⟨k, _, h1, h2⟩
    exact h2 h1
  · cases hs

theorem sum_broker : entriesSum broker.entries (some (str "EUR")) = 0 := by
  decide +kernel

theorem not_implied_broker (A B : Option Str) : ¬ ImpliedBy broker A B := by
  rintro ⟨_, _, h, hA, hB, _⟩
  rcases h paid (by decide) with h | h
  · exact hA (h ▸ sum_broker)
  · exact hB (h ▸ sum_broker)

/-- The shares are the fourth commodity of the diary, and the first of their transaction. -/
theorem broker_fresh : ItemFresh [str "EUR", str "GOLD", str "USD"] (.xact broker) := by
  have he : entryMentions broker.entries = [str "VEUR", str "EUR", str "EUR", str "EUR"] := by decide +kernel
  refine ⟨?_, ?_⟩
  · intro l e r s hl hs
    rw [he]
    rcases pair_split hl with ⟨rfl, rfl⟩ | ⟨rfl, rfl⟩
    · injection hs with hs
      subst hs
      exact not_moves ⟨[str "EUR", str "EUR", str "EUR"], rfl⟩ (by simp) (by decide +kernel)
    · injection hs with hs
      subst hs
      exact not_moves ⟨[], by decide +kernel⟩ (by simp) (by decide +kernel)
  · intro e hm s hs hc pre hpre hsp
    have hpair : e = stocks ∨ e = paid := by simpa [broker] using hm
    rcases hpair with rfl | rfl
    · injection hs with hs
      subst hs
      rw [he] at hpre ⊢
      have h4 : [str "EUR", str "GOLD", str "USD", str "VEUR"] <+: pre := by
        obtain ⟨t, ht⟩ := hpre
        rcases pre with _ | ⟨a, _ | ⟨b, _ | ⟨c, _ | ⟨d, pre⟩⟩⟩⟩ <;> simp only [List.cons_append, List.nil_append, List.cons.injEq] at ht
        · cases hsp
        · obtain ⟨rfl, _⟩ := ht; exact absurd hsp (by decide +kernel)
        · obtain ⟨rfl, rfl, _⟩ := ht; exact absurd hsp (by decide +kernel)
        · obtain ⟨rfl, rfl, rfl, _⟩ := ht; exact absurd hsp (by decide +kernel)
        · obtain ⟨rfl, rfl, rfl, rfl, _⟩ := ht; exact ⟨pre, rfl⟩
      exact not_moves hpre (by rintro rfl; cases hsp) (place_between (M := [str "EUR", str "GOLD", str "USD", str "VEUR"]) (by decide +kernel) h4 hpre)
    · rcases hc with hc | ⟨A, B, hc, _⟩
      · exact absurd rfl hc
      · exact absurd hc (not_implied_broker A B)

theorem diary_fresh : FreshReading [.xact first, .price gold, .xact broker] := by
  rw [freshReading_from]
  refine ⟨first_fresh _, ?_, ?_, trivial⟩
  · exact not_moves ⟨[str "USD"], by decide +kernel⟩ (by simp) (by decide +kernel)
  · have : [] ++ (Item.xact first).mentions ++ (Item.price gold).mentions = [str "EUR", str "GOLD", str "USD"] := by decide +kernel
    rw [this]
    exact broker_fresh

theorem diary_everyday : ∀ w ∈ writings [.xact first, .price gold, .xact broker], Everyday w := by
  intro w hw
  have : w = first ∨ w = broker := by simpa [writings] using hw
  rcases this with rfl | rfl
  · exact CausesExample.everyday _ (by simp)
  · exact brokerEveryday

/-- Four commodities: the accounts are printed, a report is not. -/
example (stays : Nat → Bool) : Machine.run stays diary 0 [str "accounts", str "-f", str "a"] = run diary 0 [str "accounts", str "-f", str "a"] ∧
    Machine.run stays diary 0 [str "bal", str "-f", str "a"] = .error .danglingPointer := by
  obtain ⟨r, h, _⟩ : ∃ r, run diary 0 [str "accounts", str "-f", str "a"] = .ok r ∧ True := ok_and (by decide +kernel)
  obtain ⟨r', h', _⟩ : ∃ r, run diary 0 [str "bal", str "-f", str "a"] = .ok r ∧ True := ok_and (by decide +kernel)
  refine ⟨?_, ?_⟩
  · rw [h]
    exact (C104_accounts stays (verb := str "ccounts") (vs := []) (by decide +kernel) diarySays diary_everyday h).1 diary_fresh
  · refine (C104_balance stays (verb := str "bal") (vs := []) (by decide +kernel) (by simp) diarySays diary_everyday h').2 ?_
    rintro ⟨_, hr, _⟩
    refine hr [] first [.price gold, .xact broker] [] bread [cash] (str "EUR") rfl rfl rfl ?_
    exact overfills_of (Or.inl rfl) [str "EUR"] [str "EUR", str "VEUR", str "GOLD", str "USD"] (fun c hc => hc) (by decide) (by decide)
      (by decide +kernel) (by decide)

/-- A fourth commodity that is the first one of its price line moves the table before a pointer is taken. -/
def wide : Files := fun f => if f = str "a" then
  some [some (str "i 2023-05-02 VEUR 26 USD \n"), some (str "i 2023-05-02 VEUR 26 EUR \n"), some (str "i 2023-05-02 GOLD 26 USD \n"),
    some (str "2023-05-01 Shop  ; food\n"), some (str "    Expenses:Food  20.50 EUR\n"), some (str "    Assets:Cash\n")] else none

theorem wideSays : FilesSay wide 0 [str "a"] [.price vusd, .price price, .price gold, .xact first] .done :=
  .read (is := [.price vusd, .price price, .price gold, .xact first]) (is' := []) (by decide +kernel)
    (.price ((topPart_iff _ _).mpr (by decide +kernel)) vusdLine (.price ((topPart_iff _ _).mpr (by decide +kernel)) priceLine
      (.price ((topPart_iff _ _).mpr (by decide +kernel)) goldLine
        (.xact (w := first) (tail := []) shopHeader (.posting (e := bread) foodLine (.posting cashLine (.stop (Or.inl ⟨_, Or.inl ⟨rfl, rfl⟩⟩))))
          (Or.inl ⟨rfl, rfl⟩) .nil)))) .nil

theorem not_displaced_few {ps : List Path} (h : ps.length ≤ 3) : ¬ Displaced ps := by
  rintro ⟨ps₁, ps₂, q, n, m, rfl, _, k, hk, _, h2⟩
  refine h2 (fun l hn hl => ?_)
  have := atMost_of_list (P := Below (ps₁ ++ ps₂) q) ((ps₁ ++ ps₂).filterMap (·[q.length]?)) ?_ (List.length_filterMap_le _ _) l hn hl
  · have hk3 : 3 ≤ k := by
      rcases hk with rfl | ⟨i, rfl⟩
      · omega
      · have : 0 < 2 ^ i := Nat.pow_pos (by decide)
        omega
    omega
  · rintro c ⟨p, hp, t, ht⟩
    rw [List.mem_filterMap]
    exact ⟨p, hp, by rw [← ht]; simp⟩

abbrev wideItems : List Item := [.price vusd, .price price, .price gold, .xact first]

theorem wide_first : ∀ w ∈ writings wideItems, w = first := by
  intro w hw
  simpa [writings] using hw

theorem wide_everyday : ∀ w ∈ writings wideItems, Everyday w := by
  intro w hw
  obtain rfl := wide_first w hw
  exact CausesExample.everyday _ (by simp)

theorem wide_fresh : FreshReading wideItems := by
  rw [freshReading_from]
  refine ⟨?_, ?_, ?_, first_fresh _, trivial⟩
  · exact not_moves ⟨[str "USD"], by decide +kernel⟩ (by simp) (by decide +kernel)
  · exact not_moves ⟨[str "EUR"], by decide +kernel⟩ (by simp) (by decide +kernel)
  · exact not_moves ⟨[str "USD"], by decide +kernel⟩ (by simp) (by decide +kernel)

theorem wide_report : FreshReport wideItems := by
  intro is₁ w is₂ l e r' s h1 h2 h3
  obtain rfl := wide_first w (by rw [h1]; simp [writings])
  obtain rfl : is₁ = [.price vusd, .price price, .price gold] := by
    rcases is₁ with _ | ⟨a, _ | ⟨b, _ | ⟨c, _ | ⟨d, is₁⟩⟩⟩⟩ <;> simp_all
  rcases pair_split h2 with ⟨rfl, rfl⟩ | ⟨rfl, rfl⟩
  · injection h3 with h3
    subst h3
    exact not_moves ⟨[], by decide +kernel⟩ (by simp) (by decide +kernel)
  · cases h3

theorem wide_remains (stays : Nat → Bool) : ∀ w ∈ writings wideItems, Remains stays w.entries.length := by
  intro w hw i hi
  obtain rfl := wide_first w hw
  have hpos : 0 < 2 ^ i := Nat.pow_pos (by decide)
  have : first.entries.length = 2 := rfl
  omega

theorem wide_still : ¬ Displaced ((allEntries (writings wideItems)).map (fun e => pathOf e.account)) :=
  not_displaced_few (by decide)

example (stays : Nat → Bool) : Machine.run stays wide 0 [str "bal", str "-f", str "a"] = run wide 0 [str "bal", str "-f", str "a"] := by
  obtain ⟨r, h, _⟩ : ∃ r, run wide 0 [str "bal", str "-f", str "a"] = .ok r ∧ True := ok_and (by decide +kernel)
  rw [h]
  exact (C104_balance stays (verb := str "bal") (vs := []) (by decide +kernel) (by simp) wideSays wide_everyday h).1
    ⟨wide_fresh, wide_report, wide_remains stays, wide_still⟩

/-- Shares that cost a fourth commodity: even reading follows a stale pointer. -/
example (stays : Nat → Bool) : Machine.run stays quotes 0 [str "bal", str "-f", str "a"] = .error .danglingPointer := by
  obtain ⟨j, h, _⟩ : ∃ j, readFiles quotes 0 [str "a"] Journal.new = .ok j ∧ True := ok_and (by decide +kernel)
  refine (C104_reading stays (commands := [str "bal"]) (by decide +kernel) (by simp) quotesSays
    (by intro w hw; obtain rfl : w = broker := by simpa [writings] using hw
        exact brokerEveryday) h).2 ?_
  intro hf
  refine (hf [.price vusd, .price gold] (.xact broker) [] rfl).2 stocks (by decide) (str "VEUR") rfl (Or.inl (fun h => nomatch h)) [str "VEUR"]
    ⟨_, rfl⟩ (by simp) ?_
  exact overfills_of (Or.inl rfl) [str "VEUR"] [str "EUR", str "VEUR", str "GOLD", str "USD"] (fun c hc => hc) (by decide) (by decide)
    (by decide +kernel) (by decide)

end FreshExample

end Ledger
