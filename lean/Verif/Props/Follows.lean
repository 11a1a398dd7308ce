import Verif.Spec.Follows
import Verif.Lemmas.MachineThru
import Verif.Lemmas.HeapGrow
import Verif.Props.Machine
/-
C102: which texts make the program follow a stale pointer.
-/
namespace Ledger
open Ledger.Parser Ledger.Cli Ledger.Heap Ledger.Memory

theorem full_moves {k n m : Nat} (h : Full k) (hn : n ≤ k) (hm : k < m) : tableBlock n < tableBlock m :=
  Nat.lt_of_le_of_lt (block_mono (next := tableNext) (stays := fun _ => false) hn)
    (block_grows (stays := fun _ => false) tableNext_gt (by rw [room_full h]; exact hm) rfl)

theorem stamped_new : Machine.Stamped Machine.Jrn.new.store := ⟨rfl, by intro i a h; cases h⟩

/-- Reading, item by item. -/
theorem reads_thru {files : Files} {depth : Nat} {fs : List Str} {is : List Item} (hf : FilesSay files depth fs is .done)
    (hd : ∀ w ∈ writings is, Everyday w) {j : Journal} (h : readFiles files depth fs Journal.new = .ok j) :
    Machine.readFiles files depth fs Machine.Jrn.new = .error .danglingPointer ∨
      ∃ J, Machine.readFiles files depth fs Machine.Jrn.new = .ok J ∧ Machine.Thru is Journal.new Machine.Jrn.new j J :=
  Machine.pass_files files depth hf rfl hd _ _ readable_new Machine.jrnR_new _ h

theorem run_reading_fails (stays : Nat → Bool) {files : Files} {depth : Nat} {args commands fs : List Str}
    (ha : Options.processArguments args = .ok (commands, fs)) (hc : commands ≠ []) {e : Panic}
    (h : Machine.readFiles files depth fs Machine.Jrn.new = .error e) : Machine.run stays files depth args = .error e := by
  cases commands with
  | nil => exact absurd rfl hc
  | cons v vs => simp only [Machine.run, ha, bind, Except.bind, Machine.executeCommand, h]

theorem run_reports {stays : Nat → Bool} {files : Files} {depth : Nat} {args vs fs : List Str} {verb : Str}
    (ha : Options.processArguments args = .ok (verb :: vs, fs)) (hv : verb = str "b" ∨ verb = str "bal" ∨ verb = str "balance")
    {J : Machine.Jrn} (h : Machine.readFiles files depth fs Machine.Jrn.new = .ok J) :
    Machine.run stays files depth args = Machine.balanceReport stays J := by
  simp only [Machine.run, ha, bind, Except.bind, Machine.executeCommand, h]
  rcases hv with rfl | rfl | rfl <;> simp [str]

theorem run_reads {files : Files} {depth : Nat} {args commands fs : List Str} {r : List Str}
    (ha : Options.processArguments args = .ok (commands, fs)) (hr : run files depth args = .ok r) :
    ∃ j, readFiles files depth fs Journal.new = .ok j := by
  cases h : readFiles files depth fs Journal.new with
  | ok j => exact ⟨j, rfl⟩
  | error e =>
    exfalso
    simp only [run, ha, bind, Except.bind, executeCommand, h] at hr
    cases commands <;> cases hr

theorem jrnR_inv {j : Journal} {J : Machine.Jrn} (h : Machine.JrnR j J) : j.pool.Inv := h.pool ▸ h.fine.inv

theorem jrnR_len {j : Journal} {J : Machine.Jrn} (h : Machine.JrnR j J) : J.store.keys.length = j.pool.len := by
  have : J.store.keys = j.pool.commodities.map (·.1) := by rw [← h.pool]; rfl
  rw [this]; simp [Pool.len]

theorem settles_entry {w w' : Writing} (h : Settles w w') {e : Entry} (he : e ∈ w.entries) {a : Amount} (ha : e.amount = some a) :
    ∃ e' ∈ w'.entries, e'.amount = some a ∧ (e.cost ≠ none → e'.cost ≠ none) := by
  cases h with
  | kept => exact ⟨e, he, ha, id⟩
  | filled l r n b h hn =>
    rw [h] at he
    refine ⟨e, ?_, ha, id⟩
    rcases List.mem_append.mp he with he | he
    · exact List.mem_append_left _ he
    · rcases List.mem_cons.mp he with rfl | he
      · rw [hn] at ha; cases ha
      · exact List.mem_append_right _ (List.mem_cons_of_mem _ he)
  | rated A B u es h hu hes =>
    obtain ⟨e', he', hc⟩ := forall₂_left hes he
    refine ⟨e', he', ?_⟩
    rcases hc with ⟨_, b, k, hb, _, _, rfl⟩ | ⟨_, rfl⟩
    · exact ⟨ha, by simp⟩
    · exact ⟨ha, id⟩

theorem postOf_cost {e : Entry} {p : Post} (h : PostOf e p) {a : Amount} (ha : e.amount = some a) (hc : e.cost ≠ none) : p.cost ≠ none := by
  rcases h.cost with ⟨h1, _⟩ | ⟨b, _, h2⟩
  · rw [ha] at h1; cases h1
  · cases hk : e.cost with
    | none => exact absurd hk hc
    | some v =>
      obtain ⟨u, k⟩ := v
      rw [hk] at h2
      cases u with
      | false => rw [show p.cost = some k from h2]; simp
      | true => obtain ⟨r, h3, _⟩ := h2; rw [h3]; simp

/-- C102: whatever the arguments and the allocator, a price line whose second commodity does not fit into the table of
commodities any more makes the program follow a stale pointer. -/
theorem C102_price (stays : Nat → Bool) {files : Files} {depth : Nat} {args commands fs : List Str} {is₁ is₂ : List Item} {r : Recording}
    (ha : Options.processArguments args = .ok (commands, fs)) (hc : commands ≠ [])
    (hf : FilesSay files depth fs (is₁ ++ .price r :: is₂) .done) (hd : ∀ w ∈ writings (is₁ ++ .price r :: is₂), Everyday w)
    {j : Journal} (h : readFiles files depth fs Journal.new = .ok j)
    (ho : Overfills (fun c => Named is₁ c ∨ c = r.src) (Named (is₁ ++ [.price r]))) :
    Machine.run stays files depth args = .error .danglingPointer := by
  refine run_reading_fails stays ha hc ?_
  rcases reads_thru hf hd h with h | ⟨J, _, ht⟩
  · exact h
  exfalso
  obtain ⟨j1, J1, t1, t2⟩ := ht.split
  obtain ⟨⟨ws, rs, o1⟩, r1, l1, _⟩ := t1.facts readable_new Machine.jrnR_new
  cases t2 with
  | @cons _ _ _ j2 _ _ J2 _ hs t3 =>
    obtain ⟨ws2, rs2, o2⟩ := hs.outcome
    obtain ⟨k, hk, h1, h2⟩ := ho
    have n1 := items_named (jrnR_inv l1) o1
    have n2 := items_named (jrnR_inv hs.rel) (o1.append o2)
    have e := hs.price r rfl
    have hlt : k < j2.pool.len := by
      by_contra hle
      exact h2 ((n2.2 k).mp (by omega))
    have hi := Pool.inv_findOrCreate (jrnR_inv l1) r.src none
    have hle : (j1.pool.findOrCreate r.src none).1.len ≤ k := by
      have hlen : (j1.pool.findOrCreate r.src none).1.len = (j1.pool.findOrCreate r.src none).1.history.nodes.length := by
        rw [← hi.keys]; simp [Pool.len]
      rw [hlen]
      refine h1 _ hi.nodup (fun c hc => ?_)
      by_cases hs0 : r.src = []
      · rw [hs0, Pool.findOrCreate_empty] at hc
        exact Or.inl ((n1.1 c).mp hc)
      · cases hfnd : j1.pool.find r.src with
        | some d =>
          rw [(Pool.findOrCreate_old hs0 hfnd none).2.2.1] at hc
          exact Or.inl ((n1.1 c).mp hc)
        | none =>
          rw [(Pool.findOrCreate_new hs0 hfnd none).2.2.1] at hc
          rcases List.mem_append.mp hc with hc | hc
          · exact Or.inl ((n1.1 c).mp hc)
          · exact Or.inr (by simpa using hc)
    have := full_moves hk hle hlt
    omega

/-- C102: so does a posting with a cost whose commodity was mentioned before its transaction, if the transaction mentions
more commodities than fit into the table. -/
theorem C102_cost (stays : Nat → Bool) {files : Files} {depth : Nat} {args commands fs : List Str} {is₁ is₂ : List Item} {w : Writing}
    (ha : Options.processArguments args = .ok (commands, fs)) (hc : commands ≠ [])
    (hf : FilesSay files depth fs (is₁ ++ .xact w :: is₂) .done) (hd : ∀ w' ∈ writings (is₁ ++ .xact w :: is₂), Everyday w')
    {j : Journal} (h : readFiles files depth fs Journal.new = .ok j) {e : Entry} (he : e ∈ w.entries) (hec : e.cost ≠ none)
    {a : Amount} {s : Str} (hea : e.amount = some a) (has : a.comm = some s) (hn : Named is₁ s)
    (ho : Overfills (Named is₁) (Named (is₁ ++ [.xact w]))) :
    Machine.run stays files depth args = .error .danglingPointer := by
  refine run_reading_fails stays ha hc ?_
  rcases reads_thru hf hd h with h | ⟨J, _, ht⟩
  · exact h
  exfalso
  obtain ⟨j1, J1, t1, t2⟩ := ht.split
  obtain ⟨⟨ws, rs, o1⟩, r1, l1, _, st⟩ := t1.facts readable_new Machine.jrnR_new
  cases t2 with
  | @cons _ _ _ j2 _ _ J2 _ hs t3 =>
    obtain ⟨ws2, rs2, o2⟩ := hs.outcome
    obtain ⟨k, hk, h1, h2⟩ := ho
    have n1 := items_named (jrnR_inv l1) o1
    have n2 := items_named (jrnR_inv hs.rel) (o1.append o2)
    obtain ⟨x, hx, hfresh⟩ := hs.costs (st stamped_new) w rfl
    obtain ⟨new, hnew, hxs⟩ := o2.xacts
    rw [hx] at hnew
    have hnew := List.append_cancel_left hnew
    subst hnew
    have hset := o2.settled
    cases hxs with
    | @cons w' _ _ _ hxo hnil =>
      cases hnil
      have hset : Settles w w' := by
        have hset : List.Forall₂ Settles [w] [w'] := hset
        cases hset; assumption
      obtain ⟨e', he', ha', hc'⟩ := settles_entry hset he hea
      obtain ⟨p, hp, hpo⟩ := forall₂_left hxo.posts he'
      obtain ⟨b, s', i, b1, b2, b3, b4⟩ := hfresh p hp (postOf_cost hpo ha' (hc' hec))
      rw [hpo.amount, ha'] at b1
      injection b1 with b1
      subst b1
      rw [has] at b2
      injection b2 with b2
      subst b2
      have hlt : k < j2.pool.len := by
        by_contra hle
        exact h2 ((n2.2 k).mp (by omega))
      have hle := (n1.2 k).mpr h1
      have hi : i < j1.pool.len := by
        have hk1 := (n1.1 s).mpr hn
        rw [← (jrnR_inv l1).keys] at hk1
        obtain ⟨i', hi', hs'⟩ := List.getElem_of_mem hk1
        have hpre := hs.keys
        have hnd : (j2.pool.commodities.map (·.1)).Nodup := by rw [(jrnR_inv hs.rel).keys]; exact (jrnR_inv hs.rel).nodup
        obtain ⟨t, ht⟩ := hpre
        have hi2 : (j2.pool.commodities.map (·.1))[i']? = some s := by
          rw [← ht, List.getElem?_append_left hi', List.getElem?_eq_getElem hi', hs']
        obtain ⟨g1, g2⟩ := List.getElem?_eq_some_iff.mp b3
        obtain ⟨g3, g4⟩ := List.getElem?_eq_some_iff.mp hi2
        have : i = i' := (hnd.getElem_inj_iff).mp (g2.trans g4.symm)
        rw [this]
        simpa [Pool.len] using hi'
      have := full_moves (n := i + 1) hk (by omega) hlt
      omega

theorem derefPost_ok {stays : Nat → Bool} {J : Machine.Jrn} {r : PostRef} {P : Machine.Pst} (h : Machine.derefPost stays J r = .ok P) :
    ∃ X, J.xacts[r.1]? = some X ∧ storedPost stays r = ⟨block vecNext stays X.posts.length, r.2⟩ ∧ X.posts[r.2]? = some P := by
  unfold Machine.derefPost at h
  split at h
  · cases h
  · rename_i X hX
    split at h
    · split at h
      · injection h with h; subst h; exact ⟨X, hX, by assumption, by assumption⟩
      · cases h
    · cases h

theorem live_block {p : Machine.Store} {A : Machine.Amt} (h : Machine.Live p A) {y : Addr} (hy : A.ptr = some y) :
    y.block = tableBlock p.keys.length := by
  obtain ⟨c, hc⟩ := h
  rw [hy] at hc
  obtain ⟨c', hc', _⟩ := Machine.bind_ok hc
  unfold Machine.Store.deref at hc'
  split at hc'
  · assumption
  · cases hc'

/-- C102: a balance report follows a stale pointer, whatever the allocator does, if a posting has an amount in a commodity
and after its transaction more commodities are mentioned than fit into the table. -/
theorem C102_report (stays : Nat → Bool) {files : Files} {depth : Nat} {args vs fs : List Str} {verb : Str} {is₁ is₂ : List Item}
    (ha : Options.processArguments args = .ok (verb :: vs, fs)) (hv : verb = str "b" ∨ verb = str "bal" ∨ verb = str "balance")
    (hf : FilesSay files depth fs (is₁ ++ is₂) .done) (hd : ∀ w ∈ writings (is₁ ++ is₂), Everyday w) {r : List Str}
    (hr : run files depth args = .ok r) {e : Entry} (he : e ∈ allEntries (writings is₁)) (hec : e.InCommodity)
    (ho : Overfills (Named is₁) (Named (is₁ ++ is₂))) : Machine.run stays files depth args = .error .danglingPointer := by
  obtain ⟨j, h⟩ := run_reads ha hr
  have hj : j.Reachable := readFiles_stays .new h
  rcases reads_thru hf hd h with h | ⟨J, hJ, ht⟩
  · exact run_reading_fails stays ha (by simp) h
  rcases C101_until stays files depth args with hrun | hrun
  rotate_left
  · exact hrun
  exfalso
  rw [run_reports ha hv hJ, hr] at hrun
  obtain ⟨⟨ws0, rs0, o0⟩, _, l0, _⟩ := ht.facts readable_new Machine.jrnR_new
  obtain ⟨j1, J1, t1, t2⟩ := ht.split
  obtain ⟨⟨ws, rs, o1⟩, r1, l1, _⟩ := t1.facts readable_new Machine.jrnR_new
  obtain ⟨_, _, _, hpre, _⟩ := t2.facts r1 l1
  obtain ⟨k, hk, h1, h2⟩ := ho
  have n1 := ((items_named (jrnR_inv l1) o1).2 k).mpr h1
  have n0 : k < j.pool.len := by
    by_contra hle
    exact h2 (((items_named (jrnR_inv l0) o0).2 k).mp (by omega))
  obtain ⟨a, s, hea, has⟩ := hec
  obtain ⟨w, hw, hew⟩ : ∃ w ∈ writings is₁, e ∈ w.entries := by simpa [allEntries] using he
  obtain ⟨w', hw', hset⟩ := forall₂_left o1.settled hw
  obtain ⟨new, hnew, hxs⟩ := o1.xacts
  rw [show Journal.new.xacts = [] from rfl, List.nil_append] at hnew
  obtain ⟨x, hx, hxo⟩ := forall₂_left hxs hw'
  obtain ⟨e', he', ha', _⟩ := settles_entry hset hew hea
  obtain ⟨p, hp, hpo⟩ := forall₂_left hxo.posts he'
  obtain ⟨i, hi⟩ := List.mem_iff_getElem?.mp (hnew ▸ hx : x ∈ j1.xacts)
  obtain ⟨m, hm⟩ := List.mem_iff_getElem?.mp hp
  rcases Machine.forall₂_getElem? i l1.xacts with ⟨e1, _⟩ | ⟨x', X, e1, eX, hX⟩
  · rw [hi] at e1; cases e1
  rw [hi] at e1
  injection e1 with e1
  subst e1
  rcases Machine.forall₂_getElem? m hX.posts with ⟨e1, _⟩ | ⟨p', P, e1, eP, hP⟩
  · rw [hm] at e1; cases e1
  rw [hm] at e1
  injection e1 with e1
  subst e1
  have eX' : J.xacts[i]? = some X := by
    obtain ⟨t, ht⟩ := hpre
    rw [← ht, List.getElem?_append_left (List.getElem?_eq_some_iff.mp eX).1]
    exact eX
  obtain ⟨xf, hxf, hXf⟩ := Machine.forall₂_getElem?_right l0.xacts eX'
  obtain ⟨pf, hpf, _⟩ := Machine.forall₂_getElem?_right hXf.posts eP
  obtain ⟨q, rs', hq, hmem⟩ := booked_post hj hxf hpf
  rw [← l0.erase] at hq
  obtain ⟨P', d1, d2⟩ := Machine.balanceReport_follows hrun hq hmem
  obtain ⟨X', f1, _, f2⟩ := derefPost_ok d1
  simp only at f1 f2
  rw [eX'] at f1
  injection f1 with f1
  subst f1
  rw [eP] at f2
  injection f2 with f2
  subst f2
  have hpa := hP.amount.1
  rw [hpo.amount, ha'] at hpa
  cases hA : P.amount with
  | none => rw [hA] at hpa; cases hpa
  | some A =>
    rw [hA] at hpa
    injection hpa with hpa
    rw [hpa] at has
    obtain ⟨y, hy⟩ : ∃ y, A.ptr = some y := by
      cases hy : A.ptr with
      | none => simp [Machine.Amt.er, hy] at has
      | some y => exact ⟨y, rfl⟩
    obtain ⟨n, _, t2, t3⟩ := hP.amount.2 A hA y hy
    have hb := live_block (d2 A hA) hy
    rw [t3, jrnR_len l0] at hb
    rw [jrnR_len l1] at t2
    have := full_moves (n := n) hk (by omega) n0
    omega

/-- C102: a balance report follows a stale pointer if a transaction has more than four postings and the allocator moves
the vector of postings when it grows for the first time. -/
theorem C102_postings (stays : Nat → Bool) (h4 : stays 4 = false) {files : Files} {depth : Nat} {args vs fs : List Str} {verb : Str}
    (ha : Options.processArguments args = .ok (verb :: vs, fs)) (hv : verb = str "b" ∨ verb = str "bal" ∨ verb = str "balance")
    {j : Journal} (h : readFiles files depth fs Journal.new = .ok j) {r : List Str}
    (hr : run files depth args = .ok r) {x : Xact} (hx : x ∈ j.xacts) (hl : 4 < x.posts.length) :
    Machine.run stays files depth args = .error .danglingPointer := by
  have hj : j.Reachable := readFiles_stays .new h
  rcases C101_until stays files depth args with hrun | hrun
  rotate_left
  · exact hrun
  exfalso
  have hsim := Machine.readFiles_sim files depth fs Machine.jrnR_new
  rw [h] at hsim
  cases hJ : Machine.readFiles files depth fs Machine.Jrn.new with
  | error e =>
    rw [hJ] at hsim
    rw [run_reading_fails stays ha (by simp) hJ, hr] at hrun
    cases hrun
  | ok J =>
    rw [hJ] at hsim
    rw [run_reports ha hv hJ, hr] at hrun
    obtain ⟨i, hi⟩ := List.mem_iff_getElem?.mp hx
    obtain ⟨p, hp⟩ : ∃ p, x.posts[0]? = some p := ⟨_, List.getElem?_eq_getElem (by omega)⟩
    obtain ⟨q, rs', hq, hmem⟩ := booked_post hj hi hp
    rw [← hsim.erase] at hq
    obtain ⟨P', d1, _⟩ := Machine.balanceReport_follows hrun hq hmem
    obtain ⟨X, f1, f2, _⟩ := derefPost_ok d1
    rcases Machine.forall₂_getElem? i hsim.xacts with ⟨e1, _⟩ | ⟨x', X', e1, eX, hX⟩
    · rw [hi] at e1; cases e1
    rw [hi] at e1
    injection e1 with e1
    subst e1
    simp only at f1
    rw [eX] at f1
    injection f1 with f1
    subst f1
    rw [← hX.posts.length_eq] at f2
    injection f2 with f2 _
    have := block_grows (stays := stays) vecNext_gt (n := 1) (m := x.posts.length) (by exact hl) h4
    simp only [Nat.zero_add] at f2
    omega

/-- C102: so where at most three commodities are mentioned and no account with grandchildren has more than three children, the
postings alone decide. -/
theorem C102_exact (stays : Nat → Bool) (h4 : stays 4 = false) {files : Files} {depth : Nat} {args vs fs : List Str} {verb : Str} {is : List Item}
    (ha : Options.processArguments args = .ok (verb :: vs, fs)) (hv : verb = str "b" ∨ verb = str "bal" ∨ verb = str "balance")
    (hf : FilesSay files depth fs is .done) (hd : ∀ w ∈ writings is, Everyday w) {r : List Str} (hr : run files depth args = .ok r)
    (hc : AtMost 3 (Named is)) (hn : ∀ q, (∃ e ∈ allEntries (writings is), ∃ n m, q ++ [n, m] <+: pathOf e.account) →
      AtMost 3 (fun n => ∃ e ∈ allEntries (writings is), q ++ [n] <+: pathOf e.account)) :
    Machine.run stays files depth args = (if ∀ w ∈ writings is, w.entries.length ≤ 4 then .ok r else .error .danglingPointer) := by
  split
  · exact C101_files stays ha hf hd ⟨hc, hn, by assumption⟩ hr
  · rename_i hp
    obtain ⟨j, h⟩ := run_reads ha hr
    obtain ⟨_, _, ws', rs, ho⟩ := decidesItems_ok (readFiles_items files depth hf hd) readable_new h
    rw [← items_posts ho] at hp
    push Not at hp
    obtain ⟨x, hx, hl⟩ := hp
    exact C102_postings stays h4 ha hv h hr hx hl

namespace FollowsExample
open StaleExample LinesExample FaultsExample CausesExample FoundExample

def names (e : Entry) : List Str :=
  e.holder.toList ++ (e.lot.price.bind (·.comm)).toList ++ e.strays.price.toList ++ (e.cost.bind (·.2.comm)).toList ++ e.strays.cost.toList

def itemNames : Item → List Str
  | .xact w => w.entries.flatMap names
  | .price r => [r.src, r.dst]
  | .gap => []

theorem mem_names (e : Entry) (c : Str) : c ∈ names e ↔ e.Mentions c := by
  unfold names Entry.Mentions
  simp only [List.mem_append, Option.mem_toList, Option.bind_eq_some_iff, Prod.exists, or_assoc]

theorem mem_itemNames (is : List Item) (c : Str) : c ∈ is.flatMap itemNames ↔ Named is c := by
  unfold Named
  simp only [List.mem_flatMap, allEntries, writings, List.mem_filterMap]
  constructor
  · rintro ⟨i, hi, hc⟩
    cases i with
    | gap => cases hc
    | price r => exact Or.inr ⟨r, hi, by simpa [itemNames] using hc⟩
    | xact w =>
      obtain ⟨e, he, hc⟩ := List.mem_flatMap.mp hc
      exact Or.inl ⟨e, ⟨w, ⟨_, hi, rfl⟩, he⟩, (mem_names e c).mp hc⟩
  · rintro (⟨e, ⟨w, ⟨i, hi, hw⟩, he⟩, hm⟩ | ⟨r, hr, hc⟩)
    · cases i with
      | xact v => injection hw with hw; subst hw; exact ⟨_, hi, List.mem_flatMap.mpr ⟨e, he, (mem_names e c).mpr hm⟩⟩
      | price _ => cases hw
      | gap => cases hw
    · exact ⟨_, hr, by simpa [itemNames] using hc⟩

theorem named_sub {is : List Item} {l : List Str} (h : ∀ c ∈ is.flatMap itemNames, c ∈ l) (c : Str) (hc : Named is c) : c ∈ l :=
  h c ((mem_itemNames is c).mpr hc)

theorem sub_named {is : List Item} {l : List Str} (h : ∀ c ∈ l, c ∈ is.flatMap itemNames) : ∀ c ∈ l, Named is c :=
  fun c hc => (mem_itemNames is c).mp (h c hc)

theorem overfills_of {P Q : Str → Prop} {k : Nat} (hk : Full k) (l m : List Str) (hl : ∀ c, P c → c ∈ l) (hk1 : l.length ≤ k) (hm : m.Nodup)
    (hq : ∀ c ∈ m, Q c) (hk2 : k < m.length) : Overfills P Q :=
  ⟨k, hk, atMost_of_list l hl hk1, fun h => by have := h m hm hq; omega⟩

/-- Two price lines: the fourth commodity is the second one of a line. -/
example (stays : Nat → Bool) : Machine.run stays rates 0 [str "accounts", str "-f", str "a"] = .error .danglingPointer := by
  obtain ⟨j, h, _⟩ : ∃ j, readFiles rates 0 [str "a"] Journal.new = .ok j ∧ True := ok_and (by decide +kernel)
  refine C102_price stays (commands := [str "accounts"]) (is₁ := [.price price]) (is₂ := []) (r := gold) (by decide +kernel) (by simp) ratesSays
    (by intro w hw; simp [writings] at hw) h ?_
  refine overfills_of (Or.inl rfl) [str "EUR", str "VEUR", str "GOLD"] [str "EUR", str "VEUR", str "GOLD", str "USD"] ?_ (by decide) (by decide)
    (sub_named (by decide +kernel)) (by decide)
  rintro c (hc | rfl)
  · exact named_sub (by decide +kernel) c hc
  · decide

def vusd : Recording := ⟨str "VEUR", str "USD", ⟨⟨2023, 5, 2⟩, Time.midnight⟩, ⟨false, 26, 0⟩⟩

theorem vusdLine : PriceSays (str "i 2023-05-02 VEUR 26 USD \n") vusd :=
  ⟨str "2023-05-02", [], str "26", (priceLineParts_iff _ _ _ _ _ _).mpr (by decide +kernel),
    (C53_date_text _ _).mp (by decide +kernel), Or.inl ⟨rfl, rfl⟩, (C02_parse_exact _ _).mp (by decide +kernel), by decide, by decide⟩

def buying : List Str := [str "2023-05-02=2023-05-03 Broker\n",
  str "    Assets:Stocks  10 VEUR {20 EUR} [2023-04-01] @ 25 EUR\n", str "    Assets:Cash  -250 EUR"]

/-- Two prices, and shares that cost a fourth commodity. -/
def quotes : Files := fun f => if f = str "a" then
  some (some (str "i 2023-05-02 VEUR 26 USD \n") :: some (str "i 2023-05-02 GOLD 26 USD \n") :: buying.map some) else none

theorem buyingSays {inc : Str → List Item → Ending → Prop} : SourceSays inc (buying.map some) [.xact broker] .done :=
  .xact (w := broker) (tail := []) brokerHeader (.posting (e := stocks) stocksLine (.posting (e := paid) paidLine (.stop (Or.inl ⟨_, Or.inl ⟨rfl, rfl⟩⟩)))) (Or.inl ⟨rfl, rfl⟩) .nil

theorem quotesSays : FilesSay quotes 0 [str "a"] [.price vusd, .price gold, .xact broker] .done :=
  .read (is := [.price vusd, .price gold, .xact broker]) (is' := []) (by decide +kernel)
    (.price ((topPart_iff _ _).mpr (by decide +kernel)) vusdLine (.price ((topPart_iff _ _).mpr (by decide +kernel)) goldLine buyingSays)) .nil

example (stays : Nat → Bool) : Machine.run stays quotes 0 [str "accounts", str "-f", str "a"] = .error .danglingPointer := by
  obtain ⟨j, h, _⟩ : ∃ j, readFiles quotes 0 [str "a"] Journal.new = .ok j ∧ True := ok_and (by decide +kernel)
  refine C102_cost stays (commands := [str "accounts"]) (is₁ := [.price vusd, .price gold]) (is₂ := []) (w := broker) (by decide +kernel) (by simp) quotesSays
    (by intro w hw; obtain rfl : w = broker := by simpa [writings] using hw
        exact brokerEveryday) h (e := stocks) (a := ⟨⟨false, 10, 0⟩, some (str "VEUR")⟩) (s := str "VEUR")
    (List.mem_cons_self : stocks ∈ [stocks, paid]) (fun h => nomatch h) rfl rfl
    ((mem_itemNames _ _).mp (by decide +kernel)) ?_
  exact overfills_of (Or.inl rfl) [str "VEUR", str "USD", str "GOLD"] [str "EUR", str "VEUR", str "GOLD", str "USD"]
    (named_sub (by decide +kernel)) (by decide) (by decide)
    (sub_named (by decide +kernel)) (by decide)

/-- Bread for euros, then a price, then shares: the shares are the fourth commodity. -/
def diary : Files := fun f => if f = str "a" then
  some (some (str "2023-05-01 Shop  ; food\n") :: some (str "    Expenses:Food  20.50 EUR\n") :: some (str "    Assets:Cash\n") :: some (str "\n") ::
    some (str "i 2023-05-02 GOLD 26 USD \n") :: buying.map some) else none

theorem diarySays : FilesSay diary 0 [str "a"] [.xact first, .price gold, .xact broker] .done :=
  .read (is := [.xact first, .price gold, .xact broker]) (is' := []) (by decide +kernel)
    (.xact (w := first) (tail := some (str "\n") :: _) shopHeader (.posting (e := bread) foodLine (.posting cashLine
      (.stop (Or.inl ⟨_, Or.inr (Or.inl ⟨_, rfl, Or.inl ⟨'\n', [], rfl, Or.inl rfl⟩⟩)⟩)))) (Or.inr (Or.inl ⟨_, rfl, Or.inl ⟨'\n', [], rfl, Or.inl rfl⟩⟩))
      (.price ((topPart_iff _ _).mpr (by decide +kernel)) goldLine buyingSays)) .nil

/-- Reading it is fine, a report is not. -/
example (stays : Nat → Bool) : Machine.run stays diary 0 [str "bal", str "-f", str "a"] = .error .danglingPointer ∧
    (Machine.run stays diary 0 [str "accounts", str "-f", str "a"]).failure = none := by
  obtain ⟨r, h, _⟩ : ∃ r, run diary 0 [str "bal", str "-f", str "a"] = .ok r ∧ True := ok_and (by decide +kernel)
  refine ⟨?_, ?_⟩
  · refine C102_report stays (verb := str "bal") (vs := []) (is₁ := [.xact first]) (is₂ := [.price gold, .xact broker]) (by decide +kernel) (by simp) diarySays
      ?_ h (e := bread) (by simp [allEntries, writings, first]) ⟨_, _, rfl, rfl⟩ ?_
    · intro w hw
      have : w = first ∨ w = broker := by simpa [writings] using hw
      rcases this with rfl | rfl
      · exact CausesExample.everyday _ (by simp)
      · exact brokerEveryday
    · exact overfills_of (Or.inl rfl) [str "EUR"] [str "EUR", str "VEUR", str "GOLD", str "USD"]
        (named_sub (by decide +kernel)) (by decide) (by decide)
        (sub_named (by decide +kernel)) (by decide)
  · have h1 : Options.processArguments [str "accounts", str "-f", str "a"] = .ok ([str "accounts"], [str "a"]) := by decide +kernel
    obtain ⟨J, hJ, _⟩ : ∃ J, Machine.readFiles diary 0 [str "a"] Machine.Jrn.new = .ok J ∧ True := ok_and (by decide +kernel)
    simp only [Machine.run, h1, bind, Except.bind, Machine.executeCommand, hJ]
    simp [str, Res.failure]

/-- Four loaves and the money. -/
def loaves : Writing := { shop with entries := [bread, bread, bread, bread, cash] }

def bakery : Files := fun f => if f = str "a" then
  some [some (str "2023-05-01 Shop  ; food\n"), some (str "    Expenses:Food  20.50 EUR\n"), some (str "    Expenses:Food  20.50 EUR\n"),
    some (str "    Expenses:Food  20.50 EUR\n"), some (str "    Expenses:Food  20.50 EUR\n"), some (str "    Assets:Cash\n")] else none

theorem bakerySays : FilesSay bakery 0 [str "a"] [.xact loaves] .done :=
  .read (is := [.xact loaves]) (is' := []) (by decide +kernel)
    (.xact (w := loaves) (tail := []) shopHeader (.posting (e := bread) foodLine (.posting (e := bread) foodLine (.posting (e := bread) foodLine
      (.posting (e := bread) foodLine (.posting cashLine (.stop (Or.inl ⟨_, Or.inl ⟨rfl, rfl⟩⟩))))))) (Or.inl ⟨rfl, rfl⟩) .nil) .nil

theorem loavesEveryday : Everyday loaves := by
  refine .of_billion ?_ ?_ (by decide) ?_
  · have : ∀ e ∈ [bread, bread, bread, bread, cash], (∀ a ∈ e.amount, a.qty.scale ≤ 9) ∧ e.worthDecimals ≤ 9 := by decide
    exact this
  · change (List.map (·.size) [bread, bread, bread, bread, cash]).sum ≤ _
    simp only [List.map_cons, List.map_nil, List.sum_cons, List.sum_nil, size_bread, size_cash]
    norm_num
  · intro e he pr hp
    have : ∀ e ∈ [bread, bread, bread, bread, cash], e.lot.price = none := by decide
    rw [this e he] at hp; cases hp

/-- The report follows a stale pointer to a posting. -/
example : Machine.run moving bakery 0 [str "bal", str "-f", str "a"] = .error .danglingPointer := by
  obtain ⟨r, h, _⟩ : ∃ r, run bakery 0 [str "bal", str "-f", str "a"] = .ok r ∧ True := ok_and (by decide +kernel)
  have := C102_exact moving rfl (verb := str "bal") (vs := []) (by decide +kernel) (by simp) bakerySays
    (by intro w hw; obtain rfl : w = loaves := by simpa [writings] using hw
        exact loavesEveryday) h
    (atMost_of_list [str "EUR"] (named_sub (by decide +kernel)) (by decide)) (by
      intro q _
      refine atMost_of_list ([pathOf bread.account, pathOf cash.account].filterMap (·[q.length]?)) ?_
        (Nat.le_trans (List.length_filterMap_le _ _) (by decide))
      rintro n ⟨e, he, t, ht⟩
      have : e = bread ∨ e = cash := by simpa [allEntries, writings, loaves] using he
      rw [List.mem_filterMap]
      refine ⟨pathOf e.account, by rcases this with rfl | rfl <;> simp, ?_⟩
      rw [← ht]
      simp)
  rw [this, if_neg]
  intro h
  exact absurd (h loaves (by simp [writings])) (by decide)

end FollowsExample

end Ledger
