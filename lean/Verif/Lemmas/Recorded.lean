import Verif.Lemmas.Ending
import Verif.Lemmas.Booked
/-
Which prices reading records: those of each transaction and price line depend on nothing else in the text.
-/
namespace Ledger
open Ledger.Parser Ledger.Finalize

/-! ### prices do not depend on accounts and notes -/

/-- A posting without account and note. -/
def Post.bare (p : Post) : Post := ⟨[], p.amount, p.cost, none⟩

theorem sumPosts_bare (ps : List Post) (i : Nat) (b : Balance) (np : Option Nat) :
    sumPosts (ps.map Post.bare) i b np = sumPosts ps i b np := by
  induction ps generalizing i b np with
  | nil => rfl
  | cons p ps ih =>
    rw [List.map_cons, sumPosts_cons, sumPosts_cons]
    simp only [ih, show p.bare.booked = p.booked from rfl]

theorem assignCosts_bare (c : Option Str) (u : Amount) (ps : List Post) (b : Balance) :
    assignCosts c u (ps.map Post.bare) b = (assignCosts c u ps b).map (fun r => (r.1.map Post.bare, r.2)) := by
  induction ps generalizing b with
  | nil => rfl
  | cons p ps ih =>
    rw [List.map_cons, assignCosts, assignCosts]
    simp only [show p.bare.amount = p.amount from rfl]
    cases p.amount with
    | none => rfl
    | some a =>
      simp only [bind, Except.bind, ih]
      split
      · cases b.subAssign a with
        | error => rfl
        | ok b =>
          simp only
          cases u.mul a with
          | error => rfl
          | ok k =>
            simp only
            cases b.add k with
            | error => rfl
            | ok b =>
              simp only
              cases assignCosts c u ps b <;> rfl
      · cases assignCosts c u ps b <;> rfl

theorem topPost_bare (ps : List Post) : topPost (ps.map Post.bare) = (topPost ps).map Post.bare := by
  unfold topPost
  rw [List.find?_map]
  rfl

theorem impliedCosts_bare (ps : List Post) (b : Balance) (np : Option Nat) :
    impliedCosts (ps.map Post.bare) b np = (impliedCosts ps b np).map (fun r => (r.1.map Post.bare, r.2)) := by
  unfold impliedCosts
  split
  · rw [topPost_bare]
    cases topPost ps with
    | none => rfl
    | some top =>
      simp only [Option.map_some, show top.bare.amount = top.amount from rfl, bind, Except.bind, assignCosts_bare]
      split
      · split <;> rfl
      · rfl
  · rfl

/-! ### the prices of a transaction -/

/-- The price a posting records. -/
def postPrices (date : Option Date) (p : Post) : List Recording :=
  match p.amount, p.cost, date with
  | some a, some c, some d =>
    match a.comm, c.comm, Pool.perUnitCost a c false with
    | some A, some B, .ok u => if u.isZero then [] else [⟨A, B, ⟨d, Time.midnight⟩, u.qty⟩]
    | _, _, _ => []
  | _, _, _ => []

theorem postPrices_bare (date : Option Date) (p : Post) : postPrices date p.bare = postPrices date p := rfl

theorem exchange_price {p : Pool} {amt cost : Amount} {m : DateTime} {bd : CostBreakdown} {np : Option Price}
    (hne : amt.comm ≠ cost.comm) (h : p.exchange amt cost false m = .ok (bd, np)) :
    ∃ A u, amt.comm = some A ∧ Pool.perUnitCost amt cost false = .ok u ∧
      np = if u.isZero then none else some ⟨A, m, if cost.comm = none then u.removeCommodity else u⟩ := by
  unfold Pool.exchange at h
  cases hA : amt.comm with
  | none => rw [hA] at h; simp at h
  | some A =>
    rw [hA] at h
    simp only at h
    cases h1 : p.deref (some A) with
    | error e => rw [h1] at h; simp [bind, Except.bind] at h
    | ok c =>
    cases h2 : p.getByIndex c.graphIndex with
    | error e => rw [h1] at h; simp [bind, Except.bind, h2] at h
    | ok s =>
    cases h3 : Pool.perUnitCost amt cost false with
    | error e => rw [h1] at h; simp [bind, Except.bind, h2, h3] at h
    | ok u =>
    cases h4 : Pool.finalCost amt cost false with
    | error e => rw [h1] at h; simp [bind, Except.bind, h2, h3, h4] at h
    | ok f =>
    cases h5 : Pool.basisCost (assocGet s p.annotated) amt f with
    | error e => rw [h1] at h; simp [bind, Except.bind, h2, h3, h4, h5] at h
    | ok bs =>
      rw [h1] at h
      simp only [bind, Except.bind, h2, h3, h4, h5, Except.ok.injEq, Prod.mk.injEq] at h
      obtain ⟨rfl, rfl⟩ := h
      refine ⟨A, u, rfl, rfl, ?_⟩
      obtain ⟨_, g2⟩ := unitCost_ok _ _ _ h3
      have hcomm : (if cost.comm = none then u.removeCommodity else u).comm = cost.comm := by
        split
        · rename_i e; rw [e]; rfl
        · rename_i e; exact g2 e
      have hz : (if cost.comm = none then u.removeCommodity else u).isZero = u.isZero := by
        split <;> rfl
      rw [hz, hcomm]
      by_cases hu : u.isZero = true
      · rw [if_neg (by simp [hu]), if_pos hu]
      · rw [if_pos ⟨by simpa using hu, by rw [← hA]; exact hne⟩, if_neg hu]

theorem recordPrices_recorded {date : Option Date} {ps ps' : List Post} {pool pool' : Pool}
    (h : recordPrices date ps pool = .ok (ps', pool')) :
    runOps pool ((ps.flatMap (postPrices date)).map Recording.op) = .ok pool' := by
  induction ps generalizing ps' pool with
  | nil =>
    simp only [recordPrices, Except.ok.injEq, Prod.mk.injEq] at h
    obtain ⟨rfl, rfl⟩ := h
    rfl
  | cons p ps ih =>
    rw [recordPrices] at h
    rw [List.flatMap_cons]
    cases hc : p.cost with
    | none =>
      rw [hc] at h
      simp only at h
      cases hr : recordPrices date ps pool with
      | error e => rw [hr] at h; simp [bind, Except.bind] at h
      | ok r =>
        rw [hr] at h
        simp only [bind, Except.bind, Except.ok.injEq, Prod.mk.injEq] at h
        obtain ⟨rfl, rfl⟩ := h
        have : postPrices date p = [] := by unfold postPrices; rw [hc]; cases p.amount <;> rfl
        rw [this]
        exact ih hr
    | some cost =>
      rw [hc] at h
      simp only at h
      cases ha : p.amount with
      | none => rw [ha] at h; simp at h
      | some amt =>
        rw [ha] at h
        simp only at h
        by_cases hne : amt.comm = cost.comm
        · rw [if_pos hne] at h; simp at h
        · rw [if_neg hne] at h
          cases date with
          | none => simp at h
          | some d =>
            simp only at h
            cases hx : pool.exchange amt cost false ⟨d, Time.midnight⟩ with
            | error e => rw [hx] at h; simp [bind, Except.bind] at h
            | ok r =>
              obtain ⟨bd, np⟩ := r
              obtain ⟨A, u, gA, gu, rfl⟩ := exchange_price hne hx
              rw [hx] at h
              simp only [bind, Except.bind] at h
              by_cases hu : u.isZero = true
              · have : postPrices (some d) p = [] := by
                  unfold postPrices
                  rw [ha, hc]
                  simp only [gA, gu]
                  cases cost.comm with
                  | none => rfl
                  | some B => exact if_pos hu
                rw [this]
                rw [if_pos hu] at h
                simp only at h
                cases hr : recordPrices (some d) ps pool with
                | error e => rw [hr] at h; simp at h
                | ok r =>
                  rw [hr] at h
                  simp only [Except.ok.injEq, Prod.mk.injEq] at h
                  obtain ⟨_, rfl⟩ := h
                  exact ih hr
              · rw [if_neg hu] at h
                simp only at h
                cases hp : pool.addPriceStruct ⟨A, ⟨d, Time.midnight⟩,
                    if cost.comm = none then u.removeCommodity else u⟩ with
                | error e => rw [hp] at h; simp at h
                | ok pool1 =>
                  rw [hp] at h
                  simp only at h
                  cases hr : recordPrices (some d) ps pool1 with
                  | error e => rw [hr] at h; simp at h
                  | ok r =>
                    rw [hr] at h
                    simp only [Except.ok.injEq, Prod.mk.injEq] at h
                    obtain ⟨_, rfl⟩ := h
                    have hp' : pool.addPrice (some A) ⟨d, Time.midnight⟩
                      (if cost.comm = none then u.removeCommodity else u) = .ok pool1 := hp
                    have hp2 := hp'
                    obtain ⟨A', B, cA, cB, k1, k2, k3, _⟩ := Pool.addPrice_ok hp'
                    by_cases hcn : cost.comm = none
                    · rw [if_pos hcn] at k2; cases k2
                    · rw [if_neg hcn] at k2 hp2
                      have hB : cost.comm = some B := by rw [← (unitCost_ok _ _ _ gu).2 hcn]; exact k2
                      have : postPrices (some d) p = [⟨A, B, ⟨d, Time.midnight⟩, u.qty⟩] := by
                        unfold postPrices
                        rw [ha, hc]
                        simp only [gA, gu, hB, if_neg hu]
                      rw [this, List.map_append, Pool.runOps_append]
                      have : runOps pool ([⟨A, B, ⟨d, Time.midnight⟩, u.qty⟩].map Recording.op) = .ok pool1 := by
                        show (do let p' ← pool.addPrice (some A) ⟨d, Time.midnight⟩ ⟨u.qty, some B⟩; runOps p' []) = _
                        rw [← k2]
                        rw [hp2]
                        rfl
                      rw [this]
                      exact ih hr

/-- The prices a transaction records. -/
def xactPrices (x : Xact) : List Recording :=
  match sumPosts x.posts 0 Balance.empty none with
  | .ok (b, np) =>
    match impliedCosts x.posts b np with
    | .ok (ps, _) => ps.flatMap (postPrices x.date)
    | .error _ => []
  | .error _ => []

theorem xactPrices_congr {x y : Xact} (hd : x.date = y.date) (hp : x.posts.map Post.bare = y.posts.map Post.bare) :
    xactPrices x = xactPrices y := by
  unfold xactPrices
  rw [← sumPosts_bare x.posts, hp, sumPosts_bare, hd]
  cases sumPosts y.posts 0 Balance.empty none with
  | error => rfl
  | ok r =>
    obtain ⟨b, np⟩ := r
    simp only
    have h : (impliedCosts x.posts b np).map (fun r => (r.1.map Post.bare, r.2)) =
        (impliedCosts y.posts b np).map (fun r => (r.1.map Post.bare, r.2)) := by
      rw [← impliedCosts_bare, hp, impliedCosts_bare]
    have e : ∀ ps : List Post, ps.flatMap (postPrices y.date) = (ps.map Post.bare).flatMap (postPrices y.date) := by
      intro ps
      induction ps with
      | nil => rfl
      | cons p ps ih => rw [List.flatMap_cons, List.map_cons, List.flatMap_cons, ih, postPrices_bare]
    cases h1 : impliedCosts x.posts b np with
    | error =>
      rw [h1] at h
      cases h2 : impliedCosts y.posts b np with
      | error => rfl
      | ok r2 => rw [h2] at h; cases h
    | ok r1 =>
      rw [h1] at h
      cases h2 : impliedCosts y.posts b np with
      | error => rw [h2] at h; cases h
      | ok r2 =>
        rw [h2] at h
        simp only [Except.map, Except.ok.injEq, Prod.mk.injEq] at h
        simp only
        rw [e, h.1, ← e]

theorem finalize_prices {x x' : Xact} {pool pool' : Pool} (h : finalize x pool = .ok (x', pool')) :
    runOps pool ((xactPrices x).map Recording.op) = .ok pool' := by
  obtain ⟨b, np, ps1, b1, ps2, h1, _, h3, h4, _⟩ := finalize_ok _ _ _ _ h
  unfold xactPrices
  rw [h1]
  simp only [h3]
  exact recordPrices_recorded h4

/-! ### what a transaction is before it is completed -/

/-- The amount and the cost of a posting. -/
def Entry.figures (e : Entry) : Res (Option Amount × Option Amount) :=
  match e.amount, e.cost with
  | some a, some (u, k) => if u then do let c ← k.mulAssign a; .ok (some a, some c) else .ok (some a, some k)
  | some a, none => .ok (some a, none)
  | none, _ => .ok (none, none)

theorem Entry.bookAmounts_ok {e : Entry} {p p' : Pool} {a c : Option Amount} (h : e.bookAmounts p = .ok (p', a, c)) :
    p.Quiet p' ∧ e.figures = .ok (a, c) := by
  have q : ∀ (p : Pool) s1 s2 s3 a3, p.Quiet (((p.findOrCreate s1 none).1.findOrCreate s2 none).1.findOrCreate s3 a3).1 :=
    fun p s1 s2 s3 a3 => ((Pool.quiet_findOrCreate _ _ _).trans (Pool.quiet_findOrCreate _ _ _)).trans
      (Pool.quiet_findOrCreate _ _ _)
  have hq := q p (symbolText e.holder) (symbolText ((e.lot.price.bind (·.comm)).or e.strays.price)) (symbolText e.holder) (some e.lot)
  unfold Entry.bookAmounts at h
  unfold Entry.figures
  simp only at h
  generalize (((p.findOrCreate (symbolText e.holder) none).1.findOrCreate
    (symbolText ((e.lot.price.bind (·.comm)).or e.strays.price)) none).1.findOrCreate (symbolText e.holder) (some e.lot)).1 = p1 at h hq
  cases ha : e.amount with
  | none =>
    rw [ha] at h
    simp only [Except.ok.injEq, Prod.mk.injEq] at h
    obtain ⟨rfl, rfl, rfl⟩ := h
    exact ⟨hq, rfl⟩
  | some x =>
    cases hc : e.cost with
    | none =>
      rw [ha, hc] at h
      simp only [Except.ok.injEq, Prod.mk.injEq] at h
      obtain ⟨rfl, rfl, rfl⟩ := h
      exact ⟨hq.trans (Pool.quiet_findOrCreate _ _ _), rfl⟩
    | some uk =>
      obtain ⟨u, k⟩ := uk
      rw [ha, hc] at h
      cases u with
      | false =>
        simp only [Bool.false_eq_true, if_false, Except.ok.injEq, Prod.mk.injEq] at h
        obtain ⟨rfl, rfl, rfl⟩ := h
        exact ⟨hq.trans (Pool.quiet_findOrCreate _ _ _), rfl⟩
      | true =>
        simp only [if_true, bind, Except.bind] at h ⊢
        cases hk : k.mulAssign x with
        | error => rw [hk] at h; cases h
        | ok y =>
          rw [hk] at h
          simp only [Except.ok.injEq, Prod.mk.injEq] at h
          obtain ⟨rfl, rfl, rfl⟩ := h
          exact ⟨hq.trans (Pool.quiet_findOrCreate _ _ _), rfl⟩

/-- What a posting in a transaction is. -/
def EntryFigures (e : Entry) (p : Post) : Prop := e.figures = .ok (p.amount, p.cost)

theorem Entry.book_ok {e : Entry} {j j' : Journal} {xs : List Xact} {x : Xact} (hx : j.xacts = xs ++ [x])
    (h : e.book xs.length j = .ok j') :
    j.pool.Quiet j'.pool ∧ ∃ p, EntryFigures e p ∧ j'.xacts = xs ++ [{ x with posts := x.posts ++ [p] }] := by
  unfold Entry.book at h
  cases hr : j.registerAccount e.account with
  | error k => rw [hr] at h; cases h
  | ok r =>
    obtain ⟨j1, acct⟩ := r
    obtain ⟨_, m, _, rfl⟩ := registerAccount_ok hr
    rw [hr] at h
    simp only [bind, Except.bind] at h
    cases acct with
    | none => cases h
    | some path =>
      simp only at h
      cases hb : e.bookAmounts j.pool with
      | error k => rw [hb] at h; cases h
      | ok r =>
        obtain ⟨pool, a, c⟩ := r
        rw [hb] at h
        simp only [Except.ok.injEq] at h
        subst h
        obtain ⟨q1, q2⟩ := Entry.bookAmounts_ok hb
        refine ⟨q1, ⟨path, a, c, none⟩, q2, ?_⟩
        simp only [Journal.updateXact, hx]
        exact modify_last _ _ _

theorem noteLast_bare (n : Str) (ps : List Post) : (Xact.noteLast n ps).map Post.bare = ps.map Post.bare := by
  induction ps with
  | nil => rfl
  | cons p ps ih =>
    cases ps with
    | nil => rfl
    | cons q ps =>
      rw [Xact.noteLast, List.map_cons, ih]
      rfl

theorem bookNotes_ok (ts : List Str) {j : Journal} {xs : List Xact} {x : Xact} (hx : j.xacts = xs ++ [x]) :
    (bookNotes xs.length ts j).pool = j.pool ∧ ∃ y, (bookNotes xs.length ts j).xacts = xs ++ [y] ∧ y.date = x.date ∧
      y.posts.map Post.bare = x.posts.map Post.bare := by
  induction ts generalizing j x with
  | nil => exact ⟨rfl, x, hx, rfl, rfl⟩
  | cons t ts ih =>
    rw [bookNotes]
    split
    · exact ih hx
    · have h1 : (j.updateXact xs.length (fun x => x.addNote t)).xacts = xs ++ [x.addNote t] := by
        simp only [Journal.updateXact, hx]
        exact modify_last _ _ _
      obtain ⟨k1, y, k2, k3, k4⟩ := ih h1
      have hd : (x.addNote t).date = x.date := by unfold Xact.addNote; split <;> rfl
      have hp : (x.addNote t).posts.map Post.bare = x.posts.map Post.bare := by
        unfold Xact.addNote
        split
        · rfl
        · exact noteLast_bare _ _
      exact ⟨k1, y, k2, k3.trans hd, k4.trans hp⟩

/-- The posting with the amount and the cost. -/
def Entry.figurePost (e : Entry) : Post :=
  match e.figures with
  | .ok (a, c) => ⟨[], a, c, none⟩
  | .error _ => ⟨[], none, none, none⟩

theorem EntryFigures.bare {e : Entry} {p : Post} (h : EntryFigures e p) : p.bare = e.figurePost := by
  unfold Entry.figurePost
  rw [h]
  rfl

theorem bookEntries_ok {es : List Entry} {j j' : Journal} {xs : List Xact} {x : Xact} (hx : j.xacts = xs ++ [x])
    (h : bookEntries xs.length es j = .ok j') :
    j.pool.Quiet j'.pool ∧ ∃ y, j'.xacts = xs ++ [y] ∧ y.date = x.date ∧
      y.posts.map Post.bare = x.posts.map Post.bare ++ es.map Entry.figurePost := by
  induction es generalizing j x with
  | nil =>
    injection h with h
    subst h
    exact ⟨Pool.Quiet.refl _, x, hx, rfl, by simp⟩
  | cons e es ih =>
    rw [bookEntries] at h
    cases hb : e.book xs.length j with
    | error k => rw [hb] at h; cases h
    | ok j1 =>
      rw [hb] at h
      obtain ⟨q1, p, q2, q3⟩ := Entry.book_ok hx hb
      obtain ⟨n1, y, n2, n3, n4⟩ := bookNotes_ok e.comments q3
      obtain ⟨k1, z, k2, k3, k4⟩ := ih n2 h
      refine ⟨q1.trans (n1 ▸ k1), z, k2, k3.trans n3, ?_⟩
      rw [k4, n4, List.map_append, List.map_cons, List.map_nil, q2.bare, List.map_cons, List.append_assoc]
      rfl

/-- The prices of a transaction. -/
def Writing.recorded (w : Writing) : List Recording :=
  xactPrices ⟨some w.date, none, [], w.entries.map Entry.figurePost, none⟩

theorem Writing.enter_ok {w : Writing} {j j' : Journal} (h : w.enter j = .ok j') :
    j.pool.Quiet j'.pool ∧ ∃ x, j'.xacts = j.xacts ++ [x] ∧ xactPrices x = w.recorded := by
  unfold Writing.enter at h
  simp only [Journal.addXact] at h
  obtain ⟨n1, y, n2, n3, n4⟩ := bookNotes_ok w.comments (xs := j.xacts) (j := { j with xacts := j.xacts ++ [_] }) rfl
  obtain ⟨k1, z, k2, k3, k4⟩ := bookEntries_ok n2 h
  refine ⟨by rw [n1] at k1; exact k1, z, k2, xactPrices_congr (k3.trans n3) ?_⟩
  rw [k4, n4]
  simp only [List.map_nil, List.nil_append, List.map_map]
  refine List.map_congr_left fun e _ => ?_
  show e.figurePost = e.figurePost.bare
  unfold Entry.figurePost
  cases e.figures <;> rfl

theorem postPrices_time {d : Date} {p : Post} {r : Recording} (h : r ∈ postPrices (some d) p) :
    r.time = ⟨d, Time.midnight⟩ := by
  unfold postPrices at h
  split at h
  · rename_i e
    injection e with e
    subst e
    split at h
    · split at h
      · cases h
      · rw [List.mem_singleton] at h
        rw [h]
    · cases h
  · cases h

theorem Writing.recorded_time {w : Writing} {r : Recording} (h : r ∈ w.recorded) : r.time = ⟨w.date, Time.midnight⟩ := by
  unfold Writing.recorded xactPrices at h
  split at h
  · split at h
    · obtain ⟨p, _, hp⟩ := List.mem_flatMap.mp h
      exact postPrices_time hp
    · cases h
  · cases h

/-! ### the prices of a text -/

/-- The prices of one thing in a text. -/
def Item.recorded : Item → List Recording
  | .xact w => w.recorded
  | .price r => [r]
  | .gap => []

/-- Reading records these prices, one after another. -/
def Records (rs : List Recording) (run : Journal → Res Journal) : Prop :=
  ∀ j j', run j = .ok j' → ∃ ops, runOps j.pool ops = .ok j'.pool ∧ recordings ops = rs

theorem Records.nil : Records [] .ok := by
  intro j j' h
  injection h with h
  subst h
  exact ⟨[], rfl, rfl⟩

theorem Records.append {rs rs' : List Recording} {f g : Journal → Res Journal} (h1 : Records rs f) (h2 : Records rs' g) :
    Records (rs ++ rs') (fun j => (f j).bind g) := by
  intro j j' h
  cases hf : f j with
  | error e => simp only [hf, Except.bind] at h; cases h
  | ok j1 =>
    simp only [hf, Except.bind] at h
    obtain ⟨o1, a1, a2⟩ := h1 j j1 hf
    obtain ⟨o2, b1, b2⟩ := h2 j1 j' h
    exact ⟨o1 ++ o2, by rw [Pool.runOps_append, a1]; exact b1, by rw [recordings_append, a2, b2]⟩

theorem finalizeXact_records {j j' : Journal} {xs : List Xact} {x : Xact} (hx : j.xacts = xs ++ [x])
    (h : finalizeXact xs.length j = .ok j') : runOps j.pool ((xactPrices x).map Recording.op) = .ok j'.pool := by
  unfold finalizeXact at h
  rw [hx] at h
  simp only [List.getElem?_concat_length, bind, Except.bind] at h
  cases hf : finalize x j.pool with
  | error e => rw [hf] at h; cases h
  | ok r =>
    obtain ⟨x', pool'⟩ := r
    rw [hf] at h
    simp only [Except.ok.injEq] at h
    subst h
    exact finalize_prices hf

theorem xactDirective_records {header : Str} {body tail rest : Source} {w : Writing} (hh : HeaderSays header w)
    (hb : BodyReads body w.comments w.entries tail) (ht : AfterXact tail rest) {j : Journal} {r : Journal × Source}
    (h : xactDirective header body j = .ok r) :
    r.2 = rest ∧ ∃ ops, runOps j.pool ops = .ok r.1.pool ∧ recordings ops = w.recorded := by
  obtain ⟨cs, blocks, rfl, h1, h2⟩ := hb.blocks
  unfold xactDirective at h
  rw [createXact_written hh] at h
  simp only [bind, Except.bind] at h
  rw [List.map_append, List.append_assoc, readBody_comments h1, readBody_book h2 ht] at h
  have he : ∀ k, w.enter j = k → bookEntries j.xacts.length w.entries (bookNotes j.xacts.length w.comments
      { j with xacts := j.xacts ++ [⟨some w.date, w.aux, if w.payee = [] then str "Unknown Payee" else w.payee, [],
        if w.note = [] then none else some w.note⟩] }) = k := fun _ h => h
  rw [he _ rfl] at h
  cases hw : w.enter j with
  | error e => rw [hw] at h; cases h
  | ok j1 =>
    rw [hw] at h
    simp only [Except.map] at h
    obtain ⟨⟨o1, q1, q2⟩, x, hx, hp⟩ := Writing.enter_ok hw
    cases hf : finalizeXact j.xacts.length j1 with
    | error e => rw [hf] at h; cases h
    | ok j2 =>
      rw [hf] at h
      simp only [Except.ok.injEq] at h
      subst h
      have := finalizeXact_records hx hf
      refine ⟨rfl, o1 ++ (xactPrices x).map Recording.op, by rw [Pool.runOps_append, q2]; exact this, ?_⟩
      rw [recordings_append, q1, recordings_prices, hp]
      rfl

theorem parseWith_records {inc : Str → Journal → Res Journal} {said : Str → List Item → Ending → Prop}
    (hinc : ∀ f is, said f is .done → Records (is.flatMap Item.recorded) (inc f)) {src : Source}
    {is : List Item} {e : Ending} (h : SourceSays said src is e) (he : e = .done) :
    Records (is.flatMap Item.recorded) (parseWith inc src) := by
  have top := fun {line t} (h : TopPart line t) => (topPart_iff line t).mp h
  induction h with
  | nil => exact .nil
  | unreadable => exact .nil
  | ignored h _ ih =>
    intro j j' hj
    rw [parseWith_cons, top h] at hj
    exact ih he j j' hj
  | skipped h _ ih =>
    intro j j' hj
    rw [parseWith_cons, top h] at hj
    exact ih he j j' hj
  | refused h => cases he
  | indented h => cases he
  | @price line rest r is e h hp _ ih =>
    intro j j' hj
    rw [parseWith_cons, top h] at hj
    obtain ⟨pool', p1, p2⟩ := priceSays_run hp j.pool
    simp only [p1, bind, Except.bind] at hj
    obtain ⟨ops, k1, k2⟩ := ih he _ _ hj
    refine ⟨r.ops ++ ops, by rw [Pool.runOps_append, p2]; exact k1, ?_⟩
    rw [recordings_append, k2, List.flatMap_cons]
    rfl
  | badPrice h hp => cases he
  | badHeader h hh => cases he
  | @xact line body tl rest w is e hh hb ht _ ih =>
    intro j j' hj
    rw [parseWith_cons, top hh.top] at hj
    simp only [bind, Except.bind] at hj
    cases hx : xactDirective line body j with
    | error k => rw [hx] at hj; cases hj
    | ok r =>
      rw [hx] at hj
      obtain ⟨r1, o1, a1, a2⟩ := xactDirective_records hh hb ht hx
      simp only [r1] at hj
      obtain ⟨o2, b1, b2⟩ := ih he _ _ hj
      refine ⟨o1 ++ o2, by rw [Pool.runOps_append, a1]; exact b1, ?_⟩
      rw [recordings_append, a2, b2, List.flatMap_append, List.flatMap_cons]
      have : (gapIn tl).flatMap Item.recorded = [] := by
        rcases gapIn_or tl with h | h <;> rw [h] <;> rfl
      rw [this]
      rfl
  | @broken line bad body rest w k hh hb ht => cases he
  | @included line f rest is is' e h hi _ ih =>
    have h1 := (hinc f is hi).append (ih he)
    intro j j' hj
    rw [parseWith_cons, top h] at hj
    rw [List.flatMap_append]
    exact h1 j j' hj
  | @includedStop line f rest is e h hi hne => exact absurd he hne

theorem parse_records (files : Files) (depth : Nat) {src : Source} {is : List Item} (h : SaysUpTo files depth src is .done) :
    Records (is.flatMap Item.recorded) (parse files depth src) := by
  induction depth generalizing src is with
  | zero =>
    refine parseWith_records ?_ h rfl
    rintro f is ⟨rfl, ⟨h1, _⟩ | ⟨_, h1⟩⟩
    · simp only [h1]
      exact .nil
    · cases h1
  | succ d ih =>
    refine parseWith_records ?_ h rfl
    rintro f is (⟨h1, rfl, _⟩ | ⟨s, h1, h2⟩)
    · simp only [h1]
      exact .nil
    · simp only [h1]
      exact ih h2

theorem readFiles_records (files : Files) (depth : Nat) {fs : List Str} {is : List Item} {e : Ending}
    (h : FilesSay files depth fs is e) (he : e = .done) : Records (is.flatMap Item.recorded) (Cli.readFiles files depth fs) := by
  induction h with
  | nil => exact .nil
  | missing h => cases he
  | @read f fs src is is' e h hs _ ih =>
    have h1 := (parse_records files depth hs).append (ih he)
    intro j j' hj
    have : Cli.readFiles files depth (f :: fs) j = (parse files depth src j).bind (Cli.readFiles files depth fs) := by
      simp only [Cli.readFiles, parseFile, h, bind]
    rw [this] at hj
    rw [List.flatMap_append]
    exact h1 j j' hj
  | stop h hs hne => exact absurd he hne

end Ledger
