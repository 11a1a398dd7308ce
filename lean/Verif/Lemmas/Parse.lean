import Verif.Spec.Journal
import Verif.Spec.Text
import Verif.Lemmas.Account
import Verif.Lemmas.Pool
import Verif.Lemmas.Accept
import Verif.Props.Finalize
/-
Invariants of parsing.
-/
namespace Ledger
open Ledger.Parser

/-! ### bookings -/

theorem postRefs_append (i : Nat) (ps : List Post) (p : Post) :
    postRefs i (ps ++ [p]) = postRefs i ps ++ [((i, ps.length), p.account)] := by
  simp [postRefs, List.zipIdx_append]

theorem postRefs_congr (i : Nat) {ps ps' : List Post} (h : ps.map (·.account) = ps'.map (·.account)) :
    postRefs i ps = postRefs i ps' := by
  have key : ∀ (ps : List Post) (k : Nat),
      (ps.zipIdx k).map (fun x => (((i, x.2), x.1.account) : PostRef × Path)) =
        ((ps.map (·.account)).zipIdx k).map (fun x => ((i, x.2), x.1)) := by
    intro ps
    induction ps with
    | nil => intro k; rfl
    | cons p ps ih => intro k; simp only [List.map_cons, List.zipIdx_cons, ih]
  unfold postRefs
  rw [key, key, h]

theorem bookings_snoc (xs : List Xact) (x : Xact) :
    bookings (xs ++ [x]) = bookings xs ++ postRefs xs.length x.posts := by
  simp [bookings, List.zipIdx_append]

theorem bookings_empty_snoc (xs : List Xact) (x : Xact) (h : x.posts = []) : bookings (xs ++ [x]) = bookings xs := by
  rw [bookings_snoc, h]; simp [postRefs]

/-! ### pools -/

theorem Pool.Later.refl (p : Pool) : p.Later p := ⟨[], rfl⟩

theorem Pool.Later.trans {p q r : Pool} (h1 : p.Later q) (h2 : q.Later r) : p.Later r := by
  obtain ⟨a, ha⟩ := h1
  obtain ⟨b, hb⟩ := h2
  exact ⟨a ++ b, by rw [Pool.runOps_append, ha]; exact hb⟩

theorem Pool.later_findOrCreate (p : Pool) (s : Str) (a : Option Annotation) : p.Later (p.findOrCreate s a).1 :=
  ⟨[.findOrCreate s a], rfl⟩

theorem Pool.later_addPrice {p p' : Pool} {s : Option Str} {t : DateTime} {pr : Amount} (h : p.addPrice s t pr = .ok p') :
    p.Later p' := by
  obtain ⟨A, _, _, _, rfl, _⟩ := Pool.addPrice_ok h
  refine ⟨[.addPrice A t pr], ?_⟩
  rw [runOps, PoolOp.run, h]; rfl

/-- The pool comes from the other without recording a price. -/
def Pool.Quiet (p p' : Pool) : Prop := ∃ ops, recordings ops = [] ∧ runOps p ops = .ok p'

theorem Pool.Quiet.later {p p' : Pool} (h : p.Quiet p') : p.Later p' := by
  obtain ⟨ops, _, h⟩ := h; exact ⟨ops, h⟩

theorem Pool.Quiet.refl (p : Pool) : p.Quiet p := ⟨[], rfl, rfl⟩

theorem Pool.Quiet.trans {p q r : Pool} (h1 : p.Quiet q) (h2 : q.Quiet r) : p.Quiet r := by
  obtain ⟨a, ha, ha'⟩ := h1
  obtain ⟨b, hb, hb'⟩ := h2
  refine ⟨a ++ b, ?_, by rw [Pool.runOps_append, ha']; exact hb'⟩
  unfold recordings at ha hb ⊢
  rw [List.filterMap_append, ha, hb]; rfl

theorem Pool.quiet_findOrCreate (p : Pool) (s : Str) (a : Option Annotation) : p.Quiet (p.findOrCreate s a).1 :=
  ⟨[.findOrCreate s a], rfl, rfl⟩

theorem Pool.quiet_parts (q s : Str) (p : Pool) : p.Quiet (parseAmountParts q s p).1 := Pool.quiet_findOrCreate p s none

theorem Pool.quiet_annotation {d q s : Str} {p p' : Pool} {a : Annotation}
    (h : parseAnnotation d q s p = .ok (p', a)) : p.Quiet p' := by
  unfold parseAnnotation at h
  simp only [bind, Except.bind] at h
  split at h
  · simp only [Except.ok.injEq, Prod.mk.injEq] at h
    rw [← h.1]; exact Pool.quiet_findOrCreate p s none
  · cases hd : Chrono.parseDate d with
    | none => rw [hd] at h; simp at h
    | some d =>
      rw [hd] at h
      simp only [Except.ok.injEq, Prod.mk.injEq] at h
      rw [← h.1]; exact Pool.quiet_findOrCreate p s none

theorem Pool.quiet_cost {t : Scanner.PostTokens} {am c : Option Amount} {p p' : Pool}
    (h : parseCost t am p = .ok (p', c)) : p.Quiet p' := by
  unfold parseCost at h
  cases am with
  | none =>
    simp only [Except.ok.injEq, Prod.mk.injEq] at h
    rw [← h.1]; exact Pool.Quiet.refl p
  | some amt =>
    simp only at h
    split at h
    · simp only [Except.ok.injEq, Prod.mk.injEq] at h
      rw [← h.1]; exact Pool.Quiet.refl p
    · have hl := Pool.quiet_parts t.costQuantity t.costSymbol p
      generalize parseAmountParts t.costQuantity t.costSymbol p = r at h hl
      obtain ⟨pool, cost⟩ := r
      cases cost with
      | none =>
        simp only [Except.ok.injEq, Prod.mk.injEq] at h
        rw [← h.1]; exact hl
      | some cost =>
        simp only at h
        split at h
        · cases hm : cost.mulAssign amt with
          | error e => rw [hm] at h; simp [bind, Except.bind] at h
          | ok k =>
            rw [hm] at h
            simp only [bind, Except.bind, Except.ok.injEq, Prod.mk.injEq] at h
            rw [← h.1]; exact hl
        · simp only [Except.ok.injEq, Prod.mk.injEq] at h
          rw [← h.1]; exact hl

theorem Pool.quiet_postAmounts {t : Scanner.PostTokens} {am c : Option Amount} {p p' : Pool}
    (h : parsePostAmounts t p = .ok (p', am, c)) : p.Quiet p' := by
  unfold parsePostAmounts at h
  simp only [bind, Except.bind] at h
  cases h1 : parseAnnotation t.priceDate t.priceQuantity t.priceCommodity (parseAmountParts t.quantity t.symbol p).1 with
  | error e => rw [h1] at h; simp at h
  | ok r1 =>
    obtain ⟨p1, ann⟩ := r1
    rw [h1] at h
    simp only at h
    cases h2 : parseCost t (parseAmountParts t.quantity t.symbol p).2 (p1.findOrCreate t.symbol (some ann)).1 with
    | error e => rw [h2] at h; simp at h
    | ok r2 =>
      rw [h2] at h
      simp only [Except.ok.injEq, Prod.mk.injEq] at h
      rw [← h.1]
      exact ((Pool.quiet_parts _ _ p).trans (Pool.quiet_annotation h1)).trans
        ((Pool.quiet_findOrCreate _ _ _).trans (Pool.quiet_cost h2))

theorem Pool.later_postAmounts {t : Scanner.PostTokens} {am c : Option Amount} {p p' : Pool}
    (h : parsePostAmounts t p = .ok (p', am, c)) : p.Later p' := (Pool.quiet_postAmounts h).later

theorem Pool.later_priceDirective {line : Str} {p p' : Pool} (h : p.parsePriceDirective line = .ok p') : p.Later p' := by
  unfold Pool.parsePriceDirective at h
  cases h1 : Scanner.scanPriceDirective line with
  | error e => rw [h1] at h; simp [bind, Except.bind] at h
  | ok r =>
    obtain ⟨d, t, c, q, pc⟩ := r
    rw [h1] at h
    simp only [bind, Except.bind] at h
    cases h2 : Chrono.parseDate d with
    | none => rw [h2] at h; simp at h
    | some d =>
      rw [h2] at h
      simp only at h
      split at h
      · simp at h
      · split at h
        · simp at h
        · exact ((Pool.later_findOrCreate _ _ _).trans (Pool.later_findOrCreate _ _ _)).trans (Pool.later_addPrice h)

theorem Pool.later_finalize {x x' : Xact} {p p' : Pool} (h : Finalize.finalize x p = .ok (x', p')) : p.Later p' := by
  obtain ⟨_, _, _, _, _, _, _, _, h4, _⟩ := finalize_ok _ _ _ _ h
  obtain ⟨_, _, rs, _, h5⟩ := recordPrices_ok _ _ _ _ _ h4
  exact ⟨_, h5⟩

/-! ### postings -/

/-- What a posting line does. -/
theorem parsePost_ok {input : Str} {j j' : Journal} {xs : List Xact} {x : Xact} (hx : j.xacts = xs ++ [x])
    (h : parsePost input xs.length j = .ok j') :
    ∃ t m path pool am c, Scanner.scanPost input = .ok t ∧ t.account ≠ [] ∧
      j.master.findOrCreate t.account true = .ok (m, some path) ∧ parsePostAmounts t j.pool = .ok (pool, am, c) ∧
      j' = ⟨m.pushPost path (xs.length, x.posts.length), pool, xs ++ [{ x with posts := x.posts ++ [⟨path, am, c, none⟩] }]⟩ := by
  unfold parsePost at h
  cases h1 : Scanner.scanPost input with
  | error e => rw [h1] at h; simp [bind, Except.bind] at h
  | ok t =>
    rw [h1] at h
    simp only [bind, Except.bind] at h
    cases h2 : j.registerAccount t.account with
    | error e => rw [h2] at h; simp at h
    | ok r =>
      obtain ⟨j1, acct⟩ := r
      rw [h2] at h
      simp only at h
      unfold Journal.registerAccount at h2
      split at h2
      · simp at h2
      · rename_i hne
        cases h3 : j.master.findOrCreate t.account true with
        | error e => rw [h3] at h2; simp [bind, Except.bind] at h2
        | ok r =>
          obtain ⟨m, r⟩ := r
          rw [h3] at h2
          simp only [bind, Except.bind, Except.ok.injEq, Prod.mk.injEq] at h2
          obtain ⟨rfl, rfl⟩ := h2
          cases r with
          | none => simp at h
          | some path =>
            simp only at h
            cases h4 : parsePostAmounts t j.pool with
            | error e => rw [h4] at h; simp at h
            | ok r =>
              obtain ⟨pool, am, c⟩ := r
              rw [h4] at h
              simp only [Except.ok.injEq] at h
              refine ⟨t, m, path, pool, am, c, rfl, hne, h3, h4, ?_⟩
              rw [← h]
              simp only [Journal.updateXact, hx]
              simp [modify_mid]

theorem noteLast_accounts (n : Str) (ps : List Post) :
    (Xact.noteLast n ps).map (·.account) = ps.map (·.account) := by
  induction ps with
  | nil => rfl
  | cons p ps ih =>
    cases ps with
    | nil => rfl
    | cons q r => rw [Xact.noteLast]; simp only [List.map_cons] at ih ⊢; rw [ih]

/-- What a comment line does. -/
theorem parseTrailingNote_ok {line : Str} {j j' : Journal} {xs : List Xact} {x : Xact} (hx : j.xacts = xs ++ [x])
    (h : parseTrailingNote line xs.length j = .ok j') :
    ∃ r, dropBytes (trimStart line) 1 = .ok r ∧
      j' = { j with xacts := xs ++ [if trim r = [] then x else x.addNote (trim r)] } := by
  unfold parseTrailingNote at h
  cases h1 : dropBytes (trimStart line) 1 with
  | error e => rw [h1] at h; simp [bind, Except.bind] at h
  | ok r =>
    rw [h1] at h
    simp only [bind, Except.bind] at h
    refine ⟨r, rfl, ?_⟩
    split at h
    · rename_i hr
      injection h with h
      rw [← h, if_pos hr, ← hx]
    · rename_i hr
      injection h with h
      rw [← h, if_neg hr]
      unfold Journal.updateXact
      rw [hx, modify_mid]

theorem addNote_keep (x : Xact) (n : Str) : (x.addNote n).posts.map (·.account) = x.posts.map (·.account) ∧
    (x.addNote n).date = x.date ∧ (x.addNote n).auxDate = x.auxDate ∧ (x.addNote n).payee = x.payee := by
  unfold Xact.addNote
  split
  · exact ⟨rfl, rfl, rfl, rfl⟩
  · exact ⟨noteLast_accounts n x.posts, rfl, rfl, rfl⟩

/-! ### growth of a journal -/

/-- The account tree and the pool only grow. -/
structure Grows (j j' : Journal) : Prop where
  tree : Account.Later j.master j'.master
  pool : j.pool.Later j'.pool

theorem Account.Later.trans {a b c : Account} (h1 : Account.Later a b) (h2 : Account.Later b c) : Account.Later a c := by
  induction h2 with
  | refl => exact h1
  | register n _ hc ih => exact .register n ih hc
  | post p r _ ih => exact .post p r ih

theorem Grows.refl (j : Journal) : Grows j j := ⟨.refl _, .refl _⟩

theorem Grows.trans {a b c : Journal} (h1 : Grows a b) (h2 : Grows b c) : Grows a c :=
  ⟨h1.tree.trans h2.tree, h1.pool.trans h2.pool⟩

/-- A transaction's header fields are the same. -/
def SameHeader (x x' : Xact) : Prop := x'.date = x.date ∧ x'.auxDate = x.auxDate ∧ x'.payee = x.payee

theorem Booked.congr {j j' : Journal} (hb : Booked j) (hm : j'.master = j.master)
    (hk : bookings j'.xacts = bookings j.xacts) : Booked j' := by
  refine ⟨by rw [hm]; exact hb.wf, by rw [hm]; exact hb.root, ?_, ?_⟩
  · rw [hk, hm]; exact hb.named
  · rw [hk, hm]; exact hb.lists

theorem Booked.post {j : Journal} (hb : Booked j) {xs : List Xact} {x : Xact} (hx : j.xacts = xs ++ [x]) {n : Str}
    {m : Account} {path : Path} (hf : j.master.findOrCreate n true = .ok (m, some path)) (pool : Pool)
    (am c : Option Amount) :
    path = pathOf n ∧
    Booked ⟨m.pushPost path (xs.length, x.posts.length), pool, xs ++ [{ x with posts := x.posts ++ [⟨path, am, c, none⟩] }]⟩ := by
  rw [Account.findOrCreate_create _ _ hb.wf] at hf
  simp only [Except.ok.injEq, Prod.mk.injEq, Option.some.injEq] at hf
  obtain ⟨rfl, rfl⟩ := hf
  refine ⟨rfl, ?_⟩
  have hbk : bookings (xs ++ [{ x with posts := x.posts ++ [⟨pathOf n, am, c, none⟩] }]) =
      bookings j.xacts ++ [((xs.length, x.posts.length), pathOf n)] := by
    rw [hx, bookings_snoc, bookings_snoc, postRefs_append, List.append_assoc]
  refine ⟨Account.pushPost_wf _ _ (Account.ensure_wf hb.wf (pathOf_parts n)), ?_, ?_, ?_⟩
  · show (Account.pushPost _ _ _).name = []
    rw [Account.pushPost_name, Account.ensure_name]; exact hb.root
  · rw [hbk]
    intro b hbm
    show Account.Has (Account.pushPost _ _ _) b.2
    rw [Account.has_pushPost, Account.has_ensure]
    rw [List.mem_append, List.mem_singleton] at hbm
    rcases hbm with hbm | rfl
    · exact Or.inl (hb.named b hbm)
    · exact Or.inr (List.prefix_refl _)
  · rw [hbk]
    intro p ps hp
    change Account.postsAt (Account.pushPost _ _ _) p = _ at hp
    rw [Account.postsAt_pushPost, Account.postsAt_ensure] at hp
    rw [List.filter_append, List.map_append]
    have hold : ∀ qs, j.master.postsAt p = some qs →
        qs = ((bookings j.xacts).filter (fun b => b.2 = p)).map (·.1) := fun qs hq => hb.lists p qs hq
    have hnew : j.master.postsAt p = none → ((bookings j.xacts).filter (fun b => b.2 = p)).map (·.1) = [] := by
      intro hn
      rw [List.map_eq_nil_iff, List.filter_eq_nil_iff]
      intro b hbm hbp
      have := hb.named b hbm
      rw [Account.has_iff_postsAt] at this
      simp only [decide_eq_true_eq] at hbp
      rw [hbp, hn] at this
      cases this
    by_cases hpp : p = pathOf n
    · subst hpp
      rw [if_pos rfl, if_pos (List.prefix_refl _)] at hp
      have e : List.map (fun x => x.1) (List.filter (fun b => decide (b.2 = pathOf n))
          [((xs.length, x.posts.length), pathOf n)]) = [(xs.length, x.posts.length)] := by simp
      rw [e]
      cases hq : j.master.postsAt (pathOf n) with
      | none =>
        rw [hq] at hp
        simp only [Option.none_or, Option.map_some, List.nil_append, Option.some.injEq] at hp
        rw [hnew hq, ← hp]; rfl
      | some qs =>
        rw [hq] at hp
        simp only [Option.some_or, Option.map_some, Option.some.injEq] at hp
        rw [← hold qs hq, hp]
    · rw [if_neg hpp] at hp
      have e : List.map (fun x => x.1) (List.filter (fun b => decide (b.2 = p))
          [((xs.length, x.posts.length), pathOf n)]) = [] := by simp [Ne.symm hpp]
      rw [e, List.append_nil]
      cases hq : j.master.postsAt p with
      | none =>
        rw [hq] at hp
        rw [hnew hq]
        by_cases hpre : p <+: pathOf n
        · rw [if_pos hpre] at hp; simpa using hp.symm
        · rw [if_neg hpre] at hp; simp at hp
      | some qs =>
        rw [hq] at hp
        simp only [Option.some_or, Option.some.injEq] at hp
        rw [← hold qs hq, hp]

/-- The lines of a transaction. -/
theorem readBody_ok {src rest : Source} {j j' : Journal} {xs : List Xact} {x : Xact} (hx : j.xacts = xs ++ [x])
    (h : readBody xs.length src j = .ok (j', rest)) :
    ∃ x', j'.xacts = xs ++ [x'] ∧ SameHeader x x' ∧ Grows j j' ∧ (Booked j → Booked j') ∧ rest.length ≤ src.length := by
  induction src generalizing j x with
  | nil =>
    simp only [readBody, Except.ok.injEq, Prod.mk.injEq] at h
    obtain ⟨rfl, rfl⟩ := h
    exact ⟨x, hx, ⟨rfl, rfl, rfl⟩, Grows.refl _, id, Nat.le_refl _⟩
  | cons l src ih =>
    cases l with
    | none =>
      simp only [readBody, Except.ok.injEq, Prod.mk.injEq] at h
      obtain ⟨rfl, rfl⟩ := h
      exact ⟨x, hx, ⟨rfl, rfl, rfl⟩, Grows.refl _, id, by simp⟩
    | some line =>
      rw [readBody] at h
      cases hc : classify line with
      | fin =>
        rw [hc] at h
        simp only [Except.ok.injEq, Prod.mk.injEq] at h
        obtain ⟨rfl, rfl⟩ := h
        exact ⟨x, hx, ⟨rfl, rfl, rfl⟩, Grows.refl _, id, by simp⟩
      | bad => rw [hc] at h; simp at h
      | note =>
        rw [hc] at h
        simp only at h
        cases h1 : parseTrailingNote line xs.length j with
        | error e => rw [h1] at h; simp [bind, Except.bind] at h
        | ok j1 =>
          rw [h1] at h
          simp only [bind, Except.bind] at h
          obtain ⟨r, _, hj1⟩ := parseTrailingNote_ok hx h1
          have hx1 : j1.xacts = xs ++ [if trim r = [] then x else x.addNote (trim r)] := by rw [hj1]
          obtain ⟨x', e1, e2, e3, e4, e5⟩ := ih hx1 h
          have hsame : SameHeader x (if trim r = [] then x else x.addNote (trim r)) := by
            split
            · exact ⟨rfl, rfl, rfl⟩
            · exact (addNote_keep x _).2
          have hacc : (if trim r = [] then x else x.addNote (trim r)).posts.map (·.account) = x.posts.map (·.account) := by
            split
            · rfl
            · exact (addNote_keep x _).1
          refine ⟨x', e1, ⟨e2.1.trans hsame.1, e2.2.1.trans hsame.2.1, e2.2.2.trans hsame.2.2⟩, ?_, ?_, ?_⟩
          · have : Grows j j1 := by rw [hj1]; exact ⟨.refl _, .refl _⟩
            exact this.trans e3
          · intro hb
            apply e4
            refine hb.congr (by rw [hj1]) ?_
            rw [hx1, hx, bookings_snoc, bookings_snoc, postRefs_congr _ hacc]
          · rw [List.length_cons]; omega
      | post input =>
        rw [hc] at h
        simp only at h
        cases h1 : parsePost input xs.length j with
        | error e => rw [h1] at h; simp [bind, Except.bind] at h
        | ok j1 =>
          rw [h1] at h
          simp only [bind, Except.bind] at h
          obtain ⟨t, m, path, pool, am, c, k1, _, k3, k4, hj1⟩ := parsePost_ok hx h1
          have hx1 : j1.xacts = xs ++ [{ x with posts := x.posts ++ [⟨path, am, c, none⟩] }] := by rw [hj1]
          obtain ⟨x', e1, e2, e3, e4, e5⟩ := ih hx1 h
          refine ⟨x', e1, e2, ?_, ?_, ?_⟩
          · have : Grows j j1 := by
              rw [hj1]
              exact ⟨.post _ _ (.register _ (.refl _) k3), Pool.later_postAmounts k4⟩
            exact this.trans e3
          · intro hb
            apply e4
            rw [hj1]
            exact (hb.post hx k3 pool am c).2
          · rw [List.length_cons]; omega

/-- The transaction a header makes. -/
theorem create_ok {d a p n : Str} {x : Xact} (h : Xact.create d a p n = .ok x) :
    HeaderDate d x.date ∧ HeaderDate a x.auxDate ∧ x.payee = (if p = [] then str "Unknown Payee" else p) ∧ x.posts = [] ∧
      x.note = (if n = [] then none else some n) := by
  unfold Xact.create Xact.parseDate at h
  unfold HeaderDate
  by_cases hd : d = []
  · by_cases ha : a = []
    · simp only [hd, ha, if_true, bind, Except.bind, Except.ok.injEq] at h
      subst h; simp [hd, ha]
    · cases hp : Chrono.parseDate a with
      | none => simp [hd, ha, hp, bind, Except.bind] at h
      | some x1 =>
        simp only [hd, ha, hp, if_true, if_false, bind, Except.bind, Except.ok.injEq] at h
        subst h; simp [hd, ha]
  · cases hq : Chrono.parseDate d with
    | none => simp [hd, hq, bind, Except.bind] at h
    | some x2 =>
      by_cases ha : a = []
      · simp only [hd, ha, hq, if_true, if_false, bind, Except.bind, Except.ok.injEq] at h
        subst h; simp [hd, ha]
      · cases hp : Chrono.parseDate a with
        | none => simp [hd, ha, hp, hq, bind, Except.bind] at h
        | some x1 =>
          simp only [hd, ha, hp, hq, if_false, bind, Except.bind, Except.ok.injEq] at h
          subst h; simp [hd, ha]

/-- What a transaction does to the journal. -/
theorem xactDirective_ok {line : Str} {rest rest' : Source} {j j' : Journal}
    (h : xactDirective line rest j = .ok (j', rest')) :
    ∃ d a p n x0 x', Scanner.tokenizeXactHeader line = .ok (d, a, p, n) ∧ Xact.create d a p n = .ok x0 ∧
      j'.xacts = j.xacts ++ [x'] ∧ SameHeader x0 x' ∧ Complete x' ∧ Grows j j' ∧ (Booked j → Booked j') ∧
      rest'.length ≤ rest.length := by
  unfold xactDirective createXact at h
  cases h1 : Scanner.tokenizeXactHeader line with
  | error e => rw [h1] at h; simp [bind, Except.bind] at h
  | ok r =>
    obtain ⟨d, a, p, n⟩ := r
    rw [h1] at h
    simp only [bind, Except.bind] at h
    cases h2 : Xact.create d a p n with
    | error e => rw [h2] at h; simp at h
    | ok x0 =>
      rw [h2] at h
      simp only [Journal.addXact] at h
      have hp0 : x0.posts = [] := (create_ok h2).2.2.2.1
      cases h3 : readBody j.xacts.length rest { j with xacts := j.xacts ++ [x0] } with
      | error e => rw [h3] at h; simp at h
      | ok r =>
        obtain ⟨j2, rest2⟩ := r
        rw [h3] at h
        simp only at h
        obtain ⟨x1, e1, e2, e3, e4, e5⟩ := readBody_ok rfl h3
        unfold finalizeXact at h
        rw [e1] at h
        simp only [List.getElem?_append_right (Nat.le_refl _), Nat.sub_self, List.getElem?_cons_zero] at h
        cases h5 : Finalize.finalize x1 j2.pool with
        | error e => rw [h5] at h; simp [bind, Except.bind] at h
        | ok r =>
          obtain ⟨x2, pool2⟩ := r
          rw [h5] at h
          simp only [bind, Except.bind, Except.ok.injEq, Prod.mk.injEq] at h
          obtain ⟨rfl, rfl⟩ := h
          obtain ⟨k1, k2, k3, k4, k5⟩ := C34_nothing_altered_partial _ _ _ _ h5
          have hset : (j.xacts ++ [x1]).set j.xacts.length x2 = j.xacts ++ [x2] := by
            rw [List.set_append_right _ _ (Nat.le_refl _)]; simp
          have hacc : x2.posts.map (·.account) = x1.posts.map (·.account) := by
            have : ∀ ps ps' : List Post, List.Forall₂ (fun p p' => p'.account = p.account) ps ps' →
                ps'.map (·.account) = ps.map (·.account) := by
              intro ps ps' hF
              induction hF with
              | nil => rfl
              | cons h _ ih => rw [List.map_cons, List.map_cons, h, ih]
            exact this _ _ (k5.imp fun p p' h => h.1)
          refine ⟨d, a, p, n, x0, x2, rfl, h2, hset, ?_, C33_amounts_present _ _ _ _ h5, ?_, ?_, e5⟩
          · exact ⟨k1.trans e2.1, k2.trans e2.2.1, k3.trans e2.2.2⟩
          · have g1 : Grows j j2 := ⟨e3.tree, e3.pool⟩
            exact g1.trans ⟨.refl _, Pool.later_finalize h5⟩
          · intro hb
            have hb2 := e4 (hb.congr rfl (bookings_empty_snoc _ _ hp0))
            refine hb2.congr rfl ?_
            show bookings ((j.xacts ++ [x1]).set j.xacts.length x2) = _
            rw [hset, e1, bookings_snoc, bookings_snoc, postRefs_congr _ hacc]

/-! ### fuel and equations of the main loop -/

theorem parseGo_more (inc : Str → Journal → Res Journal) (fuel : Nat) (src : Source) (j : Journal)
    (h : src.length < fuel) : parseGo inc fuel src j = parseGo inc (src.length + 1) src j := by
  generalize hk : src.length = k
  induction k using Nat.strongRecOn generalizing src j fuel with
  | _ k ih =>
    cases fuel with
    | zero => omega
    | succ fuel =>
      cases src with
      | nil => simp only [List.length_nil] at hk; subst hk; rfl
      | cons l src =>
        rw [List.length_cons] at hk h
        subst hk
        cases l with
        | none => rfl
        | some line =>
          rw [parseGo, parseGo]
          have hs : ∀ j, parseGo inc fuel src j = parseGo inc (src.length + 1) src j := by
            intro j; exact ih src.length (by omega) fuel src j (by omega) rfl
          cases topLine line with
          | ignored => exact hs j
          | skipped => exact hs j
          | indented => rfl
          | fails p => rfl
          | price =>
            simp only [bind, Except.bind]
            cases j.pool.parsePriceDirective line with
            | error e => rfl
            | ok p => exact hs _
          | includeFile f =>
            simp only [bind, Except.bind]
            cases inc f j with
            | error e => rfl
            | ok p => exact hs _
          | xact =>
            simp only [bind, Except.bind]
            cases hx : xactDirective line src j with
            | error e => rfl
            | ok r =>
              obtain ⟨j', rest'⟩ := r
              simp only
              obtain ⟨_, _, _, _, _, _, _, _, _, _, _, _, _, hl⟩ := xactDirective_ok hx
              rw [ih rest'.length (by omega) fuel rest' j' (by omega) rfl,
                ih rest'.length (by omega) (src.length + 1) rest' j' (by omega) rfl]

/-- The main loop never runs out of fuel, unless an included file does. -/
theorem parseWith_nil (inc : Str → Journal → Res Journal) (j : Journal) : parseWith inc [] j = .ok j := rfl

theorem parseWith_stop (inc : Str → Journal → Res Journal) (src : Source) (j : Journal) :
    parseWith inc (none :: src) j = .ok j := rfl

theorem parseWith_cons (inc : Str → Journal → Res Journal) (line : Str) (rest : Source) (j : Journal) :
    parseWith inc (some line :: rest) j = (match topLine line with
      | .ignored => parseWith inc rest j
      | .skipped => parseWith inc rest j
      | .xact => (do
        let (j', rest') ← xactDirective line rest j
        parseWith inc rest' j')
      | .indented => .error .indentedTopLevel
      | .includeFile file => (do
        let j' ← inc file j
        parseWith inc rest j')
      | .price => (do
        let pool ← j.pool.parsePriceDirective line
        parseWith inc rest { j with pool := pool })
      | .fails p => .error p) := by
  unfold parseWith
  rw [List.length_cons, parseGo]
  cases topLine line with
  | ignored => rfl
  | skipped => rfl
  | indented => rfl
  | fails p => rfl
  | price => rfl
  | includeFile f => rfl
  | xact =>
    simp only [bind, Except.bind]
    cases hx : xactDirective line rest j with
    | error e => rfl
    | ok r =>
      obtain ⟨j', rest'⟩ := r
      simp only
      obtain ⟨_, _, _, _, _, _, _, _, _, _, _, _, _, hl⟩ := xactDirective_ok hx
      exact parseGo_more inc _ rest' j' (by omega)

/-- Induction over a run of the main loop. -/
theorem parseWith_induct {P : Journal → Journal → Prop} (inc : Str → Journal → Res Journal)
    (refl : ∀ j, P j j) (trans : ∀ a b c, P a b → P b c → P a c)
    (xact : ∀ line rest j j' rest', xactDirective line rest j = .ok (j', rest') → P j j')
    (price : ∀ line j pool, j.pool.parsePriceDirective line = .ok pool → P j { j with pool := pool })
    (hinc : ∀ f j j', inc f j = .ok j' → P j j')
    (src : Source) (j j' : Journal) (h : parseWith inc src j = .ok j') : P j j' := by
  generalize hk : src.length = k
  induction k using Nat.strongRecOn generalizing src j with
  | _ k ih =>
    cases src with
    | nil => rw [parseWith_nil] at h; injection h with h; subst h; exact refl j
    | cons l src =>
      rw [List.length_cons] at hk
      subst hk
      cases l with
      | none => rw [parseWith_stop] at h; injection h with h; subst h; exact refl j
      | some line =>
        rw [parseWith_cons] at h
        cases ht : topLine line with
        | ignored => rw [ht] at h; exact ih src.length (by omega) src j h rfl
        | skipped => rw [ht] at h; exact ih src.length (by omega) src j h rfl
        | indented => rw [ht] at h; simp at h
        | fails p => rw [ht] at h; simp at h
        | price =>
          rw [ht] at h
          simp only [bind, Except.bind] at h
          cases hp : j.pool.parsePriceDirective line with
          | error e => rw [hp] at h; simp at h
          | ok pool =>
            rw [hp] at h
            exact trans _ _ _ (price line j pool hp) (ih src.length (by omega) src _ h rfl)
        | includeFile f =>
          rw [ht] at h
          simp only [bind, Except.bind] at h
          cases hp : inc f j with
          | error e => rw [hp] at h; simp at h
          | ok j1 =>
            rw [hp] at h
            exact trans _ _ _ (hinc f j j1 hp) (ih src.length (by omega) src _ h rfl)
        | xact =>
          rw [ht] at h
          simp only [bind, Except.bind] at h
          cases hp : xactDirective line src j with
          | error e => rw [hp] at h; simp at h
          | ok r =>
            obtain ⟨j1, rest1⟩ := r
            rw [hp] at h
            obtain ⟨_, _, _, _, _, _, _, _, _, _, _, _, _, hl⟩ := xactDirective_ok hp
            exact trans _ _ _ (xact _ _ _ _ _ hp) (ih rest1.length (by omega) rest1 _ h rfl)

/-- Induction over a parse. -/
theorem parse_induct {P : Journal → Journal → Prop} (files : Files)
    (refl : ∀ j, P j j) (trans : ∀ a b c, P a b → P b c → P a c)
    (xact : ∀ line rest j j' rest', xactDirective line rest j = .ok (j', rest') → P j j')
    (price : ∀ line j pool, j.pool.parsePriceDirective line = .ok pool → P j { j with pool := pool })
    (depth : Nat) (src : Source) (j j' : Journal) (h : parse files depth src j = .ok j') : P j j' := by
  induction depth generalizing src j j' with
  | zero =>
    rw [parse] at h
    refine parseWith_induct _ refl trans xact price ?_ src j j' h
    intro f j j' hf
    cases hfile : files f with
    | none => rw [hfile] at hf; injection hf with hf; subst hf; exact refl _
    | some s => rw [hfile] at hf; simp at hf
  | succ depth ih =>
    rw [parse] at h
    refine parseWith_induct _ refl trans xact price ?_ src j j' h
    intro f j j' hf
    cases hfile : files f with
    | none => rw [hfile] at hf; injection hf with hf; subst hf; exact refl _
    | some s => rw [hfile] at hf; exact ih _ _ _ hf

/-- What parsing does to a journal. -/
theorem parse_ok (files : Files) (depth : Nat) (src : Source) (j j' : Journal) (h : parse files depth src j = .ok j') :
    Grows j j' ∧ (Booked j → Booked j') ∧ ∃ new, j'.xacts = j.xacts ++ new ∧ ∀ x ∈ new, Complete x := by
  refine parse_induct (P := fun j j' => Grows j j' ∧ (Booked j → Booked j') ∧
    ∃ new, j'.xacts = j.xacts ++ new ∧ ∀ x ∈ new, Complete x) files ?_ ?_ ?_ ?_ depth src j j' h
  · exact fun j => ⟨Grows.refl j, id, [], by simp, by simp⟩
  · rintro a b c ⟨g1, b1, n1, e1, c1⟩ ⟨g2, b2, n2, e2, c2⟩
    refine ⟨g1.trans g2, fun h => b2 (b1 h), n1 ++ n2, by rw [e2, e1, List.append_assoc], ?_⟩
    intro x hx
    rcases List.mem_append.mp hx with hx | hx
    · exact c1 x hx
    · exact c2 x hx
  · intro line rest j j' rest' h
    obtain ⟨_, _, _, _, _, x', _, _, e, _, hc, hg, hb, _⟩ := xactDirective_ok h
    exact ⟨hg, hb, [x'], e, by simpa using hc⟩
  · intro line j pool h
    exact ⟨⟨.refl _, Pool.later_priceDirective h⟩, fun hb => hb.congr rfl rfl, [], by simp, by simp⟩

theorem booked_new : Booked Journal.new := by
  refine ⟨Account.wf_new _, rfl, ?_, ?_⟩
  · intro b hb; simp [bookings, Journal.new] at hb
  · intro p ps h
    change Account.postsAt (Account.new []) p = _ at h
    rw [Account.postsAt_new] at h
    split at h
    · injection h with h; rw [← h]; rfl
    · cases h

end Ledger
