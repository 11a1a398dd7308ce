import Verif.Spec.Money
import Verif.Lemmas.Booked
import Verif.Lemmas.Rename
import Verif.Lemmas.Totals
/-
Dates, payees, notes and comments have no influence on what is booked.
-/
namespace Ledger
open Ledger.Parser Ledger.Finalize Ledger.Cli

/-- Both fail with the same panic, or both succeed with related results. -/
inductive Alongside {α β : Type} (R : α → β → Prop) : Res α → Res β → Prop
  | ok {a : α} {b : β} (h : R a b) : Alongside R (.ok a) (.ok b)
  | error (k : Panic) : Alongside R (.error k) (.error k)

section
variable {α β γ δ : Type} {R : α → β → Prop} {S : γ → δ → Prop}

theorem Alongside.bind {m : Res α} {m' : Res β} {k : α → Res γ} {k' : β → Res δ} (h : Alongside R m m')
    (hk : ∀ a b, R a b → Alongside S (k a) (k' b)) : Alongside S (m.bind k) (m'.bind k') := by
  cases h with
  | ok h => exact hk _ _ h
  | error e => exact .error e

theorem Alongside.of_eq {m m' : Res α} (h : m = m') : Alongside (· = ·) m m' := by
  subst h
  cases m with
  | ok a => exact .ok rfl
  | error e => exact .error e
end

/-- A posting without its note. -/
def Post.unnoted (p : Post) : Post := { p with note := none }

/-- What of a pool is not a price. -/
def Pool.core (p : Pool) : List (Str × Commodity) × List (Str × Annotation) × List Str :=
  (p.commodities, p.annotated, p.history.nodes)

theorem core_iff {p p' : Pool} : p.core = p'.core ↔ ∃ es, p' = { p with history := ⟨p.history.nodes, es⟩ } := by
  obtain ⟨c, a, ⟨n, e⟩⟩ := p
  obtain ⟨c', a', ⟨n', e'⟩⟩ := p'
  simp only [Pool.core, Prod.mk.injEq, Pool.mk.injEq, History.mk.injEq]
  constructor
  · rintro ⟨rfl, rfl, rfl⟩; exact ⟨e', rfl, rfl, rfl, rfl⟩
  · rintro ⟨es, rfl, rfl, rfl, _⟩; exact ⟨rfl, rfl, rfl⟩

/-! ### completing a transaction -/

theorem sumPosts_unnoted (ps : List Post) (i : Nat) (b : Balance) (np : Option Nat) :
    sumPosts (ps.map Post.unnoted) i b np = sumPosts ps i b np := by
  induction ps generalizing i b np with
  | nil => rfl
  | cons p ps ih =>
    obtain ⟨acc, am, co, no⟩ := p
    simp only [List.map_cons, sumPosts, Post.unnoted, ih]

theorem topPost_unnoted (ps : List Post) : topPost (ps.map Post.unnoted) = (topPost ps).map Post.unnoted := by
  induction ps with
  | nil => rfl
  | cons p ps ih =>
    obtain ⟨acc, am, co, no⟩ := p
    cases am with
    | none => simpa [topPost, Post.unnoted] using ih
    | some a => simp [topPost, Post.unnoted]

theorem assignCosts_unnoted (c : Option Str) (u : Amount) (ps : List Post) (b : Balance) :
    assignCosts c u (ps.map Post.unnoted) b = (assignCosts c u ps b).map (fun r => (r.1.map Post.unnoted, r.2)) := by
  induction ps generalizing b with
  | nil => rfl
  | cons p ps ih =>
    obtain ⟨acc, am, co, no⟩ := p
    cases am with
    | none => rfl
    | some a =>
      simp only [List.map_cons, assignCosts, Post.unnoted]
      split
      · simp only [bind, Except.bind]
        cases b.subAssign a with
        | error _ => rfl
        | ok b1 =>
          simp only
          cases u.mul a with
          | error _ => rfl
          | ok k =>
            simp only
            cases b1.add k with
            | error _ => rfl
            | ok b2 =>
              simp only [ih]
              cases assignCosts c u ps b2 <;> rfl
      · simp only [ih, bind, Except.bind]
        cases assignCosts c u ps b <;> rfl

theorem impliedCosts_unnoted (ps : List Post) (b : Balance) (np : Option Nat) :
    impliedCosts (ps.map Post.unnoted) b np = (impliedCosts ps b np).map (fun r => (r.1.map Post.unnoted, r.2)) := by
  obtain ⟨l⟩ := b
  cases np with
  | some _ => rfl
  | none =>
    rcases l with _ | ⟨x, _ | ⟨y, _ | ⟨z, l⟩⟩⟩
    · rfl
    · rfl
    · simp only [impliedCosts, topPost_unnoted]
      cases topPost ps with
      | none => rfl
      | some t =>
        simp only [Option.map_some]
        by_cases hz : (!x.isZero) = true ∧ (!y.isZero) = true
        · simp only [hz, and_self, if_true]
          have pick : ∀ xy : Amount × Amount,
              (match xy with
                | (x', y') => y'.div x' >>= fun u => assignCosts x'.comm u.abs (ps.map Post.unnoted) ⟨[x, y]⟩) =
              Except.map (fun r : List Post × Balance => (r.1.map Post.unnoted, r.2))
                (match xy with
                | (x', y') => y'.div x' >>= fun u => assignCosts x'.comm u.abs ps ⟨[x, y]⟩) := by
            rintro ⟨x', y'⟩
            simp only [bind, Except.bind]
            cases y'.div x' with
            | error _ => rfl
            | ok u => exact assignCosts_unnoted x'.comm u.abs ps ⟨[x, y]⟩
          exact pick _
        · simp only [hz, if_false]
          rfl
    · rfl

theorem fillNull_unnoted (ps : List Post) (b : Balance) (np : Option Nat) :
    fillNull (ps.map Post.unnoted) b np = (fillNull ps b np).map (List.map Post.unnoted) := by
  obtain ⟨l⟩ := b
  cases np with
  | none => rfl
  | some i =>
    rcases l with _ | ⟨a, _ | ⟨y, l⟩⟩
    · rfl
    · simp only [fillNull, Except.map]
      congr 1
      refine List.ext_getElem? fun n => ?_
      simp only [List.getElem?_modify, List.getElem?_map]
      split
      · cases ps[n]? <;> rfl
      · cases ps[n]? <;> rfl
    · rfl

theorem deref_core {p p' : Pool} (h : p.core = p'.core) (s : Option Str) : p.deref s = p'.deref s := by
  obtain ⟨es, rfl⟩ := core_iff.mp h
  rfl

theorem addPrice_core {p p' : Pool} (h : p.core = p'.core) (s : Option Str) (t t' : DateTime) (a : Amount) :
    Alongside (fun q q' => q.core = q'.core) (p.addPrice s t a) (p'.addPrice s t' a) := by
  unfold Pool.addPrice
  rw [deref_core h s]
  refine (Alongside.of_eq rfl).bind ?_
  rintro src _ rfl
  split
  · exact .error _
  · split
    · exact .error _
    · rw [deref_core h]
      refine (Alongside.of_eq rfl).bind ?_
      rintro dst _ rfl
      obtain ⟨es, rfl⟩ := core_iff.mp h
      exact .ok rfl

theorem exchange_core {p p' : Pool} (h : p.core = p'.core) (a c : Amount) (u : Bool) (t t' : DateTime) :
    Alongside (fun r r' => r.1 = r'.1 ∧ r'.2 = r.2.map (fun x => { x with datetime := t' })) (p.exchange a c u t)
      (p'.exchange a c u t') := by
  obtain ⟨es, rfl⟩ := core_iff.mp h
  unfold Pool.exchange
  cases a.comm with
  | none => exact .error _
  | some s =>
    refine (Alongside.of_eq (rfl : p.deref (some s) = _)).bind ?_
    rintro k _ rfl
    refine (Alongside.of_eq (rfl : p.getByIndex k.graphIndex = _)).bind ?_
    rintro s' _ rfl
    refine (Alongside.of_eq rfl).bind ?_
    rintro q _ rfl
    refine (Alongside.of_eq rfl).bind ?_
    rintro fc _ rfl
    refine (Alongside.of_eq rfl).bind ?_
    rintro b _ rfl
    refine .ok ⟨rfl, ?_⟩
    simp only
    split <;> split <;> rfl

/-- Results with the same postings apart from notes, and the same commodities and lots. -/
def SamePosts (r r' : List Post × Pool) : Prop := r.1.map Post.unnoted = r'.1.map Post.unnoted ∧ r.2.core = r'.2.core

theorem recordPrices_core {d d' : Option Date} (hd : d.isSome = d'.isSome) (ps ps' : List Post)
    (hp : ps.map Post.unnoted = ps'.map Post.unnoted) {p p' : Pool} (h : p.core = p'.core) :
    Alongside SamePosts (recordPrices d ps p) (recordPrices d' ps' p') := by
  induction ps generalizing ps' p p' with
  | nil =>
    obtain rfl : ps' = [] := by simpa using hp.symm
    exact .ok ⟨rfl, h⟩
  | cons x ps ih =>
    cases ps' with
    | nil => cases hp
    | cons x' ps' =>
      obtain ⟨acc, am, co, no⟩ := x
      obtain ⟨acc', am', co', no'⟩ := x'
      simp only [List.map_cons, List.cons.injEq, Post.unnoted, Post.mk.injEq, and_true] at hp
      obtain ⟨⟨rfl, rfl, rfl⟩, hp⟩ := hp
      cases co with
      | none =>
        refine (ih ps' hp h).bind ?_
        rintro ⟨q, r⟩ ⟨q', r'⟩ ⟨h1, h2⟩
        exact .ok ⟨by simp only [List.map_cons, Post.unnoted]; rw [show q.map Post.unnoted = q'.map Post.unnoted from h1], h2⟩
      | some k =>
        cases am with
        | none => exact .error _
        | some a =>
          simp only [recordPrices]
          split
          · exact .error _
          · cases d with
            | none =>
              obtain rfl : d' = none := by cases d' with | none => rfl | some _ => cases hd
              exact .error _
            | some d =>
              cases d' with
              | none => cases hd
              | some d' =>
                refine (exchange_core h a k false _ _).bind ?_
                rintro ⟨br, np⟩ ⟨br', np'⟩ ⟨h1, h2⟩
                simp only at h1 h2
                subst h1
                subst h2
                have step : ∀ {q q' : Pool}, q.core = q'.core → Alongside SamePosts
                    (recordPrices (some d) ps q >>= fun r => Except.ok (⟨acc, some br.amount, some k, no⟩ :: r.1, r.2))
                    (recordPrices (some d') ps' q' >>= fun r =>
                      Except.ok (⟨acc, some br.amount, some k, no'⟩ :: r.1, r.2)) := by
                  intro q q' hq
                  refine (ih ps' hp hq).bind ?_
                  rintro ⟨q, r⟩ ⟨q', r'⟩ ⟨h1, h2⟩
                  exact .ok ⟨by
                    simp only [List.map_cons, Post.unnoted]
                    rw [show q.map Post.unnoted = q'.map Post.unnoted from h1], h2⟩
                cases np with
                | none => exact step h
                | some pr => exact (addPrice_core h _ _ _ _).bind fun q q' hq => step hq

/-- The same transaction apart from notes, payee and the day. -/
def SameXact (x x' : Xact) : Prop := x.posts.map Post.unnoted = x'.posts.map Post.unnoted ∧ x.date.isSome = x'.date.isSome

theorem finalize_core {x x' : Xact} (hx : SameXact x x') {p p' : Pool} (h : p.core = p'.core) :
    Alongside (fun r r' => SameXact r.1 r'.1 ∧ r.2.core = r'.2.core) (finalize x p) (finalize x' p') := by
  obtain ⟨hp, hd⟩ := hx
  have hl : x.posts.length = x'.posts.length := by simpa using congrArg List.length hp
  unfold finalize
  rw [← sumPosts_unnoted x.posts, ← sumPosts_unnoted x'.posts, hp, hl]
  refine (Alongside.of_eq rfl).bind ?_
  rintro ⟨b, np⟩ _ rfl
  simp only
  split
  · exact .error _
  · have h1 : Alongside (fun r r' : List Post × Balance => r.1.map Post.unnoted = r'.1.map Post.unnoted ∧ r.2 = r'.2)
        (impliedCosts x.posts b np) (impliedCosts x'.posts b np) := by
      have e1 := impliedCosts_unnoted x.posts b np
      have e2 := impliedCosts_unnoted x'.posts b np
      rw [hp, e2] at e1
      cases h1 : impliedCosts x.posts b np with
      | error k =>
        cases h2 : impliedCosts x'.posts b np with
        | error k' => rw [h1, h2] at e1; injection e1 with e1; subst e1; exact .error _
        | ok r => rw [h1, h2] at e1; cases e1
      | ok r =>
        cases h2 : impliedCosts x'.posts b np with
        | error k' => rw [h1, h2] at e1; cases e1
        | ok r' =>
          rw [h1, h2] at e1
          simp only [Except.map, Except.ok.injEq, Prod.mk.injEq] at e1
          exact .ok ⟨e1.1.symm, e1.2.symm⟩
    refine h1.bind ?_
    rintro ⟨q, b1⟩ ⟨q', b2⟩ ⟨h2, h3⟩
    simp only at h2 h3
    subst h3
    refine (recordPrices_core hd q q' h2 h).bind ?_
    rintro ⟨r, p1⟩ ⟨r', p2⟩ ⟨h4, h5⟩
    simp only at h4 h5
    have e1 := fillNull_unnoted r b1 np
    have e2 := fillNull_unnoted r' b1 np
    rw [h4, e2] at e1
    simp only [bind]
    cases g1 : fillNull r b1 np with
    | error k =>
      cases g2 : fillNull r' b1 np with
      | error k' => rw [g1, g2] at e1; injection e1 with e1; subst e1; exact .error _
      | ok _ => rw [g1, g2] at e1; cases e1
    | ok s =>
      cases g2 : fillNull r' b1 np with
      | error k' => rw [g1, g2] at e1; cases e1
      | ok s' =>
        rw [g1, g2] at e1
        simp only [Except.map, Except.ok.injEq] at e1
        exact .ok ⟨⟨e1.symm, hd⟩, h5⟩

/-! ### booking -/

/-- Journals with the same accounts, postings, commodities and lots. -/
structure SameBooks (j j' : Journal) : Prop where
  master : j.master = j'.master
  len : j.xacts.length = j'.xacts.length
  xacts : ∀ (i : Nat) (x x' : Xact), j.xacts[i]? = some x → j'.xacts[i]? = some x' → SameXact x x'
  pool : j.pool.core = j'.pool.core

theorem SameBooks.get {j j' : Journal} (h : SameBooks j j') (i : Nat) : (j.xacts[i]? = none ∧ j'.xacts[i]? = none) ∨
    ∃ x x', j.xacts[i]? = some x ∧ j'.xacts[i]? = some x' ∧ SameXact x x' := by
  cases hx : j.xacts[i]? with
  | none =>
    left
    refine ⟨rfl, ?_⟩
    rw [List.getElem?_eq_none_iff] at hx ⊢
    rw [← h.len]; exact hx
  | some x =>
    right
    have hi : i < j'.xacts.length := by rw [← h.len]; exact (List.getElem?_eq_some_iff.mp hx).1
    exact ⟨x, j'.xacts[i], rfl, List.getElem?_eq_getElem hi, h.xacts i _ _ hx (List.getElem?_eq_getElem hi)⟩

theorem findOrCreate_core {p p' : Pool} (h : p.core = p'.core) (s : Str) (a : Option Annotation) :
    (p.findOrCreate s a).1.core = (p'.findOrCreate s a).1.core := by
  obtain ⟨es, rfl⟩ := core_iff.mp h
  have hf : ({ p with history := ⟨p.history.nodes, es⟩ } : Pool).find s = p.find s := rfl
  unfold Pool.findOrCreate
  rw [hf]
  split
  · exact h
  · split
    · cases a with
      | none => exact h
      | some a =>
        simp only
        split
        · rfl
        · exact h
    · cases a <;> rfl

theorem bookAmounts_core (e : Entry) (cs : List Str) {p p' : Pool} (h : p.core = p'.core) :
    Alongside (fun r r' => r.1.core = r'.1.core ∧ r.2 = r'.2) (e.bookAmounts p) (({ e with comments := cs } : Entry).bookAmounts p') := by
  unfold Entry.bookAmounts
  have h3 := findOrCreate_core (findOrCreate_core (findOrCreate_core h (symbolText e.holder) none)
    (symbolText ((e.lot.price.bind (·.comm)).or e.strays.price)) none) (symbolText e.holder) (some e.lot)
  have hh : ({ e with comments := cs } : Entry).holder = e.holder := rfl
  simp only [hh]
  cases e.amount with
  | none => exact .ok ⟨h3, rfl⟩
  | some a =>
    cases e.cost with
    | none => exact .ok ⟨findOrCreate_core h3 _ _, rfl⟩
    | some k =>
      obtain ⟨u, k⟩ := k
      cases u with
      | false => exact .ok ⟨findOrCreate_core h3 _ _, rfl⟩
      | true =>
        refine (Alongside.of_eq (rfl : k.mulAssign a = _)).bind ?_
        rintro c _ rfl
        exact .ok ⟨findOrCreate_core h3 _ _, rfl⟩

theorem SameBooks.update {j j' : Journal} (h : SameBooks j j') (i : Nat) {g g' : Xact → Xact}
    (hg : ∀ x x', SameXact x x' → SameXact (g x) (g' x')) : SameBooks (j.updateXact i g) (j'.updateXact i g') := by
  refine ⟨h.master, by simpa [Journal.updateXact] using h.len, ?_, h.pool⟩
  intro n x x' hx hx'
  simp only [Journal.updateXact, List.getElem?_modify] at hx hx'
  rcases h.get n with ⟨h1, h2⟩ | ⟨y, y', h1, h2, h3⟩
  · rw [h1] at hx; cases hx
  · rw [h1] at hx
    rw [h2] at hx'
    by_cases hi : i = n
    · simp only [hi, if_true, Option.map_some, Option.some.injEq, Functor.map] at hx hx'
      subst hx; subst hx'
      exact hg _ _ h3
    · simp only [hi, if_false, Option.map_some, Option.some.injEq, Functor.map] at hx hx'
      subst hx; subst hx'
      exact h3

theorem noteLast_unnoted (n : Str) (ps : List Post) : (Xact.noteLast n ps).map Post.unnoted = ps.map Post.unnoted := by
  induction ps with
  | nil => rfl
  | cons p ps ih =>
    cases ps with
    | nil => rfl
    | cons q r => simp only [List.map_cons, Xact.noteLast] at ih ⊢; rw [ih]

theorem addNote_same (n : Str) (x : Xact) : SameXact x (x.addNote n) := by
  unfold Xact.addNote
  split
  · exact ⟨rfl, rfl⟩
  · exact ⟨(noteLast_unnoted n x.posts).symm, rfl⟩

theorem SameXact.symm {x y : Xact} (h : SameXact x y) : SameXact y x := ⟨h.1.symm, h.2.symm⟩

theorem SameXact.trans {x y z : Xact} (h : SameXact x y) (h' : SameXact y z) : SameXact x z :=
  ⟨h.1.trans h'.1, h.2.trans h'.2⟩

theorem SameBooks.symm {j k : Journal} (h : SameBooks j k) : SameBooks k j :=
  ⟨h.master.symm, h.len.symm, fun i x x' hx hx' => (h.xacts i x' x hx' hx).symm, h.pool.symm⟩

theorem SameBooks.note {j j' : Journal} (h : SameBooks j j') (i : Nat) (ts : List Str) : SameBooks j (bookNotes i ts j') := by
  induction ts generalizing j' with
  | nil => exact h
  | cons t ts ih =>
    rw [bookNotes]
    apply ih
    split
    · exact h
    · have e : j.updateXact i id = j := by
        simp [Journal.updateXact]
      rw [← e]
      exact h.update i fun x x' hx => hx.trans (addNote_same t x')

theorem SameBooks.notes {j j' : Journal} (h : SameBooks j j') (i : Nat) (ts ts' : List Str) :
    SameBooks (bookNotes i ts j) (bookNotes i ts' j') := ((h.note i ts').symm.note i ts).symm

theorem registerAccount_same {j j' : Journal} (h : SameBooks j j') (n : Str) :
    Alongside (fun r r' => SameBooks r.1 r'.1 ∧ r.2 = r'.2) (j.registerAccount n) (j'.registerAccount n) := by
  unfold Journal.registerAccount
  split
  · exact .error _
  · rw [h.master]
    refine (Alongside.of_eq (rfl : j'.master.findOrCreate n true = _)).bind ?_
    rintro ⟨m, a⟩ _ rfl
    exact .ok ⟨⟨rfl, h.len, h.xacts, h.pool⟩, rfl⟩

theorem book_same (e : Entry) (cs : List Str) (i : Nat) {j j' : Journal} (h : SameBooks j j') :
    Alongside SameBooks (e.book i j) (({ e with comments := cs } : Entry).book i j') := by
  unfold Entry.book
  refine (registerAccount_same h e.account).bind ?_
  rintro ⟨j1, a⟩ ⟨j1', a'⟩ ⟨h1, h2⟩
  simp only at h1 h2
  subst h2
  cases a with
  | none => exact .error _
  | some path =>
    refine (bookAmounts_core e cs h1.pool).bind ?_
    rintro ⟨p, am, co⟩ ⟨p', r⟩ ⟨h3, h4⟩
    simp only at h3 h4
    subst h4
    have hn : (match j1.xacts[i]? with | some x => x.posts.length | none => 0) =
        (match j1'.xacts[i]? with | some x => x.posts.length | none => 0) := by
      rcases h1.get i with ⟨g1, g2⟩ | ⟨y, y', g1, g2, g3⟩
      · rw [g1, g2]
      · rw [g1, g2]
        simpa using congrArg List.length g3.1
    have hs : SameBooks { j1 with pool := p } { j1' with pool := p' } := ⟨h1.master, h1.len, h1.xacts, h3⟩
    have hu := hs.update i (g := fun x => { x with posts := x.posts ++ [Post.mk path am co none] })
      (g' := fun x => { x with posts := x.posts ++ [Post.mk path am co none] })
      (fun x x' hx => ⟨by simp only [List.map_append]; rw [hx.1], hx.2⟩)
    refine .ok ⟨?_, hu.len, hu.xacts, hu.pool⟩
    simp only [hu.master]
    exact congrArg _ (congrArg (Prod.mk i) hn)

theorem bookEntries_same (i : Nat) (es es' : List Entry)
    (he : es.map (fun e => { e with comments := [] }) = es'.map (fun e => ({ e with comments := [] } : Entry)))
    {j j' : Journal} (h : SameBooks j j') : Alongside SameBooks (bookEntries i es j) (bookEntries i es' j') := by
  induction es generalizing es' j j' with
  | nil =>
    obtain rfl : es' = [] := by simpa using he.symm
    exact .ok h
  | cons e es ih =>
    cases es' with
    | nil => cases he
    | cons e' es' =>
      simp only [List.map_cons, List.cons.injEq] at he
      obtain ⟨he, ht⟩ := he
      have e1 : e' = { e with comments := e'.comments } := by
        obtain ⟨a, b, c, d, f, g⟩ := e
        obtain ⟨a', b', c', d', f', g'⟩ := e'
        simp only [Entry.mk.injEq] at he ⊢
        obtain ⟨h1, h2, h3, h4, _, h5⟩ := he
        exact ⟨h1.symm, h2.symm, h3.symm, h4.symm, trivial, h5.symm⟩
      have hb := book_same e e'.comments i h
      rw [← e1] at hb
      exact hb.bind fun k k' hk => ih es' ht (hk.notes i _ _)

theorem enter_same {w w' : Writing} (hw : w.money = w'.money) {j j' : Journal} (h : SameBooks j j') :
    Alongside SameBooks (w.enter j) (w'.enter j') := by
  unfold Writing.enter
  simp only [Journal.addXact, h.len]
  refine bookEntries_same _ _ _ hw (SameBooks.notes ?_ _ _ _)
  refine ⟨h.master, by simp [h.len], ?_, h.pool⟩
  intro i x x' hx hx'
  simp only [List.getElem?_append] at hx hx'
  rw [h.len] at hx
  split at hx
  · rename_i hi
    rw [if_pos hi] at hx'
    exact h.xacts i x x' hx hx'
  · rename_i hi
    rw [if_neg hi] at hx'
    cases hk : i - j'.xacts.length with
    | zero =>
      rw [hk] at hx hx'
      simp only [List.getElem?_cons_zero, Option.some.injEq] at hx hx'
      subst hx; subst hx'
      exact ⟨rfl, rfl⟩
    | succ n => rw [hk] at hx; simp at hx

theorem finalizeXact_same (i : Nat) {j j' : Journal} (h : SameBooks j j') :
    Alongside SameBooks (Parser.finalizeXact i j) (Parser.finalizeXact i j') := by
  unfold Parser.finalizeXact
  rcases h.get i with ⟨g1, g2⟩ | ⟨y, y', g1, g2, g3⟩
  · rw [g1, g2]; exact .error _
  · rw [g1, g2]
    refine (finalize_core g3 h.pool).bind ?_
    rintro ⟨x, p⟩ ⟨x', p'⟩ ⟨h1, h2⟩
    refine .ok ⟨h.master, by simp [h.len], ?_, h2⟩
    intro n z z' hz hz'
    simp only [List.getElem?_set] at hz hz'
    by_cases hi : i = n
    · have l1 : i < j.xacts.length := (List.getElem?_eq_some_iff.mp g1).1
      have l2 : i < j'.xacts.length := (List.getElem?_eq_some_iff.mp g2).1
      simp only [hi, if_true] at hz hz'
      rw [hi] at l1 l2
      simp only [l1, l2, if_true, Option.some.injEq] at hz hz'
      subst hz; subst hz'
      exact h1
    · simp only [hi, if_false] at hz hz'
      exact h.xacts n z z' hz hz'

theorem bookWritings_same (ws ws' : List Writing) (hw : ws.map Writing.money = ws'.map Writing.money) {j j' : Journal}
    (h : SameBooks j j') : Alongside SameBooks (bookWritings ws j).res (bookWritings ws' j').res := by
  induction ws generalizing ws' j j' with
  | nil =>
    obtain rfl : ws' = [] := by simpa using hw.symm
    exact .ok h
  | cons w ws ih =>
    cases ws' with
    | nil => cases hw
    | cons w' ws' =>
      simp only [List.map_cons, List.cons.injEq] at hw
      rw [bookWritings, bookWritings, Trace.bind_res', Trace.bind_res']
      refine Alongside.bind (R := SameBooks) ?_ fun k k' hk => ih ws' hw.2 hk
      unfold Writing.book
      rw [Trace.bind_res', Trace.bind_res', Trace.lift, Trace.lift]
      refine (enter_same hw.1 h).bind ?_
      intro k k' hk
      rw [Trace.finalizeXact_res, Trace.finalizeXact_res, h.len]
      exact finalizeXact_same _ hk

/-! ### the totals -/

theorem amountGo_same {j j' : Journal} (h : SameBooks j j') (rs : List PostRef) (b : Balance) :
    j.amountGo rs b = j'.amountGo rs b := by
  induction rs generalizing b with
  | nil => rfl
  | cons r rs ih =>
    have hp : (j.postAt r).map Post.unnoted = (j'.postAt r).map Post.unnoted := by
      simp only [Journal.postAt]
      rcases h.get r.1 with ⟨g1, g2⟩ | ⟨y, y', g1, g2, g3⟩
      · rw [g1, g2]
      · rw [g1, g2]
        have := congrArg (fun l => l[r.2]?) g3.1
        simpa using this
    simp only [Journal.amountGo]
    cases h1 : j.postAt r with
    | none =>
      cases h2 : j'.postAt r with
      | none => rfl
      | some _ => rw [h1, h2] at hp; cases hp
    | some p =>
      cases h2 : j'.postAt r with
      | none => rw [h1, h2] at hp; cases hp
      | some p' =>
        rw [h1, h2] at hp
        simp only [Option.map_some, Option.some.injEq, Post.unnoted, Post.mk.injEq] at hp
        simp only [hp.2.1, ih]

theorem accountTotal_same {j j' : Journal} (h : SameBooks j j') (a : Account) : j.accountTotal a = j'.accountTotal a := by
  induction a using Account.ind with
  | h n ps cs ih =>
    rw [accountTotal_mk, accountTotal_mk, amountGo_same h]
    congr 3
    exact List.map_congr_left fun c hc => by rw [ih c hc]

end Ledger
