import Verif.Lemmas.Opposite
/-
What turning all signs around does to blank postings.
-/
namespace Ledger
open Ledger.Parser Ledger.Finalize Ledger.Cli

section
variable {α β γ : Type} {R : α → β → γ → Prop}

theorem Three.append {as as' : List α} {bs bs' : List β} {cs cs' : List γ} (h : Three R as bs cs) (h' : Three R as' bs' cs') :
    Three R (as ++ as') (bs ++ bs') (cs ++ cs') := by
  induction h with
  | nil => exact h'
  | cons h _ ih => exact .cons h ih

theorem Three.length {as : List α} {bs : List β} {cs : List γ} (h : Three R as bs cs) :
    bs.length = as.length ∧ cs.length = as.length := by
  induction h with
  | nil => exact ⟨rfl, rfl⟩
  | cons _ _ ih => exact ⟨by simp [ih.1], by simp [ih.2]⟩

theorem Three.get {as : List α} {bs : List β} {cs : List γ} (h : Three R as bs cs) (i : Nat) {a : α} (ha : as[i]? = some a) :
    ∃ b c, bs[i]? = some b ∧ cs[i]? = some c ∧ R a b c := by
  induction h generalizing i with
  | nil => simp at ha
  | @cons x y z as bs cs h _ ih =>
    cases i with
    | zero => simp at ha; subst ha; exact ⟨y, z, rfl, rfl, h⟩
    | succ i => simpa using ih i (by simpa using ha)

theorem Three.mono {S : α → β → γ → Prop} {as : List α} {bs : List β} {cs : List γ} (h : Three R as bs cs)
    (hs : ∀ a ∈ as, ∀ b c, R a b c → S a b c) : Three S as bs cs := by
  induction h with
  | nil => exact .nil
  | cons h _ ih =>
    exact .cons (hs _ List.mem_cons_self _ _ h) (ih fun a ha => hs a (List.mem_cons_of_mem _ ha))
end

/-- Postings that have just been entered. -/
def Post.Begun (blank : Bool) (p p' : Post) : Prop :=
  if blank then p'.account = p.account ∧ p.cost = none ∧ p'.cost = none ∧ p.amount = none ∧ p'.amount = none else p.Opposite p'

theorem begun_full {fl : List Bool} {ps ps' : List Post} (h : Three Post.Begun fl ps ps') (hf : ∀ f ∈ fl, f = false) :
    List.Forall₂ Post.Opposite ps ps' := by
  induction h with
  | nil => exact .nil
  | @cons f p p' fl ps ps' h _ ih =>
    obtain rfl := hf f List.mem_cons_self
    exact .cons h (ih fun f hf' => hf f (List.mem_cons_of_mem _ hf'))

theorem full_turned {fl : List Bool} (hf : ∀ f ∈ fl, f = false) {ps ps' : List Post} (h : List.Forall₂ Post.Opposite ps ps')
    (hl : ps.length = fl.length) : Three Post.Turned fl ps ps' := by
  induction h generalizing fl with
  | nil => cases fl with
    | nil => exact .nil
    | cons _ _ => cases hl
  | @cons p p' ps ps' h _ ih =>
    cases fl with
    | nil => cases hl
    | cons f fl =>
      obtain rfl := hf f List.mem_cons_self
      exact .cons h (ih (fun f hf' => hf f (List.mem_cons_of_mem _ hf')) (by simpa using hl))

/-- After a blank posting there is none, or both fail. -/
theorem sumPosts_after {fl : List Bool} {ps ps' : List Post} (h : Three Post.Begun fl ps ps') (i q : Nat) {b b' : Balance}
    (hb : b.Opposite b') : Alongside (fun r r' => r.1.Opposite r'.1 ∧ r.2 = some q ∧ r'.2 = some q ∧ ∀ f ∈ fl, f = false)
      (sumPosts ps i b (some q)) (sumPosts ps' i b' (some q)) := by
  induction h generalizing i b b' with
  | nil => exact .ok ⟨hb, rfl, rfl, by simp⟩
  | @cons f p p' fl ps ps' hp _ ih =>
    obtain ⟨acc, am, co, no⟩ := p
    obtain ⟨acc', am', co', no'⟩ := p'
    cases f with
    | true =>
      simp only [Post.Begun, if_true] at hp
      obtain ⟨_, h1, h2, h3, h4⟩ := hp
      subst h1; subst h2; subst h3; subst h4
      exact .error _
    | false =>
      obtain ⟨_, ⟨a, a', h1, h2, h3⟩, hc⟩ := (hp : Post.Opposite _ _)
      simp only at h1 h2 hc
      subst h1; subst h2
      have more : ∀ {x x' : Amount}, x.Opposite x' → Alongside
          (fun r r' => r.1.Opposite r'.1 ∧ r.2 = some q ∧ r'.2 = some q ∧ ∀ f ∈ (false :: fl), f = false)
          (b.add x >>= fun b => sumPosts ps (i + 1) b (some q)) (b'.add x' >>= fun b => sumPosts ps' (i + 1) b (some q)) := by
        intro x x' hx
        refine (Balance.add_opposite hb hx).bind fun m m' hm => ?_
        have := ih (i + 1) hm.1
        generalize sumPosts ps (i + 1) m (some q) = r at this ⊢
        generalize sumPosts ps' (i + 1) m' (some q) = r' at this ⊢
        cases this with
        | error k => exact .error k
        | ok h => exact .ok ⟨h.1, h.2.1, h.2.2.1, by simpa using h.2.2.2⟩
      rcases hc with ⟨h4, h5⟩ | ⟨c, c', h4, h5, h6⟩
      · subst h4; subst h5; exact more h3
      · subst h4; subst h5; exact more h6

/-- The blank posting is found. -/
theorem sumPosts_begun {fl : List Bool} {ps ps' : List Post} (h : Three Post.Begun fl ps ps') (i : Nat) {b b' : Balance}
    (hb : b.Opposite b') : Alongside (fun r r' => r.1.Opposite r'.1 ∧ r.2 = r'.2 ∧ ((∀ f ∈ fl, f = false) ∨
      ∃ k, r.2 = some (i + k) ∧ fl[k]? = some true ∧ ∀ m, m ≠ k → fl[m]? ≠ some true))
      (sumPosts ps i b none) (sumPosts ps' i b' none) := by
  induction h generalizing i b b' with
  | nil => exact .ok ⟨hb, rfl, .inl (by simp)⟩
  | @cons f p p' fl ps ps' hp ht ih =>
    obtain ⟨acc, am, co, no⟩ := p
    obtain ⟨acc', am', co', no'⟩ := p'
    cases f with
    | true =>
      simp only [Post.Begun, if_true] at hp
      obtain ⟨_, h1, h2, h3, h4⟩ := hp
      subst h1; subst h2; subst h3; subst h4
      simp only [sumPosts]
      have := sumPosts_after ht (i + 1) i hb
      generalize sumPosts ps (i + 1) b (some i) = r at this ⊢
      generalize sumPosts ps' (i + 1) b' (some i) = r' at this ⊢
      cases this with
      | error k => exact .error k
      | ok h =>
        refine .ok ⟨h.1, by rw [h.2.1, h.2.2.1], .inr ⟨0, h.2.1, rfl, ?_⟩⟩
        intro m hm hc
        cases m with
        | zero => exact hm rfl
        | succ m =>
          have := h.2.2.2 true (List.mem_of_getElem? (by simpa using hc))
          cases this
    | false =>
      obtain ⟨_, ⟨a, a', h1, h2, h3⟩, hc⟩ := (hp : Post.Opposite _ _)
      simp only at h1 h2 hc
      subst h1; subst h2
      have more : ∀ {x x' : Amount}, x.Opposite x' → Alongside
          (fun r r' => r.1.Opposite r'.1 ∧ r.2 = r'.2 ∧ ((∀ f ∈ (false :: fl), f = false) ∨
            ∃ k, r.2 = some (i + k) ∧ (false :: fl)[k]? = some true ∧ ∀ m, m ≠ k → (false :: fl)[m]? ≠ some true))
          (b.add x >>= fun b => sumPosts ps (i + 1) b none) (b'.add x' >>= fun b => sumPosts ps' (i + 1) b none) := by
        intro x x' hx
        refine (Balance.add_opposite hb hx).bind fun m m' hm => ?_
        have := ih (i + 1) hm.1
        generalize sumPosts ps (i + 1) m none = r at this ⊢
        generalize sumPosts ps' (i + 1) m' none = r' at this ⊢
        cases this with
        | error k => exact .error k
        | ok h =>
          refine .ok ⟨h.1, h.2.1, ?_⟩
          rcases h.2.2 with h | ⟨k, h1, h2, h3⟩
          · exact .inl (by simpa using h)
          · refine .inr ⟨k + 1, by rw [h1]; congr 1; omega, by simpa using h2, ?_⟩
            intro m hm hc
            cases m with
            | zero => simp at hc
            | succ m => exact h3 m (by omega) (by simpa using hc)
      rcases hc with ⟨h4, h5⟩ | ⟨c, c', h4, h5, h6⟩
      · subst h4; subst h5; exact more h3
      · subst h4; subst h5; exact more h6

theorem recordPrices_begun (d : Option Date) {fl : List Bool} {ps ps' : List Post} (h : Three Post.Begun fl ps ps') (p : Pool) :
    Alongside (fun r r' => Three Post.Begun fl r.1 r'.1 ∧ r.2 = r'.2) (recordPrices d ps p) (recordPrices d ps' p) := by
  induction h generalizing p with
  | nil => exact .ok ⟨.nil, rfl⟩
  | @cons f x x' fl ps ps' hx _ ih =>
    obtain ⟨acc, am, co, no⟩ := x
    obtain ⟨acc', am', co', no'⟩ := x'
    have hx' := hx
    cases f with
    | true =>
      simp only [Post.Begun, if_true] at hx
      obtain ⟨_, h1, h2, h3, h4⟩ := hx
      subst h1; subst h2; subst h3; subst h4
      exact (ih p).bind fun r r' hr => .ok ⟨.cons hx' hr.1, hr.2⟩
    | false =>
      obtain ⟨hacc, ⟨a, a', h1, h2, h3⟩, hc⟩ := (hx : Post.Opposite _ _)
      simp only at h1 h2 hc hacc
      subst h1; subst h2
      rcases hc with ⟨h4, h5⟩ | ⟨c, c', h4, h5, h6⟩
      · subst h4; subst h5
        exact (ih p).bind fun r r' hr => .ok ⟨.cons hx' hr.1, hr.2⟩
      · subst h4; subst h5
        simp only [recordPrices]
        rw [h3.2, h6.2]
        split
        · exact .error _
        · cases d with
          | none => exact .error _
          | some d =>
            refine (exchange_opposite p h3 h6 _).bind ?_
            rintro ⟨br, np⟩ ⟨br', np'⟩ ⟨g1, g2⟩
            simp only at g1 g2
            subst g2
            have step : ∀ q : Pool, Alongside (fun r r' : List Post × Pool => Three Post.Begun (false :: fl) r.1 r'.1 ∧ r.2 = r'.2)
                (recordPrices (some d) ps q >>= fun r => Except.ok (⟨acc, some br.amount, some c, no⟩ :: r.1, r.2))
                (recordPrices (some d) ps' q >>= fun r => Except.ok (⟨acc', some br'.amount, some c', no'⟩ :: r.1, r.2)) := by
              intro q
              have hn : Post.Begun false ⟨acc, some br.amount, some c, no⟩ ⟨acc', some br'.amount, some c', no'⟩ :=
                (⟨hacc, ⟨_, _, rfl, rfl, g1⟩, .inr ⟨_, _, rfl, rfl, h6⟩⟩ : Post.Opposite _ _)
              exact (ih q).bind fun r r' hr => .ok ⟨.cons hn hr.1, hr.2⟩
            cases np with
            | none => exact step p
            | some pr =>
              refine (Alongside.of_eq (rfl : p.addPriceStruct pr = _)).bind ?_
              rintro q _ rfl
              exact step q

/-- The inverse is the same for opposite amounts, and never above zero. -/
theorem inverse_opposite {a a' : Amount} (h : a.Opposite a') : a'.inverse = a.inverse ∧ a.inverse.qty.neg = true := by
  obtain ⟨⟨n, m, s⟩, c⟩ := a
  obtain ⟨⟨n', m', s'⟩, c'⟩ := a'
  obtain ⟨⟨h1, h2, _⟩, h3⟩ := h
  simp only at h1 h2 h3
  subst h1; subst h2; subst h3
  cases n <;> cases n' <;> exact ⟨rfl, rfl⟩

theorem fill_begun {fl : List Bool} {ps ps' : List Post} (h : Three Post.Begun fl ps ps') (k : Nat) (hk : fl[k]? = some true)
    (ho : ∀ m, m ≠ k → fl[m]? ≠ some true) {a : Amount} (ha : a.qty.neg = true) :
    Three Post.Turned fl (ps.modify k (fun p => { p with amount := some a })) (ps'.modify k (fun p => { p with amount := some a })) := by
  induction h generalizing k with
  | nil => simp at hk
  | @cons f p p' fl ps ps' hp ht ih =>
    cases k with
    | zero =>
      simp at hk
      subst hk
      simp only [Post.Begun, if_true] at hp
      obtain ⟨h0, h1, h2, _, _⟩ := hp
      refine .cons ⟨h0, h1, h2, a, rfl, rfl, ha⟩ ?_
      refine full_turned ?_ (begun_full ht ?_) ht.length.1 <;>
      · intro f hf
        cases f with
        | false => rfl
        | true =>
          obtain ⟨m, hm⟩ := List.getElem?_of_mem hf
          exact absurd (by simpa using hm) (ho (m + 1) (by omega))
    | succ k =>
      have hf : f = false := by
        cases f with
        | false => rfl
        | true => exact absurd rfl (ho 0 (by omega))
      subst hf
      exact .cons hp (ih k (by simpa using hk) fun m hm hc => ho (m + 1) (by omega) (by simpa using hc))

theorem assignCosts_length {c : Option Str} {u : Amount} {ps : List Post} {b : Balance} {r : List Post × Balance}
    (h : assignCosts c u ps b = .ok r) : r.1.length = ps.length := by
  induction ps generalizing b r with
  | nil => injection h with h; subst h; rfl
  | cons p ps ih =>
    obtain ⟨acc, am, co, no⟩ := p
    cases am with
    | none => cases h
    | some a =>
      simp only [assignCosts] at h
      split at h
      · simp only [bind, Except.bind] at h
        split at h
        · cases h
        · split at h
          · cases h
          · split at h
            · cases h
            · split at h
              · cases h
              · rename_i hr
                injection h with h
                subst h
                simp [ih hr]
      · simp only [bind, Except.bind] at h
        split at h
        · cases h
        · rename_i hr
          injection h with h
          subst h
          simp [ih hr]

theorem impliedCosts_length {ps : List Post} {b : Balance} {np : Option Nat} {r : List Post × Balance}
    (h : impliedCosts ps b np = .ok r) : r.1.length = ps.length := by
  unfold impliedCosts at h
  split at h
  · split at h
    · injection h with h; subst h; rfl
    · split at h
      · simp only [bind, Except.bind] at h
        split at h
        · cases h
        · exact assignCosts_length h
      · injection h with h; subst h; rfl
  · injection h with h; subst h; rfl

theorem finalize_length {x : Xact} {p : Pool} {r : Xact × Pool} (h : finalize x p = .ok r) :
    r.1.posts.length = x.posts.length := by
  obtain ⟨x', p'⟩ := r
  obtain ⟨b, np, ps1, b1, ps2, h1, _, h2, _, h4, rfl⟩ := finalize_ok x x' p p' h
  have h5 : ps2.length = ps1.length := by
    unfold fillNull at h4
    split at h4
    · injection h4 with h4; rw [h4]
    · split at h4
      · injection h4 with h4; rw [← h4, List.length_modify]
      · cases h4
  rw [h5]
  exact impliedCosts_length h2

theorem finalize_turned {fl : List Bool} {x x' : Xact} (hp : Three Post.Begun fl x.posts x'.posts) (hd : x'.date = x.date) (p : Pool) :
    Alongside (fun r r' => r.1.Turned fl r'.1 ∧ r.2 = r'.2) (finalize x p) (finalize x' p) := by
  by_cases hf : ∀ f ∈ fl, f = false
  · have h := finalize_opposite (x := x) (x' := x') ⟨begun_full hp hf, hd⟩ p
    cases hx : finalize x p with
    | error k =>
      rw [hx] at h
      cases hx' : finalize x' p with
      | error k' => rw [hx'] at h; cases h; exact .error _
      | ok _ => rw [hx'] at h; cases h
    | ok r =>
      rw [hx] at h
      cases hx' : finalize x' p with
      | error k' => rw [hx'] at h; cases h
      | ok r' =>
        rw [hx'] at h
        cases h with
        | ok h =>
          have hl : r.1.posts.length = fl.length := by
            rw [finalize_length hx, hp.length.1]
          exact .ok ⟨⟨full_turned hf h.1.1 hl, h.1.2⟩, h.2⟩
  · unfold finalize
    rw [hd, hp.length.1, hp.length.2]
    refine (sumPosts_begun hp 0 (b := Balance.empty) (b' := Balance.empty) .nil).bind ?_
    rintro ⟨b, np⟩ ⟨b', np'⟩ ⟨h1, h2, h3⟩
    simp only at h1 h2 h3
    subst h2
    rcases h3 with h3 | ⟨k, h3, h4, h5⟩
    · exact absurd h3 hf
    · subst h3
      simp only
      split
      · exact .error _
      · have e : ∀ (ps : List Post) (b : Balance), impliedCosts ps b (some (0 + k)) = .ok (ps, b) := fun _ _ => rfl
        rw [e, e]
        refine (recordPrices_begun x.date hp p).bind fun s s' h6 => ?_
        obtain ⟨l⟩ := b
        obtain ⟨l'⟩ := b'
        have h1' : List.Forall₂ Amount.Opposite l l' := h1
        rcases h1' with _ | ⟨hx, _ | ⟨hy, hl⟩⟩
        · exact .error _
        · rename_i a a'
          obtain ⟨g1, g2⟩ := inverse_opposite hx
          have := fill_begun h6.1 k h4 h5 g2
          refine .ok ⟨⟨?_, rfl⟩, h6.2⟩
          simpa [g1] using this
        · exact .error _

/-! ### booking -/

/-- The journals while a transaction is entered. -/
structure Entering (bs : List (List Bool)) (fl : List Bool) (i : Nat) (j j' : Journal) : Prop where
  master : j'.master = j.master
  pool : j'.pool = j.pool
  xacts : ∃ xs x xs' x', j.xacts = xs ++ [x] ∧ j'.xacts = xs' ++ [x'] ∧ xs.length = i ∧ xs'.length = i ∧
    Three Xact.Turned bs xs xs' ∧ Three Post.Begun fl x.posts x'.posts ∧ x'.date = x.date

theorem Entering.update {bs : List (List Bool)} {fl fl' : List Bool} {i : Nat} {j j' : Journal} (h : Entering bs fl i j j')
    {g g' : Xact → Xact} (hg : ∀ x x', Three Post.Begun fl x.posts x'.posts → x'.date = x.date →
      Three Post.Begun fl' (g x).posts (g' x').posts ∧ (g' x').date = (g x).date) :
    Entering bs fl' i (j.updateXact i g) (j'.updateXact i g') := by
  obtain ⟨xs, x, xs', x', h1, h2, h3, h4, h5, h6, h7⟩ := h.xacts
  refine ⟨h.master, h.pool, xs, g x, xs', g' x', ?_, ?_, h3, h4, h5, hg x x' h6 h7⟩
  · simp only [Journal.updateXact, h1, ← h3]; exact modify_last xs x g
  · simp only [Journal.updateXact, h2, ← h4]; exact modify_last xs' x' g'

theorem noteLast_begun (n : Str) {fl : List Bool} {ps ps' : List Post} (h : Three Post.Begun fl ps ps') :
    Three Post.Begun fl (Xact.noteLast n ps) (Xact.noteLast n ps') := by
  induction h with
  | nil => exact .nil
  | @cons f p p' fl ps ps' hp hl ih =>
    cases hl with
    | nil =>
      refine .cons ?_ .nil
      cases f with
      | true => exact hp
      | false =>
        have hp : p.Opposite p' := hp
        show Post.Opposite _ _
        exact ⟨hp.account, hp.amount, hp.cost⟩
    | cons hq hr => exact .cons hp ih

theorem Entering.notes {bs : List (List Bool)} {fl : List Bool} {i : Nat} {j j' : Journal} (h : Entering bs fl i j j')
    (ts : List Str) : Entering bs fl i (bookNotes i ts j) (bookNotes i ts j') := by
  induction ts generalizing j j' with
  | nil => exact h
  | cons t ts ih =>
    rw [bookNotes, bookNotes]
    apply ih
    split
    · exact h
    · refine h.update fun x x' hx hd => ?_
      have e : x'.posts = [] ↔ x.posts = [] := by
        rw [← List.length_eq_zero_iff, ← List.length_eq_zero_iff, hx.length.1, hx.length.2]
      unfold Xact.addNote
      simp only [e]
      split
      · exact ⟨hx, hd⟩
      · exact ⟨noteLast_begun t hx, hd⟩

theorem bookAmounts_blank (e : Entry) (he : e.amount = none) (p : Pool) :
    ∃ q, e.bookAmounts p = .ok (q, none, none) ∧ e.turned.bookAmounts p = .ok (q, none, none) := by
  obtain ⟨acc, am, lot, co, cs, st⟩ := e
  simp only at he
  subst he
  unfold Entry.bookAmounts
  cases co <;> exact ⟨_, rfl, rfl⟩

theorem book_turned (e : Entry) {bs : List (List Bool)} {fl : List Bool} {i : Nat} {j j' : Journal} (h : Entering bs fl i j j') :
    Alongside (Entering bs (fl ++ [e.amount.isNone]) i) (e.book i j) (e.turned.book i j') := by
  unfold Entry.book
  have hr : Alongside (fun r r' => Entering bs fl i r.1 r'.1 ∧ r.2 = r'.2) (j.registerAccount e.account)
      (j'.registerAccount e.turned.account) := by
    unfold Journal.registerAccount
    have ea : e.turned.account = e.account := rfl
    rw [ea, h.master]
    split
    · exact .error _
    · refine (Alongside.of_eq (rfl : j.master.findOrCreate e.account true = _)).bind ?_
      rintro ⟨m, a⟩ _ rfl
      exact .ok ⟨⟨rfl, h.pool, h.xacts⟩, rfl⟩
  refine hr.bind ?_
  rintro ⟨j1, a⟩ ⟨j1', a'⟩ ⟨h1, h2⟩
  simp only at h1 h2
  subst h2
  cases a with
  | none => exact .error _
  | some path =>
    simp only [h1.pool]
    have hb : Alongside (fun r r' => r'.1 = r.1 ∧ Post.Begun e.amount.isNone ⟨path, r.2.1, r.2.2, none⟩ ⟨path, r'.2.1, r'.2.2, none⟩)
        (e.bookAmounts j1.pool) (e.turned.bookAmounts j1.pool) := by
      cases he : e.amount with
      | none =>
        obtain ⟨q, g1, g2⟩ := bookAmounts_blank e he j1.pool
        rw [g1, g2]
        exact .ok ⟨rfl, rfl, rfl, rfl, rfl, rfl⟩
      | some a =>
        have := bookAmounts_opposite e (by rw [he]; simp) j1.pool
        generalize e.bookAmounts j1.pool = r at this ⊢
        generalize e.turned.bookAmounts j1.pool = r' at this ⊢
        cases this with
        | error k => exact .error k
        | ok h =>
          obtain ⟨h3, a, a', h4, h5, h6, h7⟩ := h
          refine .ok ⟨h3, ?_⟩
          show Post.Opposite _ _
          exact ⟨rfl, ⟨a, a', h4, h5, h6⟩, h7⟩
    refine hb.bind ?_
    rintro ⟨p, am, co⟩ ⟨p', am', co'⟩ ⟨h3, h4⟩
    simp only at h3 h4
    subst h3
    have hn : (match j1.xacts[i]? with | some x => x.posts.length | none => 0) =
        (match j1'.xacts[i]? with | some x => x.posts.length | none => 0) := by
      obtain ⟨xs, x, xs', x', g1, g2, g3, g4, _, g6, _⟩ := h1.xacts
      rw [g1, g2]
      have e1 : (xs ++ [x])[i]? = some x := by rw [← g3]; simp
      have e2 : (xs' ++ [x'])[i]? = some x' := by rw [← g4]; simp
      rw [e1, e2]
      simp only [g6.length.1, g6.length.2]
    have hs : Entering bs fl i { j1 with pool := p' } { j1' with pool := p' } := ⟨h1.master, rfl, h1.xacts⟩
    have hu := hs.update (g := fun x => { x with posts := x.posts ++ [Post.mk path am co none] })
      (g' := fun x => { x with posts := x.posts ++ [Post.mk path am' co' none] })
      (fl' := fl ++ [e.amount.isNone]) (fun x x' hx hd => ⟨hx.append (.cons h4 .nil), hd⟩)
    refine .ok ⟨?_, hu.pool, hu.xacts⟩
    simp only [hu.master]
    exact congrArg _ (congrArg (Prod.mk i) hn.symm)

theorem bookEntries_turned (es : List Entry) {bs : List (List Bool)} {fl : List Bool} {i : Nat} {j j' : Journal}
    (h : Entering bs fl i j j') : Alongside (Entering bs (fl ++ es.map (fun e => e.amount.isNone)) i) (bookEntries i es j)
      (bookEntries i (es.map Entry.turned) j') := by
  induction es generalizing fl j j' with
  | nil => simp only [List.map_nil, List.append_nil]; exact .ok h
  | cons e es ih =>
    refine (book_turned e h).bind fun k k' hk => ?_
    have := ih (hk.notes e.comments)
    rw [List.append_assoc] at this
    exact this

theorem bookWritings_turned (ws : List Writing) {bs : List (List Bool)} {j j' : Journal} (h : TurnedBooks bs j j') :
    Alongside (TurnedBooks (bs ++ ws.map Writing.blanks)) (bookWritings ws j).res
      (bookWritings (ws.map Writing.turned) j').res := by
  induction ws generalizing bs j j' with
  | nil => simp only [List.map_nil, List.append_nil]; exact .ok h
  | cons w ws ih =>
    rw [List.map_cons (f := Writing.turned), bookWritings, bookWritings, Trace.bind_res', Trace.bind_res']
    have hb : Alongside (TurnedBooks (bs ++ [w.blanks])) (w.book j).res (w.turned.book j').res := by
      unfold Writing.book
      rw [Trace.bind_res', Trace.bind_res', Trace.lift, Trace.lift]
      have he : Alongside (Entering bs w.blanks j.xacts.length) (w.enter j) (w.turned.enter j') := by
        unfold Writing.enter
        have hl : j'.xacts.length = j.xacts.length := by rw [h.xacts.length.1, h.xacts.length.2]
        simp only [Journal.addXact, hl]
        refine bookEntries_turned w.entries (fl := []) (Entering.notes ?_ _)
        exact ⟨h.master, h.pool, _, _, _, _, rfl, rfl, rfl, hl, h.xacts, .nil, rfl⟩
      refine he.bind fun k k' hk => ?_
      have hl : j'.xacts.length = j.xacts.length := by rw [h.xacts.length.1, h.xacts.length.2]
      rw [Trace.finalizeXact_res, Trace.finalizeXact_res, hl]
      unfold Parser.finalizeXact
      obtain ⟨xs, x, xs', x', g1, g2, g3, g4, g5, g6, g7⟩ := hk.xacts
      have e1 : k.xacts[j.xacts.length]? = some x := by rw [g1, ← g3]; simp
      have e2 : k'.xacts[j.xacts.length]? = some x' := by rw [g2, ← g4]; simp
      rw [e1, e2]
      simp only [hk.pool]
      refine (finalize_turned g6 g7 k.pool).bind fun r r' hr => ?_
      refine .ok ⟨hk.master, ?_, hr.2.symm⟩
      have s1 : k.xacts.set j.xacts.length r.1 = xs ++ [r.1] := by rw [g1, ← g3]; simp
      have s2 : k'.xacts.set j.xacts.length r'.1 = xs' ++ [r'.1] := by rw [g2, ← g4]; simp
      simp only [s1, s2]
      exact g5.append (.cons hr.1 .nil)
    refine hb.bind fun k k' hk => ?_
    have := ih hk
    simpa [List.append_assoc] using this

theorem turned_posts {fl : List Bool} {ps ps' : List Post} (h : Three Post.Turned fl ps ps')
    (hz : ∀ (n : Nat) (p : Post) (a : Amount), fl[n]? = some true → ps[n]? = some p → p.amount = some a → a.isZero = true) :
    List.Forall₂ Post.Opposite ps ps' := by
  induction h with
  | nil => exact .nil
  | @cons f p p' fl ps ps' hp _ ih =>
    refine .cons ?_ (ih fun n p a hf hp ha => hz (n + 1) p a (by simpa using hf) (by simpa using hp) ha)
    cases f with
    | false => exact hp
    | true =>
      simp only [Post.Turned, if_true] at hp
      obtain ⟨g1, g2, g3, a, g4, g5, _⟩ := hp
      have := hz 0 p a rfl rfl g4
      refine ⟨g1, ⟨a, a, g4, g5, ⟨rfl, rfl, .inl ?_⟩, rfl⟩, .inl ⟨g2, g3⟩⟩
      simpa [Amount.isZero, Dec.isZero] using this

theorem turned_opposite_iff {bs : List (List Bool)} {j j' : Journal} (h : TurnedBooks bs j j') :
    OppositeBooks j j' ↔ ∀ (i n : Nat) (fl : List Bool) (p : Post) (a : Amount), bs[i]? = some fl → fl[n]? = some true → j.postAt (i, n) = some p →
      p.amount = some a → a.isZero = true := by
  constructor
  · intro ho i n fl p a hb hf hp ha
    obtain ⟨x, x', h1, h2, h3⟩ := h.xacts.get i hb
    obtain ⟨q, q', h4, h5, h6⟩ := h3.1.get n hf
    have hq : j.postAt (i, n) = some q := by simp only [Journal.postAt, h1]; exact h4
    have hq' : j'.postAt (i, n) = some q' := by simp only [Journal.postAt, h2]; exact h5
    rw [hp] at hq
    injection hq with hq
    subst hq
    simp only [Post.Turned, if_true] at h6
    obtain ⟨_, _, _, c, g1, g2, _⟩ := h6
    rw [ha] at g1
    injection g1 with g1
    subst g1
    rcases postAt_opposite ho (i, n) with ⟨q1, _⟩ | ⟨y, y', q1, q2, q3⟩
    · rw [hp] at q1; cases q1
    · rw [hp] at q1
      rw [hq'] at q2
      injection q1 with q1
      injection q2 with q2
      subst q1; subst q2
      obtain ⟨d, d', e1, e2, e3⟩ := q3.amount
      rw [ha] at e1
      rw [g2] at e2
      injection e1 with e1
      injection e2 with e2
      subst e1; subst e2
      rcases e3.1.2.2 with e | e
      · simp [Amount.isZero, Dec.isZero, e]
      · cases hn : a.qty.neg <;> rw [hn] at e <;> cases e
  · intro hz
    refine ⟨h.master, ?_, h.pool⟩
    have hx := h.xacts
    have hz' : ∀ (i : Nat) (fl : List Bool) (x : Xact), bs[i]? = some fl → j.xacts[i]? = some x →
        ∀ (n : Nat) (p : Post) (a : Amount), fl[n]? = some true → x.posts[n]? = some p →
        p.amount = some a → a.isZero = true := by
      intro i fl x hb hx n p a hf hp ha
      exact hz i n fl p a hb hf (by simp only [Journal.postAt, hx]; exact hp) ha
    clear hz h
    generalize j.xacts = xs at hx hz' ⊢
    generalize j'.xacts = xs' at hx ⊢
    induction hx with
    | nil => exact .nil
    | @cons fl x x' bs xs xs' hx _ ih =>
      refine .cons ⟨?_, hx.2⟩ (ih fun i fl x hb hx => hz' (i + 1) fl x (by simpa using hb) (by simpa using hx))
      exact turned_posts hx.1 (hz' 0 fl x rfl rfl)

end Ledger
