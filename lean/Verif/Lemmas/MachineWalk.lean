import Verif.Lemmas.MachineFresh
/-
The program with its pointers completes a transaction exactly if its pointers are fresh.
-/
namespace Ledger.Machine
open Ledger Ledger.Memory Ledger.Heap Ledger.Parser

theorem entryMentions_append (a b : List Entry) : entryMentions (a ++ b) = entryMentions a ++ entryMentions b := List.flatMap_append

theorem entryMentions_cons (e : Entry) (b : List Entry) : entryMentions (e :: b) = e.mentions ++ entryMentions b := rfl

theorem mentions_split (M : List Str) {es a b : List Entry} {e : Entry} (h : es = a ++ e :: b) :
    M ++ entryMentions a ++ e.mentions <+: M ++ entryMentions es := by
  rw [h, entryMentions_append, entryMentions_cons]
  simp only [← List.append_assoc]
  exact List.prefix_append _ _

theorem holder_prefix (M : List Str) (e : Entry) : M ++ e.holder.toList <+: M ++ e.mentions := by
  unfold Entry.mentions
  simp only [List.append_assoc]
  rw [← List.append_assoc]
  exact List.prefix_append _ _

theorem holder_of {e : Entry} {s : Str} (h : e.commodity = some s) : e.holder = some s := by
  unfold Entry.holder; rw [h]; rfl

theorem Stamps.get {M : List Str} {es : List Entry} {l : List (Option Amt × Option Amt)} (h : Stamps M es l) {a b : List Entry} {e : Entry}
    (he : es = a ++ e :: b) : ∃ am c, l[a.length]? = some (am, c) ∧ Stamp (M ++ entryMentions a) e am c := by
  induction a generalizing M es l with
  | nil =>
    subst he
    cases h with
    | cons h t => exact ⟨_, _, rfl, by simpa [entryMentions] using h⟩
  | cons x a ih =>
    subst he
    cases h with
    | cons h t =>
      obtain ⟨am, c, h1, h2⟩ := ih t rfl
      refine ⟨am, c, by simpa using h1, ?_⟩
      rw [entryMentions_cons, ← List.append_assoc]; exact h2

theorem Stamps.at {M : List Str} {es : List Entry} {l : List (Option Amt × Option Amt)} (h : Stamps M es l) {i : Nat} {am c : Option Amt}
    (hi : l[i]? = some (am, c)) : ∃ a e b, es = a ++ e :: b ∧ a.length = i ∧ Stamp (M ++ entryMentions a) e am c := by
  have hlen : es.length = l.length := by
    clear hi
    induction h with
    | nil => rfl
    | cons _ _ ih => simp [ih]
  have hil : i < es.length := by rw [hlen]; exact (List.getElem?_eq_some_iff.mp hi).1
  have hsplit : es = es.take i ++ es[i] :: es.drop (i + 1) := by simp
  have hti : (es.take i).length = i := by simp; omega
  obtain ⟨am', c', h1, h2⟩ := h.get hsplit
  rw [hti, hi] at h1
  injection h1 with h1
  obtain ⟨rfl, rfl⟩ := fst_ext h1
  exact ⟨_, _, _, hsplit, hti, h2⟩

/-- A transaction up to its completion. -/
theorem xact_opened {header : Str} {body tail rest r2 : Source} {w : Writing} (hb : BodyReads body w.comments w.entries tail)
    (ht : AfterXact tail rest) {M : List Str} {j j1 j2 : Journal} {i : Nat} {J : Jrn} (hj : JrnR j J) (hT : Timed M J.store)
    (h1 : Parser.createXact header j = .ok (j1, i)) (h2 : Parser.readBody i body j1 = .ok (j2, r2)) :
    i = j.xacts.length ∧ ∃ J2 x2 X2, j2.xacts = j.xacts ++ [x2] ∧ J2.xacts = J.xacts ++ [X2] ∧ JrnR j2 J2 ∧
      Timed (M ++ entryMentions w.entries) J2.store ∧ Stamps M w.entries (X2.posts.map Pst.money) ∧
      xactDirective header body J = (finalizeXact J.xacts.length J2 >>= fun J => .ok (J, rest)) := by
  have s1 := createXact_sim header hj
  rw [h1] at s1
  cases hM1 : createXact header J with
  | error e => rw [hM1] at s1; exact s1.2.elim
  | ok V =>
    obtain ⟨J1, I⟩ := V
    rw [hM1] at s1
    obtain ⟨r1, e1, e2, x1, hx1⟩ := s1
    simp only at r1 e1 e2 hx1
    subst e1
    have hc : J1.store = J.store ∧ ∃ X1, J1.xacts = J.xacts ++ [X1] ∧ X1.posts = [] := by
      unfold createXact at hM1
      obtain ⟨⟨_, _, _, _⟩, _, hM1⟩ := bind_ok hM1
      simp only at hM1
      obtain ⟨x, _, hM1⟩ := bind_ok hM1
      injection hM1 with hM1
      rw [← (fst_ext hM1).1]
      exact ⟨rfl, _, rfl, rfl⟩
    obtain ⟨c1, X1, c2, c3⟩ := hc
    have hlen : i = J.xacts.length := by rw [e2]; exact hj.xacts.length_eq
    have s2 := readBody_sim body r1 hx1
    rw [← e2, h2] at s2
    cases hM2 : readBody i body J1 with
    | error e => rw [hM2] at s2; exact s2.2.elim
    | ok V =>
      obtain ⟨J2, R2⟩ := V
      rw [hM2] at s2
      obtain ⟨r2', e3⟩ := s2
      simp only at r2' e3
      have hM2' := hM2
      rw [hlen] at hM2'
      obtain ⟨b1, b2, X2, l, b3, b4, b5⟩ := body_timed hb ht c2 (c1 ▸ hT) hM2'
      rw [c3] at b4
      simp only [List.map_nil, List.nil_append] at b4
      have hx2 : ∃ x2, j2.xacts = j.xacts ++ [x2] := by
        rw [e2] at h2
        obtain ⟨x2, g, _⟩ := readBody_ok hx1 h2
        exact ⟨x2, g⟩
      obtain ⟨x2, hx2⟩ := hx2
      refine ⟨e2, J2, x2, X2, hx2, b3, r2', b2, b4 ▸ b5, ?_⟩
      unfold xactDirective
      rw [hM1]
      show (readBody i body J1 >>= _) = _
      rw [hM2]
      show (finalizeXact i J2 >>= _) = _
      rw [hlen, b1]

/-- A transaction that is read, up to its completion. -/
theorem xact_parts {header : Str} {body tail rest rest' : Source} {w : Writing} (hb : BodyReads body w.comments w.entries tail)
    (ht : AfterXact tail rest) {M : List Str} {j j' : Journal} {J : Jrn} (hj : JrnR j J) (hT : Timed M J.store)
    (h : Parser.xactDirective header body j = .ok (j', rest')) :
    ∃ j2 J2 x2 X2, j2.xacts = j.xacts ++ [x2] ∧ J2.xacts = J.xacts ++ [X2] ∧ JrnR j2 J2 ∧ Timed (M ++ entryMentions w.entries) J2.store ∧
      Stamps M w.entries (X2.posts.map Pst.money) ∧ Parser.finalizeXact j.xacts.length j2 = .ok j' ∧
      xactDirective header body J = (finalizeXact J.xacts.length J2 >>= fun J => .ok (J, rest)) := by
  unfold Parser.xactDirective at h
  obtain ⟨⟨j1, i⟩, h1, h⟩ := bind_ok h
  simp only at h
  obtain ⟨⟨j2, r2⟩, h2, h⟩ := bind_ok h
  simp only at h
  obtain ⟨j3, h3, h⟩ := bind_ok h
  injection h with h
  rw [← (fst_ext h).1]
  obtain ⟨e2, J2, x2, X2, a1, a2, a3, a4, a5, a6⟩ := xact_opened hb ht hj hT h1 h2
  exact ⟨j2, J2, x2, X2, a1, a2, a3, a4, a5, e2 ▸ h3, a6⟩



/-- What becomes of the written amounts and costs. -/
theorem settles_costs {w w' : Writing} (h : Settles w w') :
    List.Forall₂ (fun e e' => e.amount ≠ none → e'.amount = e.amount ∧ (e'.cost ≠ none ↔ Costed w e)) w.entries w'.entries := by
  have same : ∀ es : List Entry, (∀ e ∈ es, e.amount ≠ none → ∀ A B, ¬ ImpliedBy w A B) →
      List.Forall₂ (fun e e' => e.amount ≠ none → e'.amount = e.amount ∧ (e'.cost ≠ none ↔ Costed w e)) es es := by
    intro es hes
    induction es with
    | nil => exact .nil
    | cons e es ih =>
      refine .cons (fun hn => ⟨rfl, Or.inl, ?_⟩) (ih (fun x hx => hes x (by simp [hx])))
      rintro (h | ⟨A, B, h, _⟩)
      · exact h
      · exact absurd h (hes e (by simp) hn A B)
  cases h with
  | kept ha hn => exact same _ (fun _ _ _ => hn)
  | filled l r e a h he hq ha hd hx =>
    have hno : ∀ A B, ¬ ImpliedBy w A B := by
      intro A B hi
      exact hi.1 e (by rw [h]; simp) he
    simp only
    rw [h]
    refine List.rel_append (same l (fun _ _ _ => hno)) (.cons (fun hn => absurd he hn) (same r (fun _ _ _ => hno)))
  | rated A B u es hi hu hes =>
    refine hes.imp ?_
    rintro e e' (⟨h1, a, k, h2, h3, h4, rfl⟩ | ⟨h1, rfl⟩) hn
    · exact ⟨rfl, fun _ => Or.inr ⟨A, B, hi, h1⟩, fun _ => by simp⟩
    · refine ⟨rfl, Or.inl, ?_⟩
      rintro (h | ⟨A', B', h, h'⟩)
      · exact h
      · obtain ⟨rfl, rfl⟩ := impliedBy_unique hi h
        exact absurd h' h1

/-- A written cost belongs to an amount in a commodity. -/
theorem cost_commodity {w : Writing} (hf : ¬ Faulty w) {e : Entry} (he : e ∈ w.entries) (hc : e.cost ≠ none) {a : Amount} (ha : e.amount = some a) :
    ∃ s, e.commodity = some s := by
  unfold Entry.commodity
  rw [ha, Option.bind_some]
  cases h : a.comm with
  | some s => exact ⟨s, rfl⟩
  | none =>
    exfalso
    apply hf
    by_cases hk : ∃ B, ImpliedBy w none B
    · obtain ⟨B, hk⟩ := hk
      exact .rate none B hk e a he ha h (Or.inl rfl)
    · exact .cost e a he ha hc (Or.inl h) (by rw [h]; exact fun B hB => hk ⟨B, hB⟩)

/-- The first mention of a name. -/
theorem first_mention {N : List Str} {s : Str} {i : Nat} (hi : (firsts N)[i]? = some s) :
    ∃ pre, pre <+: N ∧ s ∈ pre ∧ (firsts pre).length = i + 1 := by
  have hs : s ∈ N := mem_firsts.mp (List.mem_of_getElem? hi)
  obtain ⟨a, b, h, hn⟩ := List.eq_append_cons_of_mem hs
  have hp : a ++ [s] <+: N := ⟨b, by rw [h]; simp⟩
  refine ⟨a ++ [s], hp, by simp, ?_⟩
  have hf : firsts (a ++ [s]) = firsts a ++ [s] := by rw [firsts_snoc, if_neg (fun h => hn (mem_firsts.mp h))]
  rw [hf, List.length_append, List.length_singleton]
  obtain ⟨t, ht⟩ := firsts_prefix hp
  rw [hf] at ht
  have hnd := firsts_nodup N
  obtain ⟨l1, e1⟩ := List.getElem?_eq_some_iff.mp hi
  have h2 : (firsts N)[(firsts a).length]? = some s := by
    rw [← ht, List.append_assoc, List.getElem?_append_right (by omega)]
    simp
  obtain ⟨l2, e2⟩ := List.getElem?_eq_some_iff.mp h2
  have := (hnd.getElem_inj_iff).mp (e2.trans e1.symm)
  omega

/-- A name that is mentioned is among the names at its place. -/
theorem place_first {N pre : List Str} {s : Str} {i : Nat} (hi : (firsts N)[i]? = some s) (hp : pre <+: N) (hs : s ∈ pre) :
    tableBlock (i + 1) ≤ place pre := by
  unfold place
  refine block_mono (next := tableNext) (stays := fun _ => false) ?_
  obtain ⟨t, ht⟩ := firsts_prefix hp
  obtain ⟨k, hk⟩ := List.mem_iff_getElem?.mp (mem_firsts.mpr hs)
  have hkl := (List.getElem?_eq_some_iff.mp hk).1
  have h2 : (firsts N)[k]? = some s := by rw [← ht, List.getElem?_append_left hkl]; exact hk
  obtain ⟨l1, e1⟩ := List.getElem?_eq_some_iff.mp hi
  obtain ⟨l2, e2⟩ := List.getElem?_eq_some_iff.mp h2
  have := ((firsts_nodup N).getElem_inj_iff).mp (e2.trans e1.symm)
  omega

theorem Timed.block {M : List Str} {p : Store} (h : Timed M p) : tableBlock p.keys.length = place M := by rw [h.keys]; rfl

theorem look_block {p : Store} {A : Amt} (h : Live p A) {y : Addr} (hy : A.ptr = some y) : y.block = tableBlock p.keys.length := by
  obtain ⟨c, h⟩ := h
  rw [hy] at h
  unfold Store.look at h
  simp only at h
  obtain ⟨d, hd, _⟩ := bind_ok h
  unfold Store.deref at hd
  split at hd
  · assumption
  · cases hd

/-- Where the pointers of a transaction in the journal come from. -/
structure Origin (M : List Str) (w : Writing) (X : Xct) : Prop where
  amount : ∀ l e r s, w.entries = l ++ e :: r → e.commodity = some s →
    ∃ P A x, X.posts[l.length]? = some P ∧ P.amount = some A ∧ A.ptr = some x ∧ x.block = place (M ++ entryMentions l ++ [s])
  back : ∀ P ∈ X.posts, ∀ A x, P.amount = some A → A.ptr = some x → ∃ l e r s pre, w.entries = l ++ e :: r ∧ e.commodity = some s ∧
    M ++ entryMentions l ++ [s] <+: pre ∧ pre <+: M ++ entryMentions w.entries ∧ x.block = place pre

theorem stamp_amount {M : List Str} {e : Entry} {am c : Option Amt} (h : Stamp M e am c) {s : Str} (hs : e.commodity = some s) :
    ∃ A x, am = some A ∧ A.ptr = some x ∧ x.block = place (M ++ [s]) := by
  unfold Entry.commodity at hs
  obtain ⟨a, ha, hc⟩ := Option.bind_eq_some_iff.mp hs
  obtain ⟨A, h1, _, h2⟩ := h.amount a ha
  obtain ⟨x, h3, h4, _⟩ := h2 s hc
  exact ⟨A, x, h1, h3, h4⟩

theorem stamp_commodity {M : List Str} {e : Entry} {am c : Option Amt} (h : Stamp M e am c) {A : Amt} {x : Addr} (hA : am = some A)
    (hx : A.ptr = some x) : ∃ s, e.commodity = some s ∧ x.block = place (M ++ [s]) ∧ (firsts (M ++ [s]))[x.slot]? = some s := by
  cases ha : e.amount with
  | none => rw [(h.blank ha).1] at hA; cases hA
  | some a =>
    obtain ⟨A', h1, h2, h3⟩ := h.amount a ha
    rw [hA] at h1
    injection h1 with h1
    subst h1
    cases hc : a.comm with
    | none => rw [h2 hc] at hx; cases hx
    | some s =>
      obtain ⟨y, h4, h5, h6⟩ := h3 s hc
      rw [hx] at h4
      injection h4 with h4
      exact ⟨s, by unfold Entry.commodity; rw [ha, Option.bind_some]; exact hc, by rw [h4]; exact h5, by rw [h4]; exact h6⟩

theorem money_get {X : Xct} {i : Nat} {am c : Option Amt} (h : (X.posts.map Pst.money)[i]? = some (am, c)) :
    ∃ P, X.posts[i]? = some P ∧ P.amount = am ∧ P.cost = c := by
  rw [List.getElem?_map] at h
  cases hp : X.posts[i]? with
  | none => rw [hp] at h; cases h
  | some P =>
    rw [hp] at h
    injection h with h
    exact ⟨P, rfl, (fst_ext h).1, (fst_ext h).2⟩

theorem get_money {X : Xct} {i : Nat} {P : Pst} (h : X.posts[i]? = some P) : (X.posts.map Pst.money)[i]? = some (P.amount, P.cost) := by
  rw [List.getElem?_map, h]; rfl

theorem stamps_origin {M : List Str} {w : Writing} (hf : ¬ Faulty w) {X X' : Xct} (hs : Stamps M w.entries (X.posts.map Pst.money))
    {date : Option Date} {p p' : Store} (h : finalize date X.posts p = .ok (X'.posts, p')) : Origin M w X' := by
  obtain ⟨hlen, hback⟩ := finalize_amounts h
  refine ⟨?_, ?_⟩
  · intro l e r s he hc
    obtain ⟨am, c, g1, g2⟩ := hs.get he
    obtain ⟨P, k1, k2, k3⟩ := money_get g1
    obtain ⟨A, x, a1, a2, a3⟩ := stamp_amount g2 hc
    have hl : l.length < X'.posts.length := by rw [hlen]; exact (List.getElem?_eq_some_iff.mp k1).1
    obtain ⟨P0, q1, q2⟩ := hback l.length _ (List.getElem?_eq_getElem hl)
    rw [k1] at q1
    injection q1 with q1
    subst q1
    refine ⟨_, A, x, List.getElem?_eq_getElem hl, ?_, a2, a3⟩
    rcases q2 with q2 | ⟨q2, _⟩
    · rw [q2, k2, a1]
    · rw [k2, a1] at q2; cases q2
  · intro P' hP' A x hA hx
    have own : ∀ (i : Nat) P B, X.posts[i]? = some P → P.amount = some B → B.ptr = some x → ∃ l e r s pre, w.entries = l ++ e :: r ∧ e.commodity = some s ∧
        M ++ entryMentions l ++ [s] <+: pre ∧ pre <+: M ++ entryMentions w.entries ∧ x.block = place pre := by
      intro i P B h1 h2 h3
      obtain ⟨l, e, r, he, _, hst⟩ := hs.at (get_money h1)
      obtain ⟨s, k1, k2, k3⟩ := stamp_commodity hst h2 h3
      refine ⟨l, e, r, s, _, he, k1, List.prefix_rfl, ?_, k2⟩
      refine List.IsPrefix.trans ?_ (mentions_split M he)
      have := holder_prefix (M ++ entryMentions l) e
      rw [holder_of k1] at this
      exact this
    obtain ⟨i, hi⟩ := List.mem_iff_getElem?.mp hP'
    obtain ⟨P, k1, k2⟩ := hback i P' hi
    rcases k2 with k2 | ⟨_, A', Y, f, k3, hY, k4, k5⟩
    · exact own i P A k1 (k2 ▸ hA) hx
    · rw [hA] at k3
      injection k3 with k3
      subst k3
      rw [hx] at k5
      obtain ⟨n, hn⟩ := List.mem_iff_getElem?.mp hY
      unfold Pst.figure at k4
      cases hc : Y.cost with
      | none => simp only [hc] at k4; exact own n Y f hn k4 k5.symm
      | some C =>
        simp only [hc, Option.some.injEq] at k4
        subst k4
        obtain ⟨l, e, r, he, _, hst⟩ := hs.at (get_money hn)
        obtain ⟨pre, p1, p2, p3, _⟩ := hst.costPtr C x hc k5.symm
        have hec : e.cost ≠ none := by intro h; rw [hst.cost.mp h] at hc; cases hc
        cases hea : e.amount with
        | none => rw [(hst.blank hea).2] at hc; cases hc
        | some a =>
          obtain ⟨s, hs⟩ := cost_commodity hf (by rw [he]; simp) hec hea
          rw [holder_of hs] at p1
          exact ⟨l, e, r, s, pre, he, hs, p1, p2.trans (mentions_split M he), p3⟩

/-- A transaction whose pointers are fresh is completed as it would be without pointers. -/
theorem fresh_finalize {M : List Str} {w : Writing} {j2 : Journal} {J2 : Jrn} {x2 : Xact} {X2 : Xct} (hj2 : JrnR j2 J2)
    (hT2 : Timed (M ++ entryMentions w.entries) J2.store) (hst : Stamps M w.entries (X2.posts.map Pst.money)) (hxr : XctR J2.store.keys x2 X2)
    (hcost : ∀ b np r1 r2, Finalize.sumPosts x2.posts 0 Balance.empty none = .ok (b, np) → Finalize.impliedCosts x2.posts b np = .ok (r1, r2) →
      ∀ (i : Nat) (q : Post) (e : Entry), r1[i]? = some q → q.cost ≠ none → w.entries[i]? = some e → e.amount ≠ none → Costed w e)
    (hf : XactFresh M w) :
    (∀ z, Finalize.finalize x2 j2.pool = .ok z → ∃ V, finalize X2.date X2.posts J2.store = .ok V) ∧
    ∀ k, Finalize.finalize x2 j2.pool = .error k → finalize X2.date X2.posts J2.store = .error k := by
  obtain ⟨⟨F1, F2⟩, F3⟩ := hf
  have hp := hj2.fine
  have fresh : ∀ l e r s pre, w.entries = l ++ e :: r → e.commodity = some s → M ++ entryMentions l ++ [s] <+: pre →
      pre <+: M ++ entryMentions w.entries → place pre = tableBlock J2.store.keys.length := by
    intro l e r s pre he hs h1 h2
    rw [hT2.block]
    exact place_between ((moves_place (by simp) (h1.trans h2)).mp (F1 l e r s he hs)) h1 h2
  have hposts : List.Forall₂ (PostRQ J2.store.keys (Now J2.store)) x2.posts X2.posts := by
    have hall : ∀ (i : Nat) P, X2.posts[i]? = some P → (∀ A, P.amount = some A → ∀ x, A.ptr = some x → x.block = tableBlock J2.store.keys.length) ∧
        ∀ A, P.cost = some A → ∀ x, A.ptr = some x → x.block = tableBlock J2.store.keys.length := by
      intro i P hP
      obtain ⟨l, e, r, he, _, hs⟩ := hst.at (get_money hP)
      refine ⟨?_, ?_⟩
      · intro A hA x hx
        obtain ⟨s, k1, k2, k3⟩ := stamp_commodity hs hA hx
        rw [k2]
        refine fresh l e r s _ he k1 List.prefix_rfl ?_
        refine List.IsPrefix.trans ?_ (mentions_split M he)
        have := holder_prefix (M ++ entryMentions l) e
        rw [holder_of k1] at this
        exact this
      · intro C hC x hx
        obtain ⟨pre, p1, p2, p3, p4⟩ := hs.costPtr C x hC hx
        have hec : e.cost ≠ none := by intro h; rw [hs.cost.mp h] at hC; cases hC
        cases hea : e.amount with
        | none => rw [(hs.blank hea).2] at hC; cases hC
        | some a =>
          cases hcm : e.commodity with
          | some s =>
            rw [holder_of hcm] at p1
            rw [p3]
            exact fresh l e r s pre he hcm p1 (p2.trans (mentions_split M he))
          | none =>
            obtain ⟨p5, p6⟩ := p4 hcm
            rw [p3, hT2.block]
            exact (moves_place p6 (p2.trans (mentions_split M he))).mp (p5 ▸ F3 l e r he hcm hec)
    have hgen : ∀ {xs : List Post} {XS : List Pst}, List.Forall₂ (PostR J2.store.keys) xs XS →
        (∀ P ∈ XS, (∀ A, P.amount = some A → ∀ x, A.ptr = some x → x.block = tableBlock J2.store.keys.length) ∧
          ∀ A, P.cost = some A → ∀ x, A.ptr = some x → x.block = tableBlock J2.store.keys.length) →
        List.Forall₂ (PostRQ J2.store.keys (Now J2.store)) xs XS := by
      intro xs XS hf
      induction hf with
      | nil => exact fun _ => .nil
      | cons h _ ih =>
        intro hP
        refine .cons ⟨⟨h.amount.1, ?_⟩, ⟨h.cost.1, ?_⟩, h.note⟩ (ih (fun P hP' => hP P (by simp [hP'])))
        · exact fun A hA x hx => ⟨h.amount.2 A hA x hx, (hP _ (by simp)).1 A hA x hx⟩
        · exact fun A hA x hx => ⟨h.cost.2 A hA x hx, (hP _ (by simp)).2 A hA x hx⟩
    refine hgen hxr.posts ?_
    intro P hP
    obtain ⟨i, hi⟩ := List.mem_iff_getElem?.mp hP
    exact hall i P hi
  have hnodes : ∀ b np r1 r2, Finalize.sumPosts x2.posts 0 Balance.empty none = .ok (b, np) → Finalize.impliedCosts x2.posts b np = .ok (r1, r2) →
      ∀ (i : Nat) (q : Post) (X : Pst) (A : Amt), r1[i]? = some q → q.cost ≠ none → X2.posts[i]? = some X → X.amount = some A →
        NodesQ J2.store (Now J2.store) A := by
    intro b np r1 r2 e1 e2 i q X A hq hqc hX hA
    obtain ⟨l, e, r, he, hli, hs⟩ := hst.at (get_money hX)
    have hcosted : e.amount ≠ none → Costed w e := hcost b np r1 r2 e1 e2 i q e hq hqc (by rw [he, ← hli]; simp)
    -- all that is found in the pool is fresh
    have key : ∀ y c n, A.ptr = some y → J2.store.deref y = .ok c → J2.store.nodes[c.graphIndex]? = some n →
        ∃ s, e.commodity = some s ∧ keyAt J2.store.keys n.slot = s ∧ n.block = tableBlock J2.store.keys.length ∧
          ∀ pre, pre <+: M ++ entryMentions w.entries → s ∈ pre → place pre = tableBlock J2.store.keys.length := by
      intro y c n hy hc hn
      obtain ⟨s, k1, k2, k3⟩ := stamp_commodity hs hA hy
      have hea : e.amount ≠ none := by
        intro h; unfold Entry.commodity at k1; rw [h] at k1; cases k1
      have hpre : ∀ pre, pre <+: M ++ entryMentions w.entries → s ∈ pre → place pre = tableBlock J2.store.keys.length := by
        intro pre h1 h2
        rw [hT2.block]
        exact (moves_place (List.ne_nil_of_mem h2) h1).mp (F2 e (by rw [he]; simp) s k1 (hcosted hea) pre h1 h2)
      have hgood : Taken J2.store.keys y := by
        rcases forall₂_getElem? i hxr.posts with ⟨_, q0⟩ | ⟨e', P0, v1, v2, v3⟩
        · rw [hX] at q0; cases q0
        rw [hX] at v2
        injection v2 with v2
        subst v2
        exact v3.amount.2 A hA y hy
      rcases deref_cases (sound_taken hp) hgood with ⟨c', d1, d2, d3, d4⟩ | ⟨d1, _⟩
      · rw [hc] at d1
        injection d1 with d1
        subst d1
        have hi := hp.inv.find d3
        have hk : J2.store.keys = J2.store.er.history.nodes := by rw [← hp.inv.keys]; exact (Store.keys_er _).symm
        -- the commodity pointed to is the one written
        have hsym : keyAt J2.store.keys y.slot = s := by
          have hpre : M ++ entryMentions l ++ [s] <+: M ++ entryMentions w.entries := by
            refine List.IsPrefix.trans ?_ (mentions_split M he)
            have := holder_prefix (M ++ entryMentions l) e
            rw [holder_of k1] at this
            exact this
          obtain ⟨t, ht⟩ := firsts_prefix hpre
          unfold keyAt
          rw [hT2.keys, ← ht, List.getElem?_append_left (List.getElem?_eq_some_iff.mp k3).1, k3]
          rfl
        rw [hsym] at hi
        refine ⟨s, k1, ?_, ?_, hpre⟩
        · have h3 := hi.2
          simp only [Store.er, List.getElem?_map, hn, Option.map_some, Option.some.injEq] at h3
          exact h3
        · rw [hT2.stamped.node _ _ hn]
          have h3 := hi.2
          rw [← hk, hT2.keys] at h3
          obtain ⟨pre, g1, g2, g3⟩ := first_mention h3
          rw [← hpre pre g1 g2]
          unfold place
          rw [g3]
      · rw [hc] at d1; cases d1
    refine ⟨?_, ?_⟩
    · intro y c n hy hc hn
      obtain ⟨s, _, _, k3, _⟩ := key y c n hy hc hn
      exact ⟨hp.nodes n (List.mem_of_getElem? hn), k3⟩
    · intro y c n d hy hc hn hdn z hz pr hpr x hx
      obtain ⟨s, _, k2, k3, k4⟩ := key y c n hy hc hn
      refine ⟨hp.anns _ (assocGet_mem _ _ _ hz) pr hpr x hx, ?_⟩
      rcases deref_cases (sound_taken hp) (hp.nodes n (List.mem_of_getElem? hn)) with ⟨c', d1, d2, d3, d4⟩ | ⟨d1, _⟩
      · rw [hdn] at d1
        injection d1 with d1
        subst d1
        rw [d2, k2] at hz
        obtain ⟨pre, g1, g2, g3⟩ := hT2.lots s z pr x hz hpr hx
        rw [g3]
        exact k4 pre g1 g2
      · rw [hdn] at d1; cases d1
  have hsim := finalize_simQ (x := x2) (sound_now hp) hposts hnodes
  rw [hj2.pool, hxr.date] at hsim
  generalize Finalize.finalize x2 j2.pool = z at hsim ⊢
  generalize finalize X2.date X2.posts J2.store = Z at hsim ⊢
  cases z with
  | ok z =>
    cases Z with
    | ok Z => exact ⟨fun _ _ => ⟨_, rfl⟩, fun k h => (by cases h)⟩
    | error e => exact hsim.2.elim
  | error e =>
    cases Z with
    | ok Z => exact hsim.elim
    | error e' =>
      refine ⟨fun _ h => (by cases h), fun k h => ?_⟩
      injection h with h
      subst h
      rcases hsim with h | ⟨_, _, h⟩
      · rw [h]
      · exact h.elim

/-- One transaction, with pointers: it is read exactly if its pointers are fresh. -/
theorem xact_walk {header : Str} {body tail rest rest' : Source} {w : Writing} (hh : HeaderSays header w)
    (hb : BodyReads body w.comments w.entries tail) (ht : AfterXact tail rest) (hd : Everyday w) {M : List Str} {j j' : Journal} {J : Jrn}
    (hr : Readable j) (hj : JrnR j J) (hT : Timed M J.store) (h : Parser.xactDirective header body j = .ok (j', rest')) :
    (∀ J' r, xactDirective header body J = .ok (J', r) → ItemFresh M (.xact w) ∧ Timed (M ++ entryMentions w.entries) J'.store ∧
      ∃ X, J'.xacts = J.xacts ++ [X] ∧ Origin M w X) ∧
    (ItemFresh M (.xact w) → ∃ V, xactDirective header body J = .ok V) := by
  obtain ⟨j2, J2, x2, X2, hx2, hX2, hj2, hT2, hst, hfin, hmach⟩ := xact_parts hb ht hj hT h
  obtain ⟨cs, blocks, hbody, hb1, hb2⟩ := hb.blocks
  -- what the main model makes of it
  obtain ⟨w', hset, hnf, x', hx', hpo⟩ : ∃ w', Settles w w' ∧ ¬ Faulty w ∧ ∃ x', j'.xacts = j.xacts ++ [x'] ∧ List.Forall₂ PostOf w'.entries x'.posts := by
    rcases xactDirective_decides hh hb1 hb2 ht hd hr with ⟨j1, w', r1, a1, a2, a3, a4⟩ | ⟨k, he, hf⟩
    · rw [← hbody, h] at a1
      injection a1 with a1
      obtain ⟨rfl, _⟩ := fst_ext a1
      have hset := a2.settled
      obtain ⟨new, n1, n2⟩ := a2.xacts
      cases hset with
      | cons hs _ =>
        cases n2 with
        | cons hx hn => cases hn; exact ⟨w', hs, a4, _, n1, hx.posts⟩
    · rw [← hbody, h] at he; cases he
  have hcosts := settles_costs hset
  -- the completion in the main model
  have hfinx : ∃ pool', Finalize.finalize x2 j2.pool = .ok (x', pool') := by
    unfold Parser.finalizeXact at hfin
    rw [hx2, List.getElem?_append_right (by omega)] at hfin
    simp only [Nat.sub_self, List.getElem?_cons_zero] at hfin
    obtain ⟨⟨x3, pool'⟩, h1, hfin⟩ := bind_ok hfin
    injection hfin with hfin
    refine ⟨pool', ?_⟩
    have h2 : j'.xacts = j.xacts ++ [x3] := by rw [← hfin]; simp
    rw [hx'] at h2
    have := List.append_cancel_left h2
    injection this with this
    rw [this]; exact h1
  obtain ⟨pool', hfinx⟩ := hfinx
  -- the postings before the completion
  have hxr : XctR J2.store.keys x2 X2 := by
    have hx := hj2.xacts
    rw [hx2, hX2] at hx
    have hl := hj.xacts.length_eq
    have h2 := List.forall₂_drop j.xacts.length hx
    rw [List.drop_left] at h2
    rw [hl, List.drop_left] at h2
    cases h2; assumption
  have hmf : finalizeXact J.xacts.length J2 = (finalize X2.date X2.posts J2.store >>= fun r =>
      .ok { J2 with store := r.2, xacts := J.xacts ++ [{ X2 with posts := r.1 }] }) := by
    unfold finalizeXact
    rw [hX2, List.getElem?_append_right (by omega)]
    simp only [Nat.sub_self, List.getElem?_cons_zero]
    congr 1
    funext r
    simp
  refine ⟨?_, ?_⟩
  · -- no stale pointer was followed
    intro J' r H
    rw [hmach, hmf] at H
    have Hm := H
    obtain ⟨J3, H1, H⟩ := bind_ok H
    injection H with H
    obtain ⟨rfl, rfl⟩ := fst_ext H
    obtain ⟨⟨ps, p'⟩, H2, H1⟩ := bind_ok H1
    injection H1 with H1
    simp only at H1
    have horigin : Origin M w { X2 with posts := ps } := stamps_origin hnf hst (X' := { X2 with posts := ps }) H2
    have hp' : p'.commodities = J2.store.commodities ∧ p'.nodes = J2.store.nodes ∧ p'.annotated = J2.store.annotated := by
      have hs := finalize_sim (x := x2) hj2.fine hxr.posts
      rw [hj2.pool, hxr.date, H2, hfinx] at hs
      exact ⟨hs.2.1.coms, hs.2.1.nodes, hs.2.1.anns⟩
    have hT' : Timed (M ++ entryMentions w.entries) p' := hT2.edges hp'.1 hp'.2.1 hp'.2.2
    obtain ⟨_, _, hstep⟩ := step_xact hh hb ht hd hr hj h (by rw [hmach, hmf]; exact Hm)
    obtain ⟨x'', k1, k2⟩ := hstep.costs hT.stamped w rfl
    rw [hx'] at k1
    have : x' = x'' := by have := List.append_cancel_left k1; injection this
    subst this
    have hkeys : j'.pool.commodities.map (·.1) = firsts (M ++ entryMentions w.entries) := by
      rw [← hT'.keys, ← hstep.rel.pool, ← H1]; rfl
    have hplen : tableBlock j'.pool.len = place (M ++ entryMentions w.entries) := by
      unfold Pool.len place
      rw [← hkeys, List.length_map]
    have hcost : ∀ e ∈ w.entries, ∀ s, e.commodity = some s → Costed w e →
        ∀ pre, pre <+: M ++ entryMentions w.entries → s ∈ pre → place pre = place (M ++ entryMentions w.entries) := by
      intro e he s hs hc pre hpre hsp
      obtain ⟨i, hi⟩ := List.mem_iff_getElem?.mp he
      rcases forall₂_getElem? i hcosts with ⟨q, _⟩ | ⟨e0, e', q1, q2, q3⟩
      · rw [hi] at q; cases q
      rw [hi] at q1
      injection q1 with q1
      subst q1
      have hs' := hs
      unfold Entry.commodity at hs'
      obtain ⟨a, ha, hac⟩ := Option.bind_eq_some_iff.mp hs'
      obtain ⟨q4, q5⟩ := q3 (by rw [ha]; simp)
      rcases forall₂_getElem? i hpo with ⟨q, _⟩ | ⟨e0, p, v1, v2, v3⟩
      · rw [q2] at q; cases q
      rw [q2] at v1
      injection v1 with v1
      subst v1
      have hea : e'.amount = some a := q4.trans ha
      have hpc : p.cost ≠ none := by
        have hk := q5.mpr hc
        rcases v3.cost with ⟨h1, _⟩ | ⟨b, _, h2⟩
        · rw [hea] at h1; cases h1
        · cases hk' : e'.cost with
          | none => exact absurd hk' hk
          | some v =>
            obtain ⟨u, k⟩ := v
            rw [hk'] at h2
            cases u with
            | false => rw [show p.cost = some k from h2]; simp
            | true => obtain ⟨r, h3, _⟩ := h2; rw [h3]; simp
      obtain ⟨a', s', n, w1, w2, w3, w4⟩ := k2 p (List.mem_of_getElem? v2) hpc
      rw [v3.amount, hea] at w1
      injection w1 with w1
      subst w1
      rw [hac] at w2
      injection w2 with w2
      subst w2
      rw [hkeys] at w3
      rw [hplen] at w4
      have h5 := place_first w3 hpre hsp
      have h6 := place_mono hpre
      omega
    refine ⟨⟨?_, ?_⟩, by rw [← H1]; exact hT', _, by rw [← H1], horigin⟩
    · intro l e r s he hs
      have hpre : M ++ entryMentions l ++ [s] <+: M ++ entryMentions w.entries := by
        refine List.IsPrefix.trans ?_ (mentions_split M he)
        have := holder_prefix (M ++ entryMentions l) e
        rw [holder_of hs] at this
        exact this
      rw [moves_place (by simp) hpre]
      by_cases hc : Costed w e
      · exact hcost e (by rw [he]; simp) s hs hc _ hpre (by simp)
      · obtain ⟨am, c, g1, g2⟩ := hst.get he
        obtain ⟨P, p1, p2, p3⟩ := money_get g1
        obtain ⟨A, x, a1, a2, a3⟩ := stamp_amount g2 hs
        have hcn : P.cost = none := by
          rw [p3]
          refine g2.cost.mp ?_
          by_contra hne
          exact hc (Or.inl hne)
        have hlive := finalize_figures H2 P (List.mem_of_getElem? p1) A (by unfold Pst.figure; rw [hcn, p2, a1])
        rw [← a3, look_block hlive a2, hT2.block]
    · intro e he s hs hc pre hpre hsp
      rw [moves_place (List.ne_nil_of_mem hsp) hpre]
      exact hcost e he s hs hc pre hpre hsp
  · -- no pointer is stale
    intro hfresh
    have hcost : ∀ b np r1 r2, Finalize.sumPosts x2.posts 0 Balance.empty none = .ok (b, np) → Finalize.impliedCosts x2.posts b np = .ok (r1, r2) →
        ∀ (i : Nat) (q : Post) (e : Entry), r1[i]? = some q → q.cost ≠ none → w.entries[i]? = some e → e.amount ≠ none → Costed w e := by
      intro b np r1 r2 e1 e2 i q e hq hqc hei hea
      obtain ⟨b', np', ps1, b1, ps2, f1, _, f2, f3, f4, f5⟩ := finalize_ok _ _ _ _ hfinx
      rw [e1] at f1
      injection f1 with f1
      obtain ⟨rfl, rfl⟩ := fst_ext f1
      rw [e2] at f2
      injection f2 with f2
      obtain ⟨rfl, rfl⟩ := fst_ext f2
      have hpq : ∃ p', x'.posts[i]? = some p' ∧ p'.cost = q.cost := by
        rw [f5]
        unfold Finalize.fillNull at f4
        split at f4
        · injection f4 with f4; rw [← f4]; exact ⟨q, hq, rfl⟩
        · split at f4
          · injection f4 with f4
            rw [← f4]
            simp only [List.getElem?_modify, hq]
            refine ⟨_, rfl, ?_⟩
            split <;> rfl
          · cases f4
      obtain ⟨p', hp', hpc⟩ := hpq
      rcases forall₂_getElem? i hpo with ⟨_, q0⟩ | ⟨e', p0, v1, v2, v3⟩
      · rw [hp'] at q0; cases q0
      rw [hp'] at v2
      injection v2 with v2
      subst v2
      rcases forall₂_getElem? i hcosts with ⟨_, q0⟩ | ⟨e0, e1', u1, u2, u3⟩
      · rw [v1] at q0; cases q0
      rw [v1] at u2
      injection u2 with u2
      subst u2
      have : e0 = e := by
        rw [hei] at u1
        injection u1 with u1
        exact u1.symm
      subst this
      refine (u3 hea).2.mp ?_
      intro hn
      rcases v3.cost with ⟨_, h1⟩ | ⟨a, _, h1⟩
      · rw [hpc] at h1; exact hqc h1
      · rw [hn] at h1
        exact hqc (hpc.symm.trans h1)
    have hplain : ∀ l e r, w.entries = l ++ e :: r → e.commodity = none → e.cost ≠ none →
        ¬ Moves (M ++ entryMentions l ++ e.mentions) (M ++ entryMentions w.entries) := by
      intro l e r he hn hec
      exfalso
      cases hea : e.amount with
      | none =>
        obtain ⟨am, c, g1, g2⟩ := hst.get he
        exact hec (g2.cost.mpr (g2.blank hea).2)
      | some a =>
        obtain ⟨s, hs⟩ := cost_commodity hnf (by rw [he]; simp) hec hea
        rw [hn] at hs; cases hs
    obtain ⟨V, hV⟩ := (fresh_finalize hj2 hT2 hst hxr hcost ⟨hfresh, hplain⟩).1 _ hfinx
    rw [hmach, hmf, hV]
    exact ⟨_, rfl⟩

end Ledger.Machine
