import Verif.Lemmas.MachineReport
/-
A balance report follows the commodity pointers of all amounts.
-/
namespace Ledger.Machine
open Ledger Ledger.Memory Ledger.Heap

/-- The commodity pointer of an amount can be followed. -/
def Live (p : Store) (a : Amt) : Prop := ∃ c, p.look a.ptr = .ok c

theorem bind_ok {α β : Type} {m : Res α} {f : α → Res β} {b : β} (h : m >>= f = .ok b) : ∃ a, m = .ok a ∧ f a = .ok b := by
  cases m with
  | error e => cases h
  | ok a => exact ⟨a, rfl, h⟩

theorem same_live {p : Store} {a b : Amt} {r : Bool} (h : same p a b = .ok r) : Live p a ∧ Live p b := by
  obtain ⟨x, hx, h⟩ := bind_ok h
  obtain ⟨y, hy, _⟩ := bind_ok h
  exact ⟨⟨x, hx⟩, ⟨y, hy⟩⟩

/-- A list of amounts not all of which can be looked up. -/
def Bad (p : Store) (b : List Amt) : Prop := ∃ x ∈ b, ¬ Live p x

theorem addTo_bad {p : Store} {b b' : List Amt} {a : Amt} (h : addTo p b a = .ok b') (hb : Bad p b ∨ ¬ Live p a) : Bad p b' := by
  induction b generalizing b' with
  | nil =>
    injection h with h
    rw [← h]
    rcases hb with ⟨x, hx, _⟩ | hb
    · cases hx
    · exact ⟨a, by simp, hb⟩
  | cons x xs ih =>
    obtain ⟨eq, he, h⟩ := bind_ok h
    have hl := same_live he
    have hxs : Bad p xs := by
      rcases hb with ⟨y, hy, hn⟩ | hb
      · rcases List.mem_cons.mp hy with rfl | hy
        · exact absurd hl.1 hn
        · exact ⟨y, hy, hn⟩
      · exact absurd hl.2 hb
    cases eq with
    | true =>
      obtain ⟨x', _, h⟩ := bind_ok (show (x.add a >>= fun x' => Except.ok (x' :: xs)) = .ok b' from h)
      injection h with h
      rw [← h]
      obtain ⟨y, hy, hn⟩ := hxs
      exact ⟨y, List.mem_cons_of_mem _ hy, hn⟩
    | false =>
      obtain ⟨xs', h1, h⟩ := bind_ok (show (addTo p xs a >>= fun xs' => Except.ok (x :: xs')) = .ok b' from h)
      injection h with h
      rw [← h]
      obtain ⟨y, hy, hn⟩ := ih h1 (Or.inl hxs)
      exact ⟨y, List.mem_cons_of_mem _ hy, hn⟩

theorem addAll_bad {p : Store} {b l b' : List Amt} (h : addAll p b l = .ok b') (hb : Bad p b ∨ Bad p l) : Bad p b' := by
  induction l generalizing b with
  | nil =>
    injection h with h
    rw [← h]
    rcases hb with hb | ⟨x, hx, _⟩
    · exact hb
    · cases hx
  | cons a l ih =>
    obtain ⟨b1, h1, h⟩ := bind_ok h
    refine ih h ?_
    rcases hb with hb | ⟨x, hx, hn⟩
    · exact Or.inl (addTo_bad h1 (Or.inl hb))
    · rcases List.mem_cons.mp hx with rfl | hx
      · exact Or.inl (addTo_bad h1 (Or.inr hn))
      · exact Or.inr ⟨x, hx, hn⟩

theorem amountGo_bad {stays : Nat → Bool} {J : Jrn} {rs : List PostRef} {b b' : List Amt} (h : amountGo stays J rs b = .ok b') :
    (Bad J.store b → Bad J.store b') ∧
    ∀ r ∈ rs, ∃ P, derefPost stays J r = .ok P ∧ ∀ A, P.amount = some A → ¬ Live J.store A → Bad J.store b' := by
  induction rs generalizing b with
  | nil => injection h with h; rw [h]; exact ⟨id, by simp⟩
  | cons r rs ih =>
    rw [amountGo] at h
    obtain ⟨P, hP, h⟩ := bind_ok h
    cases hA : P.amount with
    | none =>
      simp only [hA] at h
      obtain ⟨h1, h2⟩ := ih h
      refine ⟨h1, fun q hq => ?_⟩
      rcases List.mem_cons.mp hq with rfl | hq
      · exact ⟨P, hP, by intro A h; rw [hA] at h; cases h⟩
      · exact h2 q hq
    | some A =>
      simp only [hA] at h
      obtain ⟨b1, hb1, h⟩ := bind_ok h
      obtain ⟨h1, h2⟩ := ih h
      refine ⟨fun hb => h1 (addTo_bad hb1 (Or.inl hb)), fun q hq => ?_⟩
      rcases List.mem_cons.mp hq with rfl | hq
      · refine ⟨P, hP, ?_⟩
        intro A' h hn
        rw [hA] at h
        injection h with h
        exact h1 (addTo_bad hb1 (Or.inr (h ▸ hn)))
      · exact h2 q hq

theorem totalGo_bad {p : Store} {l : List (Str × Res (List Amt))} {b b' : List Amt} (h : totalGo p l b = .ok b') :
    (Bad p b → Bad p b') ∧ ∀ x ∈ l, ∃ s, x.2 = .ok s ∧ (Bad p s → Bad p b') := by
  induction l generalizing b with
  | nil => injection h with h; rw [h]; exact ⟨id, by simp⟩
  | cons x l ih =>
    obtain ⟨n, r⟩ := x
    rw [totalGo] at h
    obtain ⟨s, hs, g⟩ := bind_ok h
    obtain ⟨b1, hb1, g⟩ := bind_ok g
    obtain ⟨h1, h2⟩ := ih g
    refine ⟨fun hb => h1 (addAll_bad hb1 (Or.inl hb)), fun y hy => ?_⟩
    rcases List.mem_cons.mp hy with rfl | hy
    · exact ⟨s, hs, fun hs => h1 (addAll_bad hb1 (Or.inr hs))⟩
    · exact h2 y hy

theorem accountTotal_bad {stays : Nat → Bool} {J : Jrn} {a : Account} {b : List Amt} (h : accountTotal stays J a = .ok b) {q : Path}
    {rs : List PostRef} (hq : a.postsAt q = some rs) {r : PostRef} (hr : r ∈ rs) :
    ∃ P, derefPost stays J r = .ok P ∧ ∀ A, P.amount = some A → ¬ Live J.store A → Bad J.store b := by
  induction q generalizing a b with
  | nil =>
    obtain ⟨n, ps, cs⟩ := a
    rw [accountTotal_mk'] at h
    obtain ⟨t, ht, h⟩ := bind_ok h
    obtain ⟨own, ho, h⟩ := bind_ok h
    simp only [Account.postsAt, Account.at?_nil, Option.map_some, Account.posts, Option.some.injEq] at hq
    subst hq
    obtain ⟨P, h1, h2⟩ := (amountGo_bad ho).2 r hr
    exact ⟨P, h1, fun A hA hn => addAll_bad h (Or.inr (h2 A hA hn))⟩
  | cons m q ih =>
    obtain ⟨n, ps, cs⟩ := a
    rw [accountTotal_mk'] at h
    obtain ⟨t, ht, h⟩ := bind_ok h
    obtain ⟨own, ho, h⟩ := bind_ok h
    rw [Account.postsAt, Account.at?_cons] at hq
    cases hc : Account.getChild m cs with
    | none => rw [hc] at hq; cases hq
    | some c =>
      rw [hc] at hq
      obtain ⟨s, hs, hb⟩ := (totalGo_bad ht).2 (c.name, accountTotal stays J c) (by
        rw [(sortByKey_perm _).mem_iff]
        exact List.mem_map.mpr ⟨c, (Account.getChild_some hc).1, rfl⟩)
      obtain ⟨P, h1, h2⟩ := ih hs hq
      exact ⟨P, h1, fun A hA hn => addAll_bad h (Or.inl (hb (h2 A hA hn)))⟩

theorem showBalance_live {p : Store} {b : List Amt} {t : Str} (h : showBalance p b = .ok t) : ∀ x ∈ b, Live p x := by
  induction b generalizing t with
  | nil => simp
  | cons a b ih =>
    rw [showBalance] at h
    obtain ⟨c, hc, h⟩ := bind_ok h
    obtain ⟨r, hr, h⟩ := bind_ok h
    intro x hx
    rcases List.mem_cons.mp hx with rfl | hx
    · exact ⟨c, hc⟩
    · exact ih hr x hx

theorem flatten_head (a : Account) : ∃ l, a.flatten.map (·.1) = [] :: l := by
  obtain ⟨n, ps, cs⟩ := a
  rw [Account.flatten_mk]
  exact ⟨_, rfl⟩

/-- A balance report follows the pointers to all postings and the commodity pointers of their amounts. -/
theorem balanceReport_follows {stays : Nat → Bool} {J : Jrn} {lines : List Str} (h : balanceReport stays J = .ok lines) {q : Path}
    {rs : List PostRef} (hq : J.tree.master.erase.postsAt q = some rs) {r : PostRef} (hr : r ∈ rs) :
    ∃ P, derefPost stays J r = .ok P ∧ ∀ A, P.amount = some A → Live J.store A := by
  unfold balanceReport at h
  obtain ⟨⟨s, ls⟩, h, _⟩ := bind_ok h
  obtain ⟨l, hl⟩ := flatten_head J.tree.master.erase
  rw [hl, reportGo] at h
  cases hx : J.tree.master.at? [] with
  | none => rw [hx] at h; cases h
  | some x =>
    rw [hx] at h
    simp only at h
    obtain ⟨b, hb, h⟩ := bind_ok h
    obtain ⟨t, ht, _⟩ := bind_ok h
    have hxm : x = J.tree.master := by rw [Node.at?_nil] at hx; injection hx with hx; exact hx.symm
    rw [hxm] at hb
    obtain ⟨P, h1, h2⟩ := accountTotal_bad hb hq hr
    refine ⟨P, h1, fun A hA => ?_⟩
    by_contra hn
    obtain ⟨y, hy, hyn⟩ := h2 A hA hn
    exact hyn (showBalance_live ht y hy)

/-- What becomes of the table of commodities. -/
inductive Store.Later (p : Store) : Store → Prop
  | refl : Later p p
  | create {q : Store} (s : Str) (ann : Option Ann) : Later p q → Later p (q.findOrCreate s ann).1
  | edges {q : Store} (es : List Edge) : Later p q → Later p { q with edges := es }

theorem Store.Later.trans {p q r : Store} (h : p.Later q) (g : q.Later r) : p.Later r := by
  induction g with
  | refl => exact h
  | create s ann _ ih => exact .create s ann ih
  | edges es _ ih => exact .edges es ih

/-- Each node of the price graph has the address its commodity had when it was created; the commodities were created one
after the other. -/
structure Stamped (p : Store) : Prop where
  len : p.nodes.length = p.keys.length
  node : ∀ i a, p.nodes[i]? = some a → a.block = tableBlock (i + 1)

theorem keys_insert {β : Type} (k : Str) (v : β) (l : List (Str × β)) :
    (assocInsert k v l).map (·.1) = if k ∈ l.map (·.1) then l.map (·.1) else l.map (·.1) ++ [k] := by
  induction l with
  | nil => rfl
  | cons x l ih =>
    obtain ⟨k', v'⟩ := x
    simp only [assocInsert]
    by_cases h : k' = k
    · subst h; simp
    · rw [if_neg h, List.map_cons, ih]
      by_cases hm : k ∈ l.map (·.1)
      · rw [if_pos hm, if_pos (by simp [hm])]; rfl
      · rw [if_neg hm, if_neg (by simp only [List.map_cons, List.mem_cons, not_or]; exact ⟨fun e => h e.symm, hm⟩)]; rfl

theorem assocGet_none_keys {β : Type} {k : Str} {l : List (Str × β)} (h : assocGet k l = none) : k ∉ l.map (·.1) := by
  induction l with
  | nil => simp
  | cons x l ih =>
    obtain ⟨k', v'⟩ := x
    rw [assocGet] at h
    split at h
    · cases h
    · rename_i hk
      simp only [List.map_cons, List.mem_cons, not_or]
      exact ⟨fun e => hk e.symm, ih h⟩

theorem Stamped.create {p : Store} (h : Stamped p) (s : Str) (ann : Option Ann) : Stamped (p.findOrCreate s ann).1 := by
  unfold Store.findOrCreate
  split
  · exact h
  · split
    · rename_i c hc
      simp only
      split
      · split
        · exact ⟨h.len, h.node⟩
        · exact h
      · exact h
    · rename_i hs hc
      have hk : (p.create s ann).1.keys = p.keys ++ [s] := by
        show (assocInsert s _ p.commodities).map (·.1) = _
        rw [keys_insert, if_neg (assocGet_none_keys hc)]
        rfl
      have hn : (p.create s ann).1.nodes = p.nodes ++ [⟨tableBlock (p.keys ++ [s]).length, (p.keys ++ [s]).idxOf s⟩] := by
        rw [← hk]; rfl
      refine ⟨?_, ?_⟩
      · show (p.create s ann).1.nodes.length = (p.create s ann).1.keys.length
        rw [hk, hn]; simp [h.len]
      · intro i a ha
        change (p.create s ann).1.nodes[i]? = some a at ha
        rw [hn] at ha
        by_cases hi : i < p.nodes.length
        · rw [List.getElem?_append_left hi] at ha; exact h.node i a ha
        · rw [List.getElem?_append_right (by omega)] at ha
          have hi' : i - p.nodes.length = 0 := by
            by_contra h0
            rw [List.getElem?_eq_none (by simp; omega)] at ha
            cases ha
          rw [hi'] at ha
          simp only [List.getElem?_cons_zero, Option.some.injEq] at ha
          rw [← ha]
          simp only [List.length_append, List.length_singleton]
          rw [← h.len]
          congr 1; omega

theorem Stamped.later {p q : Store} (h : Stamped p) (hl : p.Later q) : Stamped q := by
  induction hl with
  | refl => exact h
  | create s ann _ ih => exact ih.create s ann
  | edges es _ ih => exact ⟨ih.len, ih.node⟩

theorem addPrice_later {p q : Store} {s : Option Addr} {t : DateTime} {a : Amt} (h : p.addPrice s t a = .ok q) :
    p.Later q ∧ ∃ x c, s = some x ∧ p.deref x = .ok c := by
  unfold Store.addPrice at h
  split at h
  · cases h
  · obtain ⟨c, hc, h⟩ := bind_ok h
    obtain ⟨d, _, h⟩ := bind_ok h
    split at h
    · cases h
    · split at h
      · cases h
      · injection h with h; rw [← h]; exact ⟨.edges _ .refl, _, c, rfl, hc⟩

theorem amountParts_later (q s : Str) (p : Store) : p.Later (parseAmountParts q s p).1 := by
  unfold parseAmountParts
  generalize hg : p.findOrCreate s none = g
  have : p.Later g.1 := by rw [← hg]; exact .create s none .refl
  obtain ⟨g1, g2⟩ := g
  exact this

theorem annotation_later {d q s : Str} {p p' : Store} {a : Ann} (h : parseAnnotation d q s p = .ok (p', a)) : p.Later p' := by
  unfold parseAnnotation at h
  have : p.Later (p.findOrCreate s none).1 := .create s none .refl
  generalize p.findOrCreate s none = g at h this
  obtain ⟨g1, g2⟩ := g
  simp only at h this
  split at h
  · injection h with h; injection h with h _; rw [← h]; exact this
  · split at h
    · injection h with h; injection h with h _; rw [← h]; exact this
    · cases h

theorem cost_later {t : Scanner.PostTokens} {o c : Option Amt} {p p' : Store} (h : parseCost t o p = .ok (p', c)) : p.Later p' := by
  unfold parseCost at h
  split at h
  · injection h with h; injection h with h _; rw [← h]; exact .refl
  · split at h
    · injection h with h; injection h with h _; rw [← h]; exact .refl
    · have hl := amountParts_later t.costQuantity t.costSymbol p
      split at h
      · rename_i e
        rw [e] at hl
        injection h with h; injection h with h _; rw [← h]; exact hl
      · rename_i e
        rw [e] at hl
        split at h
        · obtain ⟨x, _, h⟩ := bind_ok h
          injection h with h; injection h with h _; rw [← h]; exact hl
        · injection h with h; injection h with h _; rw [← h]; exact hl

theorem postAmounts_later {t : Scanner.PostTokens} {p p' : Store} {a c : Option Amt} (h : parsePostAmounts t p = .ok (p', a, c)) :
    p.Later p' := by
  unfold parsePostAmounts at h
  have h1 := amountParts_later t.quantity t.symbol p
  generalize parseAmountParts t.quantity t.symbol p = g at h h1
  obtain ⟨g1, g2⟩ := g
  simp only at h h1
  obtain ⟨⟨p2, an⟩, h2, h⟩ := bind_ok h
  have h2 := annotation_later h2
  simp only at h
  have h3 : p2.Later (p2.findOrCreate t.symbol (some an)).1 := .create _ _ .refl
  generalize p2.findOrCreate t.symbol (some an) = g at h h3
  obtain ⟨g3, g4⟩ := g
  simp only at h h3
  obtain ⟨⟨p4, c4⟩, h4, h⟩ := bind_ok h
  have h4 := cost_later h4
  injection h with h
  injection h with h _
  rw [← h]
  exact ((h1.trans h2).trans h3).trans h4

/-- Recording the prices of a transaction follows the nodes of the commodities that have a cost. -/
theorem recordPrices_later {date : Option Date} {ps ps' : List Pst} {p p' : Store} (h : recordPrices date ps p = .ok (ps', p')) :
    p.Later p' ∧ p'.commodities = p.commodities ∧ p'.nodes = p.nodes ∧
    List.Forall₂ (fun P P' : Pst => P'.cost = P.cost ∧ P'.amount = P.amount ∧ P'.account = P.account ∧ P'.note = P.note ∧
      ∀ C, P.cost = some C → ∃ A, P.amount = some A ∧ Live p A ∧ Live p C ∧ ∃ x c node, A.ptr = some x ∧ p.deref x = .ok c ∧
        p.getByIndex c.graphIndex = .ok node) ps ps' := by
  induction ps generalizing p ps' p' with
  | nil => injection h with h; injection h with h1 h2; rw [← h1, ← h2]; exact ⟨.refl, rfl, rfl, .nil⟩
  | cons x xs ih =>
    rw [recordPrices] at h
    cases hc : x.cost with
    | none =>
      rw [hc] at h
      simp only at h
      obtain ⟨⟨xs', q⟩, h1, h⟩ := bind_ok h
      injection h with h
      injection h with h2 h3
      rw [← h2, ← h3]
      obtain ⟨g1, g2, g3, g4⟩ := ih h1
      exact ⟨g1, g2, g3, .cons ⟨rfl, rfl, rfl, rfl, by intro C hC; rw [hc] at hC; cases hC⟩ g4⟩
    | some C =>
      rw [hc] at h
      simp only at h
      cases ha : x.amount with
      | none => rw [ha] at h; cases h
      | some A =>
        rw [ha] at h
        simp only at h
        obtain ⟨eq, he, h⟩ := bind_ok h
        cases eq with
        | true => cases h
        | false =>
          cases date with
          | none => cases h
          | some d =>
            simp only [Bool.false_eq_true, if_false] at h
            obtain ⟨⟨am, price⟩, h1, h⟩ := bind_ok h
            obtain ⟨hl1, hl2⟩ := same_live he
            have hx : am = A ∧ ∃ x c node, A.ptr = some x ∧ p.deref x = .ok c ∧ p.getByIndex c.graphIndex = .ok node := by
              unfold exchange at h1
              split at h1
              · cases h1
              · rename_i sym hsym
                obtain ⟨c, hc, h1⟩ := bind_ok h1
                obtain ⟨node, hn, h1⟩ := bind_ok h1
                obtain ⟨_, _, h1⟩ := bind_ok h1
                obtain ⟨_, _, h1⟩ := bind_ok h1
                obtain ⟨_, _, h1⟩ := bind_ok h1
                obtain ⟨_, _, h1⟩ := bind_ok h1
                injection h1 with h1
                injection h1 with h1 _
                exact ⟨h1.symm, sym, c, node, hsym, hc, hn⟩
            have main : ∀ q : Store, p.Later q → q.commodities = p.commodities → q.nodes = p.nodes →
                (recordPrices (some d) xs q >>= fun r => Except.ok ({ x with amount := some am, cost := some C } :: r.1, r.2)) = .ok (ps', p') →
                p.Later p' ∧ p'.commodities = p.commodities ∧ p'.nodes = p.nodes ∧
                List.Forall₂ (fun P P' : Pst => P'.cost = P.cost ∧ P'.amount = P.amount ∧ P'.account = P.account ∧ P'.note = P.note ∧
                  ∀ C, P.cost = some C → ∃ A, P.amount = some A ∧ Live p A ∧ Live p C ∧ ∃ x c node, A.ptr = some x ∧ p.deref x = .ok c ∧
                    p.getByIndex c.graphIndex = .ok node) (x :: xs) ps' := by
              intro q q1 q2 q3 h
              obtain ⟨⟨xs', q'⟩, h2, h⟩ := bind_ok h
              injection h with h
              injection h with h3 h4
              obtain ⟨g1, g2, g3, g4⟩ := ih h2
              have hlook : ∀ o, q.look o = p.look o := by
                intro o
                unfold Store.look Store.deref Store.keys
                rw [q2]
              have hder : ∀ o, q.deref o = p.deref o := by
                intro o; unfold Store.deref Store.keys; rw [q2]
              have hget : ∀ o, q.getByIndex o = p.getByIndex o := by
                intro o; unfold Store.getByIndex; rw [q3]; simp only [hder]
              refine ⟨h4 ▸ q1.trans g1, h4 ▸ g2.trans q2, h4 ▸ g3.trans q3, ?_⟩
              rw [← h3]
              refine .cons ⟨hc.symm ▸ rfl, by rw [hx.1]; exact ha.symm, rfl, rfl, ?_⟩ ?_
              · intro C' hC'
                rw [hc] at hC'
                injection hC' with hC'
                exact ⟨A, ha, hl1, hC' ▸ hl2, hx.2⟩
              · refine g4.imp ?_
                rintro P P' ⟨e1, e2, e3, e4, e5⟩
                refine ⟨e1, e2, e3, e4, ?_⟩
                simpa only [Live, hlook, hder, hget] using e5
            cases price with
            | none => exact main p .refl rfl rfl h
            | some pr =>
              obtain ⟨c, t, q⟩ := pr
              simp only at h
              obtain ⟨p1, hp1, h⟩ := bind_ok h
              have hk : p1.commodities = p.commodities ∧ p1.nodes = p.nodes := by
                unfold Store.addPrice at hp1
                simp only at hp1
                obtain ⟨_, _, hp1⟩ := bind_ok hp1
                obtain ⟨_, _, hp1⟩ := bind_ok hp1
                split at hp1
                · cases hp1
                · split at hp1
                  · cases hp1
                  · injection hp1 with hp1; rw [← hp1]; exact ⟨rfl, rfl⟩
              exact main p1 (addPrice_later hp1).1 hk.1 hk.2 h

theorem fst_ext {α β : Type} {a c : α} {b d : β} (h : (a, b) = (c, d)) : a = c ∧ b = d := by injection h with h1 h2; exact ⟨h1, h2⟩

/-- The posting without an amount. -/
theorem sumPosts_null {p : Store} {xs : List Pst} {i : Nat} {b b' : List Amt} {np np' : Option Nat}
    (h : sumPosts p xs i b np = .ok (b', np')) :
    np' = np ∨ ∃ k P, np' = some (i + k) ∧ xs[k]? = some P ∧ P.amount = none ∧ P.cost = none := by
  induction xs generalizing i b np with
  | nil => injection h with h; exact Or.inl (fst_ext h).2.symm
  | cons x xs ih =>
    unfold sumPosts at h
    cases hc : x.cost with
    | some C =>
      simp only [hc] at h
      obtain ⟨b1, _, h⟩ := bind_ok h
      rcases ih h with e | ⟨k, P, e1, e2, e3⟩
      · exact Or.inl e
      · exact Or.inr ⟨k + 1, P, by rw [e1]; congr 1; omega, by simpa using e2, e3⟩
    | none =>
      simp only [hc] at h
      cases ha : x.amount with
      | some A =>
        simp only [ha] at h
        obtain ⟨b1, _, h⟩ := bind_ok h
        rcases ih h with e | ⟨k, P, e1, e2, e3⟩
        · exact Or.inl e
        · exact Or.inr ⟨k + 1, P, by rw [e1]; congr 1; omega, by simpa using e2, e3⟩
      | none =>
        simp only [ha] at h
        cases np with
        | some n => cases h
        | none =>
          simp only at h
          rcases ih h with e | ⟨k, P, e1, e2, e3⟩
          · exact Or.inr ⟨0, x, by rw [e]; rfl, rfl, ha, hc⟩
          · exact Or.inr ⟨k + 1, P, by rw [e1]; congr 1; omega, by simpa using e2, e3⟩

/-- A posting whose commodity's node in the price graph can be followed. -/
def NodeLive (p : Store) (P : Pst) : Prop :=
  ∃ A x c node, P.amount = some A ∧ A.ptr = some x ∧ p.deref x = .ok c ∧ p.getByIndex c.graphIndex = .ok node

theorem forall₂_getElem?_right {α β : Type} {R : α → β → Prop} {l : List α} {L : List β} (h : List.Forall₂ R l L) {i : Nat} {b : β}
    (hb : L[i]? = some b) : ∃ a, l[i]? = some a ∧ R a b := by
  rcases forall₂_getElem? i h with ⟨_, h2⟩ | ⟨a, b', h1, h2, h3⟩
  · rw [hb] at h2; cases h2
  · rw [hb] at h2; injection h2 with h2; exact ⟨a, h1, h2 ▸ h3⟩

theorem finalize_costs {date : Option Date} {posts ps : List Pst} {p p' : Store} (h : finalize date posts p = .ok (ps, p')) :
    p.Later p' ∧ ∀ P ∈ ps, P.cost ≠ none → NodeLive p' P := by
  unfold finalize at h
  obtain ⟨⟨b, np⟩, h1, h⟩ := bind_ok h
  simp only at h
  split at h
  · cases h
  · obtain ⟨⟨ps1, b1⟩, h2, h⟩ := bind_ok h
    simp only at h
    obtain ⟨⟨ps2, p2⟩, h3, h⟩ := bind_ok h
    simp only at h
    obtain ⟨ps3, h4, h⟩ := bind_ok h
    injection h with h
    obtain ⟨e1, e2⟩ := fst_ext h
    subst e1 e2
    obtain ⟨g1, g2, g3, g4⟩ := recordPrices_later h3
    refine ⟨g1, ?_⟩
    have hder : ∀ o, p2.deref o = p.deref o := by
      intro o; unfold Store.deref Store.keys; rw [g2]
    have hget : ∀ o, p2.getByIndex o = p.getByIndex o := by
      intro o; unfold Store.getByIndex; rw [g3]; simp only [hder]
    have hps2 : ∀ (i : Nat) (P : Pst), ps2[i]? = some P → P.cost ≠ none → NodeLive p2 P := by
      intro i P hP hc
      obtain ⟨P0, hP0, e1, e2, _, _, e5⟩ := forall₂_getElem?_right g4 hP
      rw [e1] at hc
      obtain ⟨C, hC⟩ := Option.ne_none_iff_exists'.mp hc
      obtain ⟨A, a1, _, _, x, c, node, a2, a3, a4⟩ := e5 C hC
      exact ⟨A, x, c, node, e2.trans a1, a2, by rw [hder]; exact a3, by rw [hget]; exact a4⟩
    intro P hP hc
    obtain ⟨i, hi⟩ := List.mem_iff_getElem?.mp hP
    unfold fillNull at h4
    cases np with
    | none =>
      injection h4 with h4
      rw [← h4] at hi
      exact hps2 i P hi hc
    | some n =>
      simp only at h4
      split at h4
      · obtain ⟨a', _, h4⟩ := bind_ok h4
        injection h4 with h4
        rw [← h4, List.getElem?_modify] at hi
        by_cases hn : n = i
        · exfalso
          subst hn
          rcases sumPosts_null h1 with e | ⟨k, P0, e1, e2, e3, e4⟩
          · cases e
          · injection e1 with e1
            rw [Nat.zero_add] at e1
            subst e1
            injection (show Except.ok (posts, b) = Except.ok (ps1, _) from h2) with h2
            obtain ⟨rfl, rfl⟩ := fst_ext h2
            cases hq : ps2[n]? with
            | none => rw [hq] at hi; simp at hi
            | some Q =>
              obtain ⟨Q0, f1, f2, _⟩ := forall₂_getElem?_right g4 hq
              rw [hq] at hi
              simp only [if_true, Option.map_some, Option.map_eq_map, Option.some.injEq] at hi
              rw [e2] at f1
              injection f1 with f1
              rw [← hi] at hc
              exact hc (f2.trans (f1 ▸ e4))
        · simp only [if_neg hn] at hi
          cases hq : ps2[i]? with
          | none => rw [hq] at hi; simp at hi
          | some Q =>
            rw [hq] at hi
            simp only [Option.map_some, Option.map_eq_map, Option.some.injEq] at hi
            exact hps2 i P (hi ▸ hq) hc
      · cases h4

theorem parsePost_machine {input : Str} {J J' : Jrn} {xs : List Xct} {X : Xct} (hx : J.xacts = xs ++ [X])
    (h : parsePost input xs.length J = .ok J') : J.store.Later J'.store ∧ ∃ X', J'.xacts = xs ++ [X'] := by
  unfold parsePost at h
  obtain ⟨t, _, h⟩ := bind_ok h
  split at h
  · cases h
  · obtain ⟨⟨tree, acct⟩, _, h⟩ := bind_ok h
    simp only at h
    split at h
    · cases h
    · obtain ⟨⟨p, am, c⟩, h1, h⟩ := bind_ok h
      simp only at h
      obtain ⟨_, _, h⟩ := bind_ok h
      injection h with h
      rw [← h]
      refine ⟨postAmounts_later h1, ?_⟩
      simp only [hx]
      exact ⟨_, modify_snoc xs X _⟩

theorem readBody_machine {src rest : Parser.Source} {J J' : Jrn} {xs : List Xct} {X : Xct} (hx : J.xacts = xs ++ [X])
    (h : readBody xs.length src J = .ok (J', rest)) : J.store.Later J'.store ∧ ∃ X', J'.xacts = xs ++ [X'] := by
  induction src generalizing J X with
  | nil => injection h with h; rw [← (fst_ext h).1]; exact ⟨.refl, X, hx⟩
  | cons l src ih =>
    cases l with
    | none => injection h with h; rw [← (fst_ext h).1]; exact ⟨.refl, X, hx⟩
    | some line =>
      rw [readBody] at h
      split at h
      · injection h with h; rw [← (fst_ext h).1]; exact ⟨.refl, X, hx⟩
      · obtain ⟨J1, h1, h⟩ := bind_ok h
        have : J1.store = J.store ∧ ∃ X', J1.xacts = xs ++ [X'] := by
          unfold parseTrailingNote at h1
          obtain ⟨r, _, h1⟩ := bind_ok h1
          simp only at h1
          split at h1
          · injection h1 with h1; rw [← h1]; exact ⟨rfl, X, hx⟩
          · injection h1 with h1
            rw [← h1]
            refine ⟨rfl, ?_⟩
            simp only [hx]
            exact ⟨_, modify_snoc xs X _⟩
        obtain ⟨X1, hx1⟩ := this.2
        rw [← this.1]
        exact ih hx1 h
      · obtain ⟨J1, h1, h⟩ := bind_ok h
        obtain ⟨g1, X1, hx1⟩ := parsePost_machine hx h1
        obtain ⟨g2, g3⟩ := ih hx1 h
        exact ⟨g1.trans g2, g3⟩
      · cases h

theorem xactDirective_machine {line : Str} {src rest : Parser.Source} {J J' : Jrn} (h : xactDirective line src J = .ok (J', rest)) :
    J.store.Later J'.store ∧ ∃ X, J'.xacts = J.xacts ++ [X] ∧ ∀ P ∈ X.posts, P.cost ≠ none → NodeLive J'.store P := by
  unfold xactDirective at h
  obtain ⟨⟨J1, i⟩, h1, h⟩ := bind_ok h
  simp only at h
  obtain ⟨⟨J2, r⟩, h2, h⟩ := bind_ok h
  simp only at h
  obtain ⟨J3, h3, h⟩ := bind_ok h
  injection h with h
  rw [← (fst_ext h).1]
  unfold createXact at h1
  obtain ⟨⟨_, _, _, _⟩, _, h1⟩ := bind_ok h1
  simp only at h1
  obtain ⟨x, _, h1⟩ := bind_ok h1
  injection h1 with h1
  obtain ⟨e1, e2⟩ := fst_ext h1
  subst e1 e2
  obtain ⟨g1, X2, hx2⟩ := readBody_machine rfl h2
  unfold finalizeXact at h3
  rw [hx2, List.getElem?_append_right (by omega)] at h3
  simp only [Nat.sub_self, List.getElem?_cons_zero] at h3
  obtain ⟨⟨ps, p⟩, h4, h3⟩ := bind_ok h3
  injection h3 with h3
  obtain ⟨f1, f2⟩ := finalize_costs h4
  rw [← h3]
  refine ⟨g1.trans f1, { X2 with posts := ps }, ?_, f2⟩
  simp

theorem findOrCreate_ptr {p q : Store} {s : Str} {ann : Option Ann} {a : Addr} (h : p.findOrCreate s ann = (q, some a)) :
    a.block = tableBlock q.keys.length := by
  unfold Store.findOrCreate at h
  split at h
  · cases h
  · split at h
    · obtain ⟨h1, h2⟩ := fst_ext h
      injection h2 with h2
      have hk : q.keys = p.keys := by
        rw [← h1]
        cases ann with
        | none => rfl
        | some a => simp only; split <;> rfl
      rw [← h2, hk]
      rfl
    · obtain ⟨h1, h2⟩ := fst_ext h
      injection h2 with h2
      rw [← h2, ← h1]
      rfl

/-- A price line follows the pointer to its first commodity after the second was looked up. -/
theorem priceDirective_machine {p p' : Store} {line d t c q pc : Str} (hs : Scanner.scanPriceDirective line = .ok (d, t, c, q, pc))
    (h : parsePriceDirective p line = .ok p') :
    p.Later p' ∧ tableBlock (p.findOrCreate c none).1.keys.length = tableBlock p'.keys.length := by
  unfold parsePriceDirective at h
  rw [hs] at h
  simp only [bind, Except.bind] at h
  split at h
  · cases h
  · split at h
    · cases h
    · split at h
      · cases h
      · have hl : p.Later (p.findOrCreate c none).1 := .create c none .refl
        generalize hg : p.findOrCreate c none = g at h hl
        obtain ⟨p1, a1⟩ := g
        simp only at h hl ⊢
        have hl2 : p1.Later (p1.findOrCreate pc none).1 := .create pc none .refl
        generalize p1.findOrCreate pc none = g2 at h hl2
        obtain ⟨p2, a2⟩ := g2
        simp only at h hl2
        obtain ⟨k1, x, c', k2, k3⟩ := addPrice_later h
        subst k2
        have hb := findOrCreate_ptr hg
        refine ⟨(hl.trans hl2).trans k1, ?_⟩
        have : p'.keys = p2.keys := by
          unfold Store.addPrice at h
          simp only at h
          obtain ⟨_, _, h⟩ := bind_ok h
          obtain ⟨_, _, h⟩ := bind_ok h
          split at h
          · cases h
          · split at h
            · cases h
            · injection h with h; rw [← h]; rfl
        rw [this, ← hb]
        unfold Store.deref at k3
        split at k3
        · assumption
        · cases k3

end Ledger.Machine
