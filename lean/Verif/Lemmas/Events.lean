import Verif.Lemmas.Trace
import Verif.Lemmas.Accept
/-
Which events a traced run has.
-/
namespace Ledger.Trace
open Ledger Ledger.Parser

variable {α β : Type}

theorem mem_bind {e : Event} {m : Traced α} {f : α → Traced β} :
    e ∈ (m >>= f).events ↔ e ∈ m.events ∨ ∃ a, m.res = .ok a ∧ e ∈ (f a).events := by
  rw [events_bind, List.mem_append]
  cases m.res with
  | error x => simp
  | ok a => simp

theorem mem_reference {e : Event} {c : Option Str} : e ∈ (reference c).events ↔ e = .nullReference ∧ c = none := by
  unfold reference; split <;> simp_all

theorem mem_inverse {e : Event} {a : Amount} : e ∈ (inverse a).events ↔ e = .nullReference ∧ a.comm = none := by
  simp [inverse, mem_bind, mem_reference]

theorem mem_mul {e : Event} {a b : Amount} (h : e ∈ (mul a b).events) : a.comm = none ∧ b.comm = none := by
  simp only [mul, mem_bind, mem_reference, events_lift, events_pure, res_lift] at h
  rcases h with h | ⟨r, hr, ⟨_, h⟩ | ⟨_, _, h⟩⟩
  · simp at h
  · unfold Amount.mul at hr
    cases hq : a.qty.mul b.qty with
    | error e => rw [hq] at hr; simp [bind, Except.bind] at hr
    | ok q =>
      rw [hq] at hr
      simp only [bind, Except.bind, Except.ok.injEq] at hr
      subst hr
      simp only at h
      split at h
      · exact ⟨by assumption, h⟩
      · exact absurd h (by assumption)
  · simp at h

theorem subGo_events (l : List Amount) (a : Amount) (h : a.comm ∈ l.map (·.comm)) : (subGo l a).events = [] := by
  induction l with
  | nil => simp at h
  | cons x xs ih =>
    rw [subGo]
    split
    · rw [events_bind]
      cases x.subAssign a <;> simp
    · rename_i hne
      simp only [List.map_cons, List.mem_cons] at h
      have h := ih (h.resolve_left fun e => hne e.symm)
      rw [events_bind, h]
      cases (subGo xs a).res <;> simp

theorem subGo_comms (l l' : List Amount) (a : Amount) (h : a.comm ∈ l.map (·.comm))
    (hs : Balance.subGo l a = .ok l') : l'.map (·.comm) = l.map (·.comm) := by
  induction l generalizing l' with
  | nil => simp at h
  | cons x xs ih =>
    rw [Balance.subGo] at hs
    split at hs
    · cases h1 : x.subAssign a with
      | error e => rw [h1] at hs; simp [bind, Except.bind] at hs
      | ok y =>
        rw [h1] at hs
        simp only [bind, Except.bind, Except.ok.injEq] at hs
        subst hs
        unfold Amount.subAssign at h1
        split at h1
        · cases h1
        · cases hq : x.qty.sub a.qty with
          | error e => rw [hq] at h1; simp [bind, Except.bind] at h1
          | ok q =>
            rw [hq] at h1
            simp only [bind, Except.bind, Except.ok.injEq] at h1
            subst h1
            rfl
    · rename_i hne
      simp only [List.map_cons, List.mem_cons] at h
      cases h1 : Balance.subGo xs a with
      | error e => rw [h1] at hs; simp [bind, Except.bind] at hs
      | ok ys =>
        rw [h1] at hs
        simp only [bind, Except.bind, Except.ok.injEq] at hs
        subst hs
        simp only [List.map_cons]
        rw [ih _ (h.resolve_left fun e => hne e.symm) h1]

theorem assignCosts_events (comm : Option Str) (u : Amount) (hu : u.comm ≠ none) (ps : List Post) (b : Balance)
    (hb : comm ∈ b.amounts.map (·.comm)) : (assignCosts comm u ps b).events = [] := by
  induction ps generalizing b with
  | nil => rfl
  | cons p ps ih =>
    rw [List.eq_nil_iff_forall_not_mem]
    intro e he
    rw [assignCosts] at he
    cases hp : p.amount with
    | none => rw [hp] at he; simp at he
    | some amt =>
      rw [hp] at he
      simp only at he
      split at he
      · rename_i hc
        rw [mem_bind] at he
        rcases he with he | ⟨b1, h1, he⟩
        · rw [subAssign, mem_bind] at he
          rw [subGo_events _ _ (by rw [hc]; exact hb)] at he
          simp at he
        · rw [mem_bind] at he
          rcases he with he | ⟨cost, h2, he⟩
          · exact hu (mem_mul he).1
          · rw [mem_bind] at he
            rcases he with he | ⟨b2, h3, he⟩
            · simp at he
            · rw [mem_bind] at he
              rcases he with he | ⟨_, _, he⟩
              · rw [ih] at he
                · simp at he
                · rw [subAssign_res] at h1
                  unfold Balance.subAssign at h1
                  cases h4 : Balance.subGo b.amounts amt with
                  | error e => rw [h4] at h1; simp [bind, Except.bind] at h1
                  | ok l =>
                    rw [h4] at h1
                    simp only [bind, Except.bind, Except.ok.injEq] at h1
                    subst h1
                    have := subGo_comms _ _ _ (by rw [hc]; exact hb) h4
                    have h3 : Balance.addAll ⟨l⟩ [cost] = .ok b2 := by
                      unfold Balance.addAll
                      rw [res_lift] at h3
                      rw [h3]; rfl
                    rw [addAll_comms _ _ _ h3, mem_foldl_addComm]
                    exact .inl (this ▸ hb)
              · simp at he
      · rw [mem_bind] at he
        rcases he with he | ⟨_, _, he⟩
        · rw [ih b hb] at he; simp at he
        · simp at he

theorem div_comm_ne {a b u : Amount} (h : a.div b = .ok u) (hne : a.comm ≠ b.comm) : u.comm ≠ none := by
  unfold Amount.div at h
  cases hq : a.qty.div b.qty with
  | error e => rw [hq] at h; simp [bind, Except.bind] at h
  | ok q =>
    rw [hq] at h
    simp only [bind, Except.bind, Except.ok.injEq] at h
    subst h
    simp only
    split
    · rename_i hn; intro hb; exact hne (hn.trans hb.symm)
    · assumption

theorem pair_events (ps : List Post) (x y : Amount) (hxy : x.comm ≠ y.comm) (xy : Amount × Amount)
    (h : xy = (x, y) ∨ xy = (y, x)) :
    (lift (xy.2.div xy.1) >>= fun perUnit => assignCosts xy.1.comm perUnit.abs ps ⟨[x, y]⟩).events = [] := by
  rw [List.eq_nil_iff_forall_not_mem]
  intro e he
  rw [mem_bind] at he
  rcases he with he | ⟨u, hu, he⟩
  · simp at he
  · rw [res_lift] at hu
    rcases h with rfl | rfl
    · rw [assignCosts_events _ u.abs (show u.comm ≠ none from div_comm_ne hu hxy.symm) _ _ (by simp)] at he
      simp at he
    · rw [assignCosts_events _ u.abs (show u.comm ≠ none from div_comm_ne hu hxy) _ _ (by simp)] at he
      simp at he

theorem impliedCosts_events (ps : List Post) (b : Balance) (np : Option Nat) (hb : (b.amounts.map (·.comm)).Nodup) :
    (impliedCosts ps b np).events = [] := by
  obtain ⟨am⟩ := b
  match np, am with
  | some i, _ => rfl
  | none, [] => rfl
  | none, [_] => rfl
  | none, _ :: _ :: _ :: _ => rfl
  | none, [x, y] =>
    have hxy : x.comm ≠ y.comm := by simpa using hb
    simp only [impliedCosts]
    cases Finalize.topPost ps with
    | none => rfl
    | some top =>
      simp only
      split
      · refine pair_events ps x y hxy _ ?_
        cases top.amount <;> simp only <;> split <;> simp
      · rfl

theorem exchange_events (p : Pool) (amount cost : Amount) (t : DateTime) :
    (exchange p amount cost false t).events = [] := by
  rw [List.eq_nil_iff_forall_not_mem]
  intro e he
  unfold exchange at he
  cases hc : amount.comm with
  | none => rw [hc] at he; simp at he
  | some sym =>
    rw [hc] at he
    simp only [mem_bind, events_lift, events_pure, List.not_mem_nil, false_or, and_false, exists_false, or_false] at he
    obtain ⟨_, _, _, _, _, _, he⟩ := he
    rcases he with he | ⟨f, _, he⟩
    · simp [finalCost] at he
    · unfold basisCost at he
      split at he
      · split at he
        · have := (mem_mul he).2; rw [hc] at this; cases this
        · simp at he
      · simp at he

theorem recordPrices_events (date : Option Date) (ps : List Post) (pool : Pool) :
    (recordPrices date ps pool).events = [] := by
  induction ps generalizing pool with
  | nil => rfl
  | cons p ps ih =>
    rw [List.eq_nil_iff_forall_not_mem]
    intro e he
    rw [recordPrices] at he
    cases hc : p.cost with
    | none => rw [hc] at he; simp [mem_bind, ih] at he
    | some cost =>
      rw [hc] at he
      simp only at he
      cases ha : p.amount with
      | none => rw [ha] at he; simp at he
      | some amt =>
        rw [ha] at he
        simp only at he
        split at he
        · simp at he
        · cases date with
          | none => simp at he
          | some d => simp [mem_bind, ih, exchange_events] at he

/-- Finalising refers to a null commodity exactly when it fills in a posting beside amounts without commodity. -/
theorem mem_finalize (e : Event) (x : Xact) (pool : Pool) :
    e ∈ (finalize x pool).events ↔ e = .nullReference ∧ (∃ r, Finalize.finalize x pool = .ok r) ∧
      (∃ p ∈ x.posts, p.Blank) ∧ ∀ a ∈ bookedAmounts x.posts, a.comm = none := by
  constructor
  · intro h
    have h0 := h
    unfold finalize at h
    simp only [mem_bind, events_lift, res_lift, List.not_mem_nil, false_or] at h
    obtain ⟨⟨b, np⟩, hs, h⟩ := h
    obtain ⟨hadd, _, hnp⟩ := sumPosts_ok _ _ _ _ _ _ hs
    have hcm := addAll_comms _ _ _ hadd
    have hnd : (b.amounts.map (·.comm)).Nodup := by
      rw [hcm]; exact foldl_addComm_nodup _ _ (by simp [Balance.empty])
    split at h
    · simp at h
    · rename_i hlen
      simp only [mem_bind, impliedCosts_events _ _ _ hnd, recordPrices_events, List.not_mem_nil, false_or, events_pure,
        and_false, exists_false, or_false, impliedCosts_res, recordPrices_res] at h
      obtain ⟨⟨ps1, b1⟩, hi, ⟨ps2, pool2⟩, hr, h⟩ := h
      cases hk : np with
      | none => rw [hk] at h; simp [fillNull] at h
      | some k =>
        have hb1 : b1 = b := by
          rcases impliedCosts_ok _ _ _ _ _ hi with ⟨_, h⟩ | ⟨h, _⟩
          · exact h
          · rw [hk] at h; cases h
        obtain ⟨am⟩ := b
        subst hb1
        rw [hk] at h hs hi
        rcases am with _ | ⟨a, _ | ⟨a2, am⟩⟩
        · simp [fillNull] at h
        rotate_left
        · simp [fillNull] at h
        · simp only [fillNull, mem_bind, mem_inverse, events_pure, List.not_mem_nil, and_false, exists_false, or_false] at h
          refine ⟨h.1, ?_, ?_, ?_⟩
          · unfold Finalize.finalize
            rw [hs]
            simp only [bind, Except.bind]
            rw [if_neg hlen, hi]
            simp only
            rw [hr]
            exact ⟨_, rfl⟩
          · rcases hnp rfl with ⟨_, h'⟩ | ⟨l, p, r, hp, hbl, _⟩
            · rw [hk] at h'; cases h'
            · exact ⟨p, by rw [hp]; simp, hbl⟩
          · intro a' ha'
            have : a'.comm ∈ [a].map (·.comm) := by
              have h2 : a'.comm ∈ (bookedAmounts x.posts).map (·.comm) := List.mem_map_of_mem ha'
              rw [hcm, mem_foldl_addComm]
              exact .inr h2
            simp only [List.map_cons, List.map_nil, List.mem_singleton] at this
            rw [this]; exact h.2
  · rintro ⟨rfl, ⟨⟨x', pool'⟩, hok⟩, ⟨p, hp, hbl⟩, hcs⟩
    obtain ⟨b, np, ps1, b1, ps2, hs, hlen, hi, hr, hf, _⟩ := finalize_ok _ _ _ _ hok
    obtain ⟨hadd, _, hnp⟩ := sumPosts_ok _ _ _ _ _ _ hs
    have hcm := addAll_comms _ _ _ hadd
    cases hk : np with
    | none =>
      rcases hnp rfl with ⟨h', _⟩ | ⟨_, _, _, _, _, _, h'⟩
      · exact absurd hbl (h' p hp)
      · rw [hk] at h'; cases h'
    | some k =>
      have hb1 : b1 = b := by
        rcases impliedCosts_ok _ _ _ _ _ hi with ⟨_, h⟩ | ⟨h, _⟩
        · exact h
        · rw [hk] at h; cases h
      subst hb1
      rw [hk] at hs hi hf
      obtain ⟨am⟩ := b1
      rcases am with _ | ⟨a, _ | ⟨a2, am⟩⟩
      · simp [Finalize.fillNull] at hf
      rotate_left
      · simp [Finalize.fillNull] at hf
      · have ha : a.comm = none := by
          have : a.comm ∈ [a].map (·.comm) := by simp
          rw [hcm, mem_foldl_addComm] at this
          rcases this with h | h
          · simp [Balance.empty] at h
          · obtain ⟨a', ha', e⟩ := List.mem_map.mp h
            rw [← e]; exact hcs a' ha'
        unfold finalize
        rw [mem_bind]
        refine .inr ⟨_, by rw [res_lift]; exact hs, ?_⟩
        simp only
        rw [if_neg hlen, mem_bind]
        refine .inr ⟨_, by rw [impliedCosts_res]; exact hi, ?_⟩
        rw [mem_bind]
        refine .inr ⟨_, by rw [recordPrices_res]; exact hr, ?_⟩
        rw [mem_bind]
        left
        simp only [fillNull, mem_bind, mem_inverse]
        exact .inl ⟨trivial, ha⟩

/-- No posting of the transaction is booked in a commodity. -/
def Bare (x : Xact) : Prop := ∀ p ∈ x.posts, ∀ a, p.booked = some a → a.comm = none

/-- After a null reference no posting of the transaction is booked in a commodity. -/
theorem finalize_bare {x x' : Xact} {pool pool' : Pool} (h : .nullReference ∈ (finalize x pool).events)
    (hok : Finalize.finalize x pool = .ok (x', pool')) : Bare x' := by
  obtain ⟨_, _, ⟨p, hp, hbl⟩, hcs⟩ := (mem_finalize _ _ _).mp h
  obtain ⟨b, np, ps1, b1, ps2, hs, hlen, hi, hr, hf, rfl⟩ := finalize_ok _ _ _ _ hok
  obtain ⟨hadd, _, hnp⟩ := sumPosts_ok _ _ _ _ _ _ hs
  have hcm := addAll_comms _ _ _ hadd
  rcases hnp rfl with ⟨h', _⟩ | ⟨l, q, r, hx, hq, hlr, rfl⟩
  · exact absurd hbl (h' p hp)
  · obtain ⟨rfl, rfl⟩ : ps1 = x.posts ∧ b1 = b := by
      rcases impliedCosts_ok _ _ _ _ _ hi with h | ⟨h, _⟩
      · exact h
      · cases h
    obtain ⟨am⟩ := b1
    rcases am with _ | ⟨a, _ | ⟨a2, am⟩⟩
    · simp [Finalize.fillNull] at hf
    rotate_left
    · simp [Finalize.fillNull] at hf
    · have ha : a.comm = none := by
        have : a.comm ∈ [a].map (·.comm) := by simp
        rw [hcm, mem_foldl_addComm] at this
        rcases this with h | h
        · simp [Balance.empty] at h
        · obtain ⟨a', ha', e⟩ := List.mem_map.mp h
          rw [← e]; exact hcs a' ha'
      simp only [Finalize.fillNull, Except.ok.injEq] at hf
      have hm : ps2 = l ++ { q with amount := some a.inverse } :: r := by
        rw [← hf, hx, Nat.zero_add, modify_mid]
      intro p' hp' a' ha'
      simp only [hm, List.mem_append, List.mem_cons] at hp'
      have keep : ∀ p' ∈ x.posts, ∀ a', p'.booked = some a' → a'.comm = none := by
        intro p' hp' a' ha'
        exact hcs a' (List.mem_filterMap.mpr ⟨p', hp', ha'⟩)
      rcases hp' with hp' | rfl | hp'
      · exact keep p' (by rw [hx]; simp [hp']) a' ha'
      · have : q.cost = none := (blank_fields hq).1
        simp only [Post.booked, this, Option.some.injEq] at ha'
        rw [← ha']; exact ha
      · exact keep p' (by rw [hx]; simp [hp']) a' ha'

theorem mem_readBody {e : Event} {i : Nat} {src : Source} {j : Journal} (h : e ∈ (readBody i src j).events) :
    e = .readError ∧ none ∈ src := by
  induction src generalizing j with
  | nil => simp [readBody] at h
  | cons l src ih =>
    cases l with
    | none => simp [readBody, mem_bind] at h; exact ⟨h, by simp⟩
    | some line =>
      rw [readBody] at h
      cases hc : classify line with
      | fin => rw [hc] at h; simp at h
      | note =>
        rw [hc] at h
        simp only [mem_bind, events_lift, List.not_mem_nil, false_or] at h
        obtain ⟨_, _, h⟩ := h
        exact ⟨(ih h).1, List.mem_cons_of_mem _ (ih h).2⟩
      | post input =>
        rw [hc] at h
        simp only [mem_bind, events_lift, List.not_mem_nil, false_or] at h
        obtain ⟨_, _, h⟩ := h
        exact ⟨(ih h).1, List.mem_cons_of_mem _ (ih h).2⟩
      | bad => rw [hc] at h; simp at h

/-- A transaction with a null reference is booked in no commodity. -/
theorem xactDirective_bare {line : Str} {rest rest' : Source} {j j' : Journal}
    (h : .nullReference ∈ (xactDirective line rest j).events) (hok : Parser.xactDirective line rest j = .ok (j', rest')) :
    ∃ x, j'.xacts = j.xacts ++ [x] ∧ Bare x := by
  obtain ⟨_, _, _, _, _, x', _, _, e', _⟩ := xactDirective_ok hok
  refine ⟨x', e', ?_⟩
  unfold xactDirective at h
  unfold Parser.xactDirective at hok
  simp only [mem_bind, events_lift, res_lift, List.not_mem_nil, false_or, readBody_res, finalizeXact_res, events_pure,
    and_false, exists_false, or_false] at h
  obtain ⟨c, h1, h | ⟨⟨j2, rest2⟩, h2, h⟩⟩ := h
  · exact absurd (mem_readBody h).1 (by simp)
  · rw [h1] at hok
    simp only [bind, Except.bind] at hok
    rw [h2] at hok
    simp only at hok h
    unfold finalizeXact at h
    unfold Parser.finalizeXact at hok
    cases hx : j2.xacts[c.2]? with
    | none => rw [hx] at h; simp at h
    | some x1 =>
      rw [hx] at h hok
      simp only [mem_bind, events_pure, List.not_mem_nil, and_false, exists_false, or_false] at h hok
      cases h5 : Finalize.finalize x1 j2.pool with
      | error e => rw [h5] at hok; simp [bind, Except.bind] at hok
      | ok r =>
        rw [h5] at hok
        simp only [bind, Except.bind, Except.ok.injEq, Prod.mk.injEq] at hok
        obtain ⟨rfl, _⟩ := hok
        have hb := finalize_bare h h5
        have hlt : c.2 < j2.xacts.length := by
          rw [List.getElem?_eq_some_iff] at hx; exact hx.1
        have hc : c.2 = j.xacts.length ∧ j2.xacts.length = j.xacts.length + 1 := by
          have hlen : j2.xacts.length = j.xacts.length + 1 := by
            have := congrArg List.length e'
            simpa using this
          refine ⟨?_, hlen⟩
          unfold createXact at h1
          cases h6 : Scanner.tokenizeXactHeader line with
          | error e => rw [h6] at h1; simp [bind, Except.bind] at h1
          | ok r6 =>
            rw [h6] at h1
            simp only [bind, Except.bind] at h1
            cases h7 : Xact.create r6.1 r6.2.1 r6.2.2.1 r6.2.2.2 with
            | error e => rw [h7] at h1; simp at h1
            | ok x0 =>
              rw [h7] at h1
              simp only [Except.ok.injEq] at h1
              rw [← h1]; rfl
        have : (j2.xacts.set c.2 r.1)[j.xacts.length]? = some r.1 := by
          rw [hc.1, List.getElem?_set_self (by omega)]
        simp only at e'
        rw [e'] at this
        simp at this
        rw [this]; exact hb

/-- What a parse that succeeds does: transactions are appended, and if there was a null reference one of them is booked
in no commodity. -/
def Appends (m : Traced Journal) (j : Journal) : Prop :=
  ∀ j', m.res = .ok j' → ∃ new, j'.xacts = j.xacts ++ new ∧ (.nullReference ∈ m.events → ∃ x ∈ new, Bare x)

theorem Appends.chain {m : Traced Journal} {f : Journal → Traced Journal} {j : Journal} (h1 : Appends m j)
    (h2 : ∀ k, Appends (f k) k) : Appends (m >>= f) j := by
  intro j' h
  rw [res_bind] at h
  cases hm : m.res with
  | error e => rw [hm] at h; simp [bind, Except.bind] at h
  | ok k =>
    rw [hm] at h
    simp only [bind, Except.bind] at h
    obtain ⟨n1, e1, b1⟩ := h1 k hm
    obtain ⟨n2, e2, b2⟩ := h2 k j' h
    refine ⟨n1 ++ n2, by rw [e2, e1, List.append_assoc], ?_⟩
    intro he
    rcases mem_bind.mp he with he | ⟨k', hk', he⟩
    · obtain ⟨x, hx, hb⟩ := b1 he
      exact ⟨x, List.mem_append_left _ hx, hb⟩
    · rw [hm] at hk'; injection hk' with hk'; subst hk'
      obtain ⟨x, hx, hb⟩ := b2 he
      exact ⟨x, List.mem_append_right _ hx, hb⟩

theorem Appends.same (j : Journal) : Appends (pure j) j := by
  intro j' h
  rw [res_pure] at h; injection h with h; subst h
  exact ⟨[], by simp, by simp⟩

theorem Appends.stop (e : Panic) (j : Journal) : Appends (lift (.error e)) j := by
  intro j' h
  rw [res_lift] at h; cases h

theorem parseGo_appends (inc : Str → Journal → Traced Journal) (hi : ∀ f j, Appends (inc f j) j) (n : Nat) (src : Source)
    (j : Journal) : Appends (parseGo inc n src j) j := by
  induction n generalizing src j with
  | zero => exact .stop _ _
  | succ n ih =>
    cases src with
    | nil => exact .same _
    | cons l src =>
      cases l with
      | none =>
        intro j' h
        simp only [parseGo, res_emit, res_pure, bind, Except.ok.injEq] at h
        subst h
        exact ⟨[], by simp, by simp [parseGo, mem_bind]⟩
      | some line =>
        rw [parseGo]
        cases topLine line with
        | ignored => exact ih _ _
        | skipped => exact ih _ _
        | xact =>
          simp only
          intro j' h
          rw [res_bind, xactDirective_res] at h
          cases hx : Parser.xactDirective line src j with
          | error e => rw [hx] at h; simp [bind, Except.bind] at h
          | ok r =>
            rw [hx] at h
            simp only [bind, Except.bind] at h
            obtain ⟨n2, e2, b2⟩ := ih r.2 r.1 j' h
            obtain ⟨_, _, _, _, _, x', _, _, e1, _⟩ := xactDirective_ok hx
            refine ⟨[x'] ++ n2, by rw [e2, e1, List.append_assoc], ?_⟩
            intro he
            rcases mem_bind.mp he with he | ⟨k', hk', he⟩
            · obtain ⟨x, hx1, hb⟩ := xactDirective_bare he hx
              rw [e1] at hx1
              have : x' = x := by simpa using hx1
              exact ⟨x, by simp [this], hb⟩
            · rw [xactDirective_res, hx] at hk'; injection hk' with hk'; subst hk'
              obtain ⟨x, hx, hb⟩ := b2 he
              exact ⟨x, List.mem_append_right _ hx, hb⟩
        | indented => exact .stop _ _
        | includeFile f => exact (hi f j).chain fun k => ih _ _
        | price =>
          simp only
          intro j' h
          rw [res_bind, res_lift] at h
          cases hx : j.pool.parsePriceDirective line with
          | error e => rw [hx] at h; simp [bind, Except.bind] at h
          | ok pool =>
            rw [hx] at h
            simp only [bind, Except.bind] at h
            obtain ⟨n2, e2, b2⟩ := ih _ _ j' h
            refine ⟨n2, e2, ?_⟩
            intro he
            rcases mem_bind.mp he with he | ⟨k', hk', he⟩
            · simp at he
            · rw [res_lift] at hk'; injection hk' with hk'; subst hk'
              exact b2 he
        | fails p => exact .stop _ _

theorem parse_appends (files : Files) (d : Nat) (src : Source) (j : Journal) : Appends (parse files d src j) j := by
  induction d generalizing src j with
  | zero =>
    unfold parse parseWith
    refine parseGo_appends _ (fun f j => ?_) _ _ _
    cases files f with
    | none => exact .same _
    | some s => exact .stop _ _
  | succ d ih =>
    unfold parse parseWith
    refine parseGo_appends _ (fun f j => ?_) _ _ _
    cases files f with
    | none => exact .same _
    | some s => exact ih _ _

theorem readFiles_appends (files : Files) (d : Nat) (fs : List Str) (j : Journal) : Appends (readFiles files d fs j) j := by
  induction fs generalizing j with
  | nil => exact .same _
  | cons f fs ih =>
    have h1 : Appends (parseFile files d f j) j := by
      unfold parseFile
      cases files f with
      | none => exact .stop _ _
      | some s => exact parse_appends _ _ _ _
    exact h1.chain fun k => ih k

/-! ### read errors -/

theorem finalize_no_readError (x : Xact) (pool : Pool) : .readError ∉ (finalize x pool).events := by
  intro h; exact absurd ((mem_finalize _ _ _).mp h).1 (by simp)

theorem xactDirective_readError {line : Str} {rest : Source} {j : Journal}
    (h : .readError ∈ (xactDirective line rest j).events) : none ∈ rest := by
  unfold xactDirective at h
  simp only [mem_bind, events_lift, List.not_mem_nil, false_or, events_pure, and_false, exists_false, or_false] at h
  obtain ⟨c, _, h | ⟨r, _, h⟩⟩ := h
  · exact (mem_readBody h).2
  · unfold finalizeXact at h
    split at h
    · simp at h
    · simp only [mem_bind, events_pure, List.not_mem_nil, and_false, exists_false, or_false] at h
      exact absurd h (finalize_no_readError _ _)

theorem readBody_suffix {i : Nat} {src rest : Source} {j j' : Journal} (h : Parser.readBody i src j = .ok (j', rest)) :
    rest <:+ src := by
  induction src generalizing j with
  | nil => simp [Parser.readBody] at h; simp [h.2]
  | cons l src ih =>
    cases l with
    | none => simp [Parser.readBody] at h; rw [← h.2]; exact List.suffix_cons _ _
    | some line =>
      rw [Parser.readBody] at h
      cases hc : classify line with
      | fin => rw [hc] at h; simp at h; rw [← h.2]; exact List.suffix_cons _ _
      | note =>
        rw [hc] at h
        simp only at h
        cases h1 : parseTrailingNote line i j with
        | error e => rw [h1] at h; simp [bind, Except.bind] at h
        | ok k => rw [h1] at h; exact (ih h).trans (List.suffix_cons _ _)
      | post input =>
        rw [hc] at h
        simp only at h
        cases h1 : parsePost input i j with
        | error e => rw [h1] at h; simp [bind, Except.bind] at h
        | ok k => rw [h1] at h; exact (ih h).trans (List.suffix_cons _ _)
      | bad => rw [hc] at h; cases h

theorem xactDirective_suffix {line : Str} {src rest : Source} {j j' : Journal}
    (h : Parser.xactDirective line src j = .ok (j', rest)) : rest <:+ src := by
  unfold Parser.xactDirective at h
  cases h1 : createXact line j with
  | error e => rw [h1] at h; simp [bind, Except.bind] at h
  | ok c =>
    rw [h1] at h
    simp only [bind, Except.bind] at h
    cases h2 : Parser.readBody c.2 src c.1 with
    | error e => rw [h2] at h; simp at h
    | ok r =>
      rw [h2] at h
      simp only at h
      cases h3 : Parser.finalizeXact c.2 r.1 with
      | error e => rw [h3] at h; simp at h
      | ok k =>
        rw [h3] at h
        simp only [Except.ok.injEq, Prod.mk.injEq] at h
        rw [← h.2]
        exact readBody_suffix h2

theorem parseGo_readError (inc : Str → Journal → Traced Journal) (hi : ∀ f j, .readError ∉ (inc f j).events) (n : Nat)
    (src : Source) (hs : none ∉ src) (j : Journal) : .readError ∉ (parseGo inc n src j).events := by
  induction n generalizing src j with
  | zero => simp [parseGo]
  | succ n ih =>
    cases src with
    | nil => simp [parseGo]
    | cons l src =>
      have hs' : none ∉ src := fun h => hs (List.mem_cons_of_mem _ h)
      cases l with
      | none => exact absurd List.mem_cons_self hs
      | some line =>
        rw [parseGo]
        cases topLine line with
        | ignored => exact ih _ hs' _
        | skipped => exact ih _ hs' _
        | xact =>
          simp only
          intro he
          rcases mem_bind.mp he with he | ⟨r, hr, he⟩
          · exact hs' (xactDirective_readError he)
          · rw [xactDirective_res] at hr
            exact ih r.2 (fun h => hs' ((xactDirective_suffix hr).subset h)) _ he
        | indented => simp
        | includeFile f =>
          simp only
          intro he
          rcases mem_bind.mp he with he | ⟨r, hr, he⟩
          · exact hi _ _ he
          · exact ih _ hs' _ he
        | price =>
          simp only
          intro he
          rcases mem_bind.mp he with he | ⟨r, hr, he⟩
          · simp at he
          · exact ih _ hs' _ he
        | fails p => simp

theorem parse_readError (files : Files) (hf : ∀ f s, files f = some s → none ∉ s) (d : Nat) (src : Source)
    (hs : none ∉ src) (j : Journal) : .readError ∉ (parse files d src j).events := by
  induction d generalizing src j with
  | zero =>
    unfold parse parseWith
    refine parseGo_readError _ (fun f j => ?_) _ _ hs _
    cases files f <;> simp
  | succ d ih =>
    unfold parse parseWith
    refine parseGo_readError _ (fun f j => ?_) _ _ hs _
    cases hff : files f with
    | none => simp
    | some s => exact ih _ (hf _ _ hff) _

theorem readFiles_readError (files : Files) (hf : ∀ f s, files f = some s → none ∉ s) (d : Nat) (fs : List Str)
    (j : Journal) : .readError ∉ (readFiles files d fs j).events := by
  induction fs generalizing j with
  | nil => simp [readFiles]
  | cons f fs ih =>
    rw [readFiles]
    intro he
    rcases mem_bind.mp he with he | ⟨r, hr, he⟩
    · unfold parseFile at he
      cases hff : files f with
      | none => rw [hff] at he; simp at he
      | some s => rw [hff] at he; exact parse_readError _ hf _ _ (hf _ _ hff) _ he
    · exact ih _ he

end Ledger.Trace
