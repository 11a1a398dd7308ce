import Verif.Lemmas.MachineWalk
/-
Whole files, with pointers: they are read exactly if the pointers are fresh.
-/
namespace Ledger.Machine
open Ledger Ledger.Memory Ledger.Heap Ledger.Parser

theorem priceDirective_eq {line d t c q pc : Str} {x : Date} {y : Time} {n : Dec} (h : PriceLineParts line d t c q pc) (hd : DayText d x)
    (ht : PriceTime t y) (hq : Numeral q n) (p : Store) :
    parsePriceDirective p line = ((p.findOrCreate c none).1.findOrCreate pc none).1.addPrice (p.findOrCreate c none).2 ⟨x, y⟩
      ⟨n, ((p.findOrCreate c none).1.findOrCreate pc none).2⟩ := by
  have hs := (priceLineParts_iff _ _ _ _ _ _).mp h
  unfold parsePriceDirective
  rw [hs]
  show (match Chrono.parseDate d with | none => _ | some d => _) = _
  rw [(parseDate_iff _ _).mpr hd]
  simp only [(priceTime_iff _ _).mp ht, (C02_parse_exact _ _).mpr hq]

/-- One price line, with pointers: it is read exactly if the table does not move in between. -/
theorem price_walk {line : Str} {r : Recording} (hp : PriceSays line r) {M : List Str} {j : Journal} {J : Jrn} (hj : JrnR j J)
    (hT : Timed M J.store) :
    (∀ P, parsePriceDirective J.store line = .ok P → ItemFresh M (.price r) ∧ Timed (M ++ [r.src, r.dst]) P) ∧
    (ItemFresh M (.price r) → ∃ P, parsePriceDirective J.store line = .ok P) := by
  obtain ⟨pool', p1, _⟩ := priceSays_run hp j.pool
  obtain ⟨d, t, q, q1, q2, q3, q4, _, q6⟩ := hp
  have hsrc := (price_run q1 q2 q3 q4 j.pool).1
  obtain ⟨a, ha⟩ := findOrCreate_some (p := J.store) hsrc none
  obtain ⟨b, hb⟩ := findOrCreate_some (p := (J.store.findOrCreate r.src none).1) q6 none
  have hT1 := hT.mention hsrc
  have hT2 := hT1.mention q6
  have hpre : M ++ [r.src] <+: M ++ [r.src, r.dst] := ⟨[r.dst], by simp⟩
  have hN : M ++ [r.src] ++ [r.dst] = M ++ [r.src, r.dst] := by simp
  rw [hN] at hT2
  have hab : a.block = place (M ++ [r.src]) := by
    rw [findOrCreate_ptr (show J.store.findOrCreate r.src none = ((J.store.findOrCreate r.src none).1, some a) by rw [← ha]), hT1.block]
  have heq := priceDirective_eq q1 q2 q3 q4 J.store
  refine ⟨?_, ?_⟩
  · intro P hP
    rw [heq, ha, hb] at hP
    have hP' := hP
    unfold Store.addPrice at hP
    simp only at hP
    obtain ⟨c, hc, hP⟩ := bind_ok hP
    obtain ⟨e, he, hP⟩ := bind_ok hP
    have hlive : Live ((J.store.findOrCreate r.src none).1.findOrCreate r.dst none).1 ⟨r.qty, some a⟩ :=
      ⟨some c, by unfold Store.look; simp only; rw [hc]; rfl⟩
    refine ⟨?_, ?_⟩
    · show ¬ Moves _ _
      rw [moves_place (by simp) hpre, ← hab, look_block hlive rfl, hT2.block]
    · split at hP
      · cases hP
      · split at hP
        · cases hP
        · injection hP with hP
          rw [← hP]
          exact hT2.edges rfl rfl rfl
  · intro hf
    have hf : place (M ++ [r.src]) = place (M ++ [r.src, r.dst]) := (moves_place (by simp) hpre).mp hf
    have hg := findOrCreate_grown hj.fine r.src none (by intro a ha; cases ha)
    rw [Option.map_none] at hg
    have hg' := findOrCreate_grown hg.fine r.dst none (by intro a ha; cases ha)
    rw [Option.map_none] at hg'
    have hsim := priceDirective_sim hj.fine line
    rw [hj.pool, p1] at hsim
    cases hP : parsePriceDirective J.store line with
    | ok P => exact ⟨P, rfl⟩
    | error e =>
      exfalso
      rw [hP] at hsim
      rw [heq, ha, hb] at hP
      have hnow : ∀ x, some a = some x → Now ((J.store.findOrCreate r.src none).1.findOrCreate r.dst none).1 x := by
        intro x hx
        injection hx with hx
        subst hx
        exact ⟨(hg.taken a ha).mono hg'.keys, by rw [hT2.block, ← hf, hab]⟩
      have hnow' : GoodQ (Now ((J.store.findOrCreate r.src none).1.findOrCreate r.dst none).1) ⟨r.qty, some b⟩ := by
        intro x hx
        injection hx with hx
        subst hx
        exact ⟨hg'.taken b hb, findOrCreate_ptr (show (J.store.findOrCreate r.src none).1.findOrCreate r.dst none = (_, some b) by rw [← hb])⟩
      rcases deref_cases (sound_now hg'.fine) (hnow a rfl) with ⟨c, d1, _⟩ | ⟨_, h⟩
      · rcases look_cases (sound_now hg'.fine) hnow' with ⟨y, y1, _⟩ | ⟨_, h⟩
        · unfold Store.addPrice at hP
          simp only at hP y1
          rw [d1] at hP
          change (((J.store.findOrCreate r.src none).1.findOrCreate r.dst none).1.look (some b) >>= _) = _ at hP
          rw [y1] at hP
          change (if some c = y then _ else _) = _ at hP
          rw [hsim.1] at hP
          split at hP
          · cases hP
          · cases y with
            | none => cases hP
            | some d => cases hP
        · exact h
      · exact h

/-- As `FreshReading`, after the given mentions. -/
def FreshFrom : List Str → List Item → Prop
  | _, [] => True
  | M, i :: is => ItemFresh M i ∧ FreshFrom (M ++ i.mentions) is

theorem mentions_cons (i : Item) (is : List Item) : mentions (i :: is) = i.mentions ++ mentions is := rfl

theorem mentions_append (is is' : List Item) : mentions (is ++ is') = mentions is ++ mentions is' := by
  simp [mentions]

theorem freshFrom_append {M : List Str} {is is' : List Item} :
    FreshFrom M (is ++ is') ↔ FreshFrom M is ∧ FreshFrom (M ++ mentions is) is' := by
  induction is generalizing M with
  | nil => simp [FreshFrom, mentions]
  | cons i is ih =>
    show _ ∧ FreshFrom _ (is ++ is') ↔ (_ ∧ _) ∧ _
    rw [ih, mentions_cons, and_assoc, List.append_assoc]

theorem freshReading_from (is : List Item) : FreshReading is ↔ FreshFrom [] is := by
  constructor
  · intro h
    have key : ∀ b a, is = a ++ b → FreshFrom (mentions a) b := by
      intro b
      induction b with
      | nil => intro a _; trivial
      | cons i b ih =>
        intro a e
        refine ⟨h a i b e, ?_⟩
        have := ih (a ++ [i]) (by rw [e]; simp)
        rw [mentions_append] at this
        simpa [mentions] using this
    exact key is [] rfl
  · rintro h a i b rfl
    have := (freshFrom_append.mp h).2
    exact (by simpa using this.1)

/-- The transactions of the journal, with their pointers, are the ones that the items write. -/
inductive Origins : List Str → List Item → List Xct → Prop
  | nil {M : List Str} : Origins M [] []
  | xact {M : List Str} {w : Writing} {X : Xct} {is : List Item} {Xs : List Xct} (h : Origin M w X)
      (t : Origins (M ++ (Item.xact w).mentions) is Xs) : Origins M (.xact w :: is) (X :: Xs)
  | price {M : List Str} {r : Recording} {is : List Item} {Xs : List Xct}
      (t : Origins (M ++ (Item.price r).mentions) is Xs) : Origins M (.price r :: is) Xs
  | gap {M : List Str} {is : List Item} {Xs : List Xct} (t : Origins (M ++ Item.gap.mentions) is Xs) : Origins M (.gap :: is) Xs

theorem Origins.append {M : List Str} {is is' : List Item} {Xs Ys : List Xct} (h : Origins M is Xs)
    (g : Origins (M ++ mentions is) is' Ys) : Origins M (is ++ is') (Xs ++ Ys) := by
  induction h with
  | nil => simpa [mentions] using g
  | xact h _ ih => exact .xact h (ih (by rwa [mentions_cons, ← List.append_assoc] at g))
  | price _ ih => exact .price (ih (by rwa [mentions_cons, ← List.append_assoc] at g))
  | gap _ ih => exact .gap (ih (by rwa [mentions_cons, ← List.append_assoc] at g))

/-- All items are read, and their pointers are fresh. -/
structure Walked (M : List Str) (is : List Item) (J : Jrn) (j' : Journal) (J' : Jrn) : Prop where
  fresh : FreshFrom M is
  readable : Readable j'
  rel : JrnR j' J'
  timed : Timed (M ++ mentions is) J'.store
  xacts : ∃ new, J'.xacts = J.xacts ++ new ∧ Origins M is new

/-- A part of the program that reads: the items are read if their pointers are fresh, and otherwise a stale pointer is followed. -/
def Walks (is : List Item) (f : Journal → Res Journal) (F : Jrn → Res Jrn) : Prop :=
  ∀ M j J, Readable j → JrnR j J → Timed M J.store → ∀ j', f j = .ok j' →
    (F J = .error .danglingPointer ∧ ¬FreshFrom M is) ∨ ∃ J', F J = .ok J' ∧ Walked M is J j' J'

theorem Walked.nil {M : List Str} {j : Journal} {J : Jrn} (hr : Readable j) (hj : JrnR j J) (hT : Timed M J.store) : Walked M [] J j J :=
  ⟨trivial, hr, hj, by simpa [mentions] using hT, [], by simp, .nil⟩

theorem Walked.append {M : List Str} {is is' : List Item} {j j1 : Journal} {J J1 J2 : Jrn} (h : Walked M is J j J1)
    (g : Walked (M ++ mentions is) is' J1 j1 J2) : Walked M (is ++ is') J j1 J2 := by
  obtain ⟨new, a1, a2⟩ := h.xacts
  obtain ⟨new', b1, b2⟩ := g.xacts
  exact ⟨freshFrom_append.mpr ⟨h.fresh, g.fresh⟩, g.readable, g.rel, by rw [mentions_append, ← List.append_assoc]; exact g.timed,
    new ++ new', by rw [b1, a1, List.append_assoc], a2.append b2⟩

theorem Walked.gaps {M : List Str} {src : Source} {j : Journal} {J : Jrn} (hr : Readable j) (hj : JrnR j J) (hT : Timed M J.store) :
    Walked M (gapIn src) J j J := by
  rcases gapIn_or src with h | h <;> rw [h]
  · exact .nil hr hj hT
  · exact ⟨⟨trivial, trivial⟩, hr, hj, by simpa [mentions, Item.mentions] using hT, [], by simp, .gap .nil⟩

theorem gapIn_fresh (M : List Str) (src : Source) : FreshFrom M (gapIn src) ∧ mentions (gapIn src) = [] := by
  rcases gapIn_or src with h | h <;> rw [h]
  · exact ⟨trivial, rfl⟩
  · exact ⟨⟨trivial, trivial⟩, rfl⟩

theorem Walks.nil : Walks [] .ok .ok := by
  intro M j J hr hj hT j' h
  injection h with h
  exact Or.inr ⟨J, rfl, h ▸ .nil hr hj hT⟩

theorem Walks.append {is is' : List Item} {f g : Journal → Res Journal} {F G : Jrn → Res Jrn} (h1 : Walks is f F) (h2 : Walks is' g G) :
    Walks (is ++ is') (fun j => f j >>= g) (fun J => F J >>= G) := by
  intro M j J hr hj hT j' h
  obtain ⟨j1, e1, e2⟩ := bind_ok h
  rcases h1 M j J hr hj hT j1 e1 with ⟨e, n⟩ | ⟨J1, e, t⟩
  · exact Or.inl ⟨by show (F J >>= G) = _; rw [e]; rfl, fun h => n (freshFrom_append.mp h).1⟩
  · rcases h2 _ j1 J1 t.readable t.rel t.timed j' e2 with ⟨e', n⟩ | ⟨J', e', t'⟩
    · exact Or.inl ⟨by show (F J >>= G) = _; rw [e]; exact e', fun h => n (freshFrom_append.mp h).2⟩
    · exact Or.inr ⟨J', by show (F J >>= G) = _; rw [e]; exact e', t.append t'⟩

theorem walk_price {line : Str} {r : Recording} (hp : PriceSays line r) :
    Walks [.price r] (fun j => j.pool.parsePriceDirective line >>= fun pool => .ok { j with pool := pool })
      (fun J => parsePriceDirective J.store line >>= fun p => .ok { J with store := p }) := by
  intro M j J hr hj hT j' h
  obtain ⟨w1, w2⟩ := price_walk hp hj hT
  rcases pass_price hp j J hr hj j' h with e | ⟨J', e, t⟩
  · refine Or.inl ⟨e, ?_⟩
    rintro ⟨hf, -⟩
    obtain ⟨P, hP⟩ := w2 hf
    simp only [hP] at e
    cases e
  · refine Or.inr ⟨J', e, ?_⟩
    obtain ⟨_, r1, r2, _⟩ := t.facts hr hj
    cases hP : parsePriceDirective J.store line with
    | error e' => simp only [hP] at e; cases e
    | ok P =>
      simp only [hP] at e
      injection e with e
      subst e
      obtain ⟨f1, f2⟩ := w1 P hP
      exact ⟨⟨f1, trivial⟩, r1, r2, by simpa [mentions, Item.mentions] using f2, [], by simp, .price .nil⟩

theorem walk_go {inc : Str → Journal → Res Journal} {INC : Str → Jrn → Res Jrn} {said : Str → List Item → Ending → Prop}
    (hinc : ∀ f is, said f is .done → (∀ w ∈ writings is, Everyday w) → Walks is (inc f) (INC f)) {src : Source} {is : List Item} {e : Ending}
    (h : SourceSays said src is e) (he : e = .done) (hd : ∀ w ∈ writings is, Everyday w) (fuel : Nat) :
    Walks is (Parser.parseGo inc fuel src) (parseGo INC fuel src) := by
  have top := fun {line t} (h : TopPart line t) => (topPart_iff line t).mp h
  have out : ∀ {is src}, Walks is (Parser.parseGo inc 0 src) (parseGo INC 0 src) := by intro is src M j J _ _ _ j' h; cases h
  induction h generalizing fuel with
  | nil => cases fuel with
    | zero => exact out
    | succ fuel => exact .nil
  | unreadable => cases fuel with
    | zero => exact out
    | succ fuel =>
      intro M j J hr hj hT j' h
      injection h with h
      subst h
      exact Or.inr ⟨J, rfl, ⟨trivial, trivial⟩, hr, hj, by simpa [mentions, Item.mentions] using hT, [], by simp, .gap .nil⟩
  | @ignored line rest is e ht _ ih => cases fuel with
    | zero => exact out
    | succ fuel =>
      intro M j J hr hj hT j'
      rw [Parser.parseGo, parseGo, top ht]
      exact ih he hd fuel M j J hr hj hT j'
  | @skipped line rest is e ht _ ih => cases fuel with
    | zero => exact out
    | succ fuel =>
      intro M j J hr hj hT j'
      rw [Parser.parseGo, parseGo, top ht]
      exact ih he hd fuel M j J hr hj hT j'
  | refused => cases he
  | indented => cases he
  | badPrice => cases he
  | badHeader => cases he
  | broken => cases he
  | includedStop _ _ h => exact absurd he h
  | @price line rest r is e ht hp _ ih => cases fuel with
    | zero => exact out
    | succ fuel =>
      have hw : writings (.price r :: is) = writings is := rfl
      rw [hw] at hd
      intro M j J hr hj hT j'
      rw [Parser.parseGo, parseGo, top ht]
      intro h
      obtain ⟨pool, h1, h2⟩ := bind_ok h
      have hP : (parsePriceDirective J.store line >>= fun p => parseGo INC fuel rest { J with store := p }) =
          ((parsePriceDirective J.store line >>= fun p => .ok { J with store := p }) >>= parseGo INC fuel rest) := by
        cases parsePriceDirective J.store line <;> rfl
      have := Walks.append (walk_price hp) (ih he hd fuel) M j J hr hj hT j' (by simp only [h1]; exact h2)
      simp only at this ⊢
      rw [← hP] at this
      exact this
  | @included line f rest is is' e ht hi _ ih => cases fuel with
    | zero => exact out
    | succ fuel =>
      rw [writings_append] at hd
      intro M j J hr hj hT j'
      rw [Parser.parseGo, parseGo, top ht]
      exact Walks.append (hinc f is hi (fun w hw => hd w (by simp [hw]))) (ih he (fun w hw => hd w (by simp [hw])) fuel) M j J hr hj hT j'
  | @xact line body tail rest w is e hh hb ht _ ih => cases fuel with
    | zero => exact out
    | succ fuel =>
      have hw : writings (gapIn tail ++ .xact w :: is) = w :: writings is := by
        rw [writings_append]
        rcases gapIn_or tail with h | h <;> rw [h] <;> rfl
      rw [hw] at hd
      intro M j J hr hj hT j'
      rw [Parser.parseGo, parseGo, (topLine_xact _).mpr hh.headerLine]
      intro h
      obtain ⟨⟨j1, rest1⟩, h1, h2⟩ := bind_ok h
      simp only at h2
      have hsim := xactDirective_sim line body hj
      rw [h1] at hsim
      obtain ⟨w1, w2⟩ := xact_walk hh hb ht (hd w (by simp)) hr hj hT h1
      obtain ⟨_, gm⟩ := gapIn_fresh M tail
      have hfrom : FreshFrom M (gapIn tail ++ .xact w :: is) ↔ ItemFresh M (.xact w) ∧ FreshFrom (M ++ entryMentions w.entries) is := by
        rw [freshFrom_append, gm, List.append_nil]
        exact and_iff_right (gapIn_fresh M tail).1
      cases hX : xactDirective line body J with
      | error e =>
        rw [hX] at hsim
        refine Or.inl ⟨by simp only; rw [hsim.1]; rfl, fun hf => ?_⟩
        obtain ⟨V, hV⟩ := w2 (hfrom.mp hf).1
        rw [hX] at hV; cases hV
      | ok V =>
        obtain ⟨J1, rest2⟩ := V
        obtain ⟨rfl, rfl, hstep⟩ := step_xact hh hb ht (hd w (by simp)) hr hj h1 hX
        obtain ⟨f1, f2, X, f3, f4⟩ := w1 J1 _ hX
        simp only
        rcases ih he (fun w hw => hd w (by simp [hw])) fuel _ j1 J1 hstep.readable hstep.rel f2 j' h2 with ⟨g, n⟩ | ⟨J', g, t⟩
        · exact Or.inl ⟨g, fun hf => n (hfrom.mp hf).2⟩
        · refine Or.inr ⟨J', g, (Walked.gaps hr hj hT).append ?_⟩
          rw [gm, List.append_nil]
          have one : Walked M [.xact w] J j1 J1 :=
            ⟨⟨f1, trivial⟩, hstep.readable, hstep.rel, by simpa [mentions, Item.mentions] using f2, [X], f3, .xact f4 .nil⟩
          refine one.append (is := [.xact w]) ?_
          have : M ++ mentions [Item.xact w] = M ++ entryMentions w.entries := by simp [mentions, Item.mentions]
          rw [this]
          exact t

theorem walk_parse (files : Files) (depth : Nat) {src : Source} {is : List Item} (h : SaysUpTo files depth src is .done)
    (hd : ∀ w ∈ writings is, Everyday w) : Walks is (Parser.parse files depth src) (parse files depth src) := by
  induction depth generalizing src is with
  | zero =>
    intro M j J
    rw [Parser.parse, parse]
    refine walk_go ?_ h rfl hd _ M j J
    rintro f is ⟨rfl, ⟨hf, _⟩ | ⟨_, hf⟩⟩ _
    · simp only [hf]; exact .nil
    · cases hf
  | succ depth ih =>
    intro M j J
    rw [Parser.parse, parse]
    refine walk_go ?_ h rfl hd _ M j J
    rintro f is (⟨hf, rfl, _⟩ | ⟨src', hf, hs⟩) hd
    · simp only [hf]; exact .nil
    · simp only [hf]; exact ih hs hd

theorem walk_files (files : Files) (depth : Nat) {fs : List Str} {is : List Item} {e : Ending} (h : FilesSay files depth fs is e) (he : e = .done)
    (hd : ∀ w ∈ writings is, Everyday w) : Walks is (Cli.readFiles files depth fs) (readFiles files depth fs) := by
  induction h with
  | nil => exact .nil
  | missing => cases he
  | stop _ _ h => exact absurd he h
  | @read f fs src is is' e hf hs _ ih =>
    rw [writings_append] at hd
    intro M j J
    rw [Cli.readFiles, readFiles, Parser.parseFile, parseFile, hf]
    exact Walks.append (walk_parse files depth hs (fun w hw => hd w (by simp [hw]))) (ih he (fun w hw => hd w (by simp [hw]))) M j J

end Ledger.Machine
