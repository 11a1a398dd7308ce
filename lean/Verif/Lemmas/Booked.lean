import Verif.Lemmas.Ready
import Verif.Lemmas.Events
/-
Reading depends only on what is written: what the parser does with a text that says a list of transactions is a function
of this list.  The functions below are the right sides of these equations; nothing is claimed about them.
-/
namespace Ledger
open Ledger.Parser Ledger.Scanner Ledger.Finalize

/-- The text of a symbol. -/
def symbolText (c : Option Str) : Str := c.getD []

theorem symbolText_symbolOf (s : Str) : symbolText (symbolOf s) = s := by
  unfold symbolOf symbolText
  split
  · rename_i h; rw [h]; rfl
  · rfl

/-- What a posting does to the pool, and its amount and cost. -/
def Entry.bookAmounts (e : Entry) (p : Pool) : Res (Pool × Option Amount × Option Amount) := do
  let s := symbolText e.holder
  let p := (p.findOrCreate s none).1
  let p := (p.findOrCreate (symbolText ((e.lot.price.bind (·.comm)).or e.strays.price)) none).1
  let p := (p.findOrCreate s (some e.lot)).1
  match e.amount, e.cost with
  | some a, some (u, k) =>
    let p := (p.findOrCreate (symbolText k.comm) none).1
    if u then do let c ← k.mulAssign a; .ok (p, some a, some c) else .ok (p, some a, some k)
  | some a, none => .ok ((p.findOrCreate (symbolText e.strays.cost) none).1, some a, none)
  | none, _ => .ok (p, none, none)

/-- What a posting does to the journal. -/
def Entry.book (e : Entry) (i : Nat) (j : Journal) : Res Journal := do
  let (j, acct) ← j.registerAccount e.account
  match acct with
  | none => .error .accountUnwrapNone
  | some path => do
    let (pool, amount, cost) ← e.bookAmounts j.pool
    let n := match j.xacts[i]? with | some x => x.posts.length | none => 0
    let j := { j with pool := pool }.updateXact i
      (fun x => { x with posts := x.posts ++ [Post.mk path amount cost none] })
    .ok { j with master := j.master.pushPost path (i, n) }

/-- What comment lines do to the journal. -/
def bookNotes (i : Nat) : List Str → Journal → Journal
  | [], j => j
  | t :: ts, j => bookNotes i ts (if t = [] then j else j.updateXact i (fun x => x.addNote t))

/-- What postings with their comments do to the journal. -/
def bookEntries (i : Nat) : List Entry → Journal → Res Journal
  | [], j => .ok j
  | e :: es, j => do
    let j ← e.book i j
    bookEntries i es (bookNotes i e.comments j)

/-- What a transaction does to the journal before it is completed. -/
def Writing.enter (w : Writing) (j : Journal) : Res Journal :=
  let (j, i) := j.addXact ⟨some w.date, w.aux, if w.payee = [] then str "Unknown Payee" else w.payee, [],
    if w.note = [] then none else some w.note⟩
  bookEntries i w.entries (bookNotes i w.comments j)

/-- What a transaction does to the journal. -/
def Writing.book (w : Writing) (j : Journal) : Trace.Traced Journal := do
  let j' ← Trace.lift (w.enter j)
  Trace.finalizeXact j.xacts.length j'

/-- What transactions do to the journal. -/
def bookWritings : List Writing → Journal → Trace.Traced Journal
  | [], j => pure j
  | w :: ws, j => do
    let j ← w.book j
    bookWritings ws j

namespace Trace
variable {α β γ : Type}

theorem traced_ext {m m' : Traced α} (h1 : m.events = m'.events) (h2 : m.res = m'.res) : m = m' := by
  cases m; cases m'; cases h1; cases h2; rfl

theorem bind_ok {m : Traced α} {a : α} (h : m.res = .ok a) (f : α → Traced β) :
    m >>= f = ⟨m.events ++ (f a).events, (f a).res⟩ := by
  obtain ⟨es, r⟩ := m
  cases h
  rfl

theorem bind_error {m : Traced α} {e : Panic} (h : m.res = .error e) (f : α → Traced β) :
    m >>= f = ⟨m.events, .error e⟩ := by
  obtain ⟨es, r⟩ := m
  cases h
  rfl

theorem bind_assoc' (m : Traced α) (f : α → Traced β) (g : β → Traced γ) : (m >>= f) >>= g = m >>= fun a => f a >>= g := by
  cases h : m.res with
  | error e => rw [bind_error h, bind_error h, bind_error rfl]
  | ok a =>
    rw [bind_ok h, bind_ok h]
    cases h2 : (f a).res with
    | error e => rw [bind_error rfl, bind_error h2]
    | ok b => rw [bind_ok rfl, bind_ok h2, List.append_assoc]

theorem pure_bind' (a : α) (f : α → Traced β) : (pure a : Traced α) >>= f = f a := rfl

theorem readBody_lift {i : Nat} {src : Source} (h : none ∉ src) (j : Journal) :
    readBody i src j = lift (Parser.readBody i src j) := by
  refine traced_ext ?_ (readBody_res _ _ _)
  rw [events_lift]
  cases he : (readBody i src j).events with
  | nil => rfl
  | cons e es => exact absurd (mem_readBody (i := i) (src := src) (j := j) (e := e) (by rw [he]; simp)).2 h

end Trace

theorem bookWritings_append (ws ws' : List Writing) (j : Journal) :
    bookWritings (ws ++ ws') j = bookWritings ws j >>= bookWritings ws' := by
  induction ws generalizing j with
  | nil => rw [bookWritings, Trace.pure_bind']; rfl
  | cons w ws ih =>
    rw [List.cons_append, bookWritings, bookWritings, Trace.bind_assoc']
    congr 1
    funext j'
    exact ih j'

theorem parsePostAmounts_book {t : PostTokens} {e : Entry} (ht : PartsSay t e) (p : Pool) :
    parsePostAmounts t p = e.bookAmounts p := by
  have s1 : t.symbol = symbolText e.holder := by
    unfold Entry.holder Entry.commodity
    rw [← ht.amount.symbol, symbolText_symbolOf]
  have s2 : t.priceCommodity = symbolText ((e.lot.price.bind (·.comm)).or e.strays.price) := by
    rw [← ht.price.symbol, symbolText_symbolOf]
  unfold parsePostAmounts Entry.bookAmounts
  rw [ht.amount.parts]
  simp only [ht.annotation, bind, Except.bind, ← s1, ← s2]
  generalize (((p.findOrCreate t.symbol none).1.findOrCreate t.priceCommodity none).1.findOrCreate t.symbol
    (some e.lot)).1 = p3
  unfold parseCost
  rcases ht.cost with ⟨hz, hc, hs⟩ | ⟨ha, hq, k, hk, hc⟩
  · rw [hc, hs]
    cases ha : e.amount with
    | none => rfl
    | some a =>
      have hq : t.costQuantity = [] := by
        rcases hz with h | h
        · rw [ha] at h; cases h
        · exact h
      simp only [hq, if_true, symbolText, Pool.findOrCreate_empty]
      simp [Pool.findOrCreate_empty]
  · obtain ⟨a, h⟩ := Option.ne_none_iff_exists'.mp ha
    rw [h]
    simp only
    rw [if_neg hq, hk.parts]
    have s3 := hk.symbol
    cases k with
    | none =>
      have : t.costSymbol = symbolText e.strays.cost := by
        rw [show e.strays.cost = symbolOf t.costSymbol from s3.symm, symbolText_symbolOf]
      rw [hc, ← this]
      rfl
    | some k =>
      have : symbolText k.comm = t.costSymbol := by
        rcases hk with ⟨d, _, hd, _⟩ | ⟨_, hd, _⟩
        · injection hd with hd
          rw [hd]; exact symbolText_symbolOf _
        · cases hd
      simp only [hc, Option.map_some, this]
      cases t.isPerUnit
      · rfl
      · simp only [if_true, bind, Except.bind]
        cases k.mulAssign a <;> rfl

theorem parsePost_book {text : Str} {e : Entry} (h : EntryText text e) (i : Nat) (j : Journal) :
    parsePost text i j = e.book i j := by
  obtain ⟨t, h1, h2⟩ := h.scan
  unfold parsePost Entry.book
  rw [h1]
  simp only [bind, Except.bind, ← h2.account]
  cases j.registerAccount e.account with
  | error => rfl
  | ok r =>
    obtain ⟨j', path⟩ := r
    cases path with
    | none => rfl
    | some path => simp only [parsePostAmounts_book h2]; rfl

theorem readBody_comments {cs ts : List Str} (h : List.Forall₂ CommentLine cs ts) (i : Nat) (t : Source) (j : Journal) :
    readBody i (cs.map some ++ t) j = readBody i t (bookNotes i ts j) := by
  induction h generalizing j with
  | nil => rfl
  | @cons c t cs ts hc _ ih =>
    obtain ⟨_, _, _, hcl⟩ := hc.trim
    rw [List.map_cons, List.cons_append, readBody, hcl]
    simp only [parseTrailingNote_comment hc, bind, Except.bind]
    exact ih _

theorem Entry.book_comments (e : Entry) (cs : List Str) (i : Nat) (j : Journal) :
    ({ e with comments := cs } : Entry).book i j = e.book i j := rfl

theorem readBody_book {blocks : List (List Str)} {es : List Entry} (hl : List.Forall₂ EntryBlock blocks es)
    {tail rest : Source} (ht : AfterXact tail rest) (i : Nat) (j : Journal) :
    readBody i (blocks.flatten.map some ++ tail) j = (bookEntries i es j).map (·, rest) := by
  induction hl generalizing j with
  | nil => exact readBody_end ht j
  | @cons block e blocks es he _ ih =>
    obtain ⟨line, cs, rfl, hline, hcs⟩ := he
    obtain ⟨text, hc, hte⟩ := hline.classify
    rw [List.flatten_cons, List.cons_append, List.map_cons, List.cons_append, readBody, hc]
    simp only [parsePost_book hte, Entry.book_comments, bookEntries, bind, Except.bind]
    cases e.book i j with
    | error => rfl
    | ok j' =>
      simp only
      rw [List.map_append, List.append_assoc, readBody_comments hcs]
      exact ih _

theorem xactDirective_book {header : Str} {cs : List Str} {blocks : List (List Str)} {w : Writing}
    (hh : HeaderSays header w) (hcs : List.Forall₂ CommentLine cs w.comments) (hb : List.Forall₂ EntryBlock blocks w.entries)
    {tail rest : Source} (ht : AfterXact tail rest) (hn : none ∉ tail) (j : Journal) :
    Trace.xactDirective header ((cs ++ blocks.flatten).map some ++ tail) j = w.book j >>= fun j' => pure (j', rest) := by
  unfold Trace.xactDirective Writing.book Writing.enter
  rw [createXact_written hh, Trace.bind_assoc']
  simp only [Journal.addXact]
  have e : ∀ (a : Journal × Nat) (f : Journal × Nat → Trace.Traced (Journal × Source)),
      Trace.lift (Except.ok a) >>= f = f a := fun a f => Trace.pure_bind' a f
  rw [e]
  simp only
  rw [Trace.readBody_lift (by simp [hn]), List.map_append, List.append_assoc, readBody_comments hcs, readBody_book hb ht]
  cases bookEntries _ _ _ with
  | error => rfl
  | ok j' =>
    have e : ∀ (a : Journal × Source) (f : Journal × Source → Trace.Traced (Journal × Source)),
      Trace.lift (Except.ok a) >>= f = f a := fun a f => Trace.pure_bind' a f
    have e' : ∀ (a : Journal) (f : Journal → Trace.Traced (Journal × Source)),
      Trace.lift (Except.ok a) >>= f = f a := fun a f => Trace.pure_bind' a f
    rw [Except.map, e, e']

theorem Trace.parseGo_fuel (inc : Str → Journal → Trace.Traced Journal) : ∀ (n m : Nat) (src : Source) (j : Journal),
    src.length < n → src.length < m → Trace.parseGo inc n src j = Trace.parseGo inc m src j := by
  intro n
  induction n with
  | zero => intro m src j h; exact absurd h (Nat.not_lt_zero _)
  | succ n ih =>
    intro m src j h1 h2
    cases m with
    | zero => exact absurd h2 (Nat.not_lt_zero _)
    | succ m =>
      cases src with
      | nil => rfl
      | cons l src =>
        have k1 : src.length < n := by simpa using h1
        have k2 : src.length < m := by simpa using h2
        cases l with
        | none => rfl
        | some line =>
          rw [Trace.parseGo, Trace.parseGo]
          cases topLine line with
          | ignored => exact ih m src j k1 k2
          | skipped => exact ih m src j k1 k2
          | xact =>
            simp only
            cases hx : (Trace.xactDirective line src j).res with
            | error e =>
              rw [Trace.bind_error hx, Trace.bind_error hx]
            | ok r =>
              have hl : r.2.length ≤ src.length := by
                rw [Trace.xactDirective_res] at hx
                exact (Trace.xactDirective_suffix (j' := r.1) (rest := r.2) hx).length_le
              have := ih m r.2 r.1 (by omega) (by omega)
              rw [Trace.bind_ok hx, Trace.bind_ok hx, this]
          | indented => rfl
          | includeFile f => simp only; congr 1; funext j'; exact ih m src j' k1 k2
          | price => simp only; congr 1; funext p; exact ih m src _ k1 k2
          | fails p => rfl

theorem Trace.parseWith_cons (inc : Str → Journal → Trace.Traced Journal) (line : Str) (rest : Source) (j : Journal) :
    Trace.parseWith inc (some line :: rest) j = match topLine line with
    | .ignored => Trace.parseWith inc rest j
    | .skipped => Trace.parseWith inc rest j
    | .xact => Trace.xactDirective line rest j >>= fun r => Trace.parseWith inc r.2 r.1
    | .indented => Trace.lift (.error .indentedTopLevel)
    | .includeFile file => inc file j >>= fun j' => Trace.parseWith inc rest j'
    | .price => Trace.lift (j.pool.parsePriceDirective line) >>= fun pool => Trace.parseWith inc rest { j with pool := pool }
    | .fails p => Trace.lift (.error p) := by
  unfold Trace.parseWith
  rw [List.length_cons, Trace.parseGo]
  cases topLine line with
  | xact =>
    simp only
    cases hx : (Trace.xactDirective line rest j).res with
    | error e =>
      rw [Trace.bind_error hx, Trace.bind_error hx]
    | ok r =>
      have hl : r.2.length ≤ rest.length := by
        rw [Trace.xactDirective_res] at hx
        exact (Trace.xactDirective_suffix (j' := r.1) (rest := r.2) hx).length_le
      have := Trace.parseGo_fuel inc (rest.length + 1) (r.2.length + 1) r.2 r.1 (by omega) (by omega)
      rw [Trace.bind_ok hx, Trace.bind_ok hx, this]
  | _ => rfl

theorem parseWith_book {inc : Str → Journal → Trace.Traced Journal} {said : Str → List Writing → Prop}
    (hinc : ∀ f ws, said f ws → inc f = bookWritings ws) {lines : List Str} {ws : List Writing}
    (h : JournalLines said lines ws) (j : Journal) : Trace.parseWith inc (lines.map some) j = bookWritings ws j := by
  induction h generalizing j with
  | nil => rfl
  | ignored hi _ ih =>
    rw [List.map_cons, Trace.parseWith_cons, (topLine_ignored _).mpr hi]
    exact ih j
  | @xact block w line lines ws hx he _ ih =>
    obtain ⟨header, cs, blocks, rfl, hh, hcs, hb⟩ := hx
    rw [List.map_append, List.map_cons, List.map_cons, List.cons_append, Trace.parseWith_cons,
      (topLine_xact _).mpr hh.headerLine]
    have := xactDirective_book hh hcs hb (tail := some line :: lines.map some) (rest := lines.map some)
      (Or.inr (Or.inl ⟨line, rfl, he⟩)) (by simp) j
    simp only [this, bookWritings, Trace.bind_assoc', Trace.pure_bind', ih]
  | @last block w hx =>
    obtain ⟨header, cs, blocks, rfl, hh, hcs, hb⟩ := hx
    rw [List.map_cons, Trace.parseWith_cons, (topLine_xact _).mpr hh.headerLine]
    have := xactDirective_book hh hcs hb (tail := []) (rest := []) (Or.inl ⟨rfl, rfl⟩) (by simp) j
    rw [List.append_nil] at this
    simp only [this, bookWritings, Trace.bind_assoc', Trace.pure_bind']
    rfl
  | @included line file lines ws ws' hl' hi _ ih =>
    rw [List.map_cons, Trace.parseWith_cons, topLine_include hl', bookWritings_append]
    simp only [hinc file ws hi, ih]

theorem parse_book (files : Files) (depth : Nat) {lines : List Str} {ws : List Writing}
    (h : Says files depth lines ws) : Trace.parse files depth (lines.map some) = bookWritings ws := by
  induction depth generalizing lines ws with
  | zero =>
    funext j
    refine parseWith_book ?_ h j
    rintro f ws ⟨hf, rfl⟩
    simp only [hf]
    rfl
  | succ d ih =>
    funext j
    refine parseWith_book ?_ h j
    rintro f ws (⟨hf, rfl⟩ | ⟨lines', hf, hs⟩)
    · simp only [hf]
      rfl
    · simp only [hf]
      exact ih hs

theorem parseText_book (files : Files) (depth : Nat) {text : Str} {lines : List Str} {ws : List Writing}
    (ht : LinesOf text lines) (h : Says files depth lines ws) (j : Journal) :
    parseText files depth text j = (bookWritings ws j).res := by
  rw [parseText, textSource, (readLines_iff text lines).mpr ht, ← parse_book files depth h, Trace.parse_res]

theorem parseFile_book (files : Files) (depth : Nat) {file : Str} {ws : List Writing}
    (h : FileSays files depth file ws) : Trace.parseFile files depth file = bookWritings ws := by
  obtain ⟨text, lines, h1, h2, h3⟩ := h
  funext j
  rw [Trace.parseFile, h1]
  simp only [textSource]
  rw [(readLines_iff text lines).mpr h2, parse_book files depth h3]

theorem readFiles_book (files : Files) (depth : Nat) {fs : List Str} {wss : List (List Writing)}
    (h : List.Forall₂ (FileSays files depth) fs wss) : Trace.readFiles files depth fs = bookWritings wss.flatten := by
  induction h with
  | nil => rfl
  | cons h _ ih =>
    funext j
    rw [List.flatten_cons, bookWritings_append, Trace.readFiles, parseFile_book files depth h]
    simp only [ih]

end Ledger
