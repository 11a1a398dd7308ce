import Verif.Spec.Written
/-
Other names for the commodities.
-/
namespace Ledger

/-- The amount with another name for its commodity. -/
def Amount.renamed (f : Str → Str) (a : Amount) : Amount := ⟨a.qty, a.comm.map f⟩

/-- The lot with other names for commodities. -/
def Annotation.renamed (f : Str → Str) (l : Annotation) : Annotation := ⟨l.price.map (Amount.renamed f), l.date⟩

/-- The posting with other names for commodities. -/
def Entry.renamed (f : Str → Str) (e : Entry) : Entry :=
  { e with
    amount := e.amount.map (Amount.renamed f)
    lot := e.lot.renamed f
    cost := e.cost.map (fun c => (c.1, c.2.renamed f))
    strays := ⟨e.strays.amount.map f, e.strays.price.map f, e.strays.cost.map f⟩ }

/-- The transaction with other names for commodities. -/
def Writing.renamed (f : Str → Str) (w : Writing) : Writing := { w with entries := w.entries.map (Entry.renamed f) }

/-- Other names: different commodities keep different names, and only what has no name gets none. -/
def Renaming (f : Str → Str) : Prop := Function.Injective f ∧ f [] = []

/-- The posting with other names for commodities. -/
def Post.renamed (f : Str → Str) (p : Post) : Post :=
  { p with amount := p.amount.map (Amount.renamed f), cost := p.cost.map (Amount.renamed f) }

/-- The transaction with other names for commodities. -/
def Xact.renamed (f : Str → Str) (x : Xact) : Xact := { x with posts := x.posts.map (Post.renamed f) }

/-- The pool with other names for commodities.  The prices are kept by position and do not change. -/
def Pool.renamed (f : Str → Str) (p : Pool) : Pool :=
  ⟨p.commodities.map (fun c => (f c.1, ⟨f c.2.symbol, c.2.graphIndex, c.2.annotated⟩)),
    p.annotated.map (fun c => (f c.1, c.2.renamed f)), ⟨p.history.nodes.map f, p.history.edges⟩⟩

/-- The journal with other names for commodities. -/
def Journal.renamed (f : Str → Str) (j : Journal) : Journal :=
  { j with pool := j.pool.renamed f, xacts := j.xacts.map (Xact.renamed f) }

end Ledger
