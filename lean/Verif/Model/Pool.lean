import Verif.Model.Amount
import Verif.Model.Scanner
import Verif.Model.Date
/-
Commodities, annotations, the price history graph and the commodity pool
(src/commodity.rs, src/annotate.rs, src/history.rs, src/pool.rs).

Pointers to commodities are modelled by symbols; nodes of the price graph carry the symbol of the commodity they
point to.
-/
namespace Ledger

/-- commodity.rs:11-28.  `name` and `note` are never assigned and are left out.  The index in the price graph is
set by `create` for every commodity of a pool. -/
structure Commodity where
  symbol : Str
  graphIndex : Nat
  annotated : Bool
deriving DecidableEq, Repr

/-- annotate.rs:14-21 -/
structure Annotation where
  price : Option Amount
  date : Option Date
deriving DecidableEq, Repr

/-- history.rs:28 `PriceMap = BTreeMap<NaiveDateTime, Quantity>`: the entries in key order. -/
abbrev PriceMap := List (DateTime × Dec)

/-- `BTreeMap::insert`: keeps the order, replaces the value of an equal key. -/
def PriceMap.insert (t : DateTime) (q : Dec) : PriceMap → PriceMap
  | [] => [(t, q)]
  | (t', q') :: rest =>
    if t.key < t'.key then (t, q) :: (t', q') :: rest
    else if t.key = t'.key then (t', q) :: rest
    else (t', q') :: PriceMap.insert t q rest

/-- history.rs:246-255 `get_latest_price`: `last_key_value` -/
def PriceMap.latest (m : PriceMap) : Option (DateTime × Dec) := m.getLast?

/-- An edge of the price graph. -/
structure Edge where
  src : Nat
  dst : Nat
  prices : PriceMap
deriving DecidableEq, Repr

/-- history.rs:36 `CommodityHistory(Graph<*const Commodity, PriceMap>)` -/
structure History where
  nodes : List Str
  edges : List Edge
deriving DecidableEq, Repr

namespace History

/-- history.rs:39-41 -/
def empty : History := ⟨[], []⟩

/-- history.rs:44-46 -/
def addCommodity (h : History) (symbol : Str) : History × Nat :=
  ({ h with nodes := h.nodes ++ [symbol] }, h.nodes.length)

/-- petgraph `find_edge` + `add_edge` if there is none + update of the weight, history.rs:68-85. -/
def insertPrice (src dst : Nat) (t : DateTime) (q : Dec) : List Edge → List Edge
  | [] => [⟨src, dst, [(t, q)]⟩]
  | e :: es =>
    if e.src = src ∧ e.dst = dst then { e with prices := PriceMap.insert t q e.prices } :: es
    else e :: insertPrice src dst t q es

/-- petgraph `find_edge` + `edge_weight` -/
def findEdge (src dst : Nat) : List Edge → Option PriceMap
  | [] => none
  | e :: es => if e.src = src ∧ e.dst = dst then some e.prices else findEdge src dst es

/-- history.rs:87-90 -/
def getCommodity (h : History) (i : Nat) : Res Str :=
  match h.nodes[i]? with
  | some s => .ok s
  | none => .error .badNodeIndex

/-- history.rs:204-220 -/
def getDirectPrice (h : History) (src dst : Nat) : Option (DateTime × Dec) :=
  match findEdge src dst h.edges with
  | some m => m.latest
  | none => none

/-- history.rs:155-198: the loop of `calculate_rate` over the nodes of the path. -/
def calculateRateGo (h : History) : List Nat → Nat → DateTime → Dec → Res (DateTime × Dec)
  | [], _, least, q => .ok (least, q)
  | n :: rest, src, least, q =>
    if n = src then calculateRateGo h rest src least q
    else match h.getDirectPrice src n with
      | none => .error .pathWithoutPrice
      | some (t, p) => do
        let q' ← q.mul p
        calculateRateGo h rest n (if t.lt least then t else least) q'

/-- history.rs:155-198 `calculate_rate`; `now` is `Local::now().naive_local()`. -/
def calculateRate (h : History) (now : DateTime) (src : Nat) (path : List Nat) : Res (DateTime × Dec) :=
  calculateRateGo h path src now Dec.one

/-- Outcome of petgraph's `astar(graph, source, == target, 1, 0)`: number of hops and nodes from source to
target.  The search is a parameter of the model; `Search.IsShortest` is its contract and `Spec`/`Lemmas` give a
verified instance. -/
abbrev Search := History → Nat → Nat → Option (Nat × List Nat)

end History

/-- pool.rs:24-34.  `null_commodity` and `default_commodity` are never used. -/
structure Pool where
  commodities : List (Str × Commodity)
  annotated : List (Str × Annotation)
  history : History
deriving DecidableEq, Repr

/-- history.rs:257-270 -/
structure Price where
  commodity : Str
  datetime : DateTime
  price : Amount
deriving DecidableEq, Repr

/-- commodity.rs:63-77 `PricePoint` -/
structure PricePoint where
  datetime : DateTime
  price : Amount
deriving DecidableEq, Repr

/-- pool.rs:264-278 -/
structure CostBreakdown where
  amount : Amount
  finalCost : Amount
  basisCost : Amount
deriving DecidableEq, Repr

namespace Pool

/-- pool.rs:38-46 -/
def empty : Pool := ⟨[], [], History.empty⟩

/-- pool.rs:100-102 -/
def find (p : Pool) (symbol : Str) : Option Commodity := assocGet symbol p.commodities

/-- pool.rs:220-222 -/
def len (p : Pool) : Nat := p.commodities.length

/-- pool.rs:63-98.  The result is the pointer to the commodity, that is its symbol. -/
def create (p : Pool) (symbol : Str) (ann : Option Annotation) : Pool × Str :=
  let annotated := match ann with
    | some a => assocInsert symbol a p.annotated
    | none => p.annotated
  let (history, i) := p.history.addCommodity symbol
  (⟨assocInsert symbol ⟨symbol, i, ann.isSome⟩ p.commodities, annotated, history⟩, symbol)

/-- pool.rs:104-107: `unwrap` of the lookup. -/
def findIndex (p : Pool) (symbol : Str) : Res Nat :=
  match p.find symbol with
  | some c => .ok c.graphIndex
  | none => .error .badPointer

/-- pool.rs:111-135 -/
def findOrCreate (p : Pool) (symbol : Str) (ann : Option Annotation) : Pool × Option Str :=
  if symbol = [] then (p, none)
  else match p.find symbol with
    | some _ =>
      let p := match ann with
        | some a => if (assocGet symbol p.annotated).isNone
            then { p with annotated := assocInsert symbol a p.annotated } else p
        | none => p
      (p, some symbol)
    | none =>
      let (p, s) := p.create symbol ann
      (p, some s)

/-- pool.rs:137-139 -/
def getByIndex (p : Pool) (i : Nat) : Res Str := p.history.getCommodity i

/-- Dereference of a commodity pointer. -/
def deref (p : Pool) (symbol : Option Str) : Res Commodity :=
  match symbol with
  | none => .error .badPointer
  | some s => match p.find s with
    | some c => .ok c
    | none => .error .badPointer

/-- pool.rs:58-60, history.rs:53-85 `add_price`: the commodity priced, the moment and the price. -/
def addPrice (p : Pool) (source : Option Str) (t : DateTime) (price : Amount) : Res Pool := do
  let src ← p.deref source
  if source = price.comm then .error .priceOfItself
  else match price.comm with
    | none => .error .priceWithoutCommodity
    | some _ => do
      let dst ← p.deref price.comm
      .ok { p with history := { p.history with
        edges := History.insertPrice src.graphIndex dst.graphIndex t price.qty p.history.edges } }

/-- pool.rs:48-51 -/
def addPriceStruct (p : Pool) (price : Price) : Res Pool :=
  p.addPrice (some price.commodity) price.datetime price.price

/-- pool.rs:169-173: the per-unit cost. -/
def perUnitCost (amount cost : Amount) (isPerUnit : Bool) : Res Amount :=
  if isPerUnit || amount.isZero then .ok cost.abs
  else do let q ← cost.div amount; .ok q.abs

/-- pool.rs:200-204: the final cost. -/
def finalCost (amount cost : Amount) (isPerUnit : Bool) : Res Amount :=
  if !isPerUnit then .ok cost else cost.mul amount.abs

/-- pool.rs:207-213: the basis cost; 0 if the commodity has an annotation without price (`CostBreakdown::new`). -/
def basisCost (annotation : Option Annotation) (amount final : Amount) : Res Amount :=
  match annotation with
  | some ann => match ann.price with
    | some annPrice => annPrice.mul amount
    | none => .ok (Amount.ofI32 0)
  | none => .ok final

/-- pool.rs:152-218.  Amounts: amount, cost; flag: whether the cost is per unit. -/
def exchange (p : Pool) (amount cost : Amount) (isPerUnit : Bool) (moment : DateTime) :
    Res (CostBreakdown × Option Price) :=
  match amount.comm with
  | none => .error .amountWithoutCommodity
  | some sym => do
    let c ← p.deref (some sym)
    let sym' ← p.getByIndex c.graphIndex
    let perUnit ← perUnitCost amount cost isPerUnit
    let perUnit := if cost.comm = none then perUnit.removeCommodity else perUnit
    let newPrice := if !perUnit.isZero ∧ amount.comm ≠ perUnit.comm
      then some ⟨sym, moment, perUnit⟩ else none
    let final ← finalCost amount cost isPerUnit
    let basis ← basisCost (assocGet sym' p.annotated) amount final
    .ok (⟨amount, final, basis⟩, newPrice)

/-- pool.rs:224-252 -/
def parsePriceDirective (p : Pool) (line : Str) : Res Pool := do
  let (date, time, commodity, quantity, priceCommodity) ← Scanner.scanPriceDirective line
  match Chrono.parseDate date with
  | none => .error .dateParse
  | some d =>
    let t? := if time = [] then some Time.midnight else Chrono.parseTime time
    match t? with
    | none => .error .timeParse
    | some t =>
      let (p, source) := p.findOrCreate commodity none
      match Dec.fromStr quantity with
      | none => .error .quantityParse
      | some q =>
        let (p, target) := p.findOrCreate priceCommodity none
        p.addPrice source ⟨d, t⟩ ⟨q, target⟩

/-- history.rs:102-147 `find_price`.  `_moment` and `_oldest` are not used by the code. -/
def findPrice (search : History.Search) (now : DateTime) (p : Pool) (source target : Str)
    (_moment _oldest : DateTime) : Res (Option PricePoint) :=
  if source = target then .error .sameSourceTarget
  else do
    let src ← p.deref (some source)
    let dst ← p.deref (some target)
    match search p.history src.graphIndex dst.graphIndex with
    | none => .ok none
    | some (distance, path) =>
      if distance = 1 then
        match p.history.getDirectPrice src.graphIndex dst.graphIndex with
        | none => .error .pathWithoutPrice
        | some (t, q) => .ok (some ⟨t, ⟨q, some target⟩⟩)
      else do
        let (t, q) ← p.history.calculateRate now src.graphIndex path
        .ok (some ⟨t, ⟨q, some target⟩⟩)

end Pool
end Ledger
