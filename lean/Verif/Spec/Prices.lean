import Verif.Model.Pool
/-
What a pool history and its prices mean, independent of the price graph of the model.
-/
namespace Ledger

/-- The calendar and clock fields of a date-time are in their ranges (true of every `chrono` value; second 60 is a
leap second). -/
def DateTime.WF (t : DateTime) : Prop :=
  t.date.month ≤ 12 ∧ t.date.day ≤ 31 ∧ t.time.hour ≤ 23 ∧ t.time.minute ≤ 59 ∧ t.time.second ≤ 60

instance (t : DateTime) : Decidable t.WF := by unfold DateTime.WF; infer_instance

/-- Chronological order: field by field. -/
def DateTime.Before (a b : DateTime) : Prop :=
  a.date.year < b.date.year ∨ a.date.year = b.date.year ∧
    (a.date.month < b.date.month ∨ a.date.month = b.date.month ∧
      (a.date.day < b.date.day ∨ a.date.day = b.date.day ∧
        (a.time.hour < b.time.hour ∨ a.time.hour = b.time.hour ∧
          (a.time.minute < b.time.minute ∨ a.time.minute = b.time.minute ∧ a.time.second < b.time.second))))

instance (a b : DateTime) : Decidable (a.Before b) := by unfold DateTime.Before; infer_instance

/-- The calls that change a pool. -/
inductive PoolOp where
  | findOrCreate (symbol : Str) (ann : Option Annotation)
  | addPrice (source : Str) (t : DateTime) (price : Amount)
deriving DecidableEq

/-- One call. -/
def PoolOp.run (p : Pool) : PoolOp → Res Pool
  | .findOrCreate s a => .ok (p.findOrCreate s a).1
  | .addPrice s t pr => p.addPrice (some s) t pr

/-- A sequence of calls. -/
def runOps (p : Pool) : List PoolOp → Res Pool
  | [] => .ok p
  | op :: ops => do let p' ← op.run p; runOps p' ops

/-- A recorded price: one unit of `src` costs `qty` units of `dst` at `time`. -/
structure Recording where
  src : Str
  dst : Str
  time : DateTime
  qty : Dec
deriving DecidableEq

/-- The price a call records. -/
def PoolOp.recording : PoolOp → Option Recording
  | .findOrCreate _ _ => none
  | .addPrice s t ⟨q, some d⟩ => some ⟨s, d, t, q⟩
  | .addPrice _ _ ⟨_, none⟩ => none

/-- The prices recorded by a sequence of calls, in order. -/
def recordings (ops : List PoolOp) : List Recording := ops.filterMap PoolOp.recording

/-- `(t, q)` is the price of `A` in `B` after the recordings: it was recorded, nothing for the pair recorded before
it is later, and everything for the pair recorded after it is earlier. -/
def IsLatest (recs : List Recording) (A B : Str) (t : DateTime) (q : Dec) : Prop :=
  ∃ pre post, recs = pre ++ ⟨A, B, t, q⟩ :: post ∧
    (∀ r ∈ pre, r.src = A → r.dst = B → ¬ t.Before r.time) ∧
    (∀ r ∈ post, r.src = A → r.dst = B → r.time.Before t)

/-- A price of `A` in `B` was recorded. -/
def Priced (recs : List Recording) (A B : Str) : Prop := ∃ r ∈ recs, r.src = A ∧ r.dst = B

/-- A chain of commodities each priced in the next. -/
def PriceChain (recs : List Recording) : List Str → Prop
  | [] => False
  | [_] => True
  | A :: B :: rest => Priced recs A B ∧ PriceChain recs (B :: rest)

/-- A chain from one commodity to another. -/
def ChainFrom (recs : List Recording) (A B : Str) (cs : List Str) : Prop :=
  PriceChain recs cs ∧ cs.head? = some A ∧ cs.getLast? = some B

end Ledger
