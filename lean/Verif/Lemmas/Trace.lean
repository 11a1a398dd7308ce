import Verif.Model.Trace
import Verif.Lemmas.Parse
/-
The traced runs have the results of the model.
-/
namespace Ledger.Trace
open Ledger Ledger.Parser

variable {α β : Type}

@[simp] theorem res_pure (a : α) : (pure a : Traced α).res = .ok a := rfl
@[simp] theorem events_pure (a : α) : (pure a : Traced α).events = [] := rfl
@[simp] theorem res_lift (r : Res α) : (lift r).res = r := rfl
@[simp] theorem events_lift (r : Res α) : (lift r).events = [] := rfl
@[simp] theorem res_emit (e : Event) : (emit e).res = .ok () := rfl
@[simp] theorem events_emit (e : Event) : (emit e).events = [e] := rfl

theorem res_bind (m : Traced α) (f : α → Traced β) : (m >>= f).res = m.res >>= fun a => (f a).res := by
  show (match m.res with
    | .ok a => (⟨m.events ++ (f a).events, (f a).res⟩ : Traced β)
    | .error e => ⟨m.events, .error e⟩).res = _
  cases m.res <;> rfl

theorem events_bind (m : Traced α) (f : α → Traced β) :
    (m >>= f).events = m.events ++ (match m.res with | .ok a => (f a).events | .error _ => []) := by
  show (match m.res with
    | .ok a => (⟨m.events ++ (f a).events, (f a).res⟩ : Traced β)
    | .error e => ⟨m.events, .error e⟩).events = _
  cases m.res <;> simp

@[simp] theorem res_reference (c : Option Str) : (reference c).res = .ok () := by
  unfold reference; split <;> rfl

@[simp] theorem inverse_res (a : Amount) : (inverse a).res = .ok a.inverse := by
  simp [inverse, bind]

@[simp] theorem mul_res (a b : Amount) : (mul a b).res = a.mul b := by
  unfold mul
  rw [res_bind]
  cases h : a.mul b <;> simp [bind, Except.bind, h, res_bind]

theorem subGo_res (l : List Amount) (a : Amount) : (subGo l a).res = Balance.subGo l a := by
  induction l with
  | nil => simp [subGo, Balance.subGo, res_bind, bind, Except.bind]
  | cons x xs ih =>
    rw [subGo, Balance.subGo]
    split
    · rw [res_bind]; rfl
    · rw [res_bind, ih]; rfl

@[simp] theorem subAssign_res (b : Balance) (a : Amount) : (subAssign b a).res = b.subAssign a := by
  unfold subAssign Balance.subAssign
  rw [res_bind, subGo_res]; rfl

theorem assignCosts_res (comm : Option Str) (u : Amount) (ps : List Post) (b : Balance) :
    (assignCosts comm u ps b).res = Finalize.assignCosts comm u ps b := by
  induction ps generalizing b with
  | nil => rfl
  | cons p ps ih =>
    rw [assignCosts, Finalize.assignCosts]
    cases p.amount with
    | none => rfl
    | some amt =>
      simp only
      split
      · simp only [res_bind, subAssign_res, mul_res, res_lift, ih, res_pure]
      · simp only [res_bind, ih, res_pure]

theorem impliedCosts_res (ps : List Post) (b : Balance) (np : Option Nat) :
    (impliedCosts ps b np).res = Finalize.impliedCosts ps b np := by
  obtain ⟨am⟩ := b
  match np, am with
  | some i, _ => rfl
  | none, [] => rfl
  | none, [_] => rfl
  | none, _ :: _ :: _ :: _ => rfl
  | none, [x, y] =>
    simp only [impliedCosts, Finalize.impliedCosts]
    cases Finalize.topPost ps with
    | none => rfl
    | some top =>
      simp only
      split
      · rw [res_bind]
        simp only [assignCosts_res]
        rfl
      · rfl

theorem exchange_res (p : Pool) (amount cost : Amount) (f : Bool) (t : DateTime) :
    (exchange p amount cost f t).res = p.exchange amount cost f t := by
  have hf : (finalCost amount cost f).res = Pool.finalCost amount cost f := by
    unfold finalCost Pool.finalCost; split <;> simp
  have hb : ∀ ann x, (basisCost ann amount x).res = Pool.basisCost ann amount x := by
    intro ann x; unfold basisCost Pool.basisCost
    cases ann with
    | none => rfl
    | some ann =>
      simp only
      cases ann.price with
      | none => rfl
      | some q => exact mul_res _ _
  unfold exchange Pool.exchange
  cases amount.comm with
  | none => rfl
  | some sym => simp only [res_bind, res_lift, hf, hb, res_pure]

theorem recordPrices_res (date : Option Date) (ps : List Post) (pool : Pool) :
    (recordPrices date ps pool).res = Finalize.recordPrices date ps pool := by
  induction ps generalizing pool with
  | nil => rfl
  | cons p ps ih =>
    rw [recordPrices, Finalize.recordPrices]
    cases p.cost with
    | none => simp only [res_bind, ih, res_pure]
    | some cost =>
      cases p.amount with
      | none => rfl
      | some amt =>
        simp only
        split
        · rfl
        · cases date with
          | none => rfl
          | some d =>
            simp only [res_bind, exchange_res, res_lift, ih, res_pure]
            refine congrArg (fun f => pool.exchange amt cost false ⟨d, Time.midnight⟩ >>= f) ?_
            funext a
            cases a.2 <;> rfl

theorem fillNull_res (ps : List Post) (b : Balance) (np : Option Nat) :
    (fillNull ps b np).res = Finalize.fillNull ps b np := by
  obtain ⟨am⟩ := b
  match np, am with
  | none, _ => rfl
  | some i, [] => rfl
  | some i, _ :: _ :: _ => rfl
  | some i, [a] => simp only [fillNull, Finalize.fillNull, res_bind, inverse_res, res_pure, bind]

theorem finalize_res (x : Xact) (pool : Pool) : (finalize x pool).res = Finalize.finalize x pool := by
  unfold finalize Finalize.finalize
  rw [res_bind]
  refine congrArg (fun f => Finalize.sumPosts x.posts 0 Balance.empty none >>= f) ?_
  funext s
  split
  · rfl
  · simp only [res_bind, impliedCosts_res, recordPrices_res, fillNull_res, res_pure]

theorem readBody_res (i : Nat) (src : Source) (j : Journal) : (readBody i src j).res = Parser.readBody i src j := by
  induction src generalizing j with
  | nil => rfl
  | cons l src ih =>
    cases l with
    | none => rfl
    | some line =>
      rw [readBody, Parser.readBody]
      cases classify line with
      | fin => rfl
      | note => simp only [res_bind, res_lift, ih]
      | post input => simp only [res_bind, res_lift, ih]
      | bad => rfl

theorem finalizeXact_res (i : Nat) (j : Journal) : (finalizeXact i j).res = Parser.finalizeXact i j := by
  unfold finalizeXact Parser.finalizeXact
  cases j.xacts[i]? with
  | none => rfl
  | some x => simp only [res_bind, finalize_res, res_pure]

theorem xactDirective_res (line : Str) (rest : Source) (j : Journal) :
    (xactDirective line rest j).res = Parser.xactDirective line rest j := by
  unfold xactDirective Parser.xactDirective
  simp only [res_bind, res_lift, readBody_res, finalizeXact_res, res_pure]

theorem parseGo_res (inc : Str → Journal → Traced Journal) (inc' : Str → Journal → Res Journal)
    (hi : ∀ f j, (inc f j).res = inc' f j) (n : Nat) (src : Source) (j : Journal) :
    (parseGo inc n src j).res = Parser.parseGo inc' n src j := by
  induction n generalizing src j with
  | zero => rfl
  | succ n ih =>
    cases src with
    | nil => rfl
    | cons l src =>
      cases l with
      | none => rfl
      | some line =>
        rw [parseGo, Parser.parseGo]
        cases topLine line with
        | ignored => exact ih _ _
        | skipped => exact ih _ _
        | xact => simp only [res_bind, xactDirective_res, ih]
        | indented => rfl
        | includeFile f => simp only [res_bind, hi, ih]
        | price => simp only [res_bind, res_lift, ih]
        | fails p => rfl

theorem parse_res (files : Files) (d : Nat) (src : Source) (j : Journal) :
    (parse files d src j).res = Parser.parse files d src j := by
  induction d generalizing src j with
  | zero =>
    unfold parse Parser.parse parseWith Parser.parseWith
    apply parseGo_res
    intro f j
    cases files f <;> rfl
  | succ d ih =>
    unfold parse Parser.parse parseWith Parser.parseWith
    apply parseGo_res
    intro f j
    cases files f with
    | none => rfl
    | some u => exact ih _ _

theorem readFiles_res (files : Files) (d : Nat) (fs : List Str) (j : Journal) :
    (readFiles files d fs j).res = Cli.readFiles files d fs j := by
  induction fs generalizing j with
  | nil => rfl
  | cons f fs ih =>
    have h1 : ∀ j, (parseFile files d f j).res = Parser.parseFile files d f j := by
      intro j; unfold parseFile Parser.parseFile
      cases files f with
      | none => rfl
      | some u => exact parse_res _ _ _ _
    simp only [readFiles, Cli.readFiles, res_bind, h1, ih]

theorem run_res (files : Files) (d : Nat) (args : List Str) : (run files d args).res = Cli.run files d args := by
  have h : ∀ cs fs, (executeCommand files d cs fs).res = Cli.executeCommand files d cs fs := by
    intro cs fs
    unfold executeCommand Cli.executeCommand
    cases cs with
    | nil => rfl
    | cons verb cs => simp only [res_bind, readFiles_res, res_lift]; rfl
  simp only [run, Cli.run, res_bind, res_lift, h]

end Ledger.Trace
