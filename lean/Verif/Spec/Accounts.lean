import Verif.Model.Account
/-
Names, paths and orders of accounts, independent of the tree functions of the model.
-/
namespace Ledger

/-- Order of texts by code points. -/
def StrBefore : Str → Str → Prop := List.Lex (fun a b : Char => a.toNat < b.toNat)

/-- Order of paths: name by name. -/
def PathBefore : Path → Path → Prop := List.Lex StrBefore

/-- The parts of a name between colons. -/
def splitColon : Str → List Str
  | [] => [[]]
  | c :: cs =>
    if c = ':' then [] :: splitColon cs
    else match splitColon cs with
      | [] => [[c]]
      | p :: ps => (c :: p) :: ps

/-- The path a name denotes: its parts, where an empty part after the last colon does not count. -/
def pathOf (n : Str) : Path :=
  let parts := splitColon n
  if 2 ≤ parts.length ∧ parts.getLast? = some [] then parts.dropLast else parts

/-- A proper name: all parts between colons are non-empty. -/
def ProperName (n : Str) : Prop := [] ∉ splitColon n

instance (n : Str) : Decidable (ProperName n) := by unfold ProperName; infer_instance

/-- The parts of a path that show in a full name: the non-empty ones, and the last one in any case. -/
def shown (p : Path) : Path := p.dropLast.filter (· ≠ []) ++ p.getLast?.toList

/-- The tree has an account at a path. -/
def Account.Has (a : Account) (p : Path) : Prop := (a.at? p).isSome

instance (a : Account) (p : Path) : Decidable (a.Has p) := by unfold Account.Has; infer_instance

/-- Registration of several names. -/
def registerAll (a : Account) : List Str → Res Account
  | [] => .ok a
  | n :: ns => do let (a', _) ← a.findOrCreate n true; registerAll a' ns

namespace Account

/-- What happens to an account tree in a program run: names are registered and postings are booked. -/
inductive Later : Account → Account → Prop
  | refl (a : Account) : Later a a
  | register {a b c : Account} {r : Option Path} (n : Str) (h : Later a b) (hc : b.findOrCreate n true = .ok (c, r)) :
      Later a c
  | post {a b : Account} (p : Path) (r : PostRef) (h : Later a b) : Later a (b.pushPost p r)

/-- The account trees a program can have. -/
def Reachable (a : Account) : Prop := Later (new []) a

mutual
/-- Well-formed tree: sibling names are distinct (they are the keys of a map) and contain no colon. -/
def WF : Account → Prop
  | mk _ _ cs => (cs.map name).Nodup ∧ (∀ c ∈ cs, ':' ∉ c.name) ∧ WFList cs
def WFList : List Account → Prop
  | [] => True
  | c :: cs => WF c ∧ WFList cs
end

/-- Postings of the account at a path, if it exists. -/
def postsAt (a : Account) (q : Path) : Option (List PostRef) := (at? a q).map posts

end Account

end Ledger
