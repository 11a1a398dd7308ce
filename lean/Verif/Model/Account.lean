import Verif.Model.Amount
/-
The account tree (src/account.rs).

An account is identified by its path, the list of names from (but excluding) the master account; this stands for
the `*const Account` pointers.  The children map `HashMap<String, Account>` is the list of the children in
insertion order, each keyed by its own name (account.rs:42 inserts an account under its own name); no result of the
model depends on the order of that list except where a theorem says so.
-/
namespace Ledger

/-- Reference to a posting: transaction number and number of the posting in it (stands for `*const Post`). -/
abbrev PostRef := Nat × Nat

/-- Reference to an account: names from below the master account (stands for `*const Account`). -/
abbrev Path := List Str

/-- account.rs:10-20.  `parent` and the cached `fullname` are determined by the position in the tree (see
`fullname`). -/
inductive Account where
  | mk (name : Str) (posts : List PostRef) (children : List Account)
deriving Repr

namespace Account

def name : Account → Str
  | mk n _ _ => n
def posts : Account → List PostRef
  | mk _ p _ => p
def children : Account → List Account
  | mk _ _ c => c

mutual
/-- Equality of account trees. -/
def beq : Account → Account → Bool
  | mk n p c, mk n' p' c' => n == n' && p == p' && beqList c c'
def beqList : List Account → List Account → Bool
  | [], [] => true
  | a :: as, b :: bs => beq a b && beqList as bs
  | [], _ :: _ => false
  | _ :: _, [] => false
end

mutual
theorem eq_of_beq : ∀ {a b : Account}, beq a b = true → a = b
  | mk n p c, mk n' p' c', h => by
    simp only [beq, Bool.and_eq_true, beq_iff_eq] at h
    rw [h.1.1, h.1.2, eq_of_beqList h.2]
theorem eq_of_beqList : ∀ {a b : List Account}, beqList a b = true → a = b
  | [], [], _ => rfl
  | a :: as, b :: bs, h => by
    simp only [beqList, Bool.and_eq_true] at h
    rw [eq_of_beq h.1, eq_of_beqList h.2]
  | [], _ :: _, h => by simp [beqList] at h
  | _ :: _, [], h => by simp [beqList] at h
end

mutual
theorem beq_refl : ∀ a : Account, beq a a = true
  | mk n p c => by simp [beq, beqList_refl c]
theorem beqList_refl : ∀ a : List Account, beqList a a = true
  | [] => rfl
  | a :: as => by simp [beqList, beq_refl a, beqList_refl as]
end

instance : DecidableEq Account := fun a b =>
  if h : beq a b = true then isTrue (eq_of_beq h) else isFalse (fun e => h (e ▸ beq_refl a))

/-- account.rs:23-33 -/
def new (name : Str) : Account := mk name [] []

/-- The lookup `accounts.get(name)`. -/
def getChild (n : Str) : List Account → Option Account
  | [] => none
  | c :: cs => if c.name = n then some c else getChild n cs

/-- Replace the child with the name of `c` (in Rust the child is mutated in place). -/
def setChild (c : Account) : List Account → List Account
  | [] => []
  | x :: xs => if x.name = c.name then c :: xs else x :: setChild c xs

/-- account.rs:111-119: the part before the first `':'` and the part after it (`""` if there is none). -/
def splitName (n : Str) : Str × Str :=
  match splitAtFirst (fun c => c == ':') n with
  | (first, []) => (first, [])
  | (first, _ :: rest) => (first, rest)

/-- account.rs:100-139 `find_or_create`, on an account tree: returns the tree afterwards and the account found or
created.  Each recursive call is on a shorter name, so the fuel `name.length + 1` suffices
(`findOrCreateGo_fuel`). -/
def findOrCreateGo : Nat → Account → Str → Bool → Res (Account × Option Path)
  | 0, _, _, _ => .error .outOfFuel
  | fuel + 1, mk an ap cs, n, auto =>
    match getChild n cs with
    | some _ => .ok (mk an ap cs, some [n])
    | none =>
      let (first, rest) := splitName n
      let found : Option (Account × List Account) :=
        match getChild first cs with
        | some c => some (c, cs)
        | none => if auto then some (new first, cs ++ [new first]) else none
      match found with
      | none => .ok (mk an ap cs, none)
      | some (c, cs') =>
        if rest = [] then .ok (mk an ap cs', some [first])
        else do
          let (c', r) ← findOrCreateGo fuel c rest auto
          match r with
          | none => .error .accountUnwrapNone
          | some p => .ok (mk an ap (setChild c' cs'), some (first :: p))

/-- account.rs:100-139 -/
def findOrCreate (a : Account) (n : Str) (auto : Bool) : Res (Account × Option Path) :=
  findOrCreateGo (n.length + 1) a n auto

/-- account.rs:89-96 `find_account` -/
def findAccount (a : Account) (n : Str) : Res (Option Path) := do
  let (_, r) ← a.findOrCreate n false; .ok r

/-- Dereference of an account pointer. -/
def at? : Account → Path → Option Account
  | a, [] => some a
  | mk _ _ cs, n :: p => match getChild n cs with
    | some c => at? c p
    | none => none

/-- Mutation of the account at a path. -/
def update (f : Account → Account) : Path → Account → Account
  | [], a => f a
  | n :: p, mk an ap cs => match getChild n cs with
    | some c => mk an ap (setChild (update f p c) cs)
    | none => mk an ap cs

/-- parser.rs:469-473 `account.posts.push(post_ref)` -/
def pushPost (a : Account) (p : Path) (r : PostRef) : Account :=
  update (fun | mk n ps cs => mk n (ps ++ [r]) cs) p a

/-- account.rs:51-76 `fullname` of the account at a path: the names joined with `':'`, where an empty name of an
ancestor is skipped. -/
def fullname : Path → Str
  | [] => []
  | [n] => n
  | n :: m :: p => if n = [] then fullname (m :: p) else n ++ ':' :: fullname (m :: p)

mutual
/-- Recursion over the account tree: `f name posts [(child name, result), ...]`. -/
def fold {β : Type} (f : Str → List PostRef → List (Str × β) → β) : Account → β
  | mk n ps cs => f n ps (foldList f cs)
def foldList {β : Type} (f : Str → List PostRef → List (Str × β) → β) : List Account → List (Str × β)
  | [] => []
  | c :: cs => (c.name, fold f c) :: foldList f cs
end

/-- account.rs:150-154,173-183 `flatten_account_tree`: the account, then its children sorted by name, each
followed by its descendants.  (The children's results are computed first and sorted afterwards.)  Accounts are
given with their paths relative to `a`. -/
def flatten (a : Account) : List (Path × Str) :=
  fold (fun n _ rs => ([], n) :: (sortByKey rs).flatMap (fun r => r.2.map (fun x => (r.1 :: x.1, x.2)))) a

end Account
end Ledger
