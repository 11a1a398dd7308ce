import Verif.Spec.Machine
import Verif.Lemmas.MachineReport
/-
C101: the program with its pointers does what the model without pointers says, until it follows a stale pointer; and it
follows none if the journal is slim.
-/
namespace Ledger
open Ledger.Parser Ledger.Cli Ledger.Heap

/-- Slimness of what was read is that of the journal. -/
theorem slim_journal {is : List Item} {ws' : List Writing} {rs : List Recording} {j : Journal} (hj : j.Reachable)
    (h : ItemsOutcome is ws' rs Journal.new j) (hs : Slim is) : SlimJournal j := by
  refine ⟨(items_commodities hj h).mpr hs.commodities, ?_, (items_posts h).mpr hs.posts⟩
  intro q x hx ⟨y, hy, hc⟩
  refine ((items_children hj h hx).2 3).mpr (hs.accounts q ?_)
  have hgy : Account.getChild y.name x.children = some y := by
    have hwx := Account.at?_wf hj.booked.wf hx
    obtain ⟨xn, xp, cs⟩ := x
    exact Account.getChild_mem ((Account.wf_mk _ _ _).mp hwx).1 hy
  have hyat : j.master.at? (q ++ [y.name]) = some y := by
    rw [Account.at?_append, hx]
    obtain ⟨xn, xp, cs⟩ := x
    simp only [Option.bind_some, Account.at?_cons, Account.at?_nil]
    rw [show Account.getChild y.name cs = some y from hgy]
    rfl
  obtain ⟨z, hz⟩ : ∃ z, z ∈ y.children := by
    cases hyc : y.children with
    | nil => exact absurd hyc hc
    | cons z _ => exact ⟨z, by simp⟩
  obtain ⟨e, he, hp⟩ := ((items_children hj h hyat).1 z.name).mp (List.mem_map_of_mem hz)
  exact ⟨e, he, y.name, z.name, by simpa using hp⟩

theorem not_loose {j : Journal} (h : SlimJournal j) : ¬ Machine.Loose j := by
  rintro ((hb | ⟨x, hx, hp⟩) | hn)
  · have := h.commodities
    simp only [Machine.Big] at hb
    omega
  · have := h.posts x hx
    omega
  · exact hn h.accounts

/-- C101: whatever the arguments, the files and the allocator, the program with its pointers gives what the model
without pointers gives, unless it follows a stale pointer. -/
theorem C101_until (stays : Nat → Bool) (files : Files) (depth : Nat) (args : List Str) :
    Machine.run stays files depth args = run files depth args ∨ Machine.run stays files depth args = .error .danglingPointer := by
  have h := Machine.run_sim stays files depth args
  cases h1 : run files depth args with
  | ok r =>
    cases h2 : Machine.run stays files depth args with
    | ok r' => rw [h1, h2] at h; exact Or.inl (congrArg _ (Eq.symm h))
    | error e => rw [h1, h2] at h; exact Or.inr (congrArg _ h.1)
  | error e =>
    cases h2 : Machine.run stays files depth args with
    | ok r' => rw [h1, h2] at h; exact h.elim
    | error e' =>
      rw [h1, h2] at h
      rcases h with h | h
      · exact Or.inl (congrArg _ h)
      · exact Or.inr (congrArg _ h)

/-- C101: and it follows none if the journal is slim. -/
theorem C101_slim (stays : Nat → Bool) {files : Files} {depth : Nat} {args commands fs : List Str} {j : Journal} {r : List Str}
    (ha : Options.processArguments args = .ok (commands, fs)) (h : readFiles files depth fs Journal.new = .ok j)
    (hs : SlimJournal j) (hr : run files depth args = .ok r) : Machine.run stays files depth args = .ok r := by
  have hsim := Machine.run_sim stays files depth args
  rw [hr] at hsim
  cases h2 : Machine.run stays files depth args with
  | ok r' => rw [h2] at hsim; exact congrArg _ (Eq.symm hsim)
  | error e =>
    rw [h2] at hsim
    obtain ⟨_, _, j', ha', h', hl⟩ := hsim.2
    rw [ha] at ha'
    cases ha'
    rw [h] at h'
    cases h'
    exact absurd hl (not_loose hs)

/-- C101: in particular if what the files say is slim. -/
theorem C101_files (stays : Nat → Bool) {files : Files} {depth : Nat} {args commands fs : List Str} {is : List Item} {r : List Str}
    (ha : Options.processArguments args = .ok (commands, fs)) (hf : FilesSay files depth fs is .done)
    (hd : ∀ w ∈ writings is, Everyday w) (hs : Slim is) (hr : run files depth args = .ok r) :
    Machine.run stays files depth args = .ok r := by
  cases h : readFiles files depth fs Journal.new with
  | ok j =>
    obtain ⟨_, _, ws', rs, ho⟩ := decidesItems_ok (readFiles_items files depth hf hd) readable_new h
    exact C101_slim stays ha h (slim_journal (readFiles_stays .new h) ho hs) hr
  | error e =>
    exfalso
    simp only [run, ha, bind, Except.bind, executeCommand, h] at hr
    cases commands <;> cases hr

/-- What kind of failure a result is. -/
def Res.failure {α : Type} : Res α → Option Panic
  | .ok _ => none
  | .error p => some p

namespace MachineExample
open StaleExample LinesExample FaultsExample CausesExample FoundExample

theorem slim_of_tiny {is : List Item} (h : Tiny is) : Slim is := ⟨h.commodities, fun q _ => h.accounts q, h.posts⟩

/-- The balance report of a price and a purchase, whatever the allocator does. -/
example (stays : Nat → Bool) : Machine.run stays shelf 0 [str "b", str "-f", str "a"] =
    .ok [str "Account  has balance 0.00 EUR", str "Account Assets has balance -20.50 EUR", str "Account Assets:Cash has balance -20.50 EUR",
      str "Account Expenses has balance 20.50 EUR", str "Account Expenses:Food has balance 20.50 EUR"] :=
  C101_files stays (commands := [str "b"]) (fs := [str "a"]) (by decide +kernel) shelfSays (by
    intro w hw
    obtain rfl : w = first := by simpa [writings] using hw
    exact CausesExample.everyday _ (by simp)) (slim_of_tiny shelfTiny) (by decide +kernel)

/-- Five postings. -/
def five : Files := fun f => if f = str "a" then some [some (str "2023-05-01 Shop\n"), some (str "  A  1 EUR\n"), some (str "  B  1 EUR\n"),
  some (str "  C  1 EUR\n"), some (str "  D  1 EUR\n"), some (str "  E\n")] else none

/-- Four accounts, one of them with an account below it. -/
def wide : Files := fun f => if f = str "a" then some [some (str "2023-05-01 Shop\n"), some (str "  A:X  1 EUR\n"), some (str "  B  1 EUR\n"),
  some (str "  C  1 EUR\n"), some (str "  D\n")] else none

end MachineExample

open StaleExample MachineExample in
/-- C101 fails for journals that are not slim: the second price line of a file, the fifth posting of a transaction and the
fourth account make the program follow a stale pointer, where the model without pointers has a result. -/
theorem C101_slim_violated :
    (∀ stays, Machine.run stays rates 0 [str "accounts", str "-f", str "a"] = .error .danglingPointer ∧
      run rates 0 [str "accounts", str "-f", str "a"] = .ok [str ""]) ∧
    (Machine.run moving five 0 [str "b", str "-f", str "a"] = .error .danglingPointer ∧
      run five 0 [str "b", str "-f", str "a"] = .ok [str "Account  has balance 0 EUR", str "Account A has balance 1 EUR", str "Account B has balance 1 EUR",
        str "Account C has balance 1 EUR", str "Account D has balance 1 EUR", str "Account E has balance -4 EUR"]) ∧
    (Machine.run moving wide 0 [str "b", str "-f", str "a"] = .error .danglingPointer ∧
      run wide 0 [str "b", str "-f", str "a"] = .ok [str "Account  has balance 0 EUR", str "Account A has balance 1 EUR", str "Account A:X has balance 1 EUR",
        str "Account B has balance 1 EUR", str "Account C has balance 1 EUR", str "Account D has balance -3 EUR"]) := by
  refine ⟨fun stays => ⟨?_, by decide +kernel⟩, ⟨by decide +kernel, by decide +kernel⟩, ⟨by decide +kernel, by decide +kernel⟩⟩
  have h1 : Options.processArguments [str "accounts", str "-f", str "a"] = .ok ([str "accounts"], [str "a"]) := by decide +kernel
  have h2 : (Machine.readFiles rates 0 [str "a"] Machine.Jrn.new).failure = some .danglingPointer := by decide +kernel
  simp only [Machine.run, h1, bind, Except.bind, Machine.executeCommand]
  cases h : Machine.readFiles rates 0 [str "a"] Machine.Jrn.new with
  | ok j => rw [h] at h2; cases h2
  | error e => rw [h] at h2; injection h2 with h2; rw [h2]

end Ledger
