import Verif.Lemmas.Classify2
/-
C80: which transactions are accepted.
-/
namespace Ledger
open Finalize

/-- **C80** A defective transaction is refused. -/
theorem C80_defective_refused (x : Xact) (pool : Pool) (hr : InRange (bookedAmounts x.posts)) (hd : Defective x) :
    ∃ e, finalize x pool = .error e := by
  cases hf : finalize x pool with
  | error e => exact ⟨e, rfl⟩
  | ok r => exact absurd hf (finalize_defective x pool hr hd r)

/-- **C80** A transaction without defect is refused for no other reason than a number that does not fit. -/
theorem C80_only_overflow (x : Xact) (pool : Pool) (hp : Pool.empty.Later pool) (hk : pool.Knows x.posts)
    (hr : InRange (bookedAmounts x.posts)) (hd : ¬ Defective x) (e : Panic) (h : finalize x pool = .error e) :
    e = .decimalOverflow := by
  rcases finalize_sound x pool hp hk hr hd with ⟨r, hr⟩ | ⟨he, _⟩
  · rw [h] at hr; cases hr
  · rw [h] at he; injection he

/-- **C80** With numbers of everyday size a transaction is accepted exactly if it is not defective. -/
theorem C80_accepted_iff (x : Xact) (pool : Pool) (hp : Pool.empty.Later pool) (hk : pool.Knows x.posts)
    (ho : Ordinary x.posts) (hl : pool.OrdinaryLots) : (∃ r, finalize x pool = .ok r) ↔ ¬ Defective x := by
  constructor
  · rintro ⟨r, h⟩ hd
    exact finalize_defective x pool (ordinary_inRange ho) hd r h
  · intro hd
    rcases finalize_sound x pool hp hk (ordinary_inRange ho) hd with h | ⟨_, h⟩
    · exact h
    · exact absurd ⟨ho, hl⟩ h

/-! A trade with an implied rate. -/

theorem exampleTrade_ordinary : Ordinary exampleTrade.posts := by
  refine ⟨⟨9, 9, Or.inl (by decide), by decide, ?_⟩, by decide⟩
  show mass [⟨⟨false, 4, 0⟩, some (str "ABC")⟩, ⟨⟨true, 30, 0⟩, some (str "EUR")⟩, ⟨⟨false, 8, 0⟩, some (str "ABC")⟩] ≤ _
  simp only [mass, Dec.abs_val]
  norm_num

example : Pool.empty.Later exampleTradePool ∧ exampleTradePool.Knows exampleTrade.posts ∧ Ordinary exampleTrade.posts ∧
    exampleTradePool.OrdinaryLots ∧ ¬ Defective exampleTrade := by
  have hl : Pool.empty.Later exampleTradePool :=
    ⟨[.findOrCreate (str "ABC") none, .findOrCreate (str "EUR") none], by decide +kernel⟩
  have hk : exampleTradePool.Knows exampleTrade.posts := by
    intro a ha s hs
    have : s = str "ABC" ∨ s = str "EUR" := by
      have h : ∀ a ∈ writtenAmounts exampleTrade.posts ++ writtenCosts exampleTrade.posts,
          a.comm = some (str "ABC") ∨ a.comm = some (str "EUR") := by decide +kernel
      rcases h a ha with h | h <;> rw [h] at hs <;> injection hs with hs <;> simp [hs]
    rcases this with rfl | rfl <;> decide +kernel
  have hlots : exampleTradePool.OrdinaryLots := by
    intro s ann pr h
    have : exampleTradePool.annotated = [] := by decide +kernel
    rw [this] at h; cases h
  exact ⟨hl, hk, exampleTrade_ordinary, hlots,
    (C80_accepted_iff _ _ hl hk exampleTrade_ordinary hlots).mp ⟨_, rfl⟩⟩

/-- 10 EUR at a cost of 5 EUR. -/
def exampleSelfCost : Xact :=
  ⟨some ⟨2023, 5, 1⟩, none, str "p",
    [⟨[str "A"], some ⟨⟨false, 10, 0⟩, some (str "EUR")⟩, some ⟨⟨false, 5, 0⟩, some (str "EUR")⟩, none⟩,
     ⟨[str "B"], some ⟨⟨true, 5, 0⟩, some (str "EUR")⟩, none, none⟩], none⟩

example : Defective exampleSelfCost ∧ finalize exampleSelfCost exampleTradePool = .error .costSameCommodity := by
  refine ⟨.cost _ List.mem_cons_self ⟨⟨false, 10, 0⟩, some (str "EUR")⟩ ⟨⟨false, 5, 0⟩, some (str "EUR")⟩ rfl rfl
    (Or.inr (Or.inl rfl)) ?_, by decide +kernel⟩
  rintro c2 ⟨_, hne, _, _, h2, _⟩
  apply h2
  apply sumIn_absent
  intro hm
  have hall : ∀ c ∈ (bookedAmounts exampleSelfCost.posts).map (·.comm), c = some (str "EUR") := by decide +kernel
  exact hne (hall c2 hm).symm

end Ledger
