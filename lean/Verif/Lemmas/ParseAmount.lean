import Verif.Spec.ParseAmount
import Verif.Lemmas.Written
import Verif.Lemmas.Reading
/-
Lemmas for C116.
-/
namespace Ledger
open Ledger.Parser Ledger.Scanner

theorem registers (p : Pool) (s : Str) : Registers p s (p.findOrCreate s none).1 := by
  by_cases hs : s = []
  · subst hs
    rw [Pool.findOrCreate_empty]
    exact ⟨rfl, rfl, fun _ => rfl, fun _ => rfl, fun t => by simp⟩
  · cases hf : p.find s with
    | some c =>
      obtain ⟨-, h2, h3, h4⟩ := Pool.findOrCreate_old hs hf none
      have : (p.findOrCreate s none).1 = p := by
        cases hp : (p.findOrCreate s none).1 with
        | mk a b c => rw [hp] at h2 h3 h4; simp only at h2 h3 h4; subst h2 h3 h4; rfl
      rw [this]
      refine ⟨rfl, rfl, fun _ => rfl, fun _ => rfl, fun t => ?_⟩
      rw [if_neg]; simp [hf]
    | none =>
      obtain ⟨-, h2, h3, h4⟩ := Pool.findOrCreate_new hs hf none
      refine ⟨h4, by rw [h3], fun h => absurd h hs, fun h => by simp [hf] at h, fun t => ?_⟩
      unfold Pool.find at hf ⊢
      rw [h2, assocGet_append]
      by_cases ht : t = s
      · subst ht
        rw [if_pos ⟨hs, rfl, hf⟩, hf]; simp [assocGet]
      · rw [if_neg (fun h => ht h.2.1)]
        cases assocGet t p.commodities with
        | some c => rfl
        | none => simp [assocGet, Ne.symm ht]

theorem parseAmount_ok {text q s rest : Str} (h : AmountPart text q s rest) (p : Pool) :
    parseAmount text p = .ok (parseAmountParts q s p) := by
  unfold parseAmount
  rw [(amountPart_iff text q s rest).mp h]
  rfl

end Ledger
