import Verif.Model.Weights
import Verif.Lemmas.Hash

/-! Helper lemmas about the visited features. -/

namespace Rml
variable {F : Type} [Flt F]

theorem quadVisit_lt {n : Nat} (h : n < 32) (f : SparseFeatures F) (p : Namespace × Namespace) :
    ∀ iv ∈ quadVisit n f p, iv.1.toNat < 2 ^ n := by
  intro iv hiv
  simp only [quadVisit, List.mem_flatMap, List.mem_map] at hiv
  obtain ⟨_, _, _, _, rfl⟩ := hiv
  exact maskIdx_lt h _

theorem cubicVisit_lt {n : Nat} (h : n < 32) (f : SparseFeatures F) (p : Namespace × Namespace × Namespace) :
    ∀ iv ∈ cubicVisit n f p, iv.1.toNat < 2 ^ n := by
  intro iv hiv
  simp only [cubicVisit, List.mem_flatMap, List.mem_map] at hiv
  obtain ⟨_, _, _, _, _, _, rfl⟩ := hiv
  exact maskIdx_lt h _

end Rml
