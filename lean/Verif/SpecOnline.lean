import Verif.SpecCoin
import Verif.Model.Field
import Mathlib.Analysis.SpecialFunctions.Log.Basic
import Mathlib.Data.Real.Sqrt

/-! Specification vocabulary for C104: what training looks like from outside, and the quantities in the guarantee. -/

namespace Rml
variable {F : Type} [Flt F]

/-- One round of training: the examples before, the example, and the answer of `predict` to the features of the example right after it was learned. -/
structure Round (F : Type) where
  past : List (TrainEx F)
  ex : TrainEx F
  answer : F

/-- The rounds of a training history. -/
def Coin.rounds (dbg : Bool) (past : List (TrainEx F)) (c : Coin F) : List (TrainEx F) → M (List (Round F))
  | [] => .ok []
  | e :: es => do
    let c' ← c.learn dbg e.feats e.label e.weight
    let a ← c'.predict dbg e.feats
    let rs ← Coin.rounds dbg (past ++ [e]) c' es
    .ok (⟨past, e, a.1⟩ :: rs)

section
variable [Trans ℝ]

attribute [local instance] fieldFlt

/-- The size of the largest value that the weight `i` has had. -/
noncomputable def largestAt (pass : PassCfg) (es : List (TrainEx ℝ)) (i : U32) : ℝ :=
  ((es.flatMap fun e => valuesAt pass e.feats i).map fun v => |v|).foldr max 0

/-- How often the weight `i` has been visited. -/
noncomputable def visitsOf (pass : PassCfg) (es : List (TrainEx ℝ)) (i : U32) : ℕ := (es.flatMap fun e => valuesAt pass e.feats i).length

/-- The weights that a history has visited. -/
noncomputable def visitedBy (pass : PassCfg) (es : List (TrainEx ℝ)) : Finset U32 := (es.flatMap fun e => (visited pass e.feats).map fun iv => iv.1).toFinset

/-- The value of the linear predictor with the weights `u`. -/
noncomputable def linear (pass : PassCfg) (u : U32 → ℝ) (f : SparseFeatures ℝ) : ℝ := ((visited pass f).map fun iv => u iv.1 * iv.2).sum

/-- The squared length of the last example, each value in units of the largest one its weight has had. -/
noncomputable def unitNorm (pass : PassCfg) (past : List (TrainEx ℝ)) (e : TrainEx ℝ) : ℝ :=
  ((visited pass e.feats).map fun iv => (iv.2 / largestAt pass (past ++ [e]) iv.1) ^ 2).sum

/-- The sum of the weighted squared lengths of a history that comes after `past`. -/
noncomputable def totalNorm (pass : PassCfg) (past : List (TrainEx ℝ)) : List (TrainEx ℝ) → ℝ
  | [] => 0
  | e :: es => e.weight * unitNorm pass past e + totalNorm pass (past ++ [e]) es

/-- The average squared length of the examples of a history. -/
noncomputable def averageNorm (pass : PassCfg) (es : List (TrainEx ℝ)) : ℝ :=
  (totalNorm pass [] es + 1 / 1000000) / (es.map (·.weight)).sum

/-- The guarantee for one weight: initial wealth `alpha`, gradients of size at most `scale`, `n` visits, the comparator's weight `u`, and `ratio`, the ratio of the largest
value to the smallest one. It grows like `√n log n`. -/
noncomputable def bettingRegret (alpha scale : ℝ) (n : ℕ) (ratio u : ℝ) : ℝ :=
  alpha + 2 * |u| * scale * √n * (Real.log (1 + 2 * |u| * scale * √n / alpha) + (1 + Real.log ratio) * Real.log (5 * (n + 2)))

end

end Rml
