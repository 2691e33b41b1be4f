import Verif.SpecIeee
import Verif.SpecCoin
import Verif.Model.Ieee

/-! Specification vocabulary for C98: NaN in the data, data of ordinary size, and models that have stopped learning. Numbers are `f32`; square roots and the like are a parameter. -/

namespace Rml

section
variable [t : F32Trans]

/-- Numbers are `f32`. -/
@[reducible] local instance specNumbers : Flt (BitVec 32) := ieeeFlt t

/-- The example contains a NaN: in its label, in its weight, or in one of its features or their interactions. -/
def HasNaN (pass : PassCfg) (e : TrainEx (BitVec 32)) : Prop :=
  IeeeNaN e.label ∨ IeeeNaN e.weight ∨ ∃ i v, (i, v) ∈ visited pass e.feats ∧ IeeeNaN v

/-- An example of ordinary size: the label is at most 2^16 in magnitude, the weight is between 2^-8 and 2^8, and the values of the features and their interactions are 0 or
between 2^-10 and 2^10 in magnitude. -/
structure Ordinary (pass : PassCfg) (e : TrainEx (BitVec 32)) : Prop where
  label : IeeeFinite e.label ∧ |ieeeValue e.label| ≤ 2 ^ 16
  weight : IeeeFinite e.weight ∧ 1 / 2 ^ 8 ≤ ieeeValue e.weight ∧ ieeeValue e.weight ≤ 2 ^ 8
  values : ∀ iv ∈ visited pass e.feats, IeeeFinite iv.2 ∧ (ieeeValue iv.2 = 0 ∨ 1 / 2 ^ 10 ≤ |ieeeValue iv.2| ∧ |ieeeValue iv.2| ≤ 2 ^ 10)

/-- All features of the example and their interactions have weights of their own. -/
def OwnWeights (pass : PassCfg) (f : SparseFeatures (BitVec 32)) : Prop := ((visited pass f).map (·.1)).Nodup

/-- How often training with the examples visits the weight: once for each feature and each interaction that has it. -/
def trainingVisits (pass : PassCfg) (es : List (TrainEx (BitVec 32))) (i : U32) : Nat := ((es.flatMap fun e => visited pass e.feats).filter (fun iv => iv.1 == i)).length

/-- The model has stopped learning: whatever else it is trained with, it predicts 0 for everything. -/
def StoppedLearning (dbg : Bool) (g : GlobalConfig) (c : Coin (BitVec 32)) : Prop :=
  ∀ (later : List (TrainEx (BitVec 32))) (c' : Coin (BitVec 32)), c.trainAll dbg later = .ok c' → ∀ f : SparseFeatures (BitVec 32), f.Fits g.numBits →
    c'.predict dbg f = .ok (0#32, 0#32)

end

end Rml
