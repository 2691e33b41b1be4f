import Verif.Model.Factory
import Verif.SpecHash

/-! Specification vocabulary for the theorems about the Coin regressor: training histories and what a weight holds. -/

namespace Rml
variable {F : Type} [Flt F]

/-- A training example of a regressor. -/
structure TrainEx (F : Type) where
  feats : SparseFeatures F
  label : F
  weight : F

/-- Learning a list of examples, one after the other. -/
def Coin.trainAll (dbg : Bool) : Coin F → List (TrainEx F) → M (Coin F)
  | c, [] => .ok c
  | c, e :: es => do
    let c' ← c.learn dbg e.feats e.label e.weight
    Coin.trainAll dbg c' es

/-- The regressor was made by `CoinRegressor::new` and then trained. -/
def Coin.Reached (dbg : Bool) (hash : HashFn) (cfg : CoinConfig F) (g : GlobalConfig) (es : List (TrainEx F)) (c : Coin F) : Prop :=
  ∃ nma c0, 0 < nma ∧ Coin.new hash cfg g nma = .ok c0 ∧ c0.trainAll dbg es = .ok c

/-- The weight with index `i` holds the six values `s`. -/
def Coin.Holds (c : Coin F) (i : U32) (s : Coin.WState F) : Prop := c.weights.stateAt true i.toNat 0 = .ok s.toList

/-- The weights an example has to do with: its features, the configured interactions of them, and the constant. -/
def Coin.Touches (c : Coin F) (f : SparseFeatures F) (i : U32) : Prop := ∃ v, (i, v) ∈ visited c.pass f

/-- The example fits a model of `numBits` bits: the parsers mask every index. -/
def SparseFeatures.Fits (numBits : Nat) (f : SparseFeatures F) : Prop := ∀ iv ∈ f.allFeatures, iv.1.toNat < 2 ^ numBits

/-- The regressor at the bottom of a stack. -/
def Red.coinOf : (r : Red F) → r.State → Coin F
  | .coin _, c => c
  | .binary _ r, s => r.coinOf s
  | .cbAdf _ _ r, s => r.coinOf s.2
  | .greedy _ _ r, s => r.coinOf s
  | .softmax _ _ _ r, s => r.coinOf s.2
  | .squareCb _ _ _ _ r, s => r.coinOf s.2
  | .debug _ r, s => r.coinOf s
  | .elementwise _ _ _ _ r, s => r.coinOf s

/-- The regressor at the bottom of a workspace. -/
def Workspace.coin (w : Workspace F) : Coin F := w.red.coinOf w.st

/-- The factor common to all gradients of a learn call: the derivative of the loss at the prediction made while learning, times the weight
of the label. -/
def Coin.gradient (dbg : Bool) (c : Coin F) (e : TrainEx F) : M F := do
  let (p, c1) ← { c with minLabel := Flt.fmin e.label c.minLabel, maxLabel := Flt.fmax e.label c.maxLabel }.bettingPredict
    dbg e.feats e.weight
  .ok (c1.updateOf p e.label e.weight)

/-- A training history together with the gradient factor of each step. -/
def Coin.trace (dbg : Bool) : Coin F → List (TrainEx F) → M (List (F × TrainEx F))
  | _, [] => .ok []
  | c, e :: es => do
    let g ← c.gradient dbg e
    let c' ← c.learn dbg e.feats e.label e.weight
    let tr ← Coin.trace dbg c' es
    .ok ((g, e) :: tr)

/-- The values an example has at the weight `i`, in order. -/
def valuesAt (pass : PassCfg) (f : SparseFeatures F) (i : U32) : List F :=
  ((visited pass f).filter (fun iv => iv.1 = i)).map (·.2)

/-- All (gradient factor, value) pairs a history has applied to the weight `i`, in order. -/
def appliedAt (pass : PassCfg) (tr : List (F × TrainEx F)) (i : U32) : List (F × F) :=
  tr.flatMap (fun ge => (valuesAt pass ge.2.feats i).map (fun v => (ge.1, v)))

/-- The step from `c` to `c'` learns the example with the gradient of the loss `lf`: there is one prediction `p` in the label range such
that the gradient sum of every weight moves by the derivative of the loss at `p`, times the weight of the label, times the value of each
feature with that weight. -/
def Coin.LearnsWith [Add F] [Mul F] [Sub F] [Zero F] (lf : LossFunction F) (c : Coin F) (e : TrainEx F) (c' : Coin F) : Prop :=
  ∃ p, Flt.le c'.minLabel p = true ∧ Flt.le p c'.maxLabel = true ∧ ∀ (i : U32) (s s' : Coin.WState F), c.Holds i s → c'.Holds i s' →
    s'.zt = s.zt - ((valuesAt c.pass e.feats i).map
      (fun v => lf.firstDerivative c'.minLabel c'.maxLabel p e.label * e.weight * v)).sum

/-- The two examples have the same features, interactions of them and constant, up to units: at every weight `i`, the values of the second example
are those of the first times `unit i`. Features with different weights may be in any order. -/
def SameUpTo [Mul F] (pass : PassCfg) (unit : U32 → F) (f f' : SparseFeatures F) : Prop :=
  ∀ i, valuesAt pass f' i = (valuesAt pass f i).map (unit i * ·)

/-- The weights that a history of examples, and an example to predict, have to do with. -/
def UsedIndex (pass : PassCfg) (es : List (TrainEx F)) (f : SparseFeatures F) (i : U32) : Prop :=
  (∃ e ∈ es, ∃ v, (i, v) ∈ visited pass e.feats) ∨ ∃ v, (i, v) ∈ visited pass f

/-- The features of a namespace with fewer bits: only the lowest `b` bits of every index are kept. -/
def NsFeats.lowBits (b : Nat) (n : NsFeats F) : NsFeats F := { n with idx := ⟨n.idx.data.map (Rml.lowBits b), n.idx.cap⟩ }

/-- The same example with fewer bits. -/
def SparseFeatures.lowBits (b : Nat) (f : SparseFeatures F) : SparseFeatures F := ⟨f.entries.map fun e => (e.1, e.2.lowBits b)⟩

/-- The same features of a contextual bandit example or a simple example with fewer bits. -/
def Features.lowBits (b : Nat) : Features F → Features F
  | .simple f => .simple (f.lowBits b)
  | .cbAdf f => .cbAdf ⟨f.shared.map (SparseFeatures.lowBits b), f.actions.map (SparseFeatures.lowBits b)⟩

end Rml
