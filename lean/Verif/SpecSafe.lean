import Verif.Spec
import Verif.SpecCoin
import Verif.SpecTrain
import Verif.Props.Types

/-! Specification vocabulary for C79 and C81: what a well-formed example, label and call for a model are. -/

namespace Rml
variable {F : Type} [Flt F]

/-- No reduction of the stack is an ElementwiseInteraction. -/
def RedConfig.NoElementwise : RedConfig F → Prop
  | .coin _ | .unknown _ => True
  | .binary c | .cbAdf _ c | .greedy _ c | .softmax _ _ c | .squareCb _ _ _ c | .debug c => c.NoElementwise
  | .elementwise _ _ _ _ => False

/-- The mode of the CbAdf reduction, if there is one. -/
def RedConfig.cbMode : RedConfig F → Option CBType
  | .coin _ | .unknown _ => none
  | .cbAdf ty _ => some ty
  | .binary c | .greedy _ c | .softmax _ _ c | .squareCb _ _ _ c | .debug c | .elementwise _ _ _ c => c.cbMode

/-- Every softmax and SquareCB reduction has uniform epsilon 0 (the default). -/
def RedConfig.NoUniform : RedConfig F → Prop
  | .coin _ | .unknown _ => True
  | .softmax e _ c | .squareCb e _ _ c => Flt.eq e Flt.zero = true ∧ c.NoUniform
  | .binary c | .cbAdf _ c | .greedy _ c | .debug c | .elementwise _ _ _ c => c.NoUniform

/-- The feature objects of an example. -/
def Features.objects : Features F → List (SparseFeatures F)
  | .simple f => [f]
  | .cbAdf f => f.shared.toList ++ f.actions

/-- The actions of an example. -/
def Features.actionList : Features F → List (SparseFeatures F)
  | .simple _ => []
  | .cbAdf f => f.actions

/-- A value whose difference to itself is within the machine epsilon: every value except infinities and NaN. -/
def Settled (v : F) : Prop := Flt.le (Flt.abs (Flt.sub v v)) Flt.epsilon = true

/-- A well-formed example for a model with the type `t` and `numBits` bits. Namespaces without features and infinite values only matter in
the debug profile, which compares examples before and after each call. -/
structure SafeExample (dbg : Bool) (numBits : Nat) (t : StackType) (ft : Features F) : Prop where
  formed : ft.Formed
  valid : dbg = true → ft.Valid
  type : ft.ty = t.features
  fits : ∀ f ∈ ft.objects, f.Fits numBits
  settled : dbg = true → ∀ f ∈ ft.objects, ∀ iv ∈ f.allFeatures, Settled iv.2

/-- A well-formed label of a well-formed example. In the debug profile ips checks that the logged probability is positive. The mtr mode
needs shared features (see `C33_learn_mtr_false`) and an action of the example. -/
structure SafeLabel (dbg : Bool) (mode : Option CBType) (t : StackType) (ft : Features F) (l : Label F) : Prop where
  type : l.ty = t.label
  positive : dbg = true → ∀ cl, l = .cb cl → Flt.lt Flt.zero cl.probability = true
  chosen : mode = some .mtr → ∀ f cl, ft = .cbAdf f → l = .cb cl → f.shared.isSome = true ∧ cl.action < f.actions.length

/-- A well-formed call of a client with the examples `ex`. Choosing among actions needs an action. -/
def SafeCall (dbg : Bool) (numBits : Nat) (c : RedConfig F) (t : StackType) (ex : Nat → Features F) : Call F → Prop
  | .predict i => SafeExample dbg numBits t (ex i) ∧ (t.prediction = .actionProbs → (ex i).actionList ≠ [])
  | .learn i l => SafeExample dbg numBits t (ex i) ∧ SafeLabel dbg c.cbMode t (ex i) l
  | .predictThenLearn i l => SafeExample dbg numBits t (ex i) ∧ (t.prediction = .actionProbs → (ex i).actionList ≠ []) ∧
      SafeLabel dbg c.cbMode t (ex i) l

/-- No reduction of the model is an ElementwiseInteraction. -/
def Red.NoElementwise : Red F → Prop
  | .coin _ => True
  | .binary _ r | .cbAdf _ _ r | .greedy _ _ r | .softmax _ _ _ r | .squareCb _ _ _ _ r | .debug _ r => r.NoElementwise
  | .elementwise _ _ _ _ _ => False

/-- The mode of the CbAdf reduction of a model, if there is one. -/
def Red.cbMode : Red F → Option CBType
  | .coin _ => none
  | .cbAdf _ ty _ => some ty
  | .binary _ r | .greedy _ _ r | .softmax _ _ _ r | .squareCb _ _ _ _ r | .debug _ r | .elementwise _ _ _ _ r => r.cbMode

/-- What training needs of a parsed example with a label besides what C67 and C80 show. The release profile only needs something in the mtr mode.
The debug profile also needs that bandit examples have no namespaces without features, that no value is infinite or NaN, and that logged
probabilities are positive. -/
structure Trainable (dbg : Bool) (mode : Option CBType) (ex : Features F × Label F) : Prop where
  valid : dbg = true → ex.1.Valid
  settled : dbg = true → ∀ f ∈ ex.1.objects, ∀ iv ∈ f.allFeatures, Settled iv.2
  positive : dbg = true → ∀ cl, ex.2 = .cb cl → Flt.lt Flt.zero cl.probability = true
  chosen : mode = some .mtr → ∀ f cl, ex.1 = .cbAdf f → ex.2 = .cb cl → f.shared.isSome = true ∧ cl.action < f.actions.length

end Rml
