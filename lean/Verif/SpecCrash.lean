import Verif.Spec
import Verif.SpecSafe
import Verif.Model.Crash

/-! Specification vocabulary for C99: a client that goes on after calls that fail. -/

namespace Rml
variable {F : Type} [Flt F]

/-- A call of a client that catches the exception of a call that fails: the workspace and the examples afterwards, and what the call returned. -/
def Session.attempt (dbg : Bool) (S : Session F) : Call F → Session F × M (Option (Prediction F))
  | .predict i =>
    let r := S.w.predictCr dbg (S.ex i)
    (S.put S.w i r.2, r.1.map some)
  | .learn i l =>
    let r := S.w.learnCr dbg (S.ex i) l
    (S.put r.2.1 i r.2.2, r.1.map (fun _ => none))
  | .predictThenLearn i l =>
    let r := S.w.predictThenLearnCr dbg (S.ex i) l
    (S.put r.2.1 i r.2.2, r.1.map some)

/-- A history of calls, some of which may fail, with everything they returned. -/
def Session.attempts (dbg : Bool) : Session F → List (Call F) → Session F × List (M (Option (Prediction F)))
  | S, [] => (S, [])
  | S, c :: cs =>
    let r := S.attempt dbg c
    let rs := Session.attempts dbg r.1 cs
    (rs.1, r.2 :: rs.2)

/-- The stacks for regression and binary classification: Coin, with any number of Binary and Debug reductions above it. -/
def RedConfig.Regression : RedConfig F → Prop
  | .coin _ => True
  | .binary c | .debug c => c.Regression
  | .unknown _ | .cbAdf _ _ | .greedy _ _ | .softmax _ _ _ | .squareCb _ _ _ _ | .elementwise _ _ _ _ => False

/-- A stack without SquareCB. -/
def RedConfig.NoSquareCb : RedConfig F → Prop
  | .coin _ | .unknown _ => True
  | .squareCb _ _ _ _ => False
  | .binary c | .cbAdf _ c | .greedy _ c | .softmax _ _ c | .debug c | .elementwise _ _ _ c => c.NoSquareCb

/-- The number that a label tells the regressor to predict. -/
inductive Target : Label F → F → Prop
  | simple (l : SimpleLabel F) : Target (.simple l) l.value
  | yes : Target (.binary true) Flt.one
  | no : Target (.binary false) (fl (-1))

/-- The raw prediction, if the prediction is a scalar: the prediction before it is limited to the range of the labels. -/
def Prediction.raw : Prediction F → Option F
  | .scalar _ raw => some raw
  | .binary _ | .actionScores _ | .actionProbs _ => none

/-- No later call can tell that the call was made: whatever is called next, everything returns the same as without it. -/
def Harmless (dbg : Bool) (S : Session F) (call : Call F) : Prop :=
  ∀ calls, ((S.attempt dbg call).1.attempts dbg calls).2 = (S.attempts dbg calls).2

/-- The call names an example of another kind than the model works with. -/
def Call.WrongFeatures (t : StackType) (ex : Nat → Features F) : Call F → Prop
  | .predict i | .learn i _ | .predictThenLearn i _ => (ex i).ty ≠ t.features

/-- The call passes a label of another kind than the model works with. -/
def Call.WrongLabel (t : StackType) : Call F → Prop
  | .predict _ => False
  | .learn _ l | .predictThenLearn _ l => l.ty ≠ t.label

/-- Everything the model holds is as it was before the call, and so are all examples. -/
def Unchanged (dbg : Bool) (S : Session F) (call : Call F) : Prop := (S.attempt dbg call).1 = S

/-- A contextual bandit example `f` whose parts have been mixed up: in `f'` one action also has the shared features, or the shared features also have
those of one action. Everything else is the same. -/
def CBAdfFeatures.MixOf (f' f : CBAdfFeatures F) : Prop :=
  (SharedSame f'.shared f.shared ∧ ∃ pre pre' a a' post post', f.actions = pre ++ a :: post ∧ f'.actions = pre' ++ a' :: post' ∧
      List.Forall₂ SparseFeatures.SameAs pre' pre ∧ a'.MergeOf a f.shared ∧ List.Forall₂ SparseFeatures.SameAs post' post) ∨
    ∃ s s' a, f.shared = some s ∧ f'.shared = some s' ∧ a ∈ f.actions ∧ s'.MergeOf s (some a) ∧ List.Forall₂ SparseFeatures.SameAs f'.actions f.actions

/-- The example that a call is about. -/
def Call.example_ : Call F → Nat
  | .predict i | .learn i _ | .predictThenLearn i _ => i

end Rml
