import Verif.Model.Reductions

/-! Small vocabulary used in the statements of several properties: the type of a label, of features and of a prediction,
namespaces made by ElementwiseInteraction, weight tables whose slots are inside the table and do not overlap, well-formed
features and what can be observed of them. -/

namespace Rml
variable {F : Type}

/-- The type of a prediction (`types.rs:34-75`). -/
def Prediction.ty : Prediction F → PredictionType
  | .scalar _ _ => .scalar
  | .binary _ => .binary
  | .actionScores _ => .actionScores
  | .actionProbs _ => .actionProbs

/-- The type of a label (`types.rs:149-164`). -/
def Label.ty : Label F → LabelType
  | .simple _ => .simple
  | .binary _ => .binary
  | .cb _ => .cb

/-- The type of features (`types.rs:253-259, 353-357`). -/
def Features.ty : Features F → FeaturesType
  | .simple _ => .sparseSimple
  | .cbAdf _ => .sparseCBAdf

/-- A composite namespace made by ElementwiseInteraction. -/
def Namespace.isRaw : Namespace → Bool
  | .rawHash _ => true
  | _ => false

/-- Weight tables that are large enough for every in-range slot and whose slots do not overlap. -/
structure DenseWeights.WF (w : DenseWeights F) : Prop where
  model_le : w.modelIndexSize ≤ 2 ^ w.modelIndexSizeShift
  state_le : w.featureStateSize ≤ 2 ^ w.featureStateSizeShift
  len : w.featureIndexSize * (2 ^ w.modelIndexSizeShift * 2 ^ w.featureStateSizeShift) ≤ w.weights.length

namespace SparseFeatures

/-- Keys strictly increasing. -/
def Sorted (l : List (Namespace × NsFeats F)) : Prop := l.Pairwise (fun a b => a.1.rank < b.1.rank)

/-- Basic well-formedness: sorted keys, matching index and value vectors, entries filed under their own namespace. -/
structure Inv0 (f : SparseFeatures F) : Prop where
  sorted : Sorted f.entries
  lens : ∀ e ∈ f.entries, e.2.idx.data.length = e.2.vals.data.length
  keys : ∀ e ∈ f.entries, e.2.namespace_ = e.1

/-- What the API can observe of one namespace: indices, values and whether it is active. -/
def vw (f : SparseFeatures F) (ns : Namespace) : List U32 × List F × Bool :=
  match lookup f.entries ns with
  | none => ([], [], false)
  | some n => (n.idx.data, n.vals.data, n.active)

end SparseFeatures

end Rml
