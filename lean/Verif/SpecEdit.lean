import Verif.SpecSerde
import Verif.SpecCoin

/-! Specification vocabulary for edited JSON models (C108, C109). -/

namespace Rml
variable {F : Type} [Flt F]
namespace Serde

/-- A decimal numeral without superfluous zeros. -/
def IsNumeral (k : List Char) : Prop := k ≠ [] ∧ (∀ c ∈ k, 48 ≤ c.toNat ∧ c.toNat ≤ 57) ∧ (k.head? = some '0' → k = ['0'])

/-- The number that a numeral denotes. -/
def numeralValue (k : List Char) : Nat := k.foldl (fun n c => 10 * n + (c.toNat - 48)) 0

/-- The JSON object that a user writes for the weights: for every listed feature one list of numbers per model. -/
def weightsObject (rows : List (List Char × List (List F))) : Doc F :=
  .obj (rows.map fun row => (row.1, .arr (row.2.map fun state => .arr (state.map fun x => .num (.flt x)))))

/-- Rows that fit a table with `nf` features, `nm` models and `ns` numbers per feature and model: features are given by distinct numerals,
each with all its models and numbers. -/
structure RowsFit (nf nm ns : Nat) (rows : List (List Char × List (List F))) : Prop where
  numeral : ∀ row ∈ rows, IsNumeral row.1 ∧ numeralValue row.1 < nf
  distinct : (rows.map fun row => numeralValue row.1).Nodup
  models : ∀ row ∈ rows, row.2.length = nm
  numbers : ∀ row ∈ rows, ∀ state ∈ row.2, state.length = ns

/-- What the rows say about a feature and model: the listed numbers, or zeros if the feature is not listed. -/
def RowsSay (ns : Nat) (rows : List (List Char × List (List F))) (feature model : Nat) (numbers : List F) : Prop :=
  (∃ row ∈ rows, numeralValue row.1 = feature ∧ row.2[model]? = some numbers) ∨
    (∀ row ∈ rows, numeralValue row.1 ≠ feature) ∧ numbers = List.replicate ns Flt.zero

mutual
/-- The document with the entry `weights` of every weight table replaced. -/
def replaceWeights (d : Doc F) : Doc F → Doc F
  | .obj l => if HasTableKeys l then .obj (l.map fun e => if e.1 = "weights".toList then (e.1, d) else e) else .obj (replaceWeightsE d l)
  | .arr l => .arr (replaceWeightsL d l)
  | j => j
/-- The same in the values of an object. -/
def replaceWeightsE (d : Doc F) : List (List Char × Doc F) → List (List Char × Doc F)
  | [] => []
  | (k, v) :: l => (k, replaceWeights d v) :: replaceWeightsE d l
/-- The same in the elements of an array. -/
def replaceWeightsL (d : Doc F) : List (Doc F) → List (Doc F)
  | [] => []
  | v :: l => replaceWeights d v :: replaceWeightsL d l
end

mutual
/-- No object in the document, at any depth, has the key. -/
def NoKey (key : List Char) : Doc F → Prop
  | .obj l => NoKeyE key l
  | .arr l => NoKeyL key l
  | _ => True
/-- The same for the entries of an object. -/
def NoKeyE (key : List Char) : List (List Char × Doc F) → Prop
  | [] => True
  | (k, v) :: l => k ≠ key ∧ NoKey key v ∧ NoKeyE key l
/-- The same for the elements of an array. -/
def NoKeyL (key : List Char) : List (Doc F) → Prop
  | [] => True
  | v :: l => NoKey key v ∧ NoKeyL key l
end

end Serde

/-- The state of a stack with another weight table. -/
def Red.withWeights (w : DenseWeights F) : (r : Red F) → r.State → r.State
  | .coin _, c => { (c : Coin F) with weights := w }
  | .binary _ r, s => r.withWeights w s
  | .cbAdf _ _ r, s => (s.1, r.withWeights w s.2)
  | .greedy _ _ r, s => r.withWeights w s
  | .softmax _ _ _ r, s => (s.1, r.withWeights w s.2)
  | .squareCb _ _ _ _ r, s => (s.1, r.withWeights w s.2)
  | .debug _ r, s => r.withWeights w s
  | .elementwise _ _ _ _ r, s => r.withWeights w s

end Rml
