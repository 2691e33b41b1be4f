import Verif.Model.SparseFeatures

/-
`dense_weights.rs:12-30, 190-257`, `weights.rs:17-102`, `interactions.rs`.
-/

namespace Rml

/-- `num_bits_to_represent` (`dense_weights.rs:12-14`): `64 - leading_zeros`. -/
def numBitsToRepresent (v : Nat) : Nat := if v = 0 then 0 else Nat.log2 v + 1

/-- `DenseWeights` (`dense_weights.rs:16-30`). -/
structure DenseWeights (F : Type) where
  weights : List F
  featureIndexSize : Nat
  modelIndexSize : Nat
  featureStateSize : Nat
  modelIndexSizeShift : Nat
  featureStateSizeShift : Nat
  deriving DecidableEq, Repr

namespace DenseWeights
variable {F : Type}

/-- `DenseWeights::new` (`dense_weights.rs:206-234`). Sizes are `u32`, `u8`, `u8`, given here as naturals; `size - 1`
underflows (panic, debug profile) for size 0. `u8::try_from(shift)` cannot fail because the shifts are at most 32. -/
def new [Flt F] (featureIndexSize modelIndexSize featureStateSize : Nat) : M (DenseWeights F) :=
  if featureIndexSize = 0 ∨ modelIndexSize = 0 ∨ featureStateSize = 0 then .error .overflow
  else
    let fs := numBitsToRepresent (featureIndexSize - 1)
    let ms := numBitsToRepresent (modelIndexSize - 1)
    let ss := numBitsToRepresent (featureStateSize - 1)
    if fs + ms + ss ≤ 64 then
      .ok ⟨List.replicate (2 ^ fs * 2 ^ ms * 2 ^ ss) Flt.zero, featureIndexSize, modelIndexSize, featureStateSize, ms, ss⟩
    else .error .assert

/-- `convert_index` (`dense_weights.rs:191-204`). The shifts are on `usize`; with `u32`/`u8` operands and shifts at most
16 no bits are lost, so they are written as multiplications. -/
def convertIndex (dbg : Bool) (w : DenseWeights F) (feat model : Nat) : M Nat := do
  debugAssert dbg (decide (feat < w.featureIndexSize))
  debugAssert dbg (decide (model < w.modelIndexSize))
  .ok (feat * 2 ^ (w.modelIndexSizeShift + w.featureStateSizeShift) + model * 2 ^ w.featureStateSizeShift)

/-- `weight_at` (`dense_weights.rs:238-241`). -/
def weightAt (dbg : Bool) (w : DenseWeights F) (feat model : Nat) : M F := do
  let i ← w.convertIndex dbg feat model
  match w.weights[i]? with
  | some x => .ok x
  | none => .error .index

/-- `*weight_at_mut(..) = x` (`dense_weights.rs:243-246`). -/
def setWeightAt (dbg : Bool) (w : DenseWeights F) (feat model : Nat) (x : F) : M (DenseWeights F) := do
  let i ← w.convertIndex dbg feat model
  if i < w.weights.length then .ok { w with weights := w.weights.set i x } else .error .index

/-- `state_at` (`dense_weights.rs:248-251`). -/
def stateAt (dbg : Bool) (w : DenseWeights F) (feat model : Nat) : M (List F) := do
  let i ← w.convertIndex dbg feat model
  if i + w.featureStateSize ≤ w.weights.length then .ok ((w.weights.drop i).take w.featureStateSize)
  else .error .index

/-- Writing through the slice returned by `state_at_mut` (`dense_weights.rs:253-256`): the slice of length
`feature_state_size` is replaced. `s` must have that length (`copy_from_slice` panics otherwise). -/
def setStateAt (dbg : Bool) (w : DenseWeights F) (feat model : Nat) (s : List F) : M (DenseWeights F) := do
  let i ← w.convertIndex dbg feat model
  if i + w.featureStateSize ≤ w.weights.length then
    if s.length = w.featureStateSize then
      .ok { w with weights := w.weights.take i ++ s ++ w.weights.drop (i + w.featureStateSize) }
    else .error .assert
  else .error .index

end DenseWeights

/-- Interaction configuration of a foreach pass: the arguments `quadratic_interactions`, `cubic_interactions`,
`num_bits`, `constant_feature_enabled` of `weights.rs:24-27`. -/
structure PassCfg where
  pairs : List (Namespace × Namespace)
  triples : List (Namespace × Namespace × Namespace)
  numBits : Nat
  addConstant : Bool
  deriving DecidableEq, Repr

section foreach
variable {F : Type} [Flt F]

/-- Iterator of an optional namespace; `if let Some(ns) = features.get_namespace(..)` around a loop. -/
def nsIter (f : SparseFeatures F) (ns : Namespace) : List (U32 × F) :=
  match f.getNamespace ns with
  | some n => n.iter
  | none => []

/-- The quadratic features visited for one pair (`weights.rs:40-56`). -/
def quadVisit (numBits : Nat) (f : SparseFeatures F) (p : Namespace × Namespace) : List (U32 × F) :=
  (nsIter f p.1).zipIdx.flatMap fun (f1, i) =>
    ((nsIter f p.2).drop (if p.1 = p.2 then i else 0)).map fun f2 =>
      (maskIdx numBits (fnvMul f1.1 ^^^ f2.1), Flt.mul f1.2 f2.2)

/-- The cubic features visited for one triple (`weights.rs:59-84`). Note that the innermost loop skips by the index `i`
of the *outermost* loop when the last two namespaces coincide. -/
def cubicVisit (numBits : Nat) (f : SparseFeatures F) (t : Namespace × Namespace × Namespace) : List (U32 × F) :=
  (nsIter f t.1).zipIdx.flatMap fun (f1, i) =>
    ((nsIter f t.2.1).drop (if t.1 = t.2.1 then i else 0)).flatMap fun f2 =>
      ((nsIter f t.2.2).drop (if t.2.1 = t.2.2 then i else 0)).map fun f3 =>
        (maskIdx numBits (fnvMul (fnvMul f1.1 ^^^ f2.1) ^^^ f3.1), Flt.mul (Flt.mul f1.2 f2.2) f3.2)

/-- The constant feature (`weights.rs:86-90`). -/
def constVisit (c : PassCfg) : List (U32 × F) :=
  if c.addConstant then [(constantFeatureIndex c.numBits, Flt.one)] else []

/-- The sequence of (index, value) pairs on which `foreach_feature*` calls its closure (`weights.rs:17-93`), in order.
The closure never influences which features are visited, so the loop is the fold of the closure over this list. -/
def visited (c : PassCfg) (f : SparseFeatures F) : List (U32 × F) :=
  f.allFeatures ++ c.pairs.flatMap (quadVisit c.numBits f) ++ c.triples.flatMap (cubicVisit c.numBits f) ++ constVisit c

/-- `foreach_feature` (`weights.rs:95`): folds over value and weight. -/
def foreachFeature {S : Type} (dbg : Bool) (model : Nat) (f : SparseFeatures F) (w : DenseWeights F) (c : PassCfg)
    (func : S → F → F → S) (s : S) : M S :=
  (visited c f).foldlM (fun s iv => do
    let wt ← w.weightAt dbg iv.1.toNat model
    .ok (func s iv.2 wt)) s

/-- `foreach_feature_with_state` (`weights.rs:96`). -/
def foreachFeatureWithState {S : Type} (dbg : Bool) (model : Nat) (f : SparseFeatures F) (w : DenseWeights F)
    (c : PassCfg) (func : S → F → List F → M S) (s : S) : M S :=
  (visited c f).foldlM (fun s iv => do
    let st ← w.stateAt dbg iv.1.toNat model
    func s iv.2 st) s

/-- `foreach_feature_with_state_mut` (`weights.rs:97-102`): the closure may rewrite the state slice. -/
def foreachFeatureWithStateMut {S : Type} (dbg : Bool) (model : Nat) (f : SparseFeatures F) (w : DenseWeights F)
    (c : PassCfg) (func : S → F → List F → M (S × List F)) (s : S) : M (S × DenseWeights F) :=
  (visited c f).foldlM (fun (sw : S × DenseWeights F) iv => do
    let st ← sw.2.stateAt dbg iv.1.toNat model
    let (s', st') ← func sw.1 iv.2 st
    let w' ← sw.2.setStateAt dbg iv.1.toNat model st'
    .ok (s', w')) (s, w)

end foreach

/-- `NamespaceDef` (`interactions.rs:6-10`). -/
inductive NamespaceDef where
  | name (s : List Char)
  | default
  deriving DecidableEq, Repr

/-- `NamespaceDef::to_namespace` (`interactions.rs:15-25`). -/
def NamespaceDef.toNamespace (hash : HashFn) (seed : U32) : NamespaceDef → Namespace
  | .name s => .named (hash s seed)
  | .default => .default

/-- `hash_interaction` (`interactions.rs:27-35`). -/
def hashInteraction (hash : HashFn) (seed : U32) (i : List NamespaceDef) : M (List Namespace) :=
  if i.isEmpty ∨ i.length > 3 then .error .explicit
  else .ok (i.map (NamespaceDef.toNamespace hash seed))

/-- The closure of the first `map` in `compile_interactions` (`interactions.rs:47-50`). -/
def compilePair (hash : HashFn) (seed : U32) (i : List NamespaceDef) : M (Namespace × Namespace) := do
  let h ← hashInteraction hash seed i
  match h[0]?, h[1]? with
  | some a, some b => .ok (a, b)
  | _, _ => .error .index

/-- The closure of the second `map` in `compile_interactions` (`interactions.rs:56-63`). -/
def compileTriple (hash : HashFn) (seed : U32) (i : List NamespaceDef) :
    M (Namespace × Namespace × Namespace) := do
  let h ← hashInteraction hash seed i
  match h[0]?, h[1]?, h[2]? with
  | some a, some b, some c => .ok (a, b, c)
  | _, _, _ => .error .index

/-- `compile_interactions` (`interactions.rs:40-71`). -/
def compileInteractions (hash : HashFn) (seed : U32) (is : List (List NamespaceDef)) :
    M (List (Namespace × Namespace) × List (Namespace × Namespace × Namespace)) := do
  let pairs ← (is.filter (fun i => i.length == 2)).mapM (compilePair hash seed)
  let triples ← (is.filter (fun i => i.length == 3)).mapM (compileTriple hash seed)
  if pairs.length + triples.length ≠ is.length then .error .explicit
  else .ok (pairs, triples)

end Rml
