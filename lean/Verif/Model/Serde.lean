import Verif.Model.Factory
import Verif.Model.Json

/-
Saving and loading of models: `dense_weights.rs:62-188`, `workspace.rs:68-168` and the `Serialize`/`Deserialize` instances derived for the
structs that make up a model.

The derived instances are modelled by their documented effect: a struct is an object with its field names, a newtype is its content, a unit
enum variant is its name, any other variant is an object with one entry, a tuple is an array, `typetag` adds the entry `type`. Range checks on
integers are left out, since the fields of a saved model are in range. A float is written as a number, or as `null` when the format cannot
represent it (`fin`): JSON cannot represent NaN and infinities, the binary format (flexbuffers, external) can represent everything.
-/

namespace Rml

/-- Numbers in a saved model: integers and floats. -/
inductive JNum (F : Type) where
  | nat (n : Nat)
  | flt (x : F)
  deriving DecidableEq, Repr

/-- A saved model. -/
abbrev Doc (F : Type) := Json (JNum F)

namespace Serde
variable {F : Type} [Flt F]

/-- `f32` (serde). -/
def encF (fin : F → Bool) (x : F) : Doc F := if fin x then .num (.flt x) else .null
/-- `f32` (serde): integers are accepted too. -/
def decF : Doc F → Option F
  | .num (.flt x) => some x
  | .num (.nat n) => some (Flt.ofNat n)
  | _ => none
/-- Unsigned integers (serde). -/
def encN (n : Nat) : Doc F := .num (.nat n)
/-- Unsigned integers (serde), without the range check. -/
def decN : Doc F → Option Nat
  | .num (.nat n) => some n
  | _ => none
/-- `bool` (serde). -/
def decB : Doc F → Option Bool
  | .bool b => some b
  | _ => none
/-- `String` (serde). -/
def decS : Doc F → Option (List Char)
  | .str s => some s
  | _ => none
/-- `Vec<T>` (serde). -/
def encL {α : Type} (e : α → Doc F) (l : List α) : Doc F := .arr (l.map e)
/-- `Vec<T>` (serde). -/
def decL {α : Type} (d : Doc F → Option α) : Doc F → Option (List α)
  | .arr l => l.mapM d
  | _ => none
/-- A required field of a struct (serde). -/
def field {α : Type} (j : Doc F) (k : String) (d : Doc F → Option α) : Option α := (j.get? k).bind d
/-- A field with `#[serde(default)]` (serde). -/
def fieldOr {α : Type} (j : Doc F) (k : String) (dflt : α) (d : Doc F → Option α) : Option α :=
  match j.get? k with
  | some v => d v
  | none => some dflt
/-- `#[serde(deny_unknown_fields)]`. -/
def denyUnknown (j : Doc F) (ks : List String) : Option Unit :=
  match j with
  | .obj l => if l.all (fun e => (ks.map String.toList).contains e.1) then some () else none
  | _ => none

/-! ### Weights -/

/-- `SparseF32Vec` (`dense_weights.rs:141-145`). -/
structure SparseF32Vec (F : Type) where
  len : Nat
  pairs : List (Nat × F)
  deriving DecidableEq, Repr

/-- `SparseF32Vec::from_dense` (`dense_weights.rs:148-160`). -/
def SparseF32Vec.fromDense (v : List F) : SparseF32Vec F :=
  ⟨v.length, (v.zipIdx.filter (fun p => !Flt.eq p.1 Flt.zero)).map fun p => (p.2, p.1)⟩

/-- `SparseF32Vec::to_dense` (`dense_weights.rs:162-168`); an index out of range panics. -/
def SparseF32Vec.toDense (s : SparseF32Vec F) : Option (List F) :=
  s.pairs.foldlM (fun v p => if p.1 < v.length then some (v.set p.1 p.2) else none) (List.replicate s.len Flt.zero)

/-- Derived for `(usize, f32)` in `dense_weights.rs:144`. -/
def encPair (fin : F → Bool) (p : Nat × F) : Doc F := .arr [encN p.1, encF fin p.2]
/-- Derived for `(usize, f32)` in `dense_weights.rs:144`. -/
def decPair : Doc F → Option (Nat × F)
  | .arr [a, b] => do
    let i ← decN a
    let x ← decF b
    some (i, x)
  | _ => none

/-- Derived for `SparseF32Vec` (`dense_weights.rs:141-145`) and `serialize_sparse_f32_vec` (`dense_weights.rs:171-180`). -/
def encVec (fin : F → Bool) (v : List F) : Doc F :=
  let s := SparseF32Vec.fromDense v
  .obj [("len".toList, encN s.len), ("non_zero_value_and_index_pairs".toList, encL (encPair fin) s.pairs)]
/-- Derived for `SparseF32Vec` (`dense_weights.rs:141-145`) and `deserialize_sparse_f32_vec` (`dense_weights.rs:182-188`). -/
def decVec (j : Doc F) : Option (List F) := do
  let n ← field j "len" decN
  let ps ← field j "non_zero_value_and_index_pairs" (decL decPair)
  (SparseF32Vec.mk n ps).toDense

/-- The five size fields, in the order of a `serde_json` map (sorted by key; `dense_weights.rs:22-29, 63-72`). -/
def encSizes (fis mis fss misS fssS : Nat) : List (List Char × Doc F) :=
  [("feature_index_size".toList, encN fis), ("feature_state_size".toList, encN fss),
   ("feature_state_size_shift".toList, encN fssS), ("model_index_size".toList, encN mis),
   ("model_index_size_shift".toList, encN misS)]

/-- Derived for `DenseWeights` (`dense_weights.rs:16-30`). -/
def encW (fin : F → Bool) (w : DenseWeights F) : Doc F :=
  .obj (encSizes w.featureIndexSize w.modelIndexSize w.featureStateSize w.modelIndexSizeShift w.featureStateSizeShift ++
    [("weights".toList, encVec fin w.weights)])
/-- Derived for `DenseWeights` (`dense_weights.rs:16-30`). -/
def decW (j : Doc F) : Option (DenseWeights F) := do
  let v ← field j "weights" decVec
  let fis ← field j "feature_index_size" decN
  let mis ← field j "model_index_size" decN
  let fss ← field j "feature_state_size" decN
  let misS ← field j "model_index_size_shift" decN
  let fssS ← field j "feature_state_size_shift" decN
  some ⟨v, fis, mis, fss, misS, fssS⟩

/-- `DenseWeightsWithNDArray` (`dense_weights.rs:62-72`). The hash map is the list of its entries, in any order. -/
structure NDArray (F : Type) where
  weights : List (Nat × List (List F))
  featureIndexSize : Nat
  modelIndexSize : Nat
  featureStateSize : Nat
  modelIndexSizeShift : Nat
  featureStateSizeShift : Nat

/-- The states of all models for one feature (`dense_weights.rs:86-92`); none if some slice is out of range. -/
def statesOf (w : DenseWeights F) (i : Nat) : Option (List (List F)) :=
  (List.range w.modelIndexSize).mapM fun j =>
    match w.stateAt true i j with
    | .ok s => some s
    | .error _ => none

/-- `from_dense_weights` (`dense_weights.rs:75-107`). `order` is the order in which the hash map lists its entries. -/
def NDArray.ofDense (order : List (Nat × List (List F)) → List (Nat × List (List F))) (w : DenseWeights F) : Option (NDArray F) := do
  let all ← (List.range w.featureIndexSize).mapM fun i => do
    let ss ← statesOf w i
    some (i, ss)
  some ⟨order (all.filter fun e => e.2.any fun s => s.any fun x => !Flt.eq x Flt.zero), w.featureIndexSize, w.modelIndexSize,
    w.featureStateSize, w.modelIndexSizeShift, w.featureStateSizeShift⟩

/-- The inner loop of `to_dense_weights` (`dense_weights.rs:129-133`), from model `j` on. -/
def putStates (w : DenseWeights F) (i : Nat) : Nat → List (List F) → Option (DenseWeights F)
  | _, [] => some w
  | j, s :: ss =>
    match w.setStateAt true i (j % 256) s with
    | .ok w' => putStates w' i (j + 1) ss
    | .error _ => none

/-- `to_dense_weights` (`dense_weights.rs:109-137`). -/
def NDArray.toDense (a : NDArray F) : Option (DenseWeights F) :=
  if a.featureIndexSize = 0 then none
  else
    let fs := numBitsToRepresent (a.featureIndexSize - 1)
    a.weights.foldlM (fun w e => putStates w e.1 0 e.2)
      ⟨List.replicate (2 ^ fs * 2 ^ a.modelIndexSizeShift * 2 ^ a.featureStateSizeShift) Flt.zero, a.featureIndexSize,
        a.modelIndexSize, a.featureStateSize, a.modelIndexSizeShift, a.featureStateSizeShift⟩

/-- Derived for `DenseWeightsWithNDArray` (`dense_weights.rs:62-72`); integer map keys are written as strings. -/
def encND (fin : F → Bool) (a : NDArray F) : Doc F :=
  .obj (encSizes a.featureIndexSize a.modelIndexSize a.featureStateSize a.modelIndexSizeShift a.featureStateSizeShift ++
    [("weights".toList, .obj (a.weights.map fun e => (showNat e.1, encL (encL (encF fin)) e.2)))])
/-- One entry of the map in `DenseWeightsWithNDArray` (`dense_weights.rs:64`). -/
def decEntry (e : List Char × Doc F) : Option (Nat × List (List F)) := do
  let i ← readNat e.1
  let ss ← decL (decL decF) e.2
  some (i, ss)
/-- The map in `DenseWeightsWithNDArray` (`dense_weights.rs:64`). -/
def decMap : Doc F → Option (List (Nat × List (List F)))
  | .obj l => l.mapM decEntry
  | _ => none
/-- Derived for `DenseWeightsWithNDArray` (`dense_weights.rs:62-72`). -/
def decND (j : Doc F) : Option (NDArray F) := do
  let v ← field j "weights" decMap
  let fis ← field j "feature_index_size" decN
  let mis ← field j "model_index_size" decN
  let fss ← field j "feature_state_size" decN
  let misS ← field j "model_index_size_shift" decN
  let fssS ← field j "feature_state_size_shift" decN
  some ⟨v, fis, mis, fss, misS, fssS⟩

/-! ### Rewriting -/

/-- The test for an object that is a weight table (`workspace.rs:72-77, 99-104`). -/
def isTable (l : List (List Char × Doc F)) : Bool :=
  Json.hasKey "weights" l && Json.hasKey "feature_index_size" l && Json.hasKey "model_index_size" l &&
    Json.hasKey "feature_state_size" l && Json.hasKey "model_index_size_shift" l && Json.hasKey "feature_state_size_shift" l

mutual
/-- The recursion shared by `rewrite_json_ndarray_to_sparse` and `rewrite_json_sparse_to_ndarray` (`workspace.rs:69-122`): `g` rewrites a
weight table (`none`: an `unwrap` panics), everything else is searched. -/
def rewrite (g : Doc F → Option (Doc F)) : Doc F → Option (Doc F)
  | .obj l => if isTable l then g (.obj l) else do
      let l' ← rewriteEntries g l
      some (.obj l')
  | .arr l => do
      let l' ← rewriteList g l
      some (.arr l')
  | j => some j
/-- The loop over an object (`workspace.rs:83-85, 111-113`). -/
def rewriteEntries (g : Doc F → Option (Doc F)) : List (List Char × Doc F) → Option (List (List Char × Doc F))
  | [] => some []
  | (k, v) :: l => do
    let v' ← rewrite g v
    let l' ← rewriteEntries g l
    some ((k, v') :: l')
/-- The loop over an array (`workspace.rs:88-90, 116-118`). -/
def rewriteList (g : Doc F → Option (Doc F)) : List (Doc F) → Option (List (Doc F))
  | [] => some []
  | v :: l => do
    let v' ← rewrite g v
    let l' ← rewriteList g l
    some (v' :: l')
end

/-- The replacement in `rewrite_json_sparse_to_ndarray` (`workspace.rs:106-108`). -/
def tableToND (fin : F → Bool) (order : List (Nat × List (List F)) → List (Nat × List (List F))) (j : Doc F) : Option (Doc F) := do
  let w ← decW j
  let a ← NDArray.ofDense order w
  some (encND fin a)

/-- The replacement in `rewrite_json_ndarray_to_sparse` (`workspace.rs:79-80`). -/
def tableToSparse (fin : F → Bool) (j : Doc F) : Option (Doc F) := do
  let a ← decND j
  let w ← a.toDense
  some (encW fin w)

/-- `rewrite_json_sparse_to_ndarray` (`workspace.rs:96-122`). -/
def rewriteToND (fin : F → Bool) (order : List (Nat × List (List F)) → List (Nat × List (List F))) : Doc F → Option (Doc F) :=
  rewrite (tableToND fin order)

/-- `rewrite_json_ndarray_to_sparse` (`workspace.rs:69-94`). -/
def rewriteToSparse (fin : F → Bool) : Doc F → Option (Doc F) := rewrite (tableToSparse fin)

/-! ### The other structs -/

/-- Derived for `Namespace` (`sparse_namespaced_features.rs:173-178`). -/
def encNs : Namespace → Doc F
  | .named h => .obj [("Named".toList, encN h.toNat)]
  | .rawHash h => .obj [("RawHash".toList, encN h.toNat)]
  | .default => .str "Default".toList
/-- Derived for `Namespace` (`sparse_namespaced_features.rs:173-178`). -/
def decNs : Doc F → Option Namespace
  | .str s => if s = "Default".toList then some .default else none
  | .obj [(k, v)] => do
    let h ← decN v
    if k = "Named".toList then some (.named (BitVec.ofNat 32 h))
    else if k = "RawHash".toList then some (.rawHash (BitVec.ofNat 32 h)) else none
  | _ => none

/-- Derived for `(Namespace, Namespace)` (`coin.rs:103`). -/
def encNs2 (p : Namespace × Namespace) : Doc F := .arr [encNs p.1, encNs p.2]
/-- Derived for `(Namespace, Namespace)` (`coin.rs:103`). -/
def decNs2 : Doc F → Option (Namespace × Namespace)
  | .arr [a, b] => do
    let x ← decNs a
    let y ← decNs b
    some (x, y)
  | _ => none
/-- Derived for `(Namespace, Namespace, Namespace)` (`coin.rs:104`). -/
def encNs3 (p : Namespace × Namespace × Namespace) : Doc F := .arr [encNs p.1, encNs p.2.1, encNs p.2.2]
/-- Derived for `(Namespace, Namespace, Namespace)` (`coin.rs:104`). -/
def decNs3 : Doc F → Option (Namespace × Namespace × Namespace)
  | .arr [a, b, c] => do
    let x ← decNs a
    let y ← decNs b
    let z ← decNs c
    some (x, y, z)
  | _ => none

/-- Derived for `NamespaceDef` (`interactions.rs:6-10`). -/
def encNsDef : NamespaceDef → Doc F
  | .name s => .obj [("Name".toList, .str s)]
  | .default => .str "Default".toList
/-- Derived for `NamespaceDef` (`interactions.rs:6-10`). -/
def decNsDef : Doc F → Option NamespaceDef
  | .str s => if s = "Default".toList then some .default else none
  | .obj [(k, v)] => do
    let s ← decS v
    if k = "Name".toList then some (.name s) else none
  | _ => none

/-- Derived for `GlobalConfig` (`global_config.rs:8-23`). -/
def encGlobal (g : GlobalConfig) : Doc F :=
  .obj [("constantFeatureEnabled".toList, .bool g.constantFeatureEnabled), ("hashSeed".toList, encN g.hashSeed.toNat),
    ("interactions".toList, encL (encL encNsDef) g.interactions), ("numBits".toList, encN g.numBits)]
/-- Derived for `GlobalConfig` (`global_config.rs:8-31`): every field has a default, unknown fields are rejected. -/
def decGlobal (j : Doc F) : Option GlobalConfig := do
  denyUnknown j ["numBits", "hashSeed", "constantFeatureEnabled", "interactions"]
  let nb ← fieldOr j "numBits" 18 decN
  let seed ← fieldOr j "hashSeed" 0 decN
  let c ← fieldOr j "constantFeatureEnabled" true decB
  let is ← fieldOr j "interactions" [] (decL (decL decNsDef))
  some ⟨nb, BitVec.ofNat 32 seed, c, is⟩

/-- Derived for `LossFunction`, `SquaredLoss`, `LogisticLoss` (`loss_function.rs:26-30`, `squared_loss.rs:6-7`,
`logistic_loss.rs:7-21`). -/
def encLoss (fin : F → Bool) : LossFunction F → Doc F
  | .squared => .obj [("Squared".toList, .obj [])]
  | .logistic lo hi => .obj [("Logistic".toList, .obj [("max_label".toList, encF fin hi), ("min_label".toList, encF fin lo)])]
/-- Derived for `LossFunction`, `SquaredLoss`, `LogisticLoss` (`loss_function.rs:26-30`, `squared_loss.rs:6-7`,
`logistic_loss.rs:7-21`). -/
def decLoss : Doc F → Option (LossFunction F)
  | .obj [(k, v)] =>
    if k = "Squared".toList then
      match v with
      | .obj _ => some .squared
      | _ => none
    else if k = "Logistic".toList then
      match v with
      | .obj _ => do
        let lo ← fieldOr v "min_label" (fl (-1)) decF
        let hi ← fieldOr v "max_label" (fl 1) decF
        some (.logistic lo hi)
      | _ => none
    else none
  | _ => none

/-- Derived for `LinkFunction` (`coin.rs:23-27`). -/
def encLink : LinkFunction → Doc F
  | .identity => .str "Identity".toList
  | .logistic => .str "Logistic".toList
/-- Derived for `LinkFunction` (`coin.rs:23-27`). -/
def decLink : Doc F → Option LinkFunction
  | .str s => if s = "Identity".toList then some .identity else if s = "Logistic".toList then some .logistic else none
  | _ => none

/-- Derived for `CoinRegressorConfig` (`coin.rs:38-59`). -/
def encCoinConfig (fin : F → Bool) (c : CoinConfig F) : Doc F :=
  .obj [("alpha".toList, encF fin c.alpha), ("beta".toList, encF fin c.beta), ("l1Lambda".toList, encF fin c.l1Lambda),
    ("l2Lambda".toList, encF fin c.l2Lambda), ("linkFunction".toList, encLink c.linkFunction),
    ("lossFunction".toList, encLoss fin c.lossFunction)]
/-- Derived for `CoinRegressorConfig` (`coin.rs:38-75`): defaults, unknown fields rejected. -/
def decCoinConfig (j : Doc F) : Option (CoinConfig F) := do
  denyUnknown j ["alpha", "beta", "l1Lambda", "l2Lambda", "lossFunction", "linkFunction"]
  let a ← fieldOr j "alpha" (fl 4) decF
  let b ← fieldOr j "beta" (fl 1) decF
  let l1 ← fieldOr j "l1Lambda" Flt.zero decF
  let l2 ← fieldOr j "l2Lambda" Flt.zero decF
  let lo ← fieldOr j "lossFunction" .squared decLoss
  let li ← fieldOr j "linkFunction" .identity decLink
  some ⟨a, b, l1, l2, lo, li⟩

/-- Derived for `CoinRegressorModelState` (`coin.rs:87-91`). -/
def encMState (fin : F → Bool) (s : CoinModelState F) : Doc F :=
  .obj [("normalized_sum_norm_x".toList, encF fin s.normalizedSumNormX), ("total_weight".toList, encF fin s.totalWeight)]
/-- Derived for `CoinRegressorModelState` (`coin.rs:87-91`). -/
def decMState (j : Doc F) : Option (CoinModelState F) := do
  let a ← field j "normalized_sum_norm_x" decF
  let b ← field j "total_weight" decF
  some ⟨a, b⟩

/-- Derived for `CoinRegressor` (`coin.rs:93-107`), with the tag of `typetag` (`coin.rs:185`). -/
def encCoin (fin : F → Bool) (c : Coin F) : Doc F :=
  .obj [("average_squared_norm_x".toList, encF fin c.averageSquaredNormX), ("config".toList, encCoinConfig fin c.config),
    ("constant_feature_enabled".toList, .bool c.pass.addConstant), ("loss_function".toList, encLoss fin c.lossFunction),
    ("max_label".toList, encF fin c.maxLabel), ("min_label".toList, encF fin c.minLabel),
    ("model_states".toList, encL (encMState fin) c.modelStates), ("num_bits".toList, encN c.pass.numBits),
    ("pairs".toList, encL encNs2 c.pass.pairs), ("triples".toList, encL encNs3 c.pass.triples),
    ("type".toList, .str "CoinRegressor".toList), ("weights".toList, encW fin c.weights)]
/-- Derived for `CoinRegressor` (`coin.rs:93-107`). -/
def decCoin (j : Doc F) : Option (Coin F) := do
  let w ← field j "weights" decW
  let cfg ← field j "config" decCoinConfig
  let ms ← field j "model_states" (decL decMState)
  let avg ← field j "average_squared_norm_x" decF
  let mn ← field j "min_label" decF
  let mx ← field j "max_label" decF
  let lo ← field j "loss_function" decLoss
  let ps ← field j "pairs" (decL decNs2)
  let ts ← field j "triples" (decL decNs3)
  let nb ← field j "num_bits" decN
  let c ← field j "constant_feature_enabled" decB
  some ⟨w, cfg, ms, avg, mn, mx, lo, ⟨ps, ts, nb, c⟩⟩

/-- Derived for `LabelType` (`types.rs:159-164`). -/
def encLabelType : LabelType → Doc F
  | .simple => .str "Simple".toList
  | .binary => .str "Binary".toList
  | .cb => .str "CB".toList
/-- Derived for `LabelType` (`types.rs:159-164`). -/
def decLabelType : Doc F → Option LabelType
  | .str s => if s = "Simple".toList then some .simple else if s = "Binary".toList then some .binary
      else if s = "CB".toList then some .cb else none
  | _ => none
/-- Derived for `FeaturesType` (`types.rs:353-357`). -/
def encFeaturesType : FeaturesType → Doc F
  | .sparseSimple => .str "SparseSimple".toList
  | .sparseCBAdf => .str "SparseCBAdf".toList
/-- Derived for `FeaturesType` (`types.rs:353-357`). -/
def decFeaturesType : Doc F → Option FeaturesType
  | .str s => if s = "SparseSimple".toList then some .sparseSimple else if s = "SparseCBAdf".toList then some .sparseCBAdf else none
  | _ => none
/-- Derived for `PredictionType` (`types.rs:69-75`). -/
def encPredictionType : PredictionType → Doc F
  | .scalar => .str "Scalar".toList
  | .binary => .str "Binary".toList
  | .actionScores => .str "ActionScores".toList
  | .actionProbs => .str "ActionProbs".toList
/-- Derived for `PredictionType` (`types.rs:69-75`). -/
def decPredictionType : Doc F → Option PredictionType
  | .str s => if s = "Scalar".toList then some .scalar else if s = "Binary".toList then some .binary
      else if s = "ActionScores".toList then some .actionScores else if s = "ActionProbs".toList then some .actionProbs else none
  | _ => none
/-- `Option<T>` (serde). -/
def encO {α : Type} (e : α → Doc F) : Option α → Doc F
  | some a => e a
  | none => .null
/-- `Option<T>` (serde). -/
def decO {α : Type} (d : Doc F → Option α) : Doc F → Option (Option α)
  | .null => some none
  | j => (d j).map some

/-- Derived for `ReductionTypeDescription` (`reduction.rs:131-139`). -/
def encTypes (t : TypeDesc) : Doc F :=
  .obj [("input_features_type".toList, encFeaturesType t.inFeatures), ("input_label_type".toList, encLabelType t.inLabel),
    ("input_prediction_type".toList, encO encPredictionType t.inPrediction),
    ("output_features_type".toList, encO encFeaturesType t.outFeatures),
    ("output_label_type".toList, encO encLabelType t.outLabel),
    ("output_prediction_type".toList, encPredictionType t.outPrediction)]
/-- Derived for `ReductionTypeDescription` (`reduction.rs:131-139`); an absent optional field is `None`. -/
def decTypes (j : Doc F) : Option TypeDesc := do
  let il ← field j "input_label_type" decLabelType
  let ol ← fieldOr j "output_label_type" none (decO decLabelType)
  let ift ← field j "input_features_type" decFeaturesType
  let oft ← fieldOr j "output_features_type" none (decO decFeaturesType)
  let ip ← fieldOr j "input_prediction_type" none (decO decPredictionType)
  let op ← field j "output_prediction_type" decPredictionType
  some ⟨il, ol, ift, oft, ip, op⟩

/-- Derived for `CBType` (`cb_adf.rs:19-25`). -/
def encCBType : CBType → Doc F
  | .ips => .str "ips".toList
  | .mtr => .str "mtr".toList
/-- Derived for `CBType` (`cb_adf.rs:19-25`). -/
def decCBType : Doc F → Option CBType
  | .str s => if s = "ips".toList then some .ips else if s = "mtr".toList then some .mtr else none
  | _ => none
/-- Derived for `MtrState` (`cb_adf.rs:65-69`). -/
def encMtr (s : MtrState) : Doc F := .obj [("action_sum".toList, encN s.actionSum), ("event_sum".toList, encN s.eventSum)]
/-- Derived for `MtrState` (`cb_adf.rs:65-69`). -/
def decMtr (j : Doc F) : Option MtrState := do
  let a ← field j "action_sum" decN
  let e ← field j "event_sum" decN
  some ⟨a, e⟩

/-- Derived for `ReductionWrapper` (`reduction.rs:257-263`) around a reduction. -/
def encWrap (m : Meta) (reduction : Doc F) : Doc F :=
  .obj [("num_models_below".toList, encN m.numModelsBelow), ("reduction".toList, reduction),
    ("type_description".toList, encTypes m.types), ("typename".toList, .str m.typename.toList)]
/-- Derived for `ReductionWrapper` (`reduction.rs:257-263`), without the reduction. -/
def decMeta (j : Doc F) : Option Meta := do
  let t ← field j "typename" decS
  let ty ← field j "type_description" decTypes
  let n ← field j "num_models_below" decN
  some ⟨String.ofList t, ty, n⟩

/-- Derived for a whole stack: `reduction.rs:257-263`, `coin.rs:93-107`, `binary.rs:36-39`, `cb_adf.rs:71-77`,
`cb_explore_adf_greedy.rs:50-54`, `cb_explore_adf_softmax.rs:21-34, 58-63`, `cb_explore_adf_squarecb.rs:23-38, 67-72`, `debug.rs:63-71`,
`elementwise_interaction.rs:53-59`, each with the tag of `typetag` (`reduction.rs:289`). Left out: the printing options of Debug and the
child's configuration kept inside the configuration of softmax and SquareCB, neither of which the model has. -/
def encRed (fin : F → Bool) : (r : Red F) → r.State → Doc F
  | .coin m, c => encWrap m (encCoin fin c)
  | .binary m r, s => encWrap m (.obj [("regressor".toList, encRed fin r s), ("type".toList, .str "BinaryReduction".toList)])
  | .cbAdf m ty r, s => encWrap m (.obj [("cb_type".toList, encCBType ty), ("mtr_state".toList, encMtr s.1),
      ("regressor".toList, encRed fin r s.2), ("type".toList, .str "CBAdfReduction".toList)])
  | .greedy m e r, s => encWrap m (.obj [("cb_adf".toList, encRed fin r s), ("epsilon".toList, encF fin e),
      ("type".toList, .str "CBExploreAdfGreedyReduction".toList)])
  | .softmax m e la r, s => encWrap m (.obj [("cb_adf".toList, encRed fin r s.2),
      ("config".toList, .obj [("lambda".toList, encF fin la), ("uniformEpsilon".toList, encF fin e)]),
      ("counter".toList, encN s.1), ("type".toList, .str "CBExploreAdfSoftmaxReduction".toList)])
  | .squareCb m e gs ge r, s => encWrap m (.obj [("cb_adf".toList, encRed fin r s.2),
      ("config".toList, .obj [("gammaExponent".toList, encF fin ge), ("gammaScale".toList, encF fin gs),
        ("uniformEpsilon".toList, encF fin e)]),
      ("counter".toList, encN s.1), ("type".toList, .str "CBExploreAdfSquareCBReduction".toList)])
  | .debug m r, s => encWrap m (.obj [("next".toList, encRed fin r s), ("type".toList, .str "DebugReduction".toList)])
  | .elementwise m p keep nb r, s => encWrap m (.obj [("keep_original_features".toList, .bool keep), ("num_bits".toList, encN nb),
      ("pair".toList, encNs2 p), ("regressor".toList, encRed fin r s), ("type".toList, .str "ElementwiseInteraction".toList)])

/-- Derived for a whole stack (see `encRed`): the tag selects the reduction. `fuel` bounds the nesting; more than the nesting of the
document is enough. -/
def decRed : Nat → Doc F → Option ((r : Red F) × r.State)
  | 0, _ => none
  | fuel + 1, j => do
    let m ← decMeta j
    let b ← j.get? "reduction"
    let t ← field b "type" decS
    if t = "CoinRegressor".toList then do
      let c ← decCoin b
      some ⟨.coin m, c⟩
    else if t = "BinaryReduction".toList then do
      let ⟨r, s⟩ ← field b "regressor" (decRed fuel)
      some ⟨.binary m r, s⟩
    else if t = "CBAdfReduction".toList then do
      let ty ← field b "cb_type" decCBType
      let ⟨r, s⟩ ← field b "regressor" (decRed fuel)
      let ms ← field b "mtr_state" decMtr
      some ⟨.cbAdf m ty r, (ms, s)⟩
    else if t = "CBExploreAdfGreedyReduction".toList then do
      let e ← field b "epsilon" decF
      let ⟨r, s⟩ ← field b "cb_adf" (decRed fuel)
      some ⟨.greedy m e r, s⟩
    else if t = "CBExploreAdfSoftmaxReduction".toList then do
      let cfg ← b.get? "config"
      let e ← field cfg "uniformEpsilon" decF
      let la ← field cfg "lambda" decF
      let n ← field b "counter" decN
      let ⟨r, s⟩ ← field b "cb_adf" (decRed fuel)
      some ⟨.softmax m e la r, (n, s)⟩
    else if t = "CBExploreAdfSquareCBReduction".toList then do
      let cfg ← b.get? "config"
      let e ← field cfg "uniformEpsilon" decF
      let gs ← field cfg "gammaScale" decF
      let ge ← field cfg "gammaExponent" decF
      let n ← field b "counter" decN
      let ⟨r, s⟩ ← field b "cb_adf" (decRed fuel)
      some ⟨.squareCb m e gs ge r, (n, s)⟩
    else if t = "DebugReduction".toList then do
      let ⟨r, s⟩ ← field b "next" (decRed fuel)
      some ⟨.debug m r, s⟩
    else if t = "ElementwiseInteraction".toList then do
      let ⟨r, s⟩ ← field b "regressor" (decRed fuel)
      let p ← field b "pair" decNs2
      let keep ← field b "keep_original_features" decB
      let nb ← field b "num_bits" decN
      some ⟨.elementwise m p keep nb r, s⟩
    else none

mutual
/-- Nesting of a document. -/
def depth : Doc F → Nat
  | .arr l => depthList l + 1
  | .obj l => depthEntries l + 1
  | _ => 1
/-- Nesting of the elements of an array. -/
def depthList : List (Doc F) → Nat
  | [] => 0
  | v :: l => max (depth v) (depthList l)
/-- Nesting of the values of an object. -/
def depthEntries : List (List Char × Doc F) → Nat
  | [] => 0
  | (_, v) :: l => max (depth v) (depthEntries l)
end

/-- A workspace with its global configuration (`workspace.rs:18-25`); the pool is skipped. -/
structure Model (F : Type) where
  global : GlobalConfig
  ws : Workspace F

/-- Derived for `Workspace` (`workspace.rs:18-25`). -/
def encModel (fin : F → Bool) (m : Model F) : Doc F :=
  .obj [("entry_reduction".toList, encRed fin m.ws.red m.ws.st), ("global_config".toList, encGlobal m.global)]
/-- Derived for `Workspace` (`workspace.rs:18-25`). -/
def decModel (j : Doc F) : Option (Model F) := do
  let g ← field j "global_config" decGlobal
  let ⟨r, s⟩ ← field j "entry_reduction" (decRed (depth j))
  some ⟨g, r, s⟩

/-- `serialize_model` (`workspace.rs:147-151`). The bytes are left out: flexbuffers stores and restores every document. -/
def serializeModel (m : Model F) : Doc F := encModel (fun _ => true) m
/-- `create_from_model` (`workspace.rs:141-144`). -/
def createFromModel (j : Doc F) : M (Model F) := unwrapOpt (decModel j)

/-- `serialize_to_json` (`workspace.rs:154-158`). -/
def serializeToJson (fin : F → Bool) (order : List (Nat × List (List F)) → List (Nat × List (List F))) (m : Model F) : M (Doc F) :=
  unwrapOpt (rewriteToND fin order (encModel fin m))
/-- `deserialize_from_json` (`workspace.rs:161-168`). -/
def deserializeFromJson (fin : F → Bool) (j : Doc F) : Except CreateError (Model F) := do
  let v ← liftPanic (unwrapOpt (rewriteToSparse fin j))
  match decModel v with
  | some m => .ok m
  | none => .error .invalid

end Serde
end Rml
