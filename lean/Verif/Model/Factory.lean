import Verif.Model.Reductions

/-
Creation of reduction stacks: the `create` functions of the factories, `reduction_factory.rs`, `workspace.rs:125-138`.
-/

namespace Rml
variable {F : Type} [Flt F]

/-- A parsed reduction configuration: one constructor per configuration struct (`coin.rs:38-59`, `binary.rs:20-27`,
`cb_adf.rs:30-36`, `cb_explore_adf_greedy.rs:23-30`, `cb_explore_adf_softmax.rs:24-34`,
`cb_explore_adf_squarecb.rs:26-39`, `debug.rs:21-35`, `elementwise_interaction.rs:25-40`), and a typename that is not
registered (`reduction_factory.rs:185-188`). The derived serde parsing of the structs is in `Model/Config.lean`. -/
inductive RedConfig (F : Type) where
  | coin (c : CoinConfig F)
  | binary (regressor : RedConfig F)
  | cbAdf (ty : CBType) (regressor : RedConfig F)
  | greedy (epsilon : F) (child : RedConfig F)
  | softmax (uniformEpsilon lambda : F) (child : RedConfig F)
  | squareCb (uniformEpsilon gammaScale gammaExponent : F) (child : RedConfig F)
  | debug (next : RedConfig F)
  | elementwise (one two : NamespaceDef) (keep : Bool) (regressor : RedConfig F)
  | unknown (typename : String)

/-- Outcome of a failed creation: an `Err(InvalidArgument)` for an unknown type or an invalid combination, or a panic. -/
inductive CreateError where
  | unknownType
  | invalid
  | panic (p : Panic)
  deriving DecidableEq, Repr

/-- A panicking computation inside a function returning `Result`. -/
def liftPanic {α : Type} : M α → Except CreateError α
  | .ok a => .ok a
  | .error p => .error (.panic p)

/-- `types.check_and_get_reason(child.types())` turned into an error (e.g. `cb_adf.rs:106-111`). -/
def checkTypes (types base : TypeDesc) : Except CreateError Unit :=
  if types.checkOk base then .ok () else .error .invalid

/-- Types of Coin (`coin.rs:174-179`). -/
def coinTypes : TypeDesc := ⟨.simple, none, .sparseSimple, none, none, .scalar⟩

/-- Types of Binary over a regressor (`binary.rs:70-78`). -/
def binaryTypes (base : TypeDesc) : TypeDesc :=
  ⟨.binary, some .simple, base.inFeatures, some base.inFeatures, some .scalar, .binary⟩

/-- Types of CbAdf (`cb_adf.rs:96-104`). -/
def cbAdfTypes : TypeDesc := ⟨.cb, some .simple, .sparseCBAdf, some .sparseSimple, some .scalar, .actionScores⟩

/-- Types of the exploration reductions (`cb_explore_adf_greedy.rs:76-84`, `cb_explore_adf_softmax.rs:85-93`,
`cb_explore_adf_squarecb.rs:104-112`). -/
def exploreTypes : TypeDesc := ⟨.cb, some .cb, .sparseCBAdf, some .sparseCBAdf, some .actionScores, .actionProbs⟩

/-- Types of Debug (`debug.rs:90-99`). -/
def debugTypes (base : TypeDesc) : TypeDesc :=
  ⟨base.inLabel, some base.inLabel, base.inFeatures, some base.inFeatures, some base.outPrediction, base.outPrediction⟩

/-- Types of ElementwiseInteraction (`elementwise_interaction.rs:90-98`). -/
def elementwiseTypes (base : TypeDesc) : TypeDesc :=
  ⟨base.inLabel, some base.inLabel, .sparseSimple, some .sparseSimple, some base.outPrediction, base.outPrediction⟩

/-- The check of SquareCB that a direct CbAdf child uses mtr (`cb_explore_adf_squarecb.rs:91-99`). -/
def squareCbConfigOk : RedConfig F → Bool
  | .cbAdf ty _ => decide (ty = .mtr)
  | _ => true

/-- `create_reduction` (`reduction_factory.rs:192-204`) with the `create` of every factory: `coin.rs:156-182`,
`binary.rs:56-93`, `cb_adf.rs:85-123`, `cb_explore_adf_greedy.rs:62-102`, `cb_explore_adf_softmax.rs:71-112`,
`cb_explore_adf_squarecb.rs:80-131`, `debug.rs:79-121`, `elementwise_interaction.rs:76-123`. An unknown typename fails in
`parse_config` (`reduction_factory.rs:179-190`). -/
def create (hash : HashFn) (g : GlobalConfig) (nma : Nat) : RedConfig F → Except CreateError ((r : Red F) × r.State)
  | .coin c => do
    let coin ← liftPanic (Coin.new hash c g nma)
    .ok ⟨.coin ⟨"Coin", coinTypes, nma⟩, coin⟩
  | .binary rc => do
    let ⟨r, s⟩ ← create hash g nma rc
    checkTypes (binaryTypes r.meta.types) r.meta.types
    .ok ⟨.binary ⟨"Binary", binaryTypes r.meta.types, nma⟩ r, s⟩
  | .cbAdf ty rc => do
    let ⟨r, s⟩ ← create hash g nma rc
    checkTypes cbAdfTypes r.meta.types
    .ok ⟨.cbAdf ⟨"CbAdf", cbAdfTypes, nma⟩ ty r, (⟨0, 0⟩, s)⟩
  | .greedy eps rc => do
    let ⟨r, s⟩ ← create hash g nma rc
    checkTypes exploreTypes r.meta.types
    .ok ⟨.greedy ⟨"CbExploreAdfGreedy", exploreTypes, nma⟩ eps r, s⟩
  | .softmax eps lambda rc => do
    let ⟨r, s⟩ ← create hash g nma rc
    checkTypes exploreTypes r.meta.types
    .ok ⟨.softmax ⟨"CbExploreAdfSoftmax", exploreTypes, nma⟩ eps lambda r, (0, s)⟩
  | .squareCb eps gs ge rc => do
    if squareCbConfigOk rc then
      let ⟨r, s⟩ ← create hash g nma rc
      checkTypes exploreTypes r.meta.types
      .ok ⟨.squareCb ⟨"CbExploreAdfSquareCb", exploreTypes, nma⟩ eps gs ge r, (0, s)⟩
    else .error .invalid
  | .debug rc => do
    let ⟨r, s⟩ ← create hash g nma rc
    checkTypes (debugTypes r.meta.types) r.meta.types
    .ok ⟨.debug ⟨"Debug", debugTypes r.meta.types, nma⟩ r, s⟩
  | .elementwise one two keep rc => do
    let ⟨r, s⟩ ← create hash g nma rc
    checkTypes (elementwiseTypes r.meta.types) r.meta.types
    .ok ⟨.elementwise ⟨"ElementwiseInteraction", elementwiseTypes r.meta.types, nma⟩
      (one.toNamespace hash g.hashSeed, two.toNamespace hash g.hashSeed) keep g.numBits r, s⟩
  | .unknown _ => .error .unknownType

/-- `Workspace::new` (`workspace.rs:125-138`): one model above. -/
def Workspace.new (hash : HashFn) (g : GlobalConfig) (c : RedConfig F) : Except CreateError (Workspace F) := do
  let ⟨r, s⟩ ← create hash g 1 c
  .ok ⟨r, s⟩

end Rml
