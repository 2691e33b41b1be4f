import Verif.Model.Serde

/-
Reading of configurations: `workspace.rs:27-66, 125-138`, `reduction_factory.rs:16-67, 156-190`, the configuration structs of the
reductions and `global_config.rs`, and the commands `config check` and `config new` (`config.rs:44-109`).

As in `Serde`, derived instances are modelled by their documented effect on objects. Left out: `serde_json` also accepts an array of the
field values in place of an object, and an object `{"Variant": null}` in place of the string for a unit variant; YAML.
-/

namespace Rml
namespace Cfg
open Serde
variable {F : Type} [Flt F]

/-- An unsigned integer of the given number of bits (serde): larger numbers are rejected. -/
def decU (bits : Nat) (j : Doc F) : Option Nat := do
  let n ← decN j
  if n < 2 ^ bits then some n else none

/-- Derived for `GlobalConfig` (`global_config.rs:8-31`), with range checks: `num_bits` is a `u8`, `hash_seed` a `u32`. -/
def readGlobal (j : Doc F) : Option GlobalConfig := do
  denyUnknown j ["numBits", "hashSeed", "constantFeatureEnabled", "interactions"]
  let nb ← fieldOr j "numBits" 18 (decU 8)
  let seed ← fieldOr j "hashSeed" 0 (decU 32)
  let c ← fieldOr j "constantFeatureEnabled" true decB
  let is ← fieldOr j "interactions" [] (decL (decL decNsDef))
  some ⟨nb, BitVec.ofNat 32 seed, c, is⟩

/-- `GlobalConfig::default()` (`global_config.rs:8-31`). -/
def dfltGlobal : GlobalConfig := ⟨18, 0, true, []⟩

/-- `JsonReductionConfig` (`reduction_factory.rs:18-25`). -/
structure RedDoc (F : Type) where
  typename : List Char
  config : Option (Doc F)

/-- Derived for `Option<serde_json::Value>` (`reduction_factory.rs:24`): `null` is `None`. -/
def optDoc : Doc F → Option (Option (Doc F))
  | .null => some none
  | j => some (some j)

/-- Derived for `JsonReductionConfig` (`reduction_factory.rs:18-25`): unknown fields are ignored, an absent `config` is `None`. -/
def readRedDoc (j : Doc F) : Option (RedDoc F) := do
  let t ← field j "typename" decS
  let c ← fieldOr j "config" none optDoc
  some ⟨t, c⟩

/-- Derived for writing a `JsonReductionConfig` (`reduction_factory.rs:18-25`). -/
def redObj (typename : String) (config : Doc F) : Doc F :=
  .obj [("config".toList, config), ("typename".toList, .str typename.toList)]

/-- `json!(CoinRegressorConfig::default())` (`coin.rs:38-75`). -/
def dfltCoin : Doc F := encCoinConfig (fun _ => true) CoinConfig.dflt
/-- `json!(BinaryReductionConfig::default())` (`binary.rs:20-34`). -/
def dfltBinary : Doc F := .obj [("regressor".toList, redObj "Coin" dfltCoin)]
/-- `json!(CBAdfConfig::default())` (`cb_adf.rs:27-63`). -/
def dfltCbAdf : Doc F := .obj [("cbType".toList, encCBType .mtr), ("regressor".toList, redObj "Coin" dfltCoin)]
/-- `default_epsilon` (`cb_explore_adf_greedy.rs:32-34`). -/
def dfltEpsilon : F := Flt.lit 5 100
/-- `default_gamma_exponent` (`cb_explore_adf_squarecb.rs:49-51`). -/
def dfltGammaExponent : F := Flt.lit 1 2
/-- `json!(CBExploreAdfGreedyConfig::default())` (`cb_explore_adf_greedy.rs:20-38`). -/
def dfltGreedy : Doc F := .obj [("cbAdf".toList, redObj "CbAdf" dfltCbAdf), ("epsilon".toList, encF (fun _ => true) dfltEpsilon)]
/-- `json!(CBExploreAdfSoftmaxConfig::default())` (`cb_explore_adf_softmax.rs:21-46`). -/
def dfltSoftmax : Doc F := .obj [("cbAdf".toList, redObj "CbAdf" dfltCbAdf), ("lambda".toList, encF (fun _ => true) (fl 1)),
  ("uniformEpsilon".toList, encF (fun _ => true) Flt.zero)]
/-- `json!(CBExploreAdfSquareCBConfig::default())` (`cb_explore_adf_squarecb.rs:23-55`). -/
def dfltSquareCb : Doc F := .obj [("cbAdf".toList, redObj "CbAdf" dfltCbAdf), ("gammaExponent".toList, encF (fun _ => true) dfltGammaExponent),
  ("gammaScale".toList, encF (fun _ => true) (fl 10)), ("uniformEpsilon".toList, encF (fun _ => true) Flt.zero)]
/-- `json!(DebugConfig::default())` (`debug.rs:18-51`). -/
def dfltDebug : Doc F := .obj [("features".toList, .bool false), ("id".toList, .str []), ("indent".toList, encN 0), ("label".toList, .bool false),
  ("next".toList, redObj "Unknown" (.obj [])), ("prediction".toList, .bool false)]
/-- `json!(ElementwiseInteractionConfig::default())` (`elementwise_interaction.rs:22-51`). -/
def dfltElementwise : Doc F := .obj [("keepOriginalFeatures".toList, .bool false), ("one".toList, encNsDef .default),
  ("regressor".toList, redObj "Coin" dfltCoin), ("two".toList, encNsDef .default)]

/-- The registry of factories (`reduction_registry.rs:17-29`), by type name, with `get_config_default` (`reduction_factory.rs:173-175`). -/
def registry : List (String × Doc F) :=
  [("Coin", dfltCoin), ("Binary", dfltBinary), ("CbAdf", dfltCbAdf), ("CbExploreAdfGreedy", dfltGreedy), ("Debug", dfltDebug),
   ("CbExploreAdfSquareCb", dfltSquareCb), ("CbExploreAdfSoftmax", dfltSoftmax), ("ElementwiseInteraction", dfltElementwise)]

/-- An `Option` as a `Result`: what serde rejects is an error. -/
def orInvalid {α : Type} : Option α → Except CreateError α
  | some a => .ok a
  | none => .error .invalid

/-- `parse_config` (`reduction_factory.rs:179-190`) with the `parse_config` of every factory (`reduction_factory.rs:164-167`; structs
`coin.rs:38-75`, `binary.rs:20-34`, `cb_adf.rs:27-63`, `cb_explore_adf_greedy.rs:20-38`, `cb_explore_adf_softmax.rs:21-46`,
`cb_explore_adf_squarecb.rs:23-55`, `debug.rs:18-51`, `elementwise_interaction.rs:22-51`). In the code the configuration of the child is
parsed when the parent is created (e.g. `cb_adf.rs:92`); here the whole chain is parsed first, which can only change which of several
errors is reported. The printing options of Debug are checked and dropped. `fuel` bounds the nesting; more than the nesting of the
document plus the three layers of a default is enough. -/
def parseRed : Nat → RedDoc F → Except CreateError (RedConfig F)
  | 0, _ => .error .invalid
  | fuel + 1, r =>
    let child (j : Doc F) (k dflt : String) (dfltDoc : Doc F) : Except CreateError (RedConfig F) := do
      let d ← orInvalid (fieldOr j k ⟨dflt.toList, some dfltDoc⟩ readRedDoc)
      parseRed fuel d
    if r.typename = "Coin".toList then do
      let c ← orInvalid (decCoinConfig (r.config.getD dfltCoin))
      .ok (.coin c)
    else if r.typename = "Binary".toList then do
      let j := r.config.getD dfltBinary
      orInvalid (denyUnknown j ["regressor"])
      let c ← child j "regressor" "Coin" dfltCoin
      .ok (.binary c)
    else if r.typename = "CbAdf".toList then do
      let j := r.config.getD dfltCbAdf
      orInvalid (denyUnknown j ["cbType", "regressor"])
      let ty ← orInvalid (fieldOr j "cbType" .mtr decCBType)
      let c ← child j "regressor" "Coin" dfltCoin
      .ok (.cbAdf ty c)
    else if r.typename = "CbExploreAdfGreedy".toList then do
      let j := r.config.getD dfltGreedy
      orInvalid (denyUnknown j ["epsilon", "cbAdf"])
      let e ← orInvalid (fieldOr j "epsilon" dfltEpsilon decF)
      let c ← child j "cbAdf" "CbAdf" dfltCbAdf
      .ok (.greedy e c)
    else if r.typename = "CbExploreAdfSoftmax".toList then do
      let j := r.config.getD dfltSoftmax
      orInvalid (denyUnknown j ["uniformEpsilon", "lambda", "cbAdf"])
      let e ← orInvalid (fieldOr j "uniformEpsilon" Flt.zero decF)
      let la ← orInvalid (fieldOr j "lambda" (fl 1) decF)
      let c ← child j "cbAdf" "CbAdf" dfltCbAdf
      .ok (.softmax e la c)
    else if r.typename = "CbExploreAdfSquareCb".toList then do
      let j := r.config.getD dfltSquareCb
      orInvalid (denyUnknown j ["uniformEpsilon", "gammaScale", "gammaExponent", "cbAdf"])
      let e ← orInvalid (fieldOr j "uniformEpsilon" Flt.zero decF)
      let gs ← orInvalid (fieldOr j "gammaScale" (fl 10) decF)
      let ge ← orInvalid (fieldOr j "gammaExponent" dfltGammaExponent decF)
      let c ← child j "cbAdf" "CbAdf" dfltCbAdf
      .ok (.squareCb e gs ge c)
    else if r.typename = "Debug".toList then do
      let j := r.config.getD dfltDebug
      orInvalid (denyUnknown j ["id", "prediction", "label", "features", "indent", "next"])
      let _ ← orInvalid (fieldOr j "id" [] decS)
      let _ ← orInvalid (fieldOr j "prediction" false decB)
      let _ ← orInvalid (fieldOr j "label" false decB)
      let _ ← orInvalid (fieldOr j "features" false decB)
      let _ ← orInvalid (fieldOr j "indent" 0 (decU 64))
      let c ← child j "next" "Unknown" (.obj [])
      .ok (.debug c)
    else if r.typename = "ElementwiseInteraction".toList then do
      let j := r.config.getD dfltElementwise
      orInvalid (denyUnknown j ["regressor", "one", "two", "keepOriginalFeatures"])
      let one ← orInvalid (fieldOr j "one" .default decNsDef)
      let two ← orInvalid (fieldOr j "two" .default decNsDef)
      let keep ← orInvalid (fieldOr j "keepOriginalFeatures" false decB)
      let c ← child j "regressor" "Coin" dfltCoin
      .ok (.elementwise one two keep c)
    else .error .unknownType

/-- `Configuration` (`workspace.rs:27-38`). -/
structure Configuration (F : Type) where
  global : GlobalConfig
  entry : RedDoc F

/-- Derived for `Option<String>` (`workspace.rs:33`). -/
def decSchema : Doc F → Option Unit
  | .null => some ()
  | .str _ => some ()
  | _ => none

/-- Derived for `Configuration` (`workspace.rs:27-38`) and the conversion from a JSON value (`workspace.rs:50-57`). -/
def readConfiguration (j : Doc F) : Except CreateError (Configuration F) := do
  orInvalid (denyUnknown j ["$schema", "globalConfig", "entryReduction"])
  orInvalid (fieldOr j "$schema" () decSchema)
  let g ← orInvalid (field j "globalConfig" readGlobal)
  let e ← orInvalid (field j "entryReduction" readRedDoc)
  .ok ⟨g, e⟩

/-- The configuration of the stack behind an entry reduction; see `parseRed` for the fuel. -/
def readEntry (e : RedDoc F) : Except CreateError (RedConfig F) :=
  parseRed ((e.config.map depth).getD 0 + 4) e

/-- `Workspace::new(Configuration::from_json_str(..)?)` on a JSON value (`workspace.rs:40-43, 125-138`): what `config check`
(`config.rs:48-60`) and every command that starts from a configuration runs. -/
def newWorkspace (hash : HashFn) (j : Doc F) : Except CreateError (Serde.Model F) := do
  let cfg ← readConfiguration j
  let c ← readEntry cfg.entry
  let w ← Workspace.new hash cfg.global c
  .ok ⟨cfg.global, w⟩

/-- `config new` (`config.rs:61-109`): the emitted document, `none` when the reduction does not exist. `schema` is the address that is
printed, which depends on the version. -/
def configNew (schema : List Char) (typename : String) : Option (Doc F) := do
  let d ← registry.lookup typename
  some (.obj [("$schema".toList, .str schema),
    ("entryReduction".toList, .obj [("config".toList, d), ("typename".toList, .str typename.toList)]),
    ("globalConfig".toList, encGlobal dfltGlobal)])

end Cfg
end Rml
