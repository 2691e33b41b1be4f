import Verif.Model.Config

/-
The JSON schema for configurations: its construction by `gen-schema` (`config_schema.rs`, `gen_schema.rs:14-20`) and the published file
`schemas/config/latest/schema.json`. Keywords that do not restrict documents are left out: `$schema`, `title`, `description`, `default` and `format`
(an annotation in draft 07). The schemas that `schemars` derives from the configuration structs are written out; `Verif/Props/Schema.lean` shows that
what `gen-schema` builds from them is the published file.
-/

namespace Rml
namespace JsonSchema

/-- The names for types in JSON schemas. -/
inductive JType where
  | null | boolean | object | array | number | integer | string
  deriving DecidableEq, Repr

/-- A JSON schema (`schemars::schema::SchemaObject`, used in `config_schema.rs`), with the keywords that occur. `[]` and `none` stand for an absent keyword. -/
structure Schema where
  type : List JType := []
  enum : Option (List String) := none
  const : Option String := none
  pattern : Option String := none
  minimum : Option Nat := none
  required : List String := []
  properties : List (String × Schema) := []
  /-- `additionalProperties`; absent means `true`. -/
  additional : Bool := true
  items : Option Schema := none
  allOf : List Schema := []
  oneOf : Option (List Schema) := none
  /-- `$ref`, without `#/definitions/`. -/
  ref : Option String := none

/-- `schemars::schema::RootSchema`: a schema with definitions. -/
structure Root where
  schema : Schema
  defs : List (String × Schema)

/-- The order of strings in a `BTreeMap`. -/
def before : List Char → List Char → Bool
  | [], [] => false
  | [], _ => true
  | _, [] => false
  | a :: l, b :: m => a.toNat < b.toNat || (a == b && before l m)

/-- `BTreeMap::insert` on the sorted list of entries (`config_schema.rs:29, 39, 54, 61, 70`). -/
def insert {α : Type} (k : String) (v : α) : List (String × α) → List (String × α)
  | [] => [(k, v)]
  | e :: l => if e.1 = k then (k, v) :: l else if before k.toList e.1.toList then (k, v) :: e :: l else e :: insert k v l

/-- `ConfigSchema::new` (`config_schema.rs:20-42`), on what `schemars` derives for `Configuration` (`workspace.rs:27-38`) and `GlobalConfig`
(`global_config.rs:8-23`) and `NamespaceDef` (`interactions.rs:6-10`). -/
def new : Root :=
  let derived : Root := {
    schema := { type := [.object], required := ["entryReduction", "globalConfig"], properties := [
      ("$schema", { type := [.string, .null] }),
      ("entryReduction", { ref := some "any_reduction_config" }),
      ("globalConfig", { ref := some "GlobalConfig" })], additional := false }
    defs := [
      ("GlobalConfig", { type := [.object], properties := [
        ("constantFeatureEnabled", { type := [.boolean] }),
        ("hashSeed", { type := [.integer], minimum := some 0 }),
        ("interactions", { type := [.array], items := some { type := [.array], items := some { ref := some "NamespaceDef" } } }),
        ("numBits", { type := [.integer], minimum := some 0 })], additional := false }),
      ("NamespaceDef", namespaceDef)] }
  { schema := { derived.schema with properties := insert "$schema" { pattern := some ".*" } derived.schema.properties }
    defs := insert "any_reduction_config" { oneOf := some [] } derived.defs }
where
  /-- Derived for `NamespaceDef` (`interactions.rs:6-10`). -/
  namespaceDef : Schema := { oneOf := some [{ type := [.string], enum := some ["Default"] },
    { type := [.object], required := ["Name"], properties := [("Name", { type := [.string] })], additional := false }] }

/-- `ConfigSchema::add_reduction` (`config_schema.rs:48-102`). -/
def addReduction (s : Root) (typename : String) (inner : Root) : Root :=
  let reduction : Schema := { properties := insert "config" inner.schema (insert "typename" { const := some typename } []), additional := false }
  let defs := insert typename reduction s.defs
  let any := (defs.lookup "any_reduction_config").getD {}
  let defs := insert "any_reduction_config" { any with oneOf := some (any.oneOf.getD [] ++ [{ ref := some typename }]) } defs
  { s with defs := inner.defs.foldl (fun l e => insert e.1 e.2 l) defs }

/-- `gen_json_reduction_config_schema` (`config_schema.rs:104-110`) for a field with a default. -/
def child : Schema := { allOf := [{ ref := some "any_reduction_config" }] }
/-- `schemars` for `f32`. -/
def float : Schema := { type := [.number] }
/-- `schemars` for `u8`, `u32` and `usize`. -/
def uint : Schema := { type := [.integer], minimum := some 0 }
/-- `schemars` for `bool`. -/
def boolean : Schema := { type := [.boolean] }
/-- `schemars` for `String`. -/
def string : Schema := { type := [.string] }
/-- `schemars` for a type with its own definition, in a field with a default. -/
def defined (name : String) : Schema := { allOf := [{ ref := some name }] }
/-- `schemars` for a struct whose fields all have defaults, with `deny_unknown_fields`. -/
def struct (properties : List (String × Schema)) : Schema := { type := [.object], properties := properties, additional := false }

/-- `get_config_schema` (`reduction_factory.rs:169-171`) of all reductions in the order of the registry (`reduction_registry.rs:17-49`, a `BTreeMap`): what
`schemars` derives for `BinaryReductionConfig` (`binary.rs:20-27`), `CBAdfConfig` and `CBType` (`cb_adf.rs:19-36`), `CBExploreAdfGreedyConfig`
(`cb_explore_adf_greedy.rs:20-30`), `CBExploreAdfSoftmaxConfig` (`cb_explore_adf_softmax.rs:21-34`), `CBExploreAdfSquareCBConfig`
(`cb_explore_adf_squarecb.rs:23-39`), `CoinRegressorConfig` and `LinkFunction` (`coin.rs:23-59`), `LossFunction` (`loss_function.rs:26-30`),
`SquaredLoss` (`squared_loss.rs:6-7`), `LogisticLoss` (`logistic_loss.rs:7-13`), `DebugConfig` (`debug.rs:18-35`) and `ElementwiseInteractionConfig`
(`elementwise_interaction.rs:22-40`). -/
def reductions : List (String × Root) := [
  ("Binary", ⟨struct [("regressor", child)], []⟩),
  ("CbAdf", ⟨struct [("cbType", defined "CBType"), ("regressor", child)], [("CBType", { type := [.string], enum := some ["ips", "mtr"] })]⟩),
  ("CbExploreAdfGreedy", ⟨struct [("cbAdf", child), ("epsilon", float)], []⟩),
  ("CbExploreAdfSoftmax", ⟨struct [("cbAdf", child), ("lambda", float), ("uniformEpsilon", float)], []⟩),
  ("CbExploreAdfSquareCb", ⟨struct [("cbAdf", child), ("gammaExponent", float), ("gammaScale", float), ("uniformEpsilon", float)], []⟩),
  ("Coin", ⟨struct [("alpha", float), ("beta", float), ("l1Lambda", float), ("l2Lambda", float), ("linkFunction", defined "LinkFunction"),
      ("lossFunction", defined "LossFunction")], [
    ("LinkFunction", { type := [.string], enum := some ["Identity", "Logistic"] }),
    ("LogisticLoss", { type := [.object], properties := [("max_label", float), ("min_label", float)] }),
    ("LossFunction", { oneOf := some [
      { type := [.object], required := ["Squared"], properties := [("Squared", { ref := some "SquaredLoss" })], additional := false },
      { type := [.object], required := ["Logistic"], properties := [("Logistic", { ref := some "LogisticLoss" })], additional := false }] }),
    ("SquaredLoss", { type := [.object] })]⟩),
  ("Debug", ⟨struct [("features", boolean), ("id", string), ("indent", uint), ("label", boolean), ("next", child), ("prediction", boolean)], []⟩),
  ("ElementwiseInteraction", ⟨struct [("keepOriginalFeatures", boolean), ("one", defined "NamespaceDef"), ("regressor", child),
    ("two", defined "NamespaceDef")], [("NamespaceDef", new.namespaceDef)]⟩)]

/-- `build_json_schema` (`gen_schema.rs:14-20`). -/
def build : Root := reductions.foldl (fun s r => addReduction s r.1 r.2) new

/-- The published schema (`schemas/config/latest/schema.json:1-554`). -/
def published : Root where
  schema := { type := [.object], required := ["entryReduction", "globalConfig"], properties := [
      ("$schema", { pattern := some ".*" }),
      ("entryReduction", { ref := some "any_reduction_config" }),
      ("globalConfig", { ref := some "GlobalConfig" })], additional := false }
  defs := [
    ("Binary", { properties := [
        ("config", { type := [.object], properties := [
          ("regressor", { allOf := [{ ref := some "any_reduction_config" }] })], additional := false }),
        ("typename", { const := some "Binary" })], additional := false }),
    ("CBType", { type := [.string], enum := some ["ips", "mtr"] }),
    ("CbAdf", { properties := [
        ("config", { type := [.object], properties := [
          ("cbType", { allOf := [{ ref := some "CBType" }] }),
          ("regressor", { allOf := [{ ref := some "any_reduction_config" }] })], additional := false }),
        ("typename", { const := some "CbAdf" })], additional := false }),
    ("CbExploreAdfGreedy", { properties := [
        ("config", { type := [.object], properties := [
          ("cbAdf", { allOf := [{ ref := some "any_reduction_config" }] }),
          ("epsilon", { type := [.number] })], additional := false }),
        ("typename", { const := some "CbExploreAdfGreedy" })], additional := false }),
    ("CbExploreAdfSoftmax", { properties := [
        ("config", { type := [.object], properties := [
          ("cbAdf", { allOf := [{ ref := some "any_reduction_config" }] }),
          ("lambda", { type := [.number] }),
          ("uniformEpsilon", { type := [.number] })], additional := false }),
        ("typename", { const := some "CbExploreAdfSoftmax" })], additional := false }),
    ("CbExploreAdfSquareCb", { properties := [
        ("config", { type := [.object], properties := [
          ("cbAdf", { allOf := [{ ref := some "any_reduction_config" }] }),
          ("gammaExponent", { type := [.number] }),
          ("gammaScale", { type := [.number] }),
          ("uniformEpsilon", { type := [.number] })], additional := false }),
        ("typename", { const := some "CbExploreAdfSquareCb" })], additional := false }),
    ("Coin", { properties := [
        ("config", { type := [.object], properties := [
          ("alpha", { type := [.number] }),
          ("beta", { type := [.number] }),
          ("l1Lambda", { type := [.number] }),
          ("l2Lambda", { type := [.number] }),
          ("linkFunction", { allOf := [{ ref := some "LinkFunction" }] }),
          ("lossFunction", { allOf := [{ ref := some "LossFunction" }] })], additional := false }),
        ("typename", { const := some "Coin" })], additional := false }),
    ("Debug", { properties := [
        ("config", { type := [.object], properties := [
          ("features", { type := [.boolean] }),
          ("id", { type := [.string] }),
          ("indent", { type := [.integer], minimum := some 0 }),
          ("label", { type := [.boolean] }),
          ("next", { allOf := [{ ref := some "any_reduction_config" }] }),
          ("prediction", { type := [.boolean] })], additional := false }),
        ("typename", { const := some "Debug" })], additional := false }),
    ("ElementwiseInteraction", { properties := [
        ("config", { type := [.object], properties := [
          ("keepOriginalFeatures", { type := [.boolean] }),
          ("one", { allOf := [{ ref := some "NamespaceDef" }] }),
          ("regressor", { allOf := [{ ref := some "any_reduction_config" }] }),
          ("two", { allOf := [{ ref := some "NamespaceDef" }] })], additional := false }),
        ("typename", { const := some "ElementwiseInteraction" })], additional := false }),
    ("GlobalConfig", { type := [.object], properties := [
        ("constantFeatureEnabled", { type := [.boolean] }),
        ("hashSeed", { type := [.integer], minimum := some 0 }),
        ("interactions", { type := [.array], items := some { type := [.array], items := some { ref := some "NamespaceDef" } } }),
        ("numBits", { type := [.integer], minimum := some 0 })], additional := false }),
    ("LinkFunction", { type := [.string], enum := some ["Identity", "Logistic"] }),
    ("LogisticLoss", { type := [.object], properties := [
        ("max_label", { type := [.number] }),
        ("min_label", { type := [.number] })] }),
    ("LossFunction", { oneOf := some [{ type := [.object], required := ["Squared"], properties := [
          ("Squared", { ref := some "SquaredLoss" })], additional := false },
        { type := [.object], required := ["Logistic"], properties := [
          ("Logistic", { ref := some "LogisticLoss" })], additional := false }] }),
    ("NamespaceDef", { oneOf := some [{ type := [.string], enum := some ["Default"] },
        { type := [.object], required := ["Name"], properties := [
          ("Name", { type := [.string] })], additional := false }] }),
    ("SquaredLoss", { type := [.object] }),
    ("any_reduction_config", { oneOf := some [{ ref := some "Binary" },
        { ref := some "CbAdf" },
        { ref := some "CbExploreAdfGreedy" },
        { ref := some "CbExploreAdfSoftmax" },
        { ref := some "CbExploreAdfSquareCb" },
        { ref := some "Coin" },
        { ref := some "Debug" },
        { ref := some "ElementwiseInteraction" }] })]

end JsonSchema
end Rml
