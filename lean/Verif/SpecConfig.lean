import Verif.Model.Factory
import Verif.Model.Serde
import Mathlib.Data.List.Forall2

/-! Specification vocabulary for configurations: which stack of reductions a configuration document stands for, written as the
documentation of the configuration would put it. Only the types of documents and of configurations come from the model. -/

namespace Rml
namespace Cfg
variable {F : Type} [Flt F]

/-- The document is an object and the value at the key is `v`. -/
def Has (j : Doc F) (k : String) (v : Doc F) : Prop := ∃ l, j = .obj l ∧ l.lookup k.toList = some v

/-- The document is an object without the key. -/
def Lacks (j : Doc F) (k : String) : Prop := ∃ l, j = .obj l ∧ l.lookup k.toList = none

/-- The document is an object with no other keys than these. -/
def OnlyKeys (j : Doc F) (ks : List String) : Prop := ∃ l, j = .obj l ∧ ∀ e ∈ l, ∃ k ∈ ks, e.1 = k.toList

/-- An optional setting: the value at the key, if there is one, must denote `a`; without the key, `a` is the default. -/
def Setting {α : Type} (j : Doc F) (k : String) (dflt : α) (Denotes : Doc F → α → Prop) (a : α) : Prop :=
  (Lacks j k ∧ a = dflt) ∨ ∃ v, Has j k v ∧ Denotes v a

/-- A document that is a number. -/
inductive IsNum : Doc F → F → Prop
  | flt (x : F) : IsNum (.num (.flt x)) x
  | nat (n : Nat) : IsNum (.num (.nat n)) (Flt.ofNat n)

/-- A document that is a natural number of so many bits. -/
def IsNat (bits : Nat) (j : Doc F) (n : Nat) : Prop := j = .num (.nat n) ∧ n < 2 ^ bits

/-- A document that is a Boolean. -/
def IsBool (j : Doc F) (b : Bool) : Prop := j = .bool b

/-- A document that is a string. -/
def IsStr (j : Doc F) (s : List Char) : Prop := j = .str s

/-- `"Default"` or `{"Name": ".."}`. -/
inductive IsNs : Doc F → NamespaceDef → Prop
  | default : IsNs (.str "Default".toList) .default
  | name (s : List Char) : IsNs (.obj [("Name".toList, .str s)]) (.name s)

/-- A list whose elements denote those of `as`, in order. -/
def IsList {α : Type} (Denotes : Doc F → α → Prop) (j : Doc F) (as : List α) : Prop := ∃ l, j = .arr l ∧ List.Forall₂ Denotes l as

/-- `{"Squared": {..}}` or `{"Logistic": {"min_label": .., "max_label": ..}}`. -/
inductive IsLoss : Doc F → LossFunction F → Prop
  | squared (l : List (List Char × Doc F)) : IsLoss (.obj [("Squared".toList, .obj l)]) .squared
  | logistic (v : Doc F) (lo hi : F) : Setting v "min_label" (Flt.lit (-1) 1) IsNum lo → Setting v "max_label" (Flt.lit 1 1) IsNum hi →
      IsLoss (.obj [("Logistic".toList, v)]) (.logistic lo hi)

/-- `"Identity"` or `"Logistic"`. -/
inductive IsLink : Doc F → LinkFunction → Prop
  | identity : IsLink (.str "Identity".toList) .identity
  | logistic : IsLink (.str "Logistic".toList) .logistic

/-- `"ips"` or `"mtr"`. -/
inductive IsCBType : Doc F → CBType → Prop
  | ips : IsCBType (.str "ips".toList) .ips
  | mtr : IsCBType (.str "mtr".toList) .mtr

/-- The global settings. -/
structure GlobalMeans (j : Doc F) (g : GlobalConfig) : Prop where
  keys : OnlyKeys j ["numBits", "hashSeed", "constantFeatureEnabled", "interactions"]
  numBits : Setting j "numBits" 18 (IsNat 8) g.numBits
  hashSeed : Setting j "hashSeed" 0 (IsNat 32) g.hashSeed.toNat
  constant : Setting j "constantFeatureEnabled" true IsBool g.constantFeatureEnabled
  interactions : Setting j "interactions" [] (IsList (IsList IsNs)) g.interactions

/-- The settings of Coin. -/
structure CoinMeans (s : Doc F) (c : CoinConfig F) : Prop where
  keys : OnlyKeys s ["alpha", "beta", "l1Lambda", "l2Lambda", "lossFunction", "linkFunction"]
  alpha : Setting s "alpha" (Flt.lit 4 1) IsNum c.alpha
  beta : Setting s "beta" (Flt.lit 1 1) IsNum c.beta
  l1 : Setting s "l1Lambda" Flt.zero IsNum c.l1Lambda
  l2 : Setting s "l2Lambda" Flt.zero IsNum c.l2Lambda
  loss : Setting s "lossFunction" .squared IsLoss c.lossFunction
  link : Setting s "linkFunction" .identity IsLink c.linkFunction

/-- The document describes a reduction of this type with the settings `s`: settings left out or `null` are empty settings. -/
def Describes (j : Doc F) (typename : String) (s : Doc F) : Prop :=
  Has j "typename" (.str typename.toList) ∧
    ((Has j "config" s ∧ s ≠ .null) ∨ ((Lacks j "config" ∨ Has j "config" .null) ∧ s = .obj []))

/-- The document of the reduction below: the value at the key, or, if there is none, that of a reduction of the given type with no settings. -/
def Below (s : Doc F) (k dflt : String) (v : Doc F) : Prop :=
  Has s k v ∨ Lacks s k ∧ v = .obj [("typename".toList, .str dflt.toList)]

/-- The stack of reductions that a document stands for. -/
inductive Means : Doc F → RedConfig F → Prop
  | coin {j s c} : Describes j "Coin" s → CoinMeans s c → Means j (.coin c)
  | binary {j s v c} : Describes j "Binary" s → OnlyKeys s ["regressor"] → Below s "regressor" "Coin" v → Means v c → Means j (.binary c)
  | cbAdf {j s v c ty} : Describes j "CbAdf" s → OnlyKeys s ["cbType", "regressor"] → Setting s "cbType" .mtr IsCBType ty →
      Below s "regressor" "Coin" v → Means v c → Means j (.cbAdf ty c)
  | greedy {j s v c e} : Describes j "CbExploreAdfGreedy" s → OnlyKeys s ["epsilon", "cbAdf"] → Setting s "epsilon" (Flt.lit 5 100) IsNum e →
      Below s "cbAdf" "CbAdf" v → Means v c → Means j (.greedy e c)
  | softmax {j s v c e la} : Describes j "CbExploreAdfSoftmax" s → OnlyKeys s ["uniformEpsilon", "lambda", "cbAdf"] →
      Setting s "uniformEpsilon" Flt.zero IsNum e → Setting s "lambda" (Flt.lit 1 1) IsNum la →
      Below s "cbAdf" "CbAdf" v → Means v c → Means j (.softmax e la c)
  | squareCb {j s v c e gs ge} : Describes j "CbExploreAdfSquareCb" s →
      OnlyKeys s ["uniformEpsilon", "gammaScale", "gammaExponent", "cbAdf"] → Setting s "uniformEpsilon" Flt.zero IsNum e →
      Setting s "gammaScale" (Flt.lit 10 1) IsNum gs → Setting s "gammaExponent" (Flt.lit 1 2) IsNum ge →
      Below s "cbAdf" "CbAdf" v → Means v c → Means j (.squareCb e gs ge c)
  | debug {j s v c i p la f n} : Describes j "Debug" s → OnlyKeys s ["id", "prediction", "label", "features", "indent", "next"] →
      Setting s "id" [] IsStr i → Setting s "prediction" false IsBool p → Setting s "label" false IsBool la →
      Setting s "features" false IsBool f → Setting s "indent" 0 (IsNat 64) n → Has s "next" v → Means v c → Means j (.debug c)
  | elementwise {j s v c one two keep} : Describes j "ElementwiseInteraction" s →
      OnlyKeys s ["regressor", "one", "two", "keepOriginalFeatures"] → Setting s "one" .default IsNs one →
      Setting s "two" .default IsNs two → Setting s "keepOriginalFeatures" false IsBool keep →
      Below s "regressor" "Coin" v → Means v c → Means j (.elementwise one two keep c)

/-- The whole configuration: global settings and entry reduction are required, `$schema` may be given. -/
structure ConfigMeans (j : Doc F) (g : GlobalConfig) (c : RedConfig F) : Prop where
  keys : OnlyKeys j ["$schema", "globalConfig", "entryReduction"]
  schema : Lacks j "$schema" ∨ Has j "$schema" .null ∨ ∃ s, Has j "$schema" (.str s)
  global : ∃ v, Has j "globalConfig" v ∧ GlobalMeans v g
  entry : ∃ v, Has j "entryReduction" v ∧ Means v c

end Cfg
end Rml
