import Verif.Model.Serde

/-! The documents that `config new` prints, spelled out. Objects are printed with their keys in alphabetical order. -/

namespace Rml
namespace Cfg
variable {F : Type} [Flt F]

/-- A setting that is a decimal number. -/
def number (k : String) (p q : Nat) : List Char × Doc F := (k.toList, .num (.flt (Flt.lit p q)))

/-- A setting that is zero. -/
def nought (k : String) : List Char × Doc F := (k.toList, .num (.flt Flt.zero))

/-- A setting that is a reduction with all its settings. -/
def below (k t : String) (s : List (List Char × Doc F)) : List Char × Doc F :=
  (k.toList, .obj [("config".toList, .obj s), ("typename".toList, .str t.toList)])

/-- All settings of the regressor: squared loss without link function. -/
def allCoin : List (List Char × Doc F) :=
  [number "alpha" 4 1, number "beta" 1 1, nought "l1Lambda", nought "l2Lambda", ("linkFunction".toList, .str "Identity".toList),
   ("lossFunction".toList, .obj [("Squared".toList, .obj [])])]

/-- All settings of the bandit reduction. -/
def allCbAdf : List (List Char × Doc F) := [("cbType".toList, .str "mtr".toList), below "regressor" "Coin" allCoin]

/-- The reductions with all their settings. -/
def allSettings : List (String × List (List Char × Doc F)) :=
  [("Coin", allCoin),
   ("Binary", [below "regressor" "Coin" allCoin]),
   ("CbAdf", allCbAdf),
   ("CbExploreAdfGreedy", [below "cbAdf" "CbAdf" allCbAdf, number "epsilon" 5 100]),
   ("CbExploreAdfSoftmax", [below "cbAdf" "CbAdf" allCbAdf, number "lambda" 1 1, nought "uniformEpsilon"]),
   ("CbExploreAdfSquareCb", [below "cbAdf" "CbAdf" allCbAdf, number "gammaExponent" 1 2, number "gammaScale" 10 1, nought "uniformEpsilon"]),
   ("Debug", [("features".toList, .bool false), ("id".toList, .str []), ("indent".toList, .num (.nat 0)), ("label".toList, .bool false),
     below "next" "Unknown" [], ("prediction".toList, .bool false)]),
   ("ElementwiseInteraction", [("keepOriginalFeatures".toList, .bool false), ("one".toList, .str "Default".toList),
     below "regressor" "Coin" allCoin, ("two".toList, .str "Default".toList)])]

/-- The printed document, for the address of a schema, the name of a reduction and its settings. -/
def printed (schema : List Char) (t : String) (s : List (List Char × Doc F)) : Doc F :=
  .obj [("$schema".toList, .str schema),
    ("entryReduction".toList, .obj [("config".toList, .obj s), ("typename".toList, .str t.toList)]),
    ("globalConfig".toList, .obj [("constantFeatureEnabled".toList, .bool true), ("hashSeed".toList, .num (.nat 0)),
      ("interactions".toList, .arr []), ("numBits".toList, .num (.nat 18))])]

end Cfg
end Rml
