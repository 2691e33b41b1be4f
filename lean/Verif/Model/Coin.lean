import Verif.Model.Weights
import Verif.Model.Loss

/-
`reductions/coin.rs`, `global_config.rs`.
-/

namespace Rml
variable {F : Type} [Flt F]

/-- `GlobalConfig` (`global_config.rs:8-32`). -/
structure GlobalConfig where
  numBits : Nat
  hashSeed : U32
  constantFeatureEnabled : Bool
  interactions : List (List NamespaceDef)
  deriving Repr

/-- The default `GlobalConfig` (`global_config.rs:12-31`). -/
def GlobalConfig.dflt : GlobalConfig := ⟨18, 0#32, true, []⟩

/-- `LinkFunction` (`coin.rs:23-27`). -/
inductive LinkFunction where
  | identity
  | logistic
  deriving DecidableEq, Repr

/-- `LinkFunction::link` (`coin.rs:29-36`). -/
def LinkFunction.link : LinkFunction → F → F
  | .identity, v => v
  | .logistic, v => Flt.div Flt.one (Flt.add Flt.one (Flt.exp (Flt.neg v)))

/-- `CoinRegressorConfig` (`coin.rs:38-59`). -/
structure CoinConfig (F : Type) where
  alpha : F
  beta : F
  l1Lambda : F
  l2Lambda : F
  lossFunction : LossFunction F
  linkFunction : LinkFunction
  deriving DecidableEq, Repr

/-- The default `CoinRegressorConfig` (`coin.rs:61-75`). -/
def CoinConfig.dflt : CoinConfig F := ⟨fl 4, fl 1, Flt.zero, Flt.zero, .squared, .identity⟩

/-- `CoinRegressorModelState` (`coin.rs:87-91`). -/
structure CoinModelState (F : Type) where
  normalizedSumNormX : F
  totalWeight : F
  deriving DecidableEq, Repr

/-- `CoinRegressor` (`coin.rs:93-107`). -/
structure Coin (F : Type) where
  weights : DenseWeights F
  config : CoinConfig F
  modelStates : List (CoinModelState F)
  averageSquaredNormX : F
  minLabel : F
  maxLabel : F
  lossFunction : LossFunction F
  pass : PassCfg
  deriving DecidableEq, Repr

namespace Coin

/-- `CoinRegressor::new` (`coin.rs:110-147`). `1u32 << num_bits` panics in the debug profile for `num_bits >= 32`. -/
def new (hash : HashFn) (config : CoinConfig F) (g : GlobalConfig) (numModelsAbove : Nat) : M (Coin F) := do
  let (pairs, triples) ← compileInteractions hash g.hashSeed g.interactions
  let (minL, maxL) := match config.lossFunction with
    | .squared => ((Flt.zero : F), (Flt.zero : F))
    | .logistic _ _ => (fl (-50), fl 50)
  if g.numBits < 32 then do
    let w ← DenseWeights.new (bitsToMaxFeatureIndex g.numBits).toNat numModelsAbove 6
    .ok { weights := w, config := config,
          modelStates := List.replicate numModelsAbove ⟨Flt.zero, Flt.zero⟩,
          averageSquaredNormX := Flt.zero, minLabel := minL, maxLabel := maxL,
          lossFunction := .squared,
          pass := ⟨pairs, triples, g.numBits, g.constantFeatureEnabled⟩ }
  else .error .overflow

/-- The sum computed by `predict` (`coin.rs:195-205`). -/
def rawSum (dbg : Bool) (c : Coin F) (f : SparseFeatures F) : M F :=
  foreachFeature dbg 0 f c.weights c.pass (fun acc v w => Flt.add acc (Flt.mul v w)) Flt.zero

/-- `predict` (`coin.rs:187-219`): (prediction, raw_prediction). -/
def predict (dbg : Bool) (c : Coin F) (f : SparseFeatures F) : M (F × F) := do
  let p ← c.rawSum dbg f
  let p := if Flt.isNaN p then Flt.zero else p
  let cl ← Flt.clamp p c.minLabel c.maxLabel
  .ok (c.config.linkFunction.link cl, p)

/-- The six slots of a weight's state (`coin.rs:279-284`). -/
structure WState (F : Type) where
  xt : F
  zt : F
  g2 : F
  mx : F
  we : F
  mg : F
  deriving DecidableEq, Repr

/-- Reading the slice: `assert!(state.len() == 6)` and the indices `W_XT .. W_MG` (`coin.rs:279-284, 307, 368`). -/
def WState.ofList : List F → M (WState F)
  | [a, b, c, d, e, f] => .ok ⟨a, b, c, d, e, f⟩
  | _ => .error .assert

/-- Writing the slice back (`coin.rs:279-284`). -/
def WState.toList (s : WState F) : List F := [s.xt, s.zt, s.g2, s.mx, s.we, s.mg]

/-- The COCOB weight (`coin.rs:312-318` with `mx = w_mx`, `coin.rs:386-392`). -/
def betWeight (alpha : F) (s : WState F) (mx : F) : F :=
  if Flt.lt Flt.zero (Flt.mul s.mg mx) then
    Flt.mul (Flt.div (Flt.add alpha s.we)
      (Flt.mul (Flt.mul s.mg mx) (Flt.add (Flt.mul s.mg mx) s.g2))) s.zt
  else Flt.zero

/-- `inner_predict` (`coin.rs:306-326`): accumulates (prediction, normalized_squared_norm_x). -/
def innerPredict (alpha : F) (acc : F × F) (x : F) (s : WState F) : F × F :=
  let mx := Flt.fmax s.mx (Flt.abs x)
  let xt := betWeight alpha s mx
  let pred := Flt.add acc.1 (Flt.mul xt x)
  if Flt.lt Flt.zero mx then
    let xn := Flt.div x mx
    (pred, Flt.add acc.2 (Flt.mul xn xn))
  else (pred, acc.2)

/-- `coin_betting_predict` (`coin.rs:302-351`): returns the partial prediction and the updated regressor.
`model_states[0]` panics when there is no model state. -/
def bettingPredict (dbg : Bool) (c : Coin F) (f : SparseFeatures F) (weight : F) : M (F × Coin F) := do
  let (pred, nsn) ← foreachFeatureWithState dbg 0 f c.weights c.pass
    (fun acc x st => do
      let s ← WState.ofList st
      .ok (innerPredict c.config.alpha acc x s)) (Flt.zero, Flt.zero)
  match c.modelStates with
  | [] => .error .index
  | ms :: rest =>
    let nsum := Flt.add ms.normalizedSumNormX (Flt.mul nsn weight)
    let tw := Flt.add ms.totalWeight weight
    let avg := Flt.div (Flt.add nsum (Flt.lit 1 1000000)) tw
    let c := { c with modelStates := ⟨nsum, tw⟩ :: rest, averageSquaredNormX := avg }
    let p ← Flt.clamp (Flt.div pred avg) c.minLabel c.maxLabel
    .ok (p, c)

/-- `inner_update` (`coin.rs:367-407`). -/
def innerUpdate (alpha beta avg update x : F) (s : WState F) : WState F :=
  let fabsX := Flt.abs x
  let gradient := Flt.mul update x
  let mx := if Flt.lt s.mx fabsX then fabsX else s.mx
  let fabsG := Flt.abs update
  let mg := if Flt.lt s.mg fabsG then (if Flt.lt beta fabsG then fabsG else beta) else s.mg
  let xt := betWeight alpha { s with mg := mg } mx
  { xt := Flt.div xt avg
    zt := Flt.add s.zt (Flt.neg gradient)
    g2 := Flt.add s.g2 (Flt.abs gradient)
    mx := mx
    we := Flt.add s.we (Flt.mul (Flt.neg gradient) xt)
    mg := mg }

/-- The `update` of `coin_betting_update_after_predict` (`coin.rs:360-363`). -/
def updateOf (c : Coin F) (prediction label weight : F) : F :=
  Flt.mul (c.lossFunction.firstDerivative c.minLabel c.maxLabel prediction label) weight

/-- `coin_betting_update_after_predict` (`coin.rs:353-418`). -/
def updateAfterPredict (dbg : Bool) (c : Coin F) (f : SparseFeatures F) (prediction label weight : F) :
    M (Coin F) := do
  let update := c.updateOf prediction label weight
  let (_, w) ← foreachFeatureWithStateMut dbg 0 f c.weights c.pass
    (fun (_ : Unit) x st => do
      let s ← WState.ofList st
      .ok ((), (innerUpdate c.config.alpha c.config.beta c.averageSquaredNormX update x s).toList)) ()
  .ok { c with weights := w }

/-- `learn` (`coin.rs:221-240`). -/
def learn (dbg : Bool) (c : Coin F) (f : SparseFeatures F) (label weight : F) : M (Coin F) := do
  let c := { c with minLabel := Flt.fmin label c.minLabel, maxLabel := Flt.fmax label c.maxLabel }
  let (p, c) ← c.bettingPredict dbg f weight
  c.updateAfterPredict dbg f p label weight

/-- `sensitivity` (`coin.rs:247-276`). -/
def sensitivity (dbg : Bool) (c : Coin F) (f : SparseFeatures F) : M F :=
  foreachFeatureWithState dbg 0 f c.weights c.pass
    (fun score x st => do
      let s ← WState.ofList st
      let uncertain := Flt.add (Flt.div (Flt.add c.config.beta (Flt.sqrt s.g2)) c.config.alpha) c.config.l2Lambda
      .ok (Flt.add score (Flt.mul (Flt.div Flt.one uncertain) (Flt.signum x)))) Flt.zero

end Coin

end Rml
