import Verif.Model.Coin
import Verif.Model.Explore

/-
`types.rs` (predictions, labels, features), `reduction.rs`, the reductions in `reductions/`, `reduction_factory.rs` and
`workspace.rs:125-186`.
-/

namespace Rml
variable {F : Type} [Flt F]

/-- `ScalarPrediction` .. `Prediction` (`types.rs:34-62`). -/
inductive Prediction (F : Type) where
  | scalar (prediction raw : F)
  | binary (b : Bool)
  | actionScores (s : List (Nat × F))
  | actionProbs (s : List (Nat × F))
  deriving DecidableEq, Repr

/-- `PredictionType` (`types.rs:69-75`). -/
inductive PredictionType where
  | scalar | binary | actionScores | actionProbs
  deriving DecidableEq, Repr

/-- `SimpleLabel` (`types.rs:77-108`). -/
structure SimpleLabel (F : Type) where
  value : F
  weight : F
  deriving DecidableEq, Repr

/-- `From<f32> for SimpleLabel` (`types.rs:98-102`): weight 1. -/
def SimpleLabel.ofF (v : F) : SimpleLabel F := ⟨v, Flt.one⟩

/-- `CBLabel` (`types.rs:119-125`). -/
structure CBLabel (F : Type) where
  action : Nat
  cost : F
  probability : F
  deriving DecidableEq, Repr

/-- `Label` (`types.rs:149-157`). -/
inductive Label (F : Type) where
  | simple (l : SimpleLabel F)
  | binary (b : Bool)
  | cb (l : CBLabel F)
  deriving DecidableEq, Repr

/-- `LabelType` (`types.rs:159-164`). -/
inductive LabelType where
  | simple | binary | cb
  deriving DecidableEq, Repr

/-- `CBAdfFeatures` (`types.rs:166-170`). -/
structure CBAdfFeatures (F : Type) where
  shared : Option (SparseFeatures F)
  actions : List (SparseFeatures F)
  deriving DecidableEq, Repr

/-- `Features` (`types.rs:253-259`). The owned and the `Ref` variants carry the same data, so they are one constructor. -/
inductive Features (F : Type) where
  | simple (f : SparseFeatures F)
  | cbAdf (f : CBAdfFeatures F)
  deriving DecidableEq, Repr

/-- `FeaturesType` (`types.rs:353-357`). -/
inductive FeaturesType where
  | sparseSimple | sparseCBAdf
  deriving DecidableEq, Repr

/-- `AsInner<SparseFeatures>` followed by `unwrap` (`types.rs:233-249`). -/
def Features.asSimple : Features F → M (SparseFeatures F)
  | .simple f => .ok f
  | .cbAdf _ => .error .typeMismatch

/-- `AsInner<CBAdfFeatures>` followed by `unwrap` (`types.rs:233-249`). -/
def Features.asCb : Features F → M (CBAdfFeatures F)
  | .cbAdf f => .ok f
  | .simple _ => .error .typeMismatch

/-- `Prediction::as_inner::<ScalarPrediction>().unwrap()` (`types.rs:64`). -/
def Prediction.asScalar : Prediction F → M (F × F)
  | .scalar p r => .ok (p, r)
  | _ => .error .typeMismatch

/-- `TryInto<ActionScoresPrediction>` followed by `unwrap` (`types.rs:54, 66`). -/
def Prediction.asScores : Prediction F → M (List (Nat × F))
  | .actionScores s => .ok s
  | _ => .error .typeMismatch

/-- `Label::as_inner::<SimpleLabel>().unwrap()` (`types.rs:155`). -/
def Label.asSimple : Label F → M (SimpleLabel F)
  | .simple l => .ok l
  | _ => .error .typeMismatch

/-- `Label::as_inner::<BinaryLabel>().unwrap()` (`types.rs:156`). -/
def Label.asBinary : Label F → M Bool
  | .binary b => .ok b
  | _ => .error .typeMismatch

/-- `Label::as_inner::<CBLabel>().unwrap()` (`types.rs:157`). -/
def Label.asCb : Label F → M (CBLabel F)
  | .cb l => .ok l
  | _ => .error .typeMismatch

/-- `AbsDiffEq for CBAdfFeatures` (`types.rs:172-200`). -/
def CBAdfFeatures.absDiffEq (a b : CBAdfFeatures F) (eps : F) : Bool :=
  (match a.shared, b.shared with
    | some x, some y => x.absDiffEq y eps
    | none, none => true
    | _, _ => false) &&
  decide (a.actions.length = b.actions.length) &&
  (a.actions.zip b.actions).all (fun p => p.1.absDiffEq p.2 eps)

/-- `AbsDiffEq for Features` (`types.rs:273-301`). -/
def Features.absDiffEq (a b : Features F) (eps : F) : Bool :=
  match a, b with
  | .simple x, .simple y => x.absDiffEq y eps
  | .cbAdf x, .cbAdf y => x.absDiffEq y eps
  | _, _ => false

/-- `ReductionTypeDescription` (`reduction.rs:131-139`). -/
structure TypeDesc where
  inLabel : LabelType
  outLabel : Option LabelType
  inFeatures : FeaturesType
  outFeatures : Option FeaturesType
  inPrediction : Option PredictionType
  outPrediction : PredictionType
  deriving DecidableEq, Repr

/-- `check_and_get_reason` returning `None` (`reduction.rs:231-254`). -/
def TypeDesc.checkOk (self base : TypeDesc) : Bool :=
  decide (self.outLabel = some base.inLabel) && decide (self.outFeatures = some base.inFeatures) &&
    decide (self.inPrediction = some base.outPrediction)

/-- The fields of `ReductionWrapper` other than the reduction (`reduction.rs:257-263`). -/
structure Meta where
  typename : String
  types : TypeDesc
  numModelsBelow : Nat
  deriving DecidableEq, Repr

/-- `DepthInfo` (`reduction.rs:6-9`): the offset, a `u8`. -/
abbrev Depth := Nat

/-- `u8` multiplication with the overflow check of the debug profile. -/
def u8Mul (dbg : Bool) (a b : Nat) : M Nat :=
  if dbg && decide (256 ≤ a * b) then .error .overflow else .ok (a * b % 256)

/-- `DepthInfo::increment` (`reduction.rs:15-17`). -/
def Depth.increment (dbg : Bool) (d : Depth) (numModelsBelow i : Nat) : M Depth := do
  let p ← u8Mul dbg numModelsBelow i
  if dbg && decide (256 ≤ d + p) then .error .overflow else .ok ((d + p) % 256)

/-- `DepthInfo::decrement` (`reduction.rs:18-20`). -/
def Depth.decrement (dbg : Bool) (d : Depth) (numModelsBelow i : Nat) : M Depth := do
  let p ← u8Mul dbg numModelsBelow i
  if dbg && decide (d < p) then .error .overflow else .ok ((d + 256 - p) % 256)

/-- The common part of `ReductionWrapper::{predict, predict_then_learn, learn}` (`reduction.rs:33-111`): adjusts the depth
around the call and, in the debug profile, checks that the features were put back. -/
def wrapCall {α : Type} (dbg : Bool) (m : Meta) (ft : Features F) (d : Depth) (off : Nat)
    (body : Features F → Depth → M (α × Features F × Depth)) : M (α × Features F × Depth) := do
  let d1 ← d.increment dbg m.numModelsBelow off
  let (a, ft', d2) ← body ft d1
  let d3 ← d2.decrement dbg m.numModelsBelow off
  debugAssert dbg (ft'.absDiffEq ft Flt.epsilon)
  .ok (a, ft', d3)

/-- `CBType` (`cb_adf.rs:20-27`). -/
inductive CBType where
  | ips | mtr
  deriving DecidableEq, Repr

/-- `MtrState` (`cb_adf.rs:65-69`). -/
structure MtrState where
  actionSum : Nat
  eventSum : Nat
  deriving DecidableEq, Repr

/-- The fixed part of a reduction stack: which reductions, with their wrapper fields and configuration. The parts that change
while learning are in `Red.State`. Every reduction other than Coin has exactly one child. -/
inductive Red (F : Type) where
  /-- `CoinRegressor` (`coin.rs:93-107`) -/
  | coin (m : Meta)
  /-- `BinaryReduction` (`binary.rs:36-39`) -/
  | binary (m : Meta) (regressor : Red F)
  /-- `CBAdfReduction` (`cb_adf.rs:71-77`) -/
  | cbAdf (m : Meta) (cbType : CBType) (regressor : Red F)
  /-- `CBExploreAdfGreedyReduction` (`cb_explore_adf_greedy.rs:50-54`) -/
  | greedy (m : Meta) (epsilon : F) (child : Red F)
  /-- `CBExploreAdfSoftmaxReduction` (`cb_explore_adf_softmax.rs:58-63`) -/
  | softmax (m : Meta) (uniformEpsilon lambda : F) (child : Red F)
  /-- `CBExploreAdfSquareCBReduction` (`cb_explore_adf_squarecb.rs:67-72`) -/
  | squareCb (m : Meta) (uniformEpsilon gammaScale gammaExponent : F) (child : Red F)
  /-- `DebugReduction` (`debug.rs:63-71`); the printing options have no effect on results and are left out -/
  | debug (m : Meta) (next : Red F)
  /-- `ElementwiseInteraction` (`elementwise_interaction.rs:53-59`) -/
  | elementwise (m : Meta) (pair : Namespace × Namespace) (keepOriginal : Bool) (numBits : Nat) (regressor : Red F)

/-- The wrapper fields of the top reduction. -/
def Red.meta : Red F → Meta
  | .coin m => m
  | .binary m _ => m
  | .cbAdf m _ _ => m
  | .greedy m _ _ => m
  | .softmax m _ _ _ => m
  | .squareCb m _ _ _ _ => m
  | .debug m _ => m
  | .elementwise m _ _ _ _ => m

/-- The changing part of a stack: the Coin regressor, the mtr sums (`cb_adf.rs:76`), the counters
(`cb_explore_adf_softmax.rs:61`, `cb_explore_adf_squarecb.rs:70`). -/
@[reducible] def Red.State : Red F → Type
  | .coin _ => Coin F
  | .binary _ r => r.State
  | .cbAdf _ _ r => MtrState × r.State
  | .greedy _ _ r => r.State
  | .softmax _ _ _ r => Nat × r.State
  | .squareCb _ _ _ _ r => Nat × r.State
  | .debug _ r => r.State
  | .elementwise _ _ _ _ r => r.State

/-- `u32` subtraction: panics on underflow in the debug profile, wraps otherwise. -/
def u32Sub (dbg : Bool) (a b : U32) : M U32 :=
  if dbg && decide (a.toNat < b.toNat) then .error .overflow else .ok (a - b)

/-- `u32` addition: panics on overflow in the debug profile, wraps otherwise. -/
def u32Add (dbg : Bool) (a b : U32) : M U32 :=
  if dbg && decide (2 ^ 32 ≤ a.toNat + b.toNat) then .error .overflow else .ok (a + b)

/-- The merge loop of `elementwise_multiply` (`elementwise_interaction.rs:144-172`); `fuel` bounds the number of
iterations (each consumes an element, so the sum of the lengths is enough). -/
def elementwiseLoop (dbg : Bool) (base1 base2 cbase : U32) :
    Nat → List (U32 × F) → List (U32 × F) → NsFeats F → M (NsFeats F)
  | 0, _, _, dest => .ok dest
  | _ + 1, [], _, dest => .ok dest
  | _ + 1, _, [], dest => .ok dest
  | fuel + 1, a :: as, b :: bs, dest => do
    let idx1 ← u32Sub dbg a.1 base1
    let idx2 ← u32Sub dbg b.1 base2
    let di ← u32Add dbg cbase idx1
    if idx1 = idx2 then
      elementwiseLoop dbg base1 base2 cbase fuel as bs (dest.addFeature di (Flt.mul a.2 b.2))
    else if idx1.toNat < idx2.toNat then
      elementwiseLoop dbg base1 base2 cbase fuel as (b :: bs) dest
    else
      elementwiseLoop dbg base1 base2 cbase fuel (a :: as) bs dest

/-- The hash of the composite namespace: `(one as u64 * two as u64) as u32` (`elementwise_interaction.rs:133`). -/
def compositeHash (one two : Namespace) : U32 := ((one.hash.setWidth 64) * (two.hash.setWidth 64)).setWidth 32

/-- `elementwise_multiply` (`elementwise_interaction.rs:126-175`). -/
def elementwiseMultiply (dbg : Bool) (numBits : Nat) (f : SparseFeatures F) (one two : Namespace) :
    M (Namespace × NsFeats F) := do
  let cns := Namespace.rawHash (compositeHash one two)
  let base1 := maskIdx numBits one.hash
  let base2 := maskIdx numBits two.hash
  let cbase := maskIdx numBits cns.hash
  let n1 ← unwrapOpt (f.getNamespace one)
  let n2 ← unwrapOpt (f.getNamespace two)
  let dest ← elementwiseLoop dbg base1 base2 cbase (n1.iter.length + n2.iter.length) n1.iter n2.iter (NsFeats.new cns)
  .ok (cns, dest)

/-- The common shape of `predict`, `predict_then_learn` and `learn` of ElementwiseInteraction
(`elementwise_interaction.rs:179-280`): add the composite namespace, possibly take the originals out, call the base, put
everything back. -/
def elementwiseWith {α : Type} (dbg : Bool) (numBits : Nat) (pair : Namespace × Namespace) (keep : Bool)
    (body : Features F → Depth → M (α × Features F × Depth)) (ft : Features F) (d : Depth) :
    M (α × Features F × Depth) := do
  let f ← ft.asSimple
  let (cns, dest) ← elementwiseMultiply dbg numBits f pair.1 pair.2
  let f := f.setNamespace cns dest
  if keep then do
    let (a, ft', d') ← body (.simple f) d
    let f' ← ft'.asSimple
    .ok (a, .simple (f'.removeNamespace cns).2, d')
  else do
    let n1 ← unwrapOpt (f.removeNamespace pair.1).1
    let f := (f.removeNamespace pair.1).2
    let n2 ← unwrapOpt (f.removeNamespace pair.2).1
    let f := (f.removeNamespace pair.2).2
    let (a, ft', d') ← body (.simple f) d
    let f' ← ft'.asSimple
    .ok (a, .simple (((f'.removeNamespace cns).2.setNamespace pair.1 n1).setNamespace pair.2 n2), d')

/-- `if let Some(shared) = .. { action.append(shared) }` (`cb_adf.rs:148-150, 178-180`). -/
def appendShared (shared : Option (SparseFeatures F)) (a : SparseFeatures F) : M (SparseFeatures F) :=
  match shared with
  | some s => a.append s
  | none => .ok a

/-- `if let Some(shared) = .. { action.remove(shared) }` (`cb_adf.rs:157-159, 188-190`). -/
def removeShared (shared : Option (SparseFeatures F)) (a : SparseFeatures F) : M (SparseFeatures F) :=
  match shared with
  | some s => a.remove s
  | none => .ok a

/-- The loop of CbAdf `predict` (`cb_adf.rs:146-160`), from position `i` on. -/
def cbPredictLoop (childP : Features F → Depth → M (Prediction F × Features F × Depth))
    (shared : Option (SparseFeatures F)) :
    Nat → List (SparseFeatures F) → Depth → M (List (Nat × F) × List (SparseFeatures F) × Depth)
  | _, [], d => .ok ([], [], d)
  | i, a :: as, d => do
    let a1 ← appendShared shared a
    let (p, ft, d1) ← childP (.simple a1) d
    let (_, raw) ← p.asScalar
    let a2 ← ft.asSimple
    let a3 ← removeShared shared a2
    let (ps, as', d2) ← cbPredictLoop childP shared (i + 1) as d1
    .ok ((i, raw) :: ps, a3 :: as', d2)

/-- `generate_ips_simple_label` (`cb_adf.rs:127-134`). -/
def ipsLabel (dbg : Bool) (l : CBLabel F) (i : Nat) : M (SimpleLabel F) :=
  if i = l.action then do
    debugAssert dbg (Flt.lt Flt.zero l.probability)
    .ok (SimpleLabel.ofF (Flt.div l.cost l.probability))
  else .ok (SimpleLabel.ofF Flt.zero)

/-- The loop of CbAdf `learn` in ips mode (`cb_adf.rs:177-191`), from position `i` on. -/
def cbIpsLoop {S : Type} (dbg : Bool) (childL : S → Features F → Label F → Depth → M (S × Features F × Depth))
    (shared : Option (SparseFeatures F)) (label : CBLabel F) :
    Nat → List (SparseFeatures F) → S → Depth → M (S × List (SparseFeatures F) × Depth)
  | _, [], s, d => .ok (s, [], d)
  | i, a :: as, s, d => do
    let a1 ← appendShared shared a
    let l ← ipsLabel dbg label i
    let (s1, ft, d1) ← childL s (.simple a1) (.simple l) d
    let a2 ← ft.asSimple
    let a3 ← removeShared shared a2
    let (s2, as', d2) ← cbIpsLoop dbg childL shared label (i + 1) as s1 d1
    .ok (s2, a3 :: as', d2)

/-- The importance weight of mtr learning (`cb_adf.rs:199-201`). -/
def mtrWeight (mtr : MtrState) (prob : F) : F :=
  Flt.mul (Flt.div Flt.one prob) (Flt.div (Flt.ofNat mtr.eventSum) (Flt.ofNat mtr.actionSum))

/-- CbAdf `learn` in mtr mode (`cb_adf.rs:193-220`). -/
def cbMtrLearn {S : Type} (childL : S → Features F → Label F → Depth → M (S × Features F × Depth))
    (f : CBAdfFeatures F) (label : CBLabel F) (mtr : MtrState) (s : S) (d : Depth) :
    M ((MtrState × S) × CBAdfFeatures F × Depth) := do
  let mtr : MtrState := ⟨mtr.actionSum + f.actions.length, mtr.eventSum + 1⟩
  let l : SimpleLabel F := ⟨label.cost, mtrWeight mtr label.probability⟩
  match f.shared with
  | some sh => do
    let action ← unwrapOpt f.actions[label.action]?
    let sh1 ← sh.append action
    let (s', ft, d') ← childL s (.simple sh1) (.simple l) d
    let sh2 ← ft.asSimple
    let sh3 ← sh2.remove action
    .ok ((mtr, s'), ⟨some sh3, f.actions⟩, d')
  | none => .error .todo

/-- `From<BinaryLabel> for SimpleLabel` (`binary.rs:96-100`). -/
def binaryToSimple (b : Bool) : SimpleLabel F := SimpleLabel.ofF (if b then Flt.one else fl (-1))

/-- The `predict` of each reduction: `coin.rs:187-219`, `binary.rs:104-114`, `cb_adf.rs:138-163`,
`cb_explore_adf_greedy.rs:154-163`, `cb_explore_adf_softmax.rs:117-147`, `cb_explore_adf_squarecb.rs:136-173`,
`debug.rs:145-170`, `elementwise_interaction.rs:179-210`. A child is always called through its wrapper (`wrapCall`) with
model offset 0. The own model offset is not used by any reduction. -/
def Red.predictImpl (dbg : Bool) : (r : Red F) → r.State → Features F → Depth → M (Prediction F × Features F × Depth)
  | .coin _, c, ft, d => do
      let f ← ft.asSimple
      let (p, raw) ← Coin.predict dbg c f
      .ok (.scalar p raw, ft, d)
  | .binary _ r, s, ft, d => do
      let (p, ft, d) ← wrapCall dbg r.meta ft d 0 (r.predictImpl dbg s)
      let (pred, _) ← p.asScalar
      .ok (.binary (Flt.lt Flt.zero pred), ft, d)
  | .cbAdf _ _ r, s, ft, d => do
      let f ← ft.asCb
      let (scores, actions, d) ←
        cbPredictLoop (fun ft d => wrapCall dbg r.meta ft d 0 (r.predictImpl dbg s.2)) f.shared 0 f.actions d
      .ok (.actionScores scores, .cbAdf ⟨f.shared, actions⟩, d)
  | .greedy _ eps r, s, ft, d => do
      let (p, ft, d) ← wrapCall dbg r.meta ft d 0 (r.predictImpl dbg s)
      let scores ← p.asScores
      let probs ← greedyProbs eps scores
      .ok (.actionProbs probs, ft, d)
  | .softmax _ eps lambda r, s, ft, d => do
      let (p, ft, d) ← wrapCall dbg r.meta ft d 0 (r.predictImpl dbg s.2)
      let scores ← p.asScores
      let probs ← softmaxProbs lambda eps scores
      .ok (.actionProbs probs, ft, d)
  | .squareCb _ eps gs ge r, s, ft, d => do
      let (p, ft, d) ← wrapCall dbg r.meta ft d 0 (r.predictImpl dbg s.2)
      let scores ← p.asScores
      let probs ← squareCbProbs (squareCbGamma gs ge s.1) eps scores
      .ok (.actionProbs probs, ft, d)
  | .debug _ r, s, ft, d => wrapCall dbg r.meta ft d 0 (r.predictImpl dbg s)
  | .elementwise _ pair keep bits r, s, ft, d =>
      elementwiseWith dbg bits pair keep (fun ft d => wrapCall dbg r.meta ft d 0 (r.predictImpl dbg s)) ft d

/-- `ReductionWrapper::predict` (`reduction.rs:34-57`). -/
def Red.predict (dbg : Bool) (r : Red F) (s : r.State) (ft : Features F) (d : Depth) (off : Nat) :
    M (Prediction F × Features F × Depth) :=
  wrapCall dbg r.meta ft d off (r.predictImpl dbg s)

/-- The `learn` of each reduction: `coin.rs:221-240`, `binary.rs:137-152`, `cb_adf.rs:165-222`,
`cb_explore_adf_greedy.rs:165-173`, `cb_explore_adf_softmax.rs:149-157`, `cb_explore_adf_squarecb.rs:175-189`,
`debug.rs:211-236`, `elementwise_interaction.rs:252-280`. -/
def Red.learnImpl (dbg : Bool) : (r : Red F) → r.State → Features F → Label F → Depth →
    M (r.State × Features F × Depth)
  | .coin _, c, ft, l, d => do
      let f ← ft.asSimple
      let l ← l.asSimple
      let c' ← Coin.learn dbg c f l.value l.weight
      .ok (c', ft, d)
  | .binary _ r, s, ft, l, d => do
      let b ← l.asBinary
      wrapCall dbg r.meta ft d 0 (fun ft d => r.learnImpl dbg s ft (.simple (binaryToSimple b)) d)
  | .cbAdf _ ty r, s, ft, l, d => do
      let f ← ft.asCb
      let l ← l.asCb
      match ty with
      | .ips => do
        let (s', actions, d) ←
          cbIpsLoop dbg (fun s ft l d => wrapCall dbg r.meta ft d 0 (fun ft d => r.learnImpl dbg s ft l d))
            f.shared l 0 f.actions s.2 d
        .ok ((s.1, s'), .cbAdf ⟨f.shared, actions⟩, d)
      | .mtr => do
        let (s', f', d) ←
          cbMtrLearn (fun s ft l d => wrapCall dbg r.meta ft d 0 (fun ft d => r.learnImpl dbg s ft l d)) f l s.1 s.2 d
        .ok (s', .cbAdf f', d)
  | .greedy _ _ r, s, ft, l, d => wrapCall dbg r.meta ft d 0 (fun ft d => r.learnImpl dbg s ft l d)
  | .softmax _ _ _ r, s, ft, l, d => do
      let (s', ft, d) ← wrapCall dbg r.meta ft d 0 (fun ft d => r.learnImpl dbg s.2 ft l d)
      .ok ((s.1, s'), ft, d)
  | .squareCb _ _ _ _ r, s, ft, l, d => do
      let l ← l.asCb
      let (s', ft, d) ← wrapCall dbg r.meta ft d 0
        (fun ft d => r.learnImpl dbg s.2 ft (.cb { l with probability := Flt.one }) d)
      .ok ((s.1 + 1, s'), ft, d)
  | .debug _ r, s, ft, l, d => wrapCall dbg r.meta ft d 0 (fun ft d => r.learnImpl dbg s ft l d)
  | .elementwise _ pair keep bits r, s, ft, l, d =>
      elementwiseWith dbg bits pair keep
        (fun ft d => wrapCall dbg r.meta ft d 0 (fun ft d => r.learnImpl dbg s ft l d)) ft d

/-- `ReductionWrapper::learn` (`reduction.rs:86-111`). -/
def Red.learn (dbg : Bool) (r : Red F) (s : r.State) (ft : Features F) (l : Label F) (d : Depth) (off : Nat) :
    M (r.State × Features F × Depth) :=
  wrapCall dbg r.meta ft d off (fun ft d => r.learnImpl dbg s ft l d)

/-- The default `predict_then_learn` of the trait (`reduction.rs:297-311`), given the reduction's own `predict` and
`learn`. -/
def defaultPredictThenLearn {S : Type} (pred : Features F → Depth → M (Prediction F × Features F × Depth))
    (lrn : Features F → Depth → M (S × Features F × Depth)) (ft : Features F) (d : Depth) :
    M ((Prediction F × S) × Features F × Depth) := do
  let (p, ft1, d1) ← pred ft d
  let (s, ft2, d2) ← lrn ft1 d1
  massert (decide (d2 = d))
  .ok ((p, s), ft2, d2)

/-- The `predict_then_learn` of each reduction: `binary.rs:116-135`, `debug.rs:172-209` (which passes its own model offset
on), `elementwise_interaction.rs:212-250`, and the default (`reduction.rs:297-311`) for all others. -/
def Red.predictThenLearnImpl (dbg : Bool) : (r : Red F) → r.State → Features F → Label F → Depth → Nat →
    M ((Prediction F × r.State) × Features F × Depth)
  | .binary _ r, s, ft, l, d, _ => do
      let b ← l.asBinary
      let ((p, s'), ft, d) ← wrapCall dbg r.meta ft d 0
        (fun ft d => r.predictThenLearnImpl dbg s ft (.simple (binaryToSimple b)) d 0)
      let (pred, _) ← p.asScalar
      .ok ((.binary (Flt.lt Flt.zero pred), s'), ft, d)
  | .debug _ r, s, ft, l, d, off => wrapCall dbg r.meta ft d off (fun ft d => r.predictThenLearnImpl dbg s ft l d off)
  | .elementwise _ pair keep bits r, s, ft, l, d, _ =>
      elementwiseWith dbg bits pair keep
        (fun ft d => wrapCall dbg r.meta ft d 0 (fun ft d => r.predictThenLearnImpl dbg s ft l d 0)) ft d
  | .coin m, s, ft, l, d, _ =>
      defaultPredictThenLearn ((Red.coin m).predictImpl dbg s) (fun ft d => (Red.coin m).learnImpl dbg s ft l d) ft d
  | .cbAdf m ty r, s, ft, l, d, _ =>
      defaultPredictThenLearn ((Red.cbAdf m ty r).predictImpl dbg s)
        (fun ft d => (Red.cbAdf m ty r).learnImpl dbg s ft l d) ft d
  | .greedy m e r, s, ft, l, d, _ =>
      defaultPredictThenLearn ((Red.greedy m e r).predictImpl dbg s)
        (fun ft d => (Red.greedy m e r).learnImpl dbg s ft l d) ft d
  | .softmax m e lm r, s, ft, l, d, _ =>
      defaultPredictThenLearn ((Red.softmax m e lm r).predictImpl dbg s)
        (fun ft d => (Red.softmax m e lm r).learnImpl dbg s ft l d) ft d
  | .squareCb m e gs ge r, s, ft, l, d, _ =>
      defaultPredictThenLearn ((Red.squareCb m e gs ge r).predictImpl dbg s)
        (fun ft d => (Red.squareCb m e gs ge r).learnImpl dbg s ft l d) ft d

/-- `ReductionWrapper::predict_then_learn` (`reduction.rs:58-85`). -/
def Red.predictThenLearn (dbg : Bool) (r : Red F) (s : r.State) (ft : Features F) (l : Label F) (d : Depth) (off : Nat) :
    M ((Prediction F × r.State) × Features F × Depth) :=
  wrapCall dbg r.meta ft d off (fun ft d => r.predictThenLearnImpl dbg s ft l d off)

/-- `Workspace` (`workspace.rs:18-25`): the reduction stack with its state. The features pool is separate. -/
structure Workspace (F : Type) where
  red : Red F
  st : red.State

/-- `Workspace::predict` (`workspace.rs:170-174`). The features are passed by mutable reference, so the possibly modified
features are returned. -/
def Workspace.predict (dbg : Bool) (w : Workspace F) (ft : Features F) : M (Prediction F × Features F) := do
  let (p, ft, _) ← w.red.predict dbg w.st ft 0 0
  .ok (p, ft)

/-- `Workspace::learn` (`workspace.rs:182-186`). -/
def Workspace.learn (dbg : Bool) (w : Workspace F) (ft : Features F) (l : Label F) : M (Workspace F × Features F) := do
  let (s, ft, _) ← w.red.learn dbg w.st ft l 0 0
  .ok (⟨w.red, s⟩, ft)

/-- `Workspace::predict_then_learn` (`workspace.rs:176-180`). -/
def Workspace.predictThenLearn (dbg : Bool) (w : Workspace F) (ft : Features F) (l : Label F) :
    M (Prediction F × Workspace F × Features F) := do
  let ((p, s), ft, _) ← w.red.predictThenLearn dbg w.st ft l 0 0
  .ok (p, ⟨w.red, s⟩, ft)

end Rml
