import Verif.Model.Reductions
import Verif.Model.Pipeline

/-
The metrics of `reductionml-core/src/metrics/` and the example loop of `reductionml-cli/src/train.rs`.
-/

namespace Rml
variable {F : Type} [Flt F]

/-- `Prediction::as_inner::<ActionProbsPrediction>().unwrap()` (`types.rs:67`). -/
def Prediction.asProbs : Prediction F → M (List (Nat × F))
  | .actionProbs s => .ok s
  | _ => .error .typeMismatch

/-- `MetricValue` (`metrics/mod.rs`): the two variants that occur. -/
inductive MetricValue (F : Type) where
  | float (x : F)
  | int (i : Int)
  deriving DecidableEq, Repr

/-- The four metrics (`metrics/mean_squared_error.rs:5-8`, `metrics/ips.rs:5-8`, `metrics/parsed_features.rs:5-7`,
`metrics/example_number.rs:5-7`). The `u64` counters are natural numbers: 2^64 examples are not reached. -/
inductive Metric (F : Type) where
  | mse (value : F) (count : Nat)
  | ips (count : Nat) (weightedReward : F)
  | parsedFeatures (count : Nat)
  | exampleNumber (count : Nat)
  deriving DecidableEq, Repr

/-- `get_metric` (`metrics/metric_registry.rs:5-13`). -/
def getMetric (name : List Char) : Option (Metric F) :=
  if name = "mse".toList then some (.mse Flt.zero 0)
  else if name = "ips".toList then some (.ips 0 Flt.zero)
  else if name = "parsed_features".toList then some (.parsedFeatures 0)
  else if name = "example_number".toList then some (.exampleNumber 0)
  else none

/-- The number of features of an example (`metrics/parsed_features.rs:29-56`). -/
def Features.countAll : Features F → Nat
  | .simple f => f.allFeatures.length
  | .cbAdf f => (match f.shared with | some s => s.allFeatures.length | none => 0) +
      (f.actions.map (fun a => a.allFeatures.length)).sum

/-- `Metric::add_point` (`metrics/mean_squared_error.rs:27-37`, `metrics/ips.rs:27-48`, `metrics/parsed_features.rs:22-57`,
`metrics/example_number.rs:22-29`). -/
def Metric.addPoint (m : Metric F) (ft : Features F) (l : Label F) (p : Prediction F) : M (Metric F) :=
  match m with
  | .mse value count => do
    let l ← l.asSimple
    let p ← p.asScalar
    .ok (.mse (Flt.add value (Flt.mul (Flt.sub l.value p.1) (Flt.sub l.value p.1))) (count + 1))
  | .ips count weighted => do
    let l ← l.asCb
    let p ← p.asProbs
    let q ← unwrapOpt (p.find? (fun x => x.1 == l.action))
    .ok (.ips (count + 1) (Flt.add weighted (Flt.mul (Flt.mul (fl (-1)) l.cost) (Flt.div q.2 l.probability))))
  | .parsedFeatures count => .ok (.parsedFeatures (count + ft.countAll))
  | .exampleNumber count => .ok (.exampleNumber (count + 1))

/-- `n as i32` for an unsigned `n` (two's complement truncation). -/
def asI32 (n : Nat) : Int := Int.bmod n (2 ^ 32)

/-- `a - 1` on `i32`: overflow panics in the debug profile and wraps otherwise. -/
def i32Pred (dbg : Bool) (a : Int) : M Int :=
  if a = -2 ^ 31 then (if dbg then .error .overflow else .ok (2 ^ 31 - 1)) else .ok (a - 1)

/-- `Metric::get_value` (`metrics/mean_squared_error.rs:39-41`, `metrics/ips.rs:50-52`, `metrics/parsed_features.rs:59-61`,
`metrics/example_number.rs:31-36`). -/
def Metric.getValue (dbg : Bool) (m : Metric F) : M (MetricValue F) :=
  match m with
  | .mse value count => .ok (.float (Flt.div value (Flt.ofNat count)))
  | .ips count weighted => .ok (.float (Flt.div weighted (Flt.ofNat count)))
  | .parsedFeatures count => if count < 2 ^ 31 then .ok (.int count) else .error .unwrap
  | .exampleNumber count =>
    if count = 0 then .error .explicit
    else do
      let v ← i32Pred dbg (asI32 count)
      .ok (.int v)

/-- `OutputPeriod` (`train.rs:72-76`). For `Multiplicative(period)` the parameter is the function
`i ↦ (i as f32 * period) as u32` (a saturating cast). -/
inductive OutputPeriod where
  | additive (period : Nat)
  | multiplicative (scale : Nat → Nat)

/-- The counters of `TrainResultManager` (`train.rs:154-161`); the table is not modelled. -/
structure TrainManager where
  iteration : Nat
  next : Nat
  period : OutputPeriod

/-- `TrainResultManager::new` (`train.rs:164-176`). -/
def TrainManager.new (p : OutputPeriod) : TrainManager := ⟨0, 0, p⟩

/-- `a + b` on `u32`. -/
def u32AddNat (dbg : Bool) (a b : Nat) : M Nat :=
  if a + b < 2 ^ 32 then .ok (a + b) else if dbg then .error .overflow else .ok ((a + b) % 2 ^ 32)

/-- The next iteration to report at. -/
def OutputPeriod.nextAfter (dbg : Bool) (p : OutputPeriod) (iteration : Nat) : M Nat :=
  match p with
  | .additive q => u32AddNat dbg iteration q
  | .multiplicative scale => .ok (scale iteration)

/-- `TrainResultManager::inc_iteration` (`train.rs:179-190`). -/
def TrainManager.inc (dbg : Bool) (m : TrainManager) : M (Bool × TrainManager) :=
  if m.next ≤ m.iteration then do
    let n ← m.period.nextAfter dbg m.iteration
    let i ← u32AddNat dbg m.iteration 1
    .ok (true, { m with next := n, iteration := i })
  else do
    let i ← u32AddNat dbg m.iteration 1
    .ok (false, { m with iteration := i })

/-- `k` calls of `inc_iteration`: the results in order. -/
def TrainManager.run (dbg : Bool) : Nat → TrainManager → M (List Bool × TrainManager)
  | 0, m => .ok ([], m)
  | k + 1, m => do
    let (b, m) ← m.inc dbg
    let (bs, m) ← TrainManager.run dbg k m
    .ok (b :: bs, m)

/-- What the learner owns: the workspace, the metrics, the progress counters, the rows of the progress table and the predictions written
(`train.rs:286-300`). -/
structure TrainWorld (F : Type) where
  ws : Workspace F
  metrics : List (Metric F)
  manager : TrainManager
  rows : List (List (MetricValue F))
  predictions : List (Prediction F)

/-- The options that `process_example` looks at: `quiet`, and whether there is a predictions file. -/
structure TrainOpts where
  quiet : Bool
  predictionsFile : Bool

/-- `process_example` (`train.rs:401-435`) up to its last statement: what the learner owns and the features afterwards. Rendering the table and the
format of the predictions file are not modelled. -/
def processFeatures (dbg : Bool) (o : TrainOpts) (w : TrainWorld F) (ft : Features F) (label : Option (Label F)) : M (TrainWorld F × Features F) := do
  let l ← unwrapOpt label
  if !o.quiet || o.predictionsFile then
    let (p, ws, ft) ← w.ws.predictThenLearn dbg ft l
    let metrics ← w.metrics.mapM (fun m => m.addPoint ft l p)
    let (out, manager) ← w.manager.inc dbg
    let row ← if out then (do let r ← metrics.mapM (fun m => m.getValue dbg); .ok [r]) else .ok []
    .ok ({ w with
      ws := ws, metrics := metrics, manager := manager, rows := w.rows ++ row,
      predictions := if o.predictionsFile then w.predictions ++ [p] else w.predictions }, ft)
  else
    let (ws, ft) ← w.ws.learn dbg ft l
    .ok ({ w with ws := ws }, ft)

/-- `process_example` (`train.rs:401-435`) without the pool, which is not part of the learner's data (see `Features.clearAndReturn`, `PoolPipe`). -/
def processExample (dbg : Bool) (o : TrainOpts) (w : TrainWorld F) (ft : Features F) (label : Option (Label F)) : M (TrainWorld F) := do
  let (w, _) ← processFeatures dbg o w ft label
  .ok w

/-- `PoolReturnable for Features` (`types.rs:202-211, 359-370`) for features that own their objects, as parsed features do: the last statement of
`process_example` (`train.rs:434`). -/
def Features.clearAndReturn : Features F → Pool (SparseFeatures F) → Pool (SparseFeatures F)
  | .simple f, p => f.clearAndReturn p
  | .cbAdf f, p => f.actions.foldl (fun p a => a.clearAndReturn p) (match f.shared with | some s => s.clearAndReturn p | none => p)

/-- The training pipeline with this learner. `parse` is `parser.parse_chunk`. -/
def trainPipe {C : Type} (dbg : Bool) (o : TrainOpts) (queueSize : Nat) (parse : C → ParseOut (Features F × Option (Label F))) :
    Pipe C (Features F × Option (Label F)) (TrainWorld F) :=
  { parse := parse, queueSize := queueSize,
    process := fun w r => match processExample dbg o w r.1 r.2 with | .ok w' => some w' | .error _ => none }

end Rml
