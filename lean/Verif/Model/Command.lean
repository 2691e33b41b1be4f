import Verif.Model.PoolTrain
import Verif.Model.Config

/-
The commands of `reductionml-cli`: `train` (`train.rs`), `export-model` (`export_model.rs`) and `import-model` (`import_model.rs`), with
`DataFormat` of `main.rs`. Files are the values they contain: a configuration or model file is its document, a data file is its text. Failures of the
file system are not modelled, and neither is the text that is printed besides the rows of the progress table.
-/

namespace Rml
namespace Cli
open Text
variable {F : Type} [Flt F] {N : Type}

/-- How a command ends if it does not succeed: with an error (exit code 1) or a panic. -/
inductive Fail where
  | err
  | panic (p : Panic)
  deriving DecidableEq, Repr

/-- A panic in a command. -/
def orPanic {α : Type} : M α → Except Fail α
  | .ok a => .ok a
  | .error p => .error (.panic p)

/-- `?` on the result of a function that returns `Result<_, ..>` and may panic. -/
def orFail {α : Type} : Except CreateError α → Except Fail α
  | .ok a => .ok a
  | .error (.panic p) => .error (.panic p)
  | .error _ => .error .err

/-- `DataFormat` (`main.rs:35-40`). -/
inductive DataFormat where
  | vwText | dsjson | json
  deriving DecidableEq, Repr

/-- The external functions that the parsers use, and the profile: see `Vw.Parser`, `Js.Parser`. -/
structure Externals (F N : Type) where
  hash : HashFn
  parseFloat : Str → Option F
  parseJson : Str → Option (Json N)
  toF32 : N → F
  toU64 : N → Option Nat
  serdeF32 : N → F
  dbg : Bool

/-- `VwTextParserFactory::create` (`vw_text_parser.rs:366-381`). -/
def Externals.vw (x : Externals F N) (ft : FeaturesType) (lt : LabelType) (seed : U32) (numBits : Nat) : Vw.Parser F :=
  ⟨ft, lt, seed, numBits, x.hash, x.parseFloat, x.dbg⟩

/-- `JsonParserFactory::create` (`json_parser.rs:95-110`), and `DsJsonParserFactory::create` after its checks (`dsjson_parser.rs:37-43`). -/
def Externals.js (x : Externals F N) (ft : FeaturesType) (lt : LabelType) (seed : U32) (numBits : Nat) : Js.Parser F N :=
  ⟨ft, lt, seed, numBits, x.hash, x.parseJson, x.toF32, x.toU64, x.serdeF32, x.dbg⟩

/-- The methods of `TextModeParser` (`text_parser.rs:40-46`) that `train` calls: `get_next_chunk` as a function of the remaining input, `parse_chunk` as a
function of the pool and the chunk. -/
structure TextParser (F : Type) where
  next : Str → Option Str × Str
  parse : Pool (SparseFeatures F) → Str → ParseOut ((Features F × Option (Label F)) × Pool (SparseFeatures F))

/-- `DataFormat::get_parser` (`main.rs:42-80`), with the checks of `DsJsonParserFactory::create` (`dsjson_parser.rs:28-35`). -/
def DataFormat.getParser (x : Externals F N) (fmt : DataFormat) (ft : FeaturesType) (lt : LabelType) (seed : U32) (numBits : Nat) : M (TextParser F) :=
  match fmt with
  | .vwText => .ok ⟨Vw.getNextChunk (x.vw ft lt seed numBits), Vw.parseOut (x.vw ft lt seed numBits)⟩
  | .dsjson =>
    if ft ≠ .sparseCBAdf then .error .explicit
    else if lt ≠ .cb then .error .explicit
    else .ok ⟨Js.getNextChunk, Ds.parseOut (x.js ft lt seed numBits)⟩
  | .json => .ok ⟨Js.getNextChunk, Js.parseOut (x.js ft lt seed numBits)⟩

/-- The chunks that `while let Some(chunk) = parser.get_next_chunk(..)` gets (`train.rs:310`, and `train.rs:332-334` in the input thread). The recursion
is bounded by the length of the input: every chunk uses up at least one character (`Vw.next_lt`, `Js.next_lt`). -/
def chunksFrom (next : Str → Option Str × Str) : Nat → Str → List Str
  | 0, _ => []
  | fuel + 1, input =>
    match next input with
    | (some c, rest) => c :: chunksFrom next fuel rest
    | (none, _) => []

/-- All chunks of a data file. -/
def chunksOf (next : Str → Option Str × Str) (input : Str) : List Str := chunksFrom next (input.length + 1) input

/-- `InputConfigArg` (`main.rs:105-115`), after `clap` has checked that exactly one of the two options is given. -/
inductive Input (F : Type) where
  | config (j : Doc F)
  | inputModel (j : Doc F)

/-- Creating the workspace (`train.rs:216-245`). -/
def Input.load (hash : HashFn) : Input F → Except Fail (Serde.Model F)
  | .config j => orFail (Cfg.newWorkspace hash j)
  | .inputModel j => orPanic (Serde.createFromModel j)

/-- The options of `train` besides the input and the data (`train.rs:31-70`), and `--quiet` (`main.rs:32`). `threads` is the number of parser threads
after the default has been filled in (`train.rs:302-305`). -/
structure TrainArgs where
  quiet : Bool
  predictions : Bool
  progress : OutputPeriod
  metrics : Option (List Str)
  threads : Nat
  queueSize : Nat

def TrainArgs.opts (a : TrainArgs) : TrainOpts := ⟨a.quiet, a.predictions⟩

/-- The metrics (`train.rs:290-295`). -/
def TrainArgs.makeMetrics (a : TrainArgs) : M (List (Metric F)) := do
  let first ← unwrapOpt (getMetric "example_number".toList)
  match a.metrics with
  | none => .ok [first]
  | some names => do
    let rest ← names.mapM (fun n => unwrapOpt (getMetric n))
    .ok (first :: rest)

/-- What the learner starts with (`train.rs:286-300`). -/
def TrainArgs.start (a : TrainArgs) (w : Workspace F) (metrics : List (Metric F)) : TrainWorld F :=
  ⟨w, metrics, TrainManager.new a.progress, [], []⟩

/-- What a successful `train` leaves behind: the rows of the progress table, the predictions file and the model file, which are written if the options ask
for them. -/
structure TrainOutput (F : Type) where
  rows : List (List (MetricValue F))
  predictions : List (Prediction F)
  model : Doc F

/-- After the loop (`train.rs:379-389`): the last row and the model. -/
def finish (dbg : Bool) (a : TrainArgs) (g : GlobalConfig) (w : TrainWorld F) : M (TrainOutput F) := do
  let rows ← if a.quiet then .ok w.rows else (do let r ← w.metrics.mapM (fun m => m.getValue dbg); .ok (w.rows ++ [r]))
  .ok ⟨rows, w.predictions, Serde.serializeModel ⟨g, w.ws⟩⟩

/-- Everything before the loop (`train.rs:216-305`): the parser, the global configuration and what the learner starts with. -/
def prepare (x : Externals F N) (a : TrainArgs) (fmt : DataFormat) (input : Input F) : Except Fail (TextParser F × GlobalConfig × TrainWorld F) := do
  let m ← input.load x.hash
  let p ← orPanic (fmt.getParser x m.ws.red.meta.types.inFeatures m.ws.red.meta.types.inLabel m.global.hashSeed m.global.numBits)
  let metrics ← orPanic a.makeMetrics
  .ok (p, m.global, a.start m.ws metrics)

/-- The loop (`train.rs:307-377`) can end with this data of the learner: with no parser threads it runs in one way, otherwise some schedule leads there.
The pool of a workspace is empty when the workspace is created (`workspace.rs:125-144`). -/
inductive LoopEnds (dbg : Bool) (a : TrainArgs) (p : TextParser F) (cs : List Str) (w0 w : TrainWorld F) : Prop where
  | single : a.threads = 0 → trainLoop dbg a.opts p.parse cs w0 ⟨[]⟩ = (w, true) → LoopEnds dbg a p cs w0 w
  | threads (s : PoolState (SparseFeatures F) Str (Features F × Option (Label F)) (TrainWorld F) a.threads) : a.threads ≠ 0 →
      PoolRun (trainPoolPipe dbg a.opts a.queueSize p.parse) cs w0 ⟨[]⟩ s → s.st.learner = .finished → s.st.world = w → LoopEnds dbg a p cs w0 w

/-- `TrainCommand::execute` (`train.rs:214-392`) can succeed with this output. -/
inductive Train (x : Externals F N) (a : TrainArgs) (fmt : DataFormat) (input : Input F) (data : Str) (out : TrainOutput F) : Prop where
  | intro (p : TextParser F) (g : GlobalConfig) (w0 w : TrainWorld F) : prepare x a fmt input = .ok (p, g, w0) →
      LoopEnds x.dbg a p (chunksOf p.next data) w0 w → finish x.dbg a g w = .ok out → Train x a fmt input data out

/-- `ExportModelCommand::execute` (`export_model.rs:22-33`): the document that is printed. `fin` and `order` as in `Serde.serializeToJson`. -/
def exportModel (fin : F → Bool) (order : List (Nat × List (List F)) → List (Nat × List (List F))) (model : Doc F) : Except Fail (Doc F) := do
  let m ← orPanic (Serde.createFromModel model)
  orPanic (Serde.serializeToJson fin order m)

/-- `ImportModelCommand::execute` (`import_model.rs:23-37`): the model file that is written. Every failure is a panic, because of the `unwrap`s. -/
def importModel (fin : F → Bool) (json : Doc F) : Except Fail (Doc F) := do
  let m ← match Serde.deserializeFromJson fin json with
    | .ok m => .ok m
    | .error (.panic p) => .error (.panic p)
    | .error _ => .error (.panic .unwrap)
  .ok (Serde.serializeModel m)

/-- `str::parse::<f32>` (standard library) is a parameter; `scale` is the function `(period, i) ↦ (i as f32 * period) as u32`. -/
structure PeriodFns (F : Type) where
  parseF32 : Str → Option F
  scale : F → Nat → Nat

/-- `OutputPeriod::from_str` (`train.rs:78-112`), on the text after `to_lowercase` (standard library). -/
def OutputPeriod.fromStr (x : PeriodFns F) (lower : Str) : Option OutputPeriod :=
  if startsWith '+' lower then (parseU32 lower.tail).map .additive
  else if startsWith '*' lower then (x.parseF32 lower.tail).map (fun p => .multiplicative (x.scale p))
  else (parseU32 lower).map .additive

end Cli
end Rml
