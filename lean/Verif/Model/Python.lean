import Verif.Model.Command

/-
The Python package (`reductionml-python`): a session is a sequence of calls on objects that share one process-wide pool of feature objects
(`lib.rs:14-16`). An object is named by its position in the order of creation. Every call holds the interpreter's lock from beginning to end, so calls
of several Python threads are a sequence as well. Conversions between Python values and documents, numbers and texts (pyo3, pythonize) are not modelled.
A session is followed up to its first panic (`PanicException`): programs that catch panics and go on are in Model/PythonCrash.lean.
-/

namespace Rml
namespace Py
open Text Cli
variable {F : Type} [Flt F] {N : Type}

/-- The objects: `Workspace` (`workspace.rs:121-123`), `TextParser` and `JsonParser` (`parsers.rs:16-22`, kept as the arguments they were created with),
`SparseFeatures` and `CbAdfFeatures` (`features.rs:9-17`), and the bytes of a model. `gone` is an object to which no reference is left. -/
inductive Obj (F : Type) [Flt F] where
  | workspace (m : Serde.Model F)
  | parser (fmt : DataFormat) (ft : FeaturesType) (lt : LabelType) (seed : U32) (numBits : Nat)
  | features (ft : Features F)
  | bytes (d : Doc F)
  | gone

/-- The objects of the session in the order of their creation, and `SPARSE_FEATURES_POOL` (`lib.rs:14-16`). -/
structure State (F : Type) [Flt F] where
  heap : List (Obj F)
  pool : Pool (SparseFeatures F)

/-- `SimpleLabel` and `CbLabel` (`labels.rs:165-169`): the labels that exist in Python. -/
inductive PyLabel (F : Type) where
  | simple (l : SimpleLabel F)
  | cb (l : CBLabel F)

/-- `From<WrappedLabel> for Label` (`labels.rs:181-188`). -/
def PyLabel.toLabel : PyLabel F → Label F
  | .simple l => .simple l
  | .cb l => .cb l

/-- `From<Label> for WrappedLabel` (`labels.rs:171-179`). -/
def PyLabel.ofLabel : Label F → M (PyLabel F)
  | .simple l => .ok (.simple l)
  | .cb l => .ok (.cb l)
  | .binary _ => .error .todo

/-- `label.map(|x| x.into())` (`parsers.rs:127, 160`). -/
def labelToPy : Option (Label F) → M (Option (PyLabel F))
  | some l => do
    let l ← PyLabel.ofLabel l
    .ok (some l)
  | none => .ok none

/-- `IntoPy<PyObject> for WrappedPrediction` (`predictions.rs:149-162`). -/
def predictionToPy : Prediction F → M (Prediction F)
  | .scalar p r => .ok (.scalar p r)
  | .binary _ => .error .todo
  | .actionScores s => .ok (.actionScores s)
  | .actionProbs s => .ok (.actionProbs s)

/-- The calls. The last one is the end of the last reference to an object. -/
inductive Call (F : Type) where
  | fromConfig (j : Doc F)
  | fromModel (bytes : Nat)
  | fromJsonModel (j : Doc F)
  | createParser (w : Nat) (fmt : DataFormat)
  | newParser (fmt : DataFormat) (ft : FeaturesType) (lt : LabelType) (seed : U32) (numBits : Nat)
  | newSparse
  | newCbAdf
  | parse (p : Nat) (text : Str)
  | predict (w f : Nat)
  | learn (w f : Nat) (l : PyLabel F)
  | predictThenLearn (w f : Nat) (l : PyLabel F)
  | serialize (w : Nat)
  | serializeToJson (w : Nat)
  | entryTypes (w : Nat)
  | del (i : Nat)

/-- What a call returns: a new object, a parsed example, a prediction, the bytes of a model (also a new object), a JSON model, a description of types, `None`;
or an exception. -/
inductive Ret (F : Type) where
  | obj (i : Nat)
  | parsed (f : Nat) (l : Option (PyLabel F))
  | prediction (p : Prediction F)
  | bytes (i : Nat) (d : Doc F)
  | json (d : Doc F)
  | types (t : TypeDesc)
  | none
  | runtimeError
  | typeError

/-- What the process uses besides: the external functions, and those of `Serde.serializeToJson`. -/
structure Env (F N : Type) where
  x : Externals F N
  fin : F → Bool
  order : List (Nat × List (List F)) → List (Nat × List (List F))

/-- A new object. -/
def State.add (s : State F) (o : Obj F) : Nat × State F := (s.heap.length, { s with heap := s.heap ++ [o] })

/-- Another value for an object. -/
def State.put (s : State F) (i : Nat) (o : Obj F) : State F := { s with heap := s.heap.set i o }

/-- `Workspace::create_from_config` (`workspace.rs:127-132`). -/
def fromConfig (e : Env F N) (s : State F) (j : Doc F) : M (Ret F × State F) :=
  match Cfg.newWorkspace e.x.hash j with
  | .ok m => .ok (.obj (s.add (.workspace m)).1, (s.add (.workspace m)).2)
  | .error (.panic p) => .error p
  | .error _ => .error .unwrap

/-- `Workspace::create_from_model` (`workspace.rs:134-138`). -/
def fromModel (s : State F) (b : Nat) : M (Ret F × State F) :=
  match s.heap[b]? with
  | some (.bytes d) => do
    let m ← Serde.createFromModel d
    .ok (.obj (s.add (.workspace m)).1, (s.add (.workspace m)).2)
  | _ => .ok (.typeError, s)

/-- `Workspace::create_from_json_model` (`workspace.rs:140-146`). -/
def fromJsonModel (e : Env F N) (s : State F) (j : Doc F) : M (Ret F × State F) :=
  match Serde.deserializeFromJson e.fin j with
  | .ok m => .ok (.obj (s.add (.workspace m)).1, (s.add (.workspace m)).2)
  | .error (.panic p) => .error p
  | .error _ => .error .unwrap

/-- `create_parser` (`parsers.rs:91-112`) with `get_parser` (`parsers.rs:51-89`). -/
def newParser (e : Env F N) (s : State F) (fmt : DataFormat) (ft : FeaturesType) (lt : LabelType) (seed : U32) (numBits : Nat) : M (Ret F × State F) := do
  let _ ← fmt.getParser e.x ft lt seed numBits
  .ok (.obj (s.add (.parser fmt ft lt seed numBits)).1, (s.add (.parser fmt ft lt seed numBits)).2)

/-- `Workspace::create_parser` (`workspace.rs:161-174`). -/
def createParser (e : Env F N) (s : State F) (w : Nat) (fmt : DataFormat) : M (Ret F × State F) :=
  match s.heap[w]? with
  | some (.workspace m) => newParser e s fmt m.ws.red.meta.types.inFeatures m.ws.red.meta.types.inLabel m.global.hashSeed m.global.numBits
  | _ => .ok (.typeError, s)

/-- `SparseFeatures.__new__` (`features.rs:19-25`). -/
def newSparse (s : State F) : M (Ret F × State F) :=
  let (f, pool) := s.pool.getObject SparseFeatures.new
  let s := { s with pool := pool }
  .ok (.obj (s.add (.features (.simple f))).1, (s.add (.features (.simple f))).2)

/-- `CbAdfFeatures.__new__` (`features.rs:35-41`): `CBAdfFeatures::default()`. -/
def newCbAdf (s : State F) : M (Ret F × State F) :=
  .ok (.obj (s.add (.features (.cbAdf ⟨none, []⟩))).1, (s.add (.features (.cbAdf ⟨none, []⟩))).2)

/-- `parse` of both parser classes (`parsers.rs:114-130, 138-163`). An error becomes a `RuntimeError`; the objects that the parser had taken from the pool by
then are dropped. Their number is the parameter `lost`, which may be anything. The kind of a panic in a parser is not recorded. -/
def parse (e : Env F N) (lost : Nat) (s : State F) (p : Nat) (text : Str) : M (Ret F × State F) :=
  match s.heap[p]? with
  | some (.parser fmt ft lt seed numBits) => do
    let tp ← fmt.getParser e.x ft lt seed numBits
    match tp.parse s.pool text with
    | .ok ((fs, l), pool) => do
      let l ← labelToPy l
      let s := { s with pool := pool }
      .ok (.parsed (s.add (.features fs)).1 l, (s.add (.features fs)).2)
    | .err => .ok (.runtimeError, { s with pool := ⟨s.pool.objects.drop lost⟩ })
    | .panic => .error .explicit
  | _ => .ok (.typeError, s)

/-- `Workspace::predict` (`workspace.rs:176-180`). The features are passed by mutable reference (`features.rs:57-69`). -/
def predict (e : Env F N) (s : State F) (w f : Nat) : M (Ret F × State F) :=
  match s.heap[w]?, s.heap[f]? with
  | some (.workspace m), some (.features ft) => do
    let (p, ft') ← m.ws.predict e.x.dbg ft
    let p ← predictionToPy p
    .ok (.prediction p, s.put f (.features ft'))
  | _, _ => .ok (.typeError, s)

/-- `Workspace::learn` (`workspace.rs:193-202`). -/
def learn (e : Env F N) (s : State F) (w f : Nat) (l : PyLabel F) : M (Ret F × State F) :=
  match s.heap[w]?, s.heap[f]? with
  | some (.workspace m), some (.features ft) => do
    let (ws, ft') ← m.ws.learn e.x.dbg ft l.toLabel
    .ok (.none, (s.put w (.workspace { m with ws := ws })).put f (.features ft'))
  | _, _ => .ok (.typeError, s)

/-- `Workspace::predict_then_learn` (`workspace.rs:182-191`). -/
def predictThenLearn (e : Env F N) (s : State F) (w f : Nat) (l : PyLabel F) : M (Ret F × State F) :=
  match s.heap[w]?, s.heap[f]? with
  | some (.workspace m), some (.features ft) => do
    let (p, ws, ft') ← m.ws.predictThenLearn e.x.dbg ft l.toLabel
    let p ← predictionToPy p
    .ok (.prediction p, (s.put w (.workspace { m with ws := ws })).put f (.features ft'))
  | _, _ => .ok (.typeError, s)

/-- `Workspace::serialize` (`workspace.rs:148-151`). -/
def serialize (s : State F) (w : Nat) : M (Ret F × State F) :=
  match s.heap[w]? with
  | some (.workspace m) =>
    let d := Serde.serializeModel m
    .ok (.bytes (s.add (.bytes d)).1 d, (s.add (.bytes d)).2)
  | _ => .ok (.typeError, s)

/-- `Workspace::serialize_to_json` (`workspace.rs:153-159`). -/
def serializeToJson (e : Env F N) (s : State F) (w : Nat) : M (Ret F × State F) :=
  match s.heap[w]? with
  | some (.workspace m) => do
    let d ← Serde.serializeToJson e.fin e.order m
    .ok (.json d, s)
  | _ => .ok (.typeError, s)

/-- `Workspace::get_entry_reduction_types` (`workspace.rs:204-206`) with the getters of the description (`workspace.rs:66-118`). -/
def entryTypes (s : State F) (w : Nat) : M (Ret F × State F) :=
  match s.heap[w]? with
  | some (.workspace m) => .ok (.types m.ws.red.meta.types, s)
  | _ => .ok (.typeError, s)

/-- The end of an object: features go back to the pool (`features.rs:27-33, 43-49`). -/
def del (s : State F) (i : Nat) : M (Ret F × State F) :=
  match s.heap[i]? with
  | some (.features ft) => .ok (.none, { (s.put i .gone) with pool := ft.clearAndReturn s.pool })
  | some .gone => .ok (.typeError, s)
  | some _ => .ok (.none, s.put i .gone)
  | none => .ok (.typeError, s)

/-- One call. -/
def step (e : Env F N) (lost : Nat) (s : State F) : Call F → M (Ret F × State F)
  | .fromConfig j => fromConfig e s j
  | .fromModel b => fromModel s b
  | .fromJsonModel j => fromJsonModel e s j
  | .createParser w fmt => createParser e s w fmt
  | .newParser fmt ft lt seed nb => newParser e s fmt ft lt seed nb
  | .newSparse => newSparse s
  | .newCbAdf => newCbAdf s
  | .parse p text => parse e lost s p text
  | .predict w f => predict e s w f
  | .learn w f l => learn e s w f l
  | .predictThenLearn w f l => predictThenLearn e s w f l
  | .serialize w => serialize s w
  | .serializeToJson w => serializeToJson e s w
  | .entryTypes w => entryTypes s w
  | .del i => del s i

/-- A session: the results of the calls, up to the first panic. With every call comes the number of objects that are lost if it is a `parse` that fails. -/
def run (e : Env F N) (s : State F) : List (Call F × Nat) → List (Except Panic (Ret F))
  | [] => []
  | (c, lost) :: cs =>
    match step e lost s c with
    | .ok (r, s') => .ok r :: run e s' cs
    | .error p => [.error p]

end Py
end Rml
