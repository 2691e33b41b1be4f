import Verif.SpecTrain
import Verif.SpecJson
import Verif.Model.Python

/-! Reference semantics of a Python session: objects are plain values, nothing is shared between them, and there is no pool. -/

namespace Rml
namespace Py
open Text Cli
variable {F : Type} [Flt F] {N : Type}

/-- A Python label is one of two kinds of label; a Boolean label does not exist in Python. -/
def asLabel : PyLabel F → Label F
  | .simple l => .simple l
  | .cb l => .cb l

/-- The label that a parsed example has in Python. -/
inductive HasLabel : Option (Label F) → Option (PyLabel F) → Prop where
  | none : HasLabel none none
  | some (l : PyLabel F) : HasLabel (some (asLabel l)) (some l)

/-- An argument of the call is not an object of the kind that is needed. -/
def WrongKind (h : List (Obj F)) : Call F → Prop
  | .fromModel b => ∀ d, h[b]? ≠ some (.bytes d)
  | .createParser w _ => ∀ m, h[w]? ≠ some (.workspace m)
  | .parse p _ => ∀ fmt ft lt seed nb, h[p]? ≠ some (.parser fmt ft lt seed nb)
  | .predict w f => (∀ m, h[w]? ≠ some (.workspace m)) ∨ ∀ ft, h[f]? ≠ some (.features ft)
  | .learn w f _ => (∀ m, h[w]? ≠ some (.workspace m)) ∨ ∀ ft, h[f]? ≠ some (.features ft)
  | .predictThenLearn w f _ => (∀ m, h[w]? ≠ some (.workspace m)) ∨ ∀ ft, h[f]? ≠ some (.features ft)
  | .serialize w => ∀ m, h[w]? ≠ some (.workspace m)
  | .serializeToJson w => ∀ m, h[w]? ≠ some (.workspace m)
  | .entryTypes w => ∀ m, h[w]? ≠ some (.workspace m)
  | .del i => h[i]? = none ∨ h[i]? = some .gone
  | _ => False

/-- What a call on plain values does: `Does e h c r h'` says that with the values `h` the call `c` returns `r` and that the values are `h'` afterwards.
Parsing uses new objects; a prediction changes no value; learning changes the model of the workspace only; the end of an object affects nothing else. -/
inductive Does (e : Env F N) (h : List (Obj F)) : Call F → Ret F → List (Obj F) → Prop where
  | fromConfig {j m} : Cfg.newWorkspace e.x.hash j = .ok m → Does e h (.fromConfig j) (.obj h.length) (h ++ [.workspace m])
  | fromModel {b d m} : h[b]? = some (.bytes d) → Serde.createFromModel d = .ok m → Does e h (.fromModel b) (.obj h.length) (h ++ [.workspace m])
  | fromJsonModel {j m} : Serde.deserializeFromJson e.fin j = .ok m → Does e h (.fromJsonModel j) (.obj h.length) (h ++ [.workspace m])
  | newParser {fmt ft lt seed nb p} : fmt.getParser e.x ft lt seed nb = .ok p →
      Does e h (.newParser fmt ft lt seed nb) (.obj h.length) (h ++ [.parser fmt ft lt seed nb])
  | createParser {w fmt m p} : h[w]? = some (.workspace m) →
      fmt.getParser e.x m.ws.red.meta.types.inFeatures m.ws.red.meta.types.inLabel m.global.hashSeed m.global.numBits = .ok p →
      Does e h (.createParser w fmt) (.obj h.length)
        (h ++ [.parser fmt m.ws.red.meta.types.inFeatures m.ws.red.meta.types.inLabel m.global.hashSeed m.global.numBits])
  | newSparse : Does e h .newSparse (.obj h.length) (h ++ [.features (.simple .new)])
  | newCbAdf : Does e h .newCbAdf (.obj h.length) (h ++ [.features (.cbAdf ⟨none, []⟩)])
  | parse {i text fmt ft lt seed nb p fs l l' pool} : h[i]? = some (.parser fmt ft lt seed nb) → fmt.getParser e.x ft lt seed nb = .ok p →
      p.parse ⟨[]⟩ text = .ok ((fs, l), pool) → HasLabel l l' → Does e h (.parse i text) (.parsed h.length l') (h ++ [.features fs])
  | parseError {i text fmt ft lt seed nb p} : h[i]? = some (.parser fmt ft lt seed nb) → fmt.getParser e.x ft lt seed nb = .ok p →
      p.parse ⟨[]⟩ text = .err → Does e h (.parse i text) .runtimeError h
  | predict {w f m ft p ft'} : h[w]? = some (.workspace m) → h[f]? = some (.features ft) → m.ws.predict e.x.dbg ft = .ok (p, ft') →
      (∀ b, p ≠ .binary b) → Does e h (.predict w f) (.prediction p) h
  | learn {w f l m ft ws ft'} : h[w]? = some (.workspace m) → h[f]? = some (.features ft) → m.ws.learn e.x.dbg ft (asLabel l) = .ok (ws, ft') →
      Does e h (.learn w f l) .none (h.set w (.workspace ⟨m.global, ws⟩))
  | predictThenLearn {w f l m ft p ws ft'} : h[w]? = some (.workspace m) → h[f]? = some (.features ft) →
      m.ws.predictThenLearn e.x.dbg ft (asLabel l) = .ok (p, ws, ft') → (∀ b, p ≠ .binary b) →
      Does e h (.predictThenLearn w f l) (.prediction p) (h.set w (.workspace ⟨m.global, ws⟩))
  | serialize {w m} : h[w]? = some (.workspace m) →
      Does e h (.serialize w) (.bytes h.length (Serde.serializeModel m)) (h ++ [.bytes (Serde.serializeModel m)])
  | serializeToJson {w m d} : h[w]? = some (.workspace m) → Serde.serializeToJson e.fin e.order m = .ok d → Does e h (.serializeToJson w) (.json d) h
  | entryTypes {w m} : h[w]? = some (.workspace m) → Does e h (.entryTypes w) (.types m.ws.red.meta.types) h
  | del {i o} : h[i]? = some o → o ≠ .gone → Does e h (.del i) .none (h.set i .gone)
  | typeError {c} : WrongKind h c → Does e h c .typeError h

/-- A sequence of calls on plain values returns these results, until the end or until a call that panics (that is, one that does nothing of the above). -/
inductive DoesAll (e : Env F N) : List (Obj F) → List (Call F) → List (Option (Ret F)) → Prop where
  | done {h} : DoesAll e h [] []
  | call {h c cs r h' rs} : Does e h c r h' → DoesAll e h' cs rs → DoesAll e h (c :: cs) (some r :: rs)
  | panic {h c cs} : (∀ r h', ¬ Does e h c r h') → DoesAll e h (c :: cs) [none]

/-- A text for which the objects that the parser is given do not matter, and whose example is valid: every namespace of a contextual bandit example has a
feature, and JSON has no lists of strings. -/
def CleanText (x : Externals F N) (fmt : DataFormat) (ft : FeaturesType) (lt : LabelType) (seed : U32) (nb : Nat) (text : Str) : Prop :=
  match fmt with
  | .vwText => ft = .sparseCBAdf ∧ lt = .cb → Vw.ChunkFull (x.vw ft lt seed nb) text
  | .dsjson => True
  | .json => ∀ j, x.parseJson text = some j → Js.DocNoStringLists j ∧ (ft = .sparseCBAdf → Js.DocFull j)

/-- A JSON document that holds no model, or the model of a stack of reductions that some configuration describes. -/
def CleanJson (fin : F → Bool) (j : Doc F) : Prop := ∀ m, Serde.deserializeFromJson fin j = .ok m → Workspace.FromConfig m.ws

/-- The values after some calls. -/
inductive Reaches (e : Env F N) : List (Obj F) → List (Call F) → List (Obj F) → Prop where
  | here {h} : Reaches e h [] h
  | call {h c cs r h1 h'} : Does e h c r h1 → Reaches e h1 cs h' → Reaches e h (c :: cs) h'

/-- All texts that are parsed in the sequence of calls are such texts, and all JSON models that are loaded are such documents. -/
def CleanCalls (e : Env F N) (h : List (Obj F)) (cs : List (Call F)) : Prop :=
  (∀ (before : List (Call F)) (i : Nat) (text : Str) (after : List (Call F)), cs = before ++ .parse i text :: after →
    ∀ h' fmt ft lt seed nb, Reaches e h before h' → h'[i]? = some (.parser fmt ft lt seed nb) → CleanText e.x fmt ft lt seed nb text) ∧
  ∀ j, Call.fromJsonModel j ∈ cs → CleanJson e.fin j

/-- The bytes of a model that was created from a configuration and trained, by whatever program. -/
def SavedModel (d : Doc F) : Prop := ∃ g w, Workspace.FromConfig w ∧ d = Serde.serializeModel (⟨g, w⟩ : Serde.Model F)

/-- The beginning of a session: the bytes of some saved models, and an empty pool. -/
def start (models : List (Doc F)) : State F := ⟨models.map .bytes, ⟨[]⟩⟩

/-- The call neither trains the workspace `w` nor ends it or the features `f`. -/
def LeavesAlone (w f : Nat) : Call F → Prop
  | .learn w' _ _ => w' ≠ w
  | .predictThenLearn w' _ _ => w' ≠ w
  | .del i => i ≠ w ∧ i ≠ f
  | _ => True

end Py
end Rml
