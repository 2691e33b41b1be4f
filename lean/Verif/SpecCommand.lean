import Verif.SpecTrain
import Verif.SpecText
import Verif.SpecJson
import Verif.Model.Command

/-! Specification vocabulary for the theorems about the commands. -/

namespace Rml
namespace Cli
open Text
variable {F : Type} [Flt F] {N : Type}

/-- The VW text parser for a model: for the entry reduction's types and the global configuration. -/
def vwFor (x : Externals F N) (m : Serde.Model F) : Vw.Parser F :=
  ⟨m.ws.red.meta.types.inFeatures, m.ws.red.meta.types.inLabel, m.global.hashSeed, m.global.numBits, x.hash, x.parseFloat, x.dbg⟩

/-- The data is of the kind for which training with any number of threads is deterministic: JSON has no lists of strings. -/
def Clean (x : Externals F N) (fmt : DataFormat) (data : Str) : Prop :=
  fmt = .json → ∀ cs, Js.Reads data cs → ∀ c ∈ cs, ∀ j, x.parseJson c = some j → Js.DocNoStringLists j

/-- The text consists of complete lines; if examples span several lines, the last line is blank. -/
def WholeExamples (multiline : Bool) (data : Str) : Prop :=
  ∃ ls : List Str, (∀ l ∈ ls, '\n' ∉ l) ∧ data = ls.flatMap (· ++ ['\n']) ∧
    (multiline = true → ∀ l, ls.getLast? = some l → blank l = true)

/-- Do the examples of this format span several lines? -/
def spansLines (fmt : DataFormat) (m : Serde.Model F) : Bool :=
  match fmt with
  | .vwText => decide (m.ws.red.meta.types.inFeatures = .sparseCBAdf) && decide (m.ws.red.meta.types.inLabel = .cb)
  | _ => false

/-- The examples in the data, as the parser for this format and model reads them. -/
def Examples (x : Externals F N) (fmt : DataFormat) (m : Serde.Model F) (data : Str) (cs : List Str) : Prop :=
  match fmt with
  | .vwText => Vw.Reads (vwFor x m) data cs
  | _ => Js.Reads data cs

/-- Can the format be used with the model? DsJson is for contextual bandits only. -/
def FormatFits (fmt : DataFormat) (m : Serde.Model F) : Prop :=
  fmt = .dsjson → m.ws.red.meta.types.inFeatures = .sparseCBAdf ∧ m.ws.red.meta.types.inLabel = .cb

/-- Two sets of options that differ at most in the number of threads and the size of the queues. -/
def SameOutputOptions (a b : TrainArgs) : Prop :=
  a.quiet = b.quiet ∧ a.predictions = b.predictions ∧ a.progress = b.progress ∧ a.metrics = b.metrics

/-- Where `train` can start: from a configuration, or from a model file that `train` has written. -/
inductive Saved (x : Externals F N) : Input F → Prop where
  | config (j : Doc F) : Saved x (.config j)
  | trained {a : TrainArgs} {fmt : DataFormat} {input : Input F} {data : Str} {out : TrainOutput F} : Saved x input → Train x a fmt input data out →
      Clean x fmt data → Saved x (.inputModel out.model)

/-- Train without output and without threads. -/
def quietly (p : OutputPeriod) : TrainArgs := ⟨true, false, p, none, 0, 0⟩

end Cli
end Rml
