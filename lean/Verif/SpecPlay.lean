import Verif.SpecCommand

/-! Specification vocabulary for C77: what a user of the library would do instead of running `train`. -/

namespace Rml
namespace Cli
open Text
variable {F : Type} [Flt F] {N : Type}

/-- Parsing this text with a parser of the library that is created for the model, with new feature objects, gives these features and this label. -/
def Parsed (x : Externals F N) (fmt : DataFormat) (m : Serde.Model F) (text : Str) (ex : Features F × Label F) : Prop :=
  match fmt with
  | .vwText => ∃ pool, Vw.parseChunk ⟨m.ws.red.meta.types.inFeatures, m.ws.red.meta.types.inLabel, m.global.hashSeed, m.global.numBits, x.hash,
      x.parseFloat, x.dbg⟩ ⟨[]⟩ text = .ok ((ex.1, some ex.2), pool)
  | .json => ∃ pool, Js.parseChunk ⟨m.ws.red.meta.types.inFeatures, m.ws.red.meta.types.inLabel, m.global.hashSeed, m.global.numBits, x.hash,
      x.parseJson, x.toF32, x.toU64, x.serdeF32, x.dbg⟩ ⟨[]⟩ text = .ok ((ex.1, some ex.2), pool)
  | .dsjson => ∃ pool, Ds.parseChunk ⟨m.ws.red.meta.types.inFeatures, m.ws.red.meta.types.inLabel, m.global.hashSeed, m.global.numBits, x.hash,
      x.parseJson, x.toF32, x.toU64, x.serdeF32, x.dbg⟩ ⟨[]⟩ text = .ok ((ex.1, some ex.2), pool)

/-- Learning the examples one after the other succeeds and leads from the first workspace to the second. -/
inductive Learns (dbg : Bool) : Workspace F → List (Features F × Label F) → Workspace F → Prop where
  | nil {w} : Learns dbg w [] w
  | cons {w w1 w2 ft ft1 l exs} : w.learn dbg ft l = .ok (w1, ft1) → Learns dbg w1 exs w2 → Learns dbg w ((ft, l) :: exs) w2

/-- Each example is first predicted, then learned: the predictions. -/
inductive Plays (dbg : Bool) : Workspace F → List (Features F × Label F) → List (Prediction F) → Prop where
  | nil {w} : Plays dbg w [] []
  | cons {w w1 ft ft0 ft1 l exs p ps} : w.predict dbg ft = .ok (p, ft0) → w.learn dbg ft l = .ok (w1, ft1) → Plays dbg w1 exs ps →
      Plays dbg w ((ft, l) :: exs) (p :: ps)

/-! ### The progress table -/

/-- The number of features of an example: of the shared features and of all actions. -/
def numFeatures : Features F → Nat
  | .simple f => (f.namespaces.map (fun e => e.2.length)).sum
  | .cbAdf f => ((f.shared.toList ++ f.actions).map (fun f => (f.namespaces.map (fun e => e.2.length)).sum)).sum

/-- An example with its label and the prediction that was made for it. -/
abbrev Point (F : Type) := (Features F × Label F) × Prediction F

/-- The metric with this name has this value for these examples. Sums are formed in the order of the examples. -/
inductive MetricIs : Str → List (Point F) → MetricValue F → Prop where
  /-- The number of the last example, counted from zero. -/
  | exampleNumber (pts : List (Point F)) : MetricIs "example_number".toList pts (.int (pts.length - 1 : Int))
  | parsedFeatures (pts : List (Point F)) : MetricIs "parsed_features".toList pts (.int ((pts.map (fun pt => numFeatures pt.1.1)).sum : Nat))
  /-- The mean of the squared differences of the true value `y` and the predicted value `z`. -/
  | mse (pts : List (Point F)) (yz : List (F × F)) :
      List.Forall₂ (fun pt yz => (∃ weight, pt.1.2 = .simple ⟨yz.1, weight⟩) ∧ ∃ raw, pt.2 = .scalar yz.2 raw) pts yz →
      MetricIs "mse".toList pts
        (.float (Flt.div ((yz.map (fun e => Flt.mul (Flt.sub e.1 e.2) (Flt.sub e.1 e.2))).foldl Flt.add Flt.zero) (Flt.ofNat pts.length)))
  /-- The mean of the negative costs, each multiplied by the ratio of the predicted probability `q` of the action and its logged probability. -/
  | ips (pts : List (Point F)) (lq : List (CBLabel F × F)) :
      List.Forall₂ (fun pt lq => pt.1.2 = .cb lq.1 ∧ ∃ probs, pt.2 = .actionProbs probs ∧ probs.lookup lq.1.action = some lq.2) pts lq →
      MetricIs "ips".toList pts
        (.float (Flt.div ((lq.map (fun e => Flt.mul (Flt.mul (fl (-1)) e.1.cost) (Flt.div e.2 e.1.probability))).foldl Flt.add Flt.zero)
          (Flt.ofNat pts.length)))

/-- A row of the table: the values of the metrics for these examples. -/
def RowIs (names : List Str) (pts : List (Point F)) (row : List (MetricValue F)) : Prop := List.Forall₂ (fun name v => MetricIs name pts v) names row

/-- The numbers of examples after which a row is printed, if `bs` says for each example whether a row follows it. -/
def rowsAfter (bs : List Bool) : List Nat := ((List.range bs.length).filter (fun i => bs[i]? == some true)).map (· + 1)

end Cli
end Rml
