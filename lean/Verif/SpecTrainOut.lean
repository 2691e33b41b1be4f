import Verif.SpecPlay
import Verif.SpecSafe

/-! Specification vocabulary for C82: what training with output needs besides what training needs. -/

namespace Rml
variable {F : Type} [Flt F]

/-- Every softmax and SquareCB reduction of the model has uniform epsilon 0 (the default). -/
def Red.NoUniform : Red F → Prop
  | .coin _ => True
  | .softmax _ e _ r | .squareCb _ e _ _ r => Flt.eq e Flt.zero = true ∧ r.NoUniform
  | .binary _ r | .cbAdf _ _ r | .greedy _ _ r | .debug _ r | .elementwise _ _ _ _ r => r.NoUniform

namespace Cli

/-- The options of `train` fit the model and the examples. -/
structure OutputFits (a : TrainArgs) (m : Serde.Model F) (exs : List (Features F × Label F)) : Prop where
  /-- The table has a last row, which needs an example (see C71). -/
  some : a.quiet = false → exs ≠ []
  /-- The metrics exist. -/
  known : ∀ name ∈ a.metrics.getD [], name = "mse".toList ∨ name = "ips".toList ∨ name = "parsed_features".toList ∨ name = "example_number".toList
  /-- `mse` is for regression. -/
  mse : "mse".toList ∈ a.metrics.getD [] → m.ws.red.meta.types.inLabel = .simple ∧ m.ws.red.meta.types.outPrediction = .scalar
  /-- `ips` is for models that choose actions, and the logged actions are among the actions. -/
  ips : "ips".toList ∈ a.metrics.getD [] → m.ws.red.meta.types.inLabel = .cb ∧ m.ws.red.meta.types.outPrediction = .actionProbs ∧
    ∀ ex ∈ exs, ∀ f cl, ex = (.cbAdf f, .cb cl) → cl.action < f.actions.length
  /-- The counters are 32 bit integers. -/
  features : "parsed_features".toList ∈ a.metrics.getD [] → (exs.map (fun ex => numFeatures ex.1)).sum < 2 ^ 31
  examples : exs.length < 2 ^ 31
  period : ∀ q, a.progress = .additive q → exs.length + q ≤ 2 ^ 32
  /-- Choosing among actions needs an action. -/
  actions : m.ws.red.meta.types.outPrediction = .actionProbs → ∀ ex ∈ exs, ex.1.actionList ≠ []

end Cli
end Rml
