import Verif.Model.Factory

/-! Vocabulary of C112: events that agree on the chosen action, and stacks that are configured to learn from the chosen action only. -/

namespace Rml
variable {F : Type}

/-- Two reports of an event in which the same action was chosen, with the same result. The other actions may be anything; there are equally many. -/
structure SameChoice (e e' : CBAdfFeatures F × CBLabel F) : Prop where
  shared : e.1.shared = e'.1.shared
  chosen : e.1.actions[e.2.action]? = e'.1.actions[e'.2.action]?
  cost : e.2.cost = e'.2.cost
  probability : e.2.probability = e'.2.probability
  number : e.1.actions.length = e'.1.actions.length

/-- Stacks for bandit problems of type mtr, with any exploration and any debugging output above. -/
def RedConfig.Mtr : RedConfig F → Prop
  | .cbAdf ty _ => ty = .mtr
  | .greedy _ c | .softmax _ _ c | .squareCb _ _ _ c | .debug c => c.Mtr
  | _ => False

/-- Events as examples. -/
def asExamples (es : List (CBAdfFeatures F × CBLabel F)) : List (Features F × Label F) := es.map (fun e => (.cbAdf e.1, .cb e.2))

end Rml
