import Verif.SpecPython
import Verif.SpecSafe
import Verif.Model.PythonCrash

/-! Vocabulary for Python programs that catch panics. -/

namespace Rml
namespace Py
open Text Cli
variable {F : Type} [Flt F] {N : Type}

/-- The texts that are parsed on the way, by whichever parser object is used, are as in `CleanText`, and the JSON models that are loaded as in `CleanJson`. -/
def CleanAttempts (e : Env F N) (s : State F) (cs : List (Call F × Nat)) : Prop :=
  (∀ before i text lost after, cs = before ++ (.parse i text, lost) :: after →
    ∀ fmt ft lt seed nb, (attempts e s before).2.heap[i]? = some (.parser fmt ft lt seed nb) → CleanText e.x fmt ft lt seed nb text) ∧
  ∀ j lost, (Call.fromJsonModel j, lost) ∈ cs → CleanJson e.fin j

/-- All feature objects that still exist are valid examples. -/
def AllValid (h : List (Obj F)) : Prop := ∀ ft, .features ft ∈ h → ft.Valid

/-- The objects that the call is given: those that it may change. -/
def Call.arguments : Call F → List Nat
  | .predict _ f => [f]
  | .learn w f _ | .predictThenLearn w f _ => [w, f]
  | .del i => [i]
  | _ => []

/-- At no time there is a workspace whose stack has an ElementwiseInteraction. -/
def NoElementwiseUsed (e : Env F N) (s : State F) (cs : List (Call F × Nat)) : Prop :=
  ∀ before after, cs = before ++ after → ∀ m, .workspace m ∈ (attempts e s before).2.heap → m.ws.red.NoElementwise

end Py
end Rml
