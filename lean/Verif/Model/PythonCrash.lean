import Verif.Model.Python
import Verif.Model.Crash

/-
A Python program that catches panics. pyo3 turns a panic into a `PanicException`; the objects are then as the panicking call has left them, and the mutable
borrows have ended. The mutex of the pool (`object_pool.rs:1-5`, parking_lot) is not poisoned by a panic.
-/

namespace Rml
namespace Py
open Text Cli
variable {F : Type} [Flt F] {N : Type}

/-- One call, with the objects as they are after it, whether it returned or panicked. `predict`, `learn` and `predict_then_learn`
(`workspace.rs:176-202`) change the features and the workspace in place. What a prediction or a label becomes in Python is decided at the end
(`predictions.rs:149-162`, `labels.rs:171-179`), so that a panic there comes after the changes. A `parse` that panics drops the objects that it had taken from
the pool by then; their number is the parameter `lost`, which may be anything. All other calls panic before they change anything. -/
def attempt (e : Env F N) (lost : Nat) (s : State F) (c : Call F) : Except Panic (Ret F) × State F :=
  match c with
  | .predict w f =>
    match s.heap[w]?, s.heap[f]? with
    | some (.workspace m), some (.features ft) =>
      let r := m.ws.predictCr e.x.dbg ft
      ((do let p ← r.1; let p ← predictionToPy p; .ok (.prediction p)), s.put f (.features r.2))
    | _, _ => (.ok .typeError, s)
  | .learn w f l =>
    match s.heap[w]?, s.heap[f]? with
    | some (.workspace m), some (.features ft) =>
      let r := m.ws.learnCr e.x.dbg ft l.toLabel
      ((do let _ ← r.1; .ok .none), (s.put w (.workspace { m with ws := r.2.1 })).put f (.features r.2.2))
    | _, _ => (.ok .typeError, s)
  | .predictThenLearn w f l =>
    match s.heap[w]?, s.heap[f]? with
    | some (.workspace m), some (.features ft) =>
      let r := m.ws.predictThenLearnCr e.x.dbg ft l.toLabel
      ((do let p ← r.1; let p ← predictionToPy p; .ok (.prediction p)), (s.put w (.workspace { m with ws := r.2.1 })).put f (.features r.2.2))
    | _, _ => (.ok .typeError, s)
  | .parse p text =>
    match parse e lost s p text with
    | .ok (r, s') => (.ok r, s')
    | .error p => (.error p, { s with pool := ⟨s.pool.objects.drop lost⟩ })
  | c =>
    match step e lost s c with
    | .ok (r, s') => (.ok r, s')
    | .error p => (.error p, s)

/-- A sequence of calls by a program that catches every exception: the results, and the objects afterwards. -/
def attempts (e : Env F N) (s : State F) : List (Call F × Nat) → List (Except Panic (Ret F)) × State F
  | [] => ([], s)
  | (c, lost) :: cs =>
    let r := attempt e lost s c
    (r.1 :: (attempts e r.2 cs).1, (attempts e r.2 cs).2)

end Py
end Rml
