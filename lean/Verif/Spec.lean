import Verif.Model.Factory
import Verif.Props.SparseFeatures

/-! Specification vocabulary for the theorems about reduction stacks: what an example is, when two examples are the same, what a
workspace created from a configuration is, and histories of API calls. -/

namespace Rml
variable {F : Type}

/-- No namespace of the kind ElementwiseInteraction makes is visible. (The parsers never make one.) -/
def SparseFeatures.NoComposite (f : SparseFeatures F) : Prop := ∀ h, f.getNamespace (.rawHash h) = none

/-- Every visible namespace contains a feature. -/
def SparseFeatures.NoEmpty (f : SparseFeatures F) : Prop := ∀ ns n, f.getNamespace ns = some n → n.size ≠ 0

/-- Examples built through the API: well-formed feature objects without composite namespaces; for contextual bandits also without
visible but empty namespaces (see `C26_empty_namespace_false`). -/
def Features.Valid : Features F → Prop
  | .simple f => f.WF ∧ f.NoComposite
  | .cbAdf f => (∀ s, f.shared = some s → s.WF ∧ s.NoComposite ∧ s.NoEmpty) ∧ ∀ a ∈ f.actions, a.WF ∧ a.NoComposite ∧ a.NoEmpty

/-- The same example: same namespaces, features, values and visibility everywhere. -/
def Features.SameAs : Features F → Features F → Prop
  | .simple f, .simple g => f.SameAs g
  | .cbAdf f, .cbAdf g =>
    (match f.shared, g.shared with
      | some s, some t => s.SameAs t
      | none, none => True
      | _, _ => False) ∧ List.Forall₂ SparseFeatures.SameAs f.actions g.actions
  | _, _ => False

/-- The same shared features, or none on both sides. -/
def SharedSame : Option (SparseFeatures F) → Option (SparseFeatures F) → Prop
  | some x, some y => x.SameAs y
  | none, none => True
  | _, _ => False

/-- `m` holds the features of `a` followed by those of `s` (if there are any), namespace by namespace. -/
structure SparseFeatures.MergeOf (m a : SparseFeatures F) (s : Option (SparseFeatures F)) : Prop where
  wf : m.WF
  report : ∀ ns, m.report ns =
    match a.report ns, s.bind (·.report ns) with
    | none, none => none
    | some x, none => some x
    | none, some y => some y
    | some x, some y => some (x ++ y)

variable [Flt F]

/-- The stack was created from a configuration; the learned state is arbitrary. -/
def Workspace.FromConfig (w : Workspace F) : Prop :=
  ∃ hash g c, ∃ w0 : Workspace F, Workspace.new hash g c = .ok w0 ∧ w.red = w0.red

/-- Learning a list of examples, one after the other. -/
def learnAll (dbg : Bool) : Workspace F → List (Features F × Label F) → M (Workspace F)
  | w, [] => .ok w
  | w, (ft, l) :: rest => do
    let (w', _) ← w.learn dbg ft l
    learnAll dbg w' rest

/-- A call of a client that holds examples numbered by `Nat`. -/
inductive Call (F : Type) where
  | predict (i : Nat)
  | learn (i : Nat) (l : Label F)
  | predictThenLearn (i : Nat) (l : Label F)

/-- Calls that are meant to change the model. -/
def Call.isUpdate : Call F → Bool
  | .predict _ => false
  | _ => true

/-- A workspace and the examples of the client. -/
structure Session (F : Type) [Flt F] where
  w : Workspace F
  ex : Nat → Features F

/-- The client passes its example by mutable reference. -/
def Session.put (S : Session F) (w : Workspace F) (i : Nat) (ft : Features F) : Session F :=
  ⟨w, fun j => if j = i then ft else S.ex j⟩

/-- One call; returns the prediction, if there is one. -/
def Session.step (dbg : Bool) (S : Session F) : Call F → M (Session F × Option (Prediction F))
  | .predict i => do
    let (p, ft) ← S.w.predict dbg (S.ex i)
    .ok (S.put S.w i ft, some p)
  | .learn i l => do
    let (w, ft) ← S.w.learn dbg (S.ex i) l
    .ok (S.put w i ft, none)
  | .predictThenLearn i l => do
    let (p, w, ft) ← S.w.predictThenLearn dbg (S.ex i) l
    .ok (S.put w i ft, some p)

/-- A history of calls, with everything it returned. -/
def Session.run (dbg : Bool) : Session F → List (Call F) → M (Session F × List (Call F × Option (Prediction F)))
  | S, [] => .ok (S, [])
  | S, c :: cs => do
    let (S1, o) ← S.step dbg c
    let (S2, os) ← Session.run dbg S1 cs
    .ok (S2, (c, o) :: os)

end Rml
