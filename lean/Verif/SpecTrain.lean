import Verif.Spec
import Verif.SpecHash
import Verif.SpecText
import Verif.Model.JsonParser

/-! Specification vocabulary for the theorems about training from text: which texts give examples without empty namespaces. -/

namespace Rml
open Text

/-- All feature objects of the example are well-formed and have no composite namespaces. -/
def Features.Formed {F : Type} : Features F → Prop
  | .simple f => f.WF ∧ f.NoComposite
  | .cbAdf f => (∀ s, f.shared = some s → s.WF ∧ s.NoComposite) ∧ ∀ a ∈ f.actions, a.WF ∧ a.NoComposite

namespace Vw
variable {F : Type}

/-- The text between two bars names at least one feature: after the name of the namespace, or anywhere if it has no name. -/
def SegmentHasFeature (segment : Str) : Prop :=
  if startsWith ' ' segment then splitAsciiWhitespace segment ≠ [] else 2 ≤ (splitAsciiWhitespace segment).length

/-- The lines that a chunk is cut into. -/
def chunkLines (pr : Parser F) (chunk : Str) : List Str := if SpansLines pr then lines [] chunk else [chunk]

/-- Every namespace that is written in the chunk has a feature. -/
def ChunkFull (pr : Parser F) (chunk : Str) : Prop := ∀ line ∈ chunkLines pr chunk, ∀ s ∈ (split '|' line).tail, SegmentHasFeature s

end Vw

namespace Js
variable {N : Type}

/-- The value of a namespace is not an object without features (`false` is not a feature). -/
def NotEmptyObject (v : Json N) : Prop := ∀ l, v = .obj l → ∃ e ∈ l, e.2 ≠ .bool false

/-- All namespaces of a features object have a feature. -/
def AllFull (v : Json N) : Prop := ∀ l, v = .obj l → ∀ e ∈ l, NotEmptyObject e.2

/-- All namespaces in a document have a feature. -/
structure DocFull (j : Json N) : Prop where
  features : AllFull (valueOf "features" j)
  shared : AllFull (valueOf "shared" j)
  actions : ∀ l, valueOf "actions" j = .arr l → ∀ v ∈ l, AllFull v

end Js
end Rml
