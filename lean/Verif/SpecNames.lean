import Verif.SpecText
import Verif.Model.VwNames

/-! Specification vocabulary for the names of features in VW text. -/

namespace Rml
namespace Vw
open Text
variable {F : Type} [Flt F]

/-- The names of the features that are written, in order; `k` anonymous features come before. -/
def names : Nat → List VwFeat → List ParsedFeature
  | _, [] => []
  | k, .name n :: fs => .simple n :: names k fs
  | k, .number n _ :: fs => .simple n :: names k fs
  | k, .text n value :: fs => .simpleWithStringValue n value :: names k fs
  | k, .anon _ :: fs => .anonymous (BitVec.ofNat 32 k) :: names (k + 1) fs

/-- The name of the namespace. -/
def VwNs.info (n : VwNs) : NsInfo :=
  match n.name with
  | none => .default
  | some (s, _) => .named s

/-- The names of the features of a namespace. -/
def VwNs.names (n : VwNs) : List ParsedFeature := Vw.names 0 (n.feats.map (·.2))

/-- A space comes right after the name of the namespace. -/
def VwNs.Spaced (n : VwNs) : Prop := n.body.head? = some ' '

/-- `m` gives for each namespace of the list the names of the features in its last occurrence, and nothing for other namespaces. -/
def LastNames (nss : List VwNs) (m : List (NsInfo × List ParsedFeature)) : Prop :=
  ∀ i, m.lookup i = ((nss.filter (fun n => n.info = i)).getLast?).map VwNs.names

/-- `m` gives for each namespace of the list the names of the features in all its occurrences, and nothing for other namespaces. -/
def AllNames (nss : List VwNs) (m : List (NsInfo × List ParsedFeature)) : Prop :=
  ∀ i, m.lookup i = match nss.filter (fun n => n.info = i) with
    | [] => none
    | l => some (l.flatMap VwNs.names)

end Vw
end Rml
