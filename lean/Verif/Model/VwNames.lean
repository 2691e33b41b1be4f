import Verif.Model.VwText

/-
`extract_feature_names` of `parsers/vw_text_parser.rs`.
-/

namespace Rml
namespace Vw
open Text
variable {F : Type} [Flt F]

/-- `ParsedNamespaceInfo` (`text_parser.rs:34-38`). -/
inductive NsInfo where
  | named (name : Str)
  | default
  deriving DecidableEq, Repr

/-- `parse_namespace_info_token` (`vw_text_parser.rs:268-281`). -/
def parseNamespaceInfoToken (pr : Parser F) (segment : Str) : P (Str × F) := do
  let tokens := split ':' segment
  match tokens[0]? with
  | none => .error .err
  | some name =>
    match tokens[1]? with
    | some value =>
      match pr.parseFloat value with
      | some v => .ok (name, v)
      | none => .error .err
    | none => .ok (name, Flt.one)

/-- `parse_namespace_info` (`vw_text_parser.rs:284-300`): the remaining input, the namespace and its value. `find(' ').unwrap()` panics if there is no
space. -/
def parseNamespaceInfo (pr : Parser F) (input : Str) : P (Str × NsInfo × F) :=
  if startsWith ' ' input then .ok (input.tail, .default, Flt.one)
  else
    match input.dropWhile (· != ' ') with
    | [] => .error (.panic .unwrap)
    | rest => do
      let (name, value) ← parseNamespaceInfoToken pr (input.takeWhile (· != ' '))
      .ok (rest, .named name, value)

/-- One step of the mapping over the feature tokens (`vw_text_parser.rs:309-312`). -/
def nameStep (pr : Parser F) (s : List ParsedFeature × U32) (token : Str) : P (List ParsedFeature × U32) := do
  let (feat, _, counter) ← parseFeature pr token s.2
  .ok (s.1 ++ [feat], counter)

/-- `extract_namespace_features` (`vw_text_parser.rs:302-315`). -/
def extractNamespaceFeatures (pr : Parser F) (segment : Str) : P (NsInfo × List ParsedFeature) := do
  let (remaining, info, _) ← parseNamespaceInfo pr segment
  let (feats, _) ← (splitAsciiWhitespace remaining).foldlM (nameStep pr) ([], 0#32)
  .ok (info, feats)

/-- `HashMap::insert` on an association list: an earlier entry of the key is replaced. -/
def insertName (m : List (NsInfo × List ParsedFeature)) (e : NsInfo × List ParsedFeature) : List (NsInfo × List ParsedFeature) :=
  e :: m.filter (fun x => x.1 ≠ e.1)

/-- The segments of a line after the label section (`vw_text_parser.rs:504-506, 510-512`). -/
def namespaceSegments (line : Str) : List Str := (split '|' line).tail

/-- `extract_feature_names` (`vw_text_parser.rs:496-514`). Collecting results into a map stops at the first failure. The map is an association list of
which only the lookups matter. -/
def extractFeatureNames (pr : Parser F) (chunk : Str) : P (List (NsInfo × List ParsedFeature)) :=
  let segments := if pr.isMultiline then (lines [] chunk).flatMap namespaceSegments else namespaceSegments chunk
  segments.foldlM (fun m s => do
    let e ← extractNamespaceFeatures pr s
    .ok (insertName m e)) []

end Vw
end Rml
