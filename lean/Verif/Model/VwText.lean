import Verif.Model.Text
import Verif.Model.Reductions
import Verif.Model.InverseHash

/-
`parsers/vw_text_parser.rs` and `parsers/text_parser.rs`.
-/

namespace Rml
namespace Vw
open Text
variable {F : Type} [Flt F]

/-- How a parser call can fail: an `Err` result or a panic. -/
inductive Fail where
  | err
  | panic (p : Panic)
  deriving DecidableEq, Repr

/-- A computation that returns a `Result` and may panic. -/
abbrev P (α : Type) := Except Fail α

/-- A panic inside a parser. -/
def liftM {α : Type} : M α → P α
  | .ok a => .ok a
  | .error p => .error (.panic p)

/-- `unwrap` inside a parser. -/
def unwrapP {α : Type} : Option α → P α
  | some a => .ok a
  | none => .error (.panic .unwrap)

/-- The parts of a parser that are fixed when it is created (`vw_text_parser.rs:384-390`), with the external functions: the hash function and
`fast_float::parse`; and the profile. -/
structure Parser (F : Type) where
  featuresType : FeaturesType
  labelType : LabelType
  hashSeed : U32
  numBits : Nat
  hash : HashFn
  parseFloat : Str → Option F
  dbg : Bool

/-- `CBTextLabel` (`vw_text_parser.rs:18-23`). The action is parsed and never used. -/
structure CBTextLabel (F : Type) where
  shared : Bool
  acp : Option (Nat × F × F)
  deriving DecidableEq, Repr

/-- `TextLabel` (`vw_text_parser.rs:25-30`). -/
inductive TextLabel (F : Type) where
  | simple (value : F) (weight : Option F)
  | cb (l : CBTextLabel F)
  deriving DecidableEq, Repr

/-- `TextParseResult` (`vw_text_parser.rs:129-133`). -/
structure TextParseResult (F : Type) where
  tag : Option Str
  label : Option (TextLabel F)

/-- `parse_label` (`vw_text_parser.rs:135-176`). -/
def parseLabel (pr : Parser F) (tokens : List Str) : P (Option (TextLabel F)) :=
  match pr.labelType with
  | .simple =>
    match tokens with
    | [] => .ok none
    | [t] => do
      let v ← unwrapP (pr.parseFloat t)
      .ok (some (.simple v none))
    | [t, u] => do
      let v ← unwrapP (pr.parseFloat t)
      let w ← unwrapP (pr.parseFloat u)
      .ok (some (.simple v (some w)))
    | _ => .error (.panic .todo)
  | .binary => .error (.panic .todo)
  | .cb =>
    match tokens with
    | [] => .ok (some (.cb ⟨false, none⟩))
    | value :: _ =>
      if trim value = "shared".toList then .ok (some (.cb ⟨true, none⟩))
      else do
        let parts := split ':' value
        let a ← unwrapP parts[0]?
        let action ← unwrapP (parseU32 a)
        let c ← unwrapP parts[1]?
        let cost ← unwrapP (pr.parseFloat c)
        let p ← unwrapP parts[2]?
        let probability ← unwrapP (pr.parseFloat p)
        .ok (some (.cb ⟨false, some (action, cost, probability)⟩))

/-- `parse_feature` (`vw_text_parser.rs:180-225`): the feature, its value, and the counter of anonymous features. -/
def parseFeature (pr : Parser F) (feature : Str) (counter : U32) : P (ParsedFeature × F × U32) :=
  if startsWith ':' feature then
    match pr.parseFloat feature.tail with
    | some value => do
      let next ← liftM (addChecked pr.dbg counter 1#32)
      .ok (.anonymous counter, value, next)
    | none => .ok (.simpleWithStringValue [] (trim feature.tail), Flt.one, counter)
  else do
    let tokens := split ':' feature
    let name ← unwrapP tokens[0]?
    match tokens[1]? with
    | some value =>
      match pr.parseFloat value with
      | some v => .ok (.simple name, v, counter)
      | none => .ok (.simpleWithStringValue name (trim value), Flt.one, counter)
    | none => .ok (.simple name, Flt.one, counter)

/-- One iteration of the loop of `parse_namespace_inline` (`vw_text_parser.rs:256-263`); `dest` is the namespace. The mask is
modelled for `num_bits` up to 31. -/
def featureStep (pr : Parser F) (nsHash : U32) (nsValue : F) (s : NsFeats F × U32) (token : Str) : P (NsFeats F × U32) := do
  let (feat, value, counter) ← parseFeature pr token s.2
  let h ← liftM (feat.hash pr.hash pr.dbg nsHash)
  .ok (s.1.addFeature (maskIdx pr.numBits h) (Flt.mul value nsValue), counter)

/-- The namespace name, its scale and the feature tokens of a segment (first part of `parse_namespace_inline`, `vw_text_parser.rs:233-250`). -/
def segmentHead (pr : Parser F) (segment : Str) : P (Str × F × List Str) :=
  let tokens := splitAsciiWhitespace segment
  if startsWith ' ' segment then .ok (" ".toList, Flt.one, tokens)
  else
    match tokens with
    | [] => .error (.panic .unwrap)
    | info :: rest => do
      let infos := split ':' info
      let name ← unwrapP infos[0]?
      match infos[1]? with
      | some v => do
        let value ← unwrapP (pr.parseFloat v)
        .ok (name, value, rest)
      | none => .ok (name, Flt.one, rest)

/-- `parse_namespace_inline` (`vw_text_parser.rs:227-266`). -/
def parseNamespaceInline (pr : Parser F) (segment : Str) (dest : SparseFeatures F) : P (SparseFeatures F) := do
  let (name, value, tokens) ← segmentHead pr segment
  let ns := Namespace.fromName pr.hash name pr.hashSeed
  let (n, _) ← tokens.foldlM (featureStep pr ns.hash value) (dest.getOrCreate ns, 0#32)
  .ok (dest.setNamespace ns n)

/-- `parse_initial_segment` (`vw_text_parser.rs:317-342`). -/
def parseInitialSegment (pr : Parser F) (text : Str) : P (Option Str × Option (TextLabel F)) := do
  let lastIsSpace := endsWith ' ' text
  let tokens := splitWhitespace text
  let (tag, tokens) :=
    match tokens.getLast? with
    | some x =>
      if startsWith '\'' x || !lastIsSpace then (some (if startsWith '\'' x then x.tail else x), tokens.dropLast) else (none, tokens)
    | none => (none, tokens)
  let label ← parseLabel pr tokens
  .ok (tag, label)

/-- `parse_text_line_internal` (`vw_text_parser.rs:344-360`). -/
def parseTextLine (pr : Parser F) (text : Str) (dest : SparseFeatures F) : P (TextParseResult F × SparseFeatures F) := do
  match split '|' text with
  | [] => .error (.panic .unwrap)
  | initial :: segments => do
    let (tag, label) ← parseInitialSegment pr initial
    let dest ← segments.foldlM (fun d s => parseNamespaceInline pr s d) dest
    .ok (⟨tag, label⟩, dest)

/-- `read_single_line` (`vw_text_parser.rs:421-440`) with an empty buffer: the chunk, if there is one, and the rest of the input. The loop reads
at least one character each time around, so `fuel` above the length of the input never runs out. -/
def readSingleLine : Nat → Str → Option Str × Str
  | 0, input => (none, input)
  | fuel + 1, input =>
    let (line, rest) := readLine input
    if line.isEmpty then (none, rest)
    else if (trimEnd line).isEmpty then readSingleLine fuel rest
    else (some (trimEnd line), rest)

/-- The loop of `read_multi_lines` (`vw_text_parser.rs:397-418`) with the buffer of the lines read so far. Lengths are compared in
characters instead of bytes; both buffers are prefixes of the same text. -/
def readMultiLines : Nat → Str → Str → Option Str × Str
  | 0, _, input => (none, input)
  | fuel + 1, buffer, input =>
    let lenBefore := buffer.length
    let buffer := if !buffer.isEmpty then buffer ++ ['\n'] else buffer
    let (line, rest) := readLine input
    let buffer := buffer ++ line
    if line.isEmpty && buffer.isEmpty then (none, rest)
    else
      let buffer := trimEnd buffer
      if buffer.isEmpty && decide (lenBefore = 0) then readMultiLines fuel buffer rest
      else if decide (0 < lenBefore) && decide (buffer.length = lenBefore) then (some buffer, rest)
      else readMultiLines fuel buffer rest

/-- `is_multiline` (`vw_text_parser.rs:517-521`). -/
def Parser.isMultiline (pr : Parser F) : Bool := decide (pr.featuresType = .sparseCBAdf) && decide (pr.labelType = .cb)

/-- `get_next_chunk` (`vw_text_parser.rs:443-454`): the chunk and the rest of the input. The buffer that is passed in is cleared first. Reading is
assumed to succeed. -/
def getNextChunk (pr : Parser F) (input : Str) : Option Str × Str :=
  if pr.isMultiline then readMultiLines (input.length + 2) [] input else readSingleLine (input.length + 1) input

/-- `finalize_parsed_result_singleline` (`vw_text_parser.rs:49-65`). -/
def finalizeSingleline (r : TextParseResult F) (dest : SparseFeatures F) : P (Features F × Option (Label F)) :=
  match r.label with
  | some (.simple x w) => .ok (.simple dest, some (.simple ⟨x, w.getD Flt.one⟩))
  | some (.cb _) => .error (.panic .todo)
  | none => .ok (.simple dest, none)

/-- `label.as_inner().expect("Label should be CB")` (`vw_text_parser.rs:86-87, 102`). -/
def asCb : TextLabel F → P (CBTextLabel F)
  | .cb l => .ok l
  | .simple _ _ => .error (.panic .unwrap)

/-- One iteration of the loop that finds the labelled action (`vw_text_parser.rs:101-115`). -/
def labelStep (s : Option (CBLabel F) × Nat) (l : Option (TextLabel F)) : P (Option (CBLabel F) × Nat) := do
  let l ← unwrapP l
  let l ← asCb l
  match l.acp with
  | some (_, c, p) => if s.1.isSome then .error .err else .ok (some ⟨s.2, c, p⟩, s.2 + 1)
  | none => .ok (s.1, s.2 + 1)

/-- `finalize_parsed_result_multiline` (`vw_text_parser.rs:67-127`). It is only called for contextual bandits. The labels are unwrapped as the
iterator is consumed. -/
def finalizeMultiline (pr : Parser F) (feats : List (SparseFeatures F)) (labels : List (Option (TextLabel F))) :
    P (Features F × Option (Label F)) :=
  match pr.labelType, pr.featuresType with
  | .cb, .sparseCBAdf =>
    match labels with
    | [] => .error .err
    | first :: rest => do
      let l ← unwrapP first
      let l ← asCb l
      if l.shared then
        match feats with
        | [] => .error (.panic .unwrap)
        | f :: fs => do
          let (label, _) ← rest.foldlM labelStep (none, 0)
          .ok (.cbAdf ⟨some f, fs⟩, label.map .cb)
      else do
        let (label, _) ← (first :: rest).foldlM labelStep (none, 0)
        .ok (.cbAdf ⟨none, feats⟩, label.map .cb)
  | _, _ => .error .err

/-- The loop over the lines of a chunk (`vw_text_parser.rs:459-471`): every line takes an object of the pool. -/
def parseLines (pr : Parser F) : List Str → Pool (SparseFeatures F) → P (List (SparseFeatures F) × List (Option (TextLabel F)) × Pool (SparseFeatures F))
  | [], pool => .ok ([], [], pool)
  | line :: ls, pool => do
    let (dest, pool) := pool.getObject SparseFeatures.new
    let (r, dest) ← parseTextLine pr line dest
    let (fs, rs, pool) ← parseLines pr ls pool
    .ok (dest :: fs, r.label :: rs, pool)

/-- `parse_chunk` (`vw_text_parser.rs:456-494`): the result and the pool. Objects taken from the pool before a failure are lost. -/
def parseChunk (pr : Parser F) (pool : Pool (SparseFeatures F)) (chunk : Str) : P ((Features F × Option (Label F)) × Pool (SparseFeatures F)) :=
  if pr.isMultiline then do
    let (fs, rs, pool) ← parseLines pr (lines [] chunk) pool
    let r ← finalizeMultiline pr fs rs
    .ok (r, pool)
  else do
    let (dest, pool) := pool.getObject SparseFeatures.new
    let (r, dest) ← parseTextLine pr chunk dest
    let r ← finalizeSingleline r dest
    .ok (r, pool)

end Vw
end Rml
