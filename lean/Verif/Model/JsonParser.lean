import Verif.Model.VwText
import Verif.Model.Json

/-
`parsers/json_parser.rs` and `parsers/dsjson_parser.rs`.
-/

namespace Rml
namespace Js
open Text
variable {F N : Type} [Flt F]

/-- The parts of a JSON parser that are fixed when it is created (`json_parser.rs:113-119`, `dsjson_parser.rs:47-53`), with the external functions: the
hash function, `serde_json::from_str`, `as_f64().unwrap() as f32` and `as_u64` on a JSON number, and what `serde` makes of a number where an `f32` is
expected; and the profile. -/
structure Parser (F N : Type) where
  featuresType : FeaturesType
  labelType : LabelType
  hashSeed : U32
  numBits : Nat
  hash : HashFn
  parseJson : Str → Option (Json N)
  toF32 : N → F
  toU64 : N → Option Nat
  serdeF32 : N → F
  dbg : Bool

/-- `Value::get` of `serde_json_borrow` (external crate): the first entry with the key, `Null` if there is none. -/
def getV (k : String) (j : Json N) : Json N := (j.get? k).getD .null

/-- `get_next_chunk` (`json_parser.rs:184-195`, `dsjson_parser.rs:160-171`): the chunk, with its newline, and the rest of the input. Reading is assumed
to succeed. -/
def getNextChunk (input : Str) : Option Str × Str :=
  let (line, rest) := readLine input
  if line.isEmpty then (none, rest) else (some line, rest)

/-- `x.as_f64().expect(..) as f32`. -/
def asF32 (pr : Parser F N) : Json N → M F
  | .num n => .ok (pr.toF32 n)
  | _ => .error .unwrap

/-- `string.as_str().expect(..)`. -/
def asStr : Json N → M Str
  | .str s => .ok s
  | _ => .error .unwrap

/-- The half-open range of feature indices, each masked (`json_parser.rs:31-32`). The end is computed in `u32`: overflow panics in the debug profile
and wraps in the release profile. -/
def indexRange (pr : Parser F N) (h : U32) (len : Nat) : M (List U32) := do
  let stop ← addChecked pr.dbg h (BitVec.ofNat 32 len)
  .ok ((List.range (stop.toNat - h.toNat)).map fun i => maskIdx pr.numBits (h + BitVec.ofNat 32 i))

/-- One entry of an object of named features (`json_parser.rs:57-80`). -/
def entryStep (pr : Parser F N) (h : U32) (n : NsFeats F) (e : Str × Json N) : M (NsFeats F) :=
  match e.2 with
  | .num v => do
    let i ← (ParsedFeature.simple e.1).hash pr.hash pr.dbg h
    .ok (n.addFeature (maskIdx pr.numBits i) (pr.toF32 v))
  | .str v => do
    let i ← (ParsedFeature.simpleWithStringValue e.1 v).hash pr.hash pr.dbg h
    .ok (n.addFeature (maskIdx pr.numBits i) Flt.one)
  | .bool true => do
    let i ← (ParsedFeature.simple e.1).hash pr.hash pr.dbg h
    .ok (n.addFeature (maskIdx pr.numBits i) Flt.one)
  | .bool false => .ok n
  | _ => .error .todo

/-- One string of a list of strings (`json_parser.rs:42-49`). -/
def stringStep (pr : Parser F N) (h : U32) (n : NsFeats F) (s : Json N) : M (NsFeats F) := do
  let name ← asStr s
  let i ← (ParsedFeature.simple name).hash pr.hash pr.dbg h
  .ok (n.addFeature (maskIdx pr.numBits i) Flt.one)

/-- The contents of one namespace (`json_parser.rs:27-83`). -/
def contents (pr : Parser F N) (n : NsFeats F) (value : Json N) : M (NsFeats F) :=
  let h := n.namespace_.hash
  match value with
  | .str _ => .error .todo
  | .arr ar =>
    match ar with
    | .num _ :: _ => do
      let is ← indexRange pr h ar.length
      let vs ← ar.mapM (asF32 pr)
      n.addFeaturesWithIter is vs
    | .str _ :: _ => do
      let n ← n.reserve ar.length
      ar.foldlM (stringStep pr h) n
    | _ :: _ => .error .explicit
    | [] => .error .todo
  | .obj l => l.foldlM (entryStep pr h) n
  | _ => .error .todo

/-- One namespace (`json_parser.rs:23-84`). -/
def nsStep (pr : Parser F N) (output : SparseFeatures F) (e : Str × Json N) : M (SparseFeatures F) := do
  let ns := Namespace.fromName pr.hash e.1 pr.hashSeed
  let n ← contents pr (output.getOrCreate ns) e.2
  .ok (output.setNamespace ns n)

/-- `to_features` (`json_parser.rs:15-88`). -/
def toFeatures (pr : Parser F N) (val : Json N) (output : SparseFeatures F) : M (SparseFeatures F) :=
  match val with
  | .obj l => l.foldlM (nsStep pr) output
  | _ => .error .explicit

/-- The actions of `parse_features` (`json_parser.rs:142-147`): every action takes an object of the pool. -/
def actions (pr : Parser F N) : List (Json N) → Pool (SparseFeatures F) → M (List (SparseFeatures F) × Pool (SparseFeatures F))
  | [], pool => .ok ([], pool)
  | v :: vs, pool => do
    let (f, pool) := pool.getObject SparseFeatures.new
    let f ← toFeatures pr v f
    let (fs, pool) ← actions pr vs pool
    .ok (f :: fs, pool)

/-- The shared features of `parse_features` (`json_parser.rs:131-138`). -/
def shared (pr : Parser F N) (j : Json N) (pool : Pool (SparseFeatures F)) : M (Option (SparseFeatures F) × Pool (SparseFeatures F)) :=
  match getV "shared" j with
  | .null => .ok (none, pool)
  | val => do
    let (f, pool) := pool.getObject SparseFeatures.new
    let f ← toFeatures pr val f
    .ok (some f, pool)

/-- `parse_features` (`json_parser.rs:122-154`). -/
def parseFeatures (pr : Parser F N) (j : Json N) (pool : Pool (SparseFeatures F)) : M (Features F × Pool (SparseFeatures F)) :=
  match pr.featuresType with
  | .sparseSimple =>
    match getV "features" j with
    | .null => .error .explicit
    | val => do
      let (f, pool) := pool.getObject SparseFeatures.new
      let f ← toFeatures pr val f
      .ok (.simple f, pool)
  | .sparseCBAdf => do
    let (s, pool) ← shared pr j pool
    match getV "actions" j with
    | .null => .error .explicit
    | .arr l => do
      let (fs, pool) ← actions pr l pool
      .ok (.cbAdf ⟨s, fs⟩, pool)
    | _ => .error .explicit

/-- A field of an object that has been converted to `serde_json::Value` (external crate): of several entries with the same key the last one counts. -/
def field (k : String) (l : List (Str × Json N)) : Option (Json N) := l.reverse.lookup k.toList

/-- A number where `serde` expects an `f32`. -/
def serdeF (pr : Parser F N) : Option (Json N) → M F
  | some (.num n) => .ok (pr.serdeF32 n)
  | _ => .error .unwrap

/-- A number where `serde` expects a `usize`. -/
def serdeU (pr : Parser F N) : Option (Json N) → M Nat
  | some (.num n) => unwrapOpt (pr.toU64 n)
  | _ => .error .unwrap

/-- The derived `Deserialize` of `SimpleLabel` (`types.rs:78-82`), unwrapped: from an object, other keys being ignored, or from an array of the fields in
order. -/
def serdeSimple (pr : Parser F N) : Json N → M (SimpleLabel F)
  | .obj l => do
    let v ← serdeF pr (field "value" l)
    let w ← serdeF pr (field "weight" l)
    .ok ⟨v, w⟩
  | .arr [v, w] => do
    let v ← serdeF pr (some v)
    let w ← serdeF pr (some w)
    .ok ⟨v, w⟩
  | _ => .error .unwrap

/-- The derived `Deserialize` of `CBLabel` (`types.rs:119-125`), unwrapped. -/
def serdeCb (pr : Parser F N) : Json N → M (CBLabel F)
  | .obj l => do
    let a ← serdeU pr (field "action" l)
    let c ← serdeF pr (field "cost" l)
    let p ← serdeF pr (field "probability" l)
    .ok ⟨a, c, p⟩
  | .arr [a, c, p] => do
    let a ← serdeU pr (some a)
    let c ← serdeF pr (some c)
    let p ← serdeF pr (some p)
    .ok ⟨a, c, p⟩
  | _ => .error .unwrap

/-- `parse_label` (`json_parser.rs:158-180`). -/
def parseLabel (pr : Parser F N) (j : Json N) : M (Option (Label F)) :=
  match pr.labelType with
  | .simple =>
    match getV "label" j with
    | .null => .ok none
    | .num n => .ok (some (.simple (SimpleLabel.ofF (pr.toF32 n))))
    | val => do
      let l ← serdeSimple pr val
      .ok (some (.simple l))
  | .binary => .error .todo
  | .cb =>
    match getV "label" j with
    | .null => .ok none
    | val => do
      let l ← serdeCb pr val
      .ok (some (.cb l))

/-- `parse_chunk` (`json_parser.rs:197-202`): the result and the pool. -/
def parseChunk (pr : Parser F N) (pool : Pool (SparseFeatures F)) (chunk : Str) : M ((Features F × Option (Label F)) × Pool (SparseFeatures F)) := do
  let j ← unwrapOpt (pr.parseJson chunk)
  let (f, pool) ← parseFeatures pr j pool
  let l ← parseLabel pr j
  .ok ((f, l), pool)

end Js

namespace Ds
open Text Js
variable {F N : Type} [Flt F]

/-- The checks of `create` (`dsjson_parser.rs:29-36`). -/
def create (pr : Parser F N) : M (Parser F N) :=
  if pr.featuresType ≠ .sparseCBAdf then .error .explicit
  else if pr.labelType ≠ .cb then .error .explicit
  else .ok pr

/-- A feature is added to a namespace (`dsjson_parser.rs:75-82, 89-96, 102-112, 125-133`). -/
def addTo (pr : Parser F N) (feat : ParsedFeature) (v : F) (ns : Namespace) (f : SparseFeatures F) : M (SparseFeatures F) := do
  let i ← feat.hash pr.hash pr.dbg ns.hash
  .ok (f.modifyOrCreate ns fun n => n.addFeature (maskIdx pr.numBits i) v)

/-- A feature is added to the namespace on top of the stack (`dsjson_parser.rs:71-83, 85-97, 98-113`). The stack is kept with its top first. -/
def addTop (pr : Parser F N) (feat : ParsedFeature) (v : F) (stack : List Namespace) (f : SparseFeatures F) : M (SparseFeatures F) :=
  match stack with
  | [] => .error .unwrap
  | ns :: _ => addTo pr feat v ns f

/-- `namespace_stack.pop().unwrap()`. -/
def pop (r : SparseFeatures F × List Namespace) : M (SparseFeatures F × List Namespace) :=
  match r.2 with
  | [] => .error .unwrap
  | _ :: st => .ok (r.1, st)

mutual
/-- `handle_features` (`dsjson_parser.rs:56-156`): the features and the stack afterwards. -/
def handle (pr : Parser F N) (key : Str) (v : Json N) (stack : List Namespace) (f : SparseFeatures F) : M (SparseFeatures F × List Namespace) :=
  if startsWith '_' key then .ok (f, stack)
  else
    match v with
    | .null => .error .explicit
    | .bool true => (addTop pr (.simple key) Flt.one stack f).map (·, stack)
    | .bool false => .ok (f, stack)
    | .num x => (addTop pr (.simple key) (pr.toF32 x) stack f).map (·, stack)
    | .str s => (addTop pr (.simpleWithStringValue key s) Flt.one stack f).map (·, stack)
    | .arr l => do
      let r ← handleArr pr key (Namespace.fromName pr.hash key pr.hashSeed) 0 l (Namespace.fromName pr.hash key pr.hashSeed :: stack) f
      pop r
    | .obj l => do
      let r ← handleObj pr l (Namespace.fromName pr.hash key pr.hashSeed :: stack) f
      pop r

/-- The loop over the elements of an array (`dsjson_parser.rs:120-145`), from position `i` on; `ns` is the namespace of the array. -/
def handleArr (pr : Parser F N) (key : Str) (ns : Namespace) (i : Nat) (l : List (Json N)) (stack : List Namespace) (f : SparseFeatures F) :
    M (SparseFeatures F × List Namespace) :=
  match l with
  | [] => .ok (f, stack)
  | .num x :: vs => do
    let f ← addTo pr (.anonymous (BitVec.ofNat 32 i)) (pr.toF32 x) ns f
    handleArr pr key ns (i + 1) vs stack f
  | .obj o :: vs => do
    let (f, stack) ← handle pr key (.obj o) stack f
    handleArr pr key ns (i + 1) vs stack f
  | .null :: vs => handleArr pr key ns (i + 1) vs stack f
  | _ :: _ => .error .explicit

/-- The loop over the entries of an object (`dsjson_parser.rs:150-152`). -/
def handleObj (pr : Parser F N) (l : List (Str × Json N)) (stack : List Namespace) (f : SparseFeatures F) :
    M (SparseFeatures F × List Namespace) :=
  match l with
  | [] => .ok (f, stack)
  | (k, v) :: vs => do
    let (f, stack) ← handle pr k v stack f
    handleObj pr vs stack f
end

/-- One example of a document (`dsjson_parser.rs:178-180, 184-187`): the object of the pool, the features, the check that the stack is empty again. -/
def example_ (pr : Parser F N) (v : Json N) (stack : List Namespace) (pool : Pool (SparseFeatures F)) :
    M (SparseFeatures F × List Namespace × Pool (SparseFeatures F)) := do
  let (f, pool) := pool.getObject SparseFeatures.new
  let (f, stack) ← handle pr " ".toList v stack f
  massert stack.isEmpty
  .ok (f, stack, pool)

/-- The loop over the actions (`dsjson_parser.rs:182-188`). -/
def actions (pr : Parser F N) : List (Json N) → List Namespace → Pool (SparseFeatures F) → M (List (SparseFeatures F) × Pool (SparseFeatures F))
  | [], _, pool => .ok ([], pool)
  | v :: vs, stack, pool => do
    let (f, stack, pool) ← example_ pr v stack pool
    let (fs, pool) ← actions pr vs stack pool
    .ok (f :: fs, pool)

/-- `iter_array().unwrap()`. -/
def iterArray : Json N → M (List (Json N))
  | .arr l => .ok l
  | _ => .error .unwrap

/-- The label (`dsjson_parser.rs:190-202`). -/
def label (pr : Parser F N) (j : Json N) : M (Option (CBLabel F)) :=
  match getV "_label_cost" j, getV "_label_probability" j, getV "_labelIndex" j with
  | .num c, .num p, .num a => do
    let a ← unwrapOpt (pr.toU64 a)
    .ok (some ⟨a, pr.toF32 c, pr.toF32 p⟩)
  | .null, .null, .null => .ok none
  | _, _, _ => .error .explicit

/-- `parse_chunk` (`dsjson_parser.rs:173-211`). -/
def parseChunk (pr : Parser F N) (pool : Pool (SparseFeatures F)) (chunk : Str) : M ((Features F × Option (Label F)) × Pool (SparseFeatures F)) := do
  let j ← unwrapOpt (pr.parseJson chunk)
  let (s, stack, pool) ← example_ pr (getV "c" j) [] pool
  let items ← iterArray (getV "_multi" (getV "c" j))
  let (fs, pool) ← actions pr items stack pool
  let l ← label pr j
  .ok ((.cbAdf ⟨some s, fs⟩, l.map .cb), pool)

end Ds
end Rml
