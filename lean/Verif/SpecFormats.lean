import Verif.SpecJson

/-! Specification vocabulary for C91: one description of an example, and how it is written in each of the three input formats. -/

namespace Rml
namespace Formats
open Text Vw Js
variable {F N : Type}

/-- The value of a named feature: present, a number (as written in VW text, and as the JSON parser delivers it), or a text. -/
inductive DVal (N : Type) where
  | flag
  | num (text : Str) (n : N)
  | text (s : Str)

/-- The contents of a namespace: named features, or numbers without names. -/
inductive DCont (N : Type) where
  | named (l : List (Str × DVal N))
  | numbers (l : List (Str × N))

/-- A namespace: the default one, or one with a name. -/
structure DNs (N : Type) where
  name : Option Str
  cont : DCont N

/-! ### VW text: `|name a b:1.5 c:red`, `| a`, `|name :1 :2` -/

def DVal.vw (k : Str) : DVal N → VwFeat
  | .flag => .name k
  | .num t _ => .number k t
  | .text s => .text k s

def DCont.vw : DCont N → List VwFeat
  | .named l => l.map fun e => e.2.vw e.1
  | .numbers l => l.map fun e => .anon e.1

def DNs.vw (d : DNs N) : VwNs := ⟨d.name.map fun s => (s, none), d.cont.vw.map fun f => ([' '], f), []⟩

/-! ### JSON: `"name": {"a": true, "b": 1.5, "c": "red"}`, `" ": {"a": true}`, `"name": [1, 2]` -/

def DVal.js : DVal N → JVal N
  | .flag => .bool true
  | .num _ n => .num n
  | .text s => .str s

def DCont.js : DCont N → JCont N
  | .named l => .named (l.map fun e => (e.1, e.2.js))
  | .numbers l => .numbers (l.map (·.2))

def DNs.js (d : DNs N) : Str × JCont N := (d.name.getD [' '], d.cont.js)

/-! ### DsJson: as in JSON, but the features of the default namespace stand at the top level -/

def DNs.ds (d : DNs N) : List (Str × Json N) :=
  match d.name, d.cont with
  | none, .named l => l.map fun e => (e.1, e.2.js.render)
  | name, cont => [(name.getD [' '], cont.js.render)]

/-! ### Whole examples -/

/-- A label of a regression example: a value and perhaps a weight, each as written in VW text and as delivered by the JSON parser. -/
structure DSimple (N : Type) where
  value : Str × N
  weight : Option (Str × N)

/-- `1.5 2 |...`. -/
def vwSimple (l : Option (DSimple N)) (nss : List (DNs N)) : Str :=
  (match l with
    | none => []
    | some ⟨v, none⟩ => v.1 ++ [' ']
    | some ⟨v, some w⟩ => v.1 ++ [' '] ++ w.1 ++ [' ']) ++
  nss.flatMap fun d => d.vw.render

/-- `{"label": 1.5, "features": {...}}`, `{"label": {"value": 1.5, "weight": 2}, ...}`, `{"features": {...}}`. -/
def jsSimple (l : Option (DSimple N)) (nss : List (DNs N)) : Json N :=
  .obj ((match l with
    | none => []
    | some ⟨v, none⟩ => [("label".toList, .num v.2)]
    | some ⟨v, some w⟩ => [("label".toList, .obj [("value".toList, .num v.2), ("weight".toList, .num w.2)])]) ++
  [("features".toList, renderFeatures (nss.map DNs.js))])

/-- A label of a contextual bandit example: the position of the action that was taken (also as delivered by the JSON parser), cost and probability. -/
structure DCbLabel (N : Type) where
  index : Nat
  indexNum : N
  cost : Str × N
  prob : Str × N

/-- A contextual bandit example. -/
structure DCb (N : Type) where
  shared : List (DNs N)
  actions : List (List (DNs N))
  label : Option (DCbLabel N)

/-- The line of the action at position `i`: `0:cost:probability |...` if it was taken, else `|...`. -/
def DCb.vwAction (d : DCb N) (i : Nat) (nss : List (DNs N)) : Str :=
  (match d.label with
    | some l => if l.index = i then '0' :: ':' :: (l.cost.1 ++ ':' :: l.prob.1) ++ [' '] else []
    | none => []) ++
  nss.flatMap fun d => d.vw.render

/-- `shared |...`, then a line for each action. -/
def DCb.vwText (d : DCb N) : Str :=
  ['\n'].intercalate (("shared ".toList ++ d.shared.flatMap fun d => d.vw.render) :: d.actions.mapIdx d.vwAction)

/-- `{"label": {"action": 1, "cost": 0.5, "probability": 0.2}, "shared": {...}, "actions": [{...}, ...]}`. -/
def DCb.jsDoc (d : DCb N) : Json N :=
  .obj ((match d.label with
    | none => []
    | some l => [("label".toList,
        .obj [("action".toList, .num l.indexNum), ("cost".toList, .num l.cost.2), ("probability".toList, .num l.prob.2)])]) ++
  [("shared".toList, renderFeatures (d.shared.map DNs.js)), ("actions".toList, .arr (d.actions.map fun a => renderFeatures (a.map DNs.js)))])

/-- `{"_label_cost": 0.5, "_label_probability": 0.2, "_labelIndex": 1, "c": {..., "_multi": [{...}, ...]}}`. -/
def DCb.dsDoc (d : DCb N) : Json N :=
  .obj ((match d.label with
    | none => []
    | some l => [("_label_cost".toList, .num l.cost.2), ("_label_probability".toList, .num l.prob.2), ("_labelIndex".toList, .num l.indexNum)]) ++
  [("c".toList, .obj (d.shared.flatMap DNs.ds ++ [("_multi".toList, .arr (d.actions.map fun a => .obj (a.flatMap DNs.ds)))]))])

/-! ### What can be written in all three formats -/

variable [Flt F]

/-- The parsers have the same hash function, seed and number of bits, and multiplying by 1 leaves 1 as it is. -/
structure Agree (pv : Vw.Parser F) (pj : Js.Parser F N) : Prop where
  hash : pv.hash = pj.hash
  seed : pv.hashSeed = pj.hashSeed
  bits : pv.numBits = pj.numBits
  one : Flt.mul (Flt.one : F) Flt.one = Flt.one

/-- Both parsers read the same number; multiplying it by the scale 1 leaves it as it is. -/
structure NumberIs (pv : Vw.Parser F) (pj : Js.Parser F N) (text : Str) (n : N) : Prop where
  plain : Plain text
  start : text ≠ [] ∧ text.head? ≠ some '\''
  same : pv.parseFloat text = some (pj.toF32 n)
  label : pj.serdeF32 n = pj.toF32 n
  one : Flt.mul (pj.toF32 n) Flt.one = pj.toF32 n

/-- A name: not empty, no white space, colons or bars, and no underscore at the beginning. -/
def NameOk (s : Str) : Prop := s ≠ [] ∧ Plain s ∧ s.head? ≠ some '_'

/-- Numbers are numbers; a text is not a number and has no white space, colons or bars. -/
def DVal.Valid (pv : Vw.Parser F) (pj : Js.Parser F N) : DVal N → Prop
  | .flag => True
  | .num t n => NumberIs pv pj t n
  | .text s => Plain s ∧ pv.parseFloat s = none

/-- There is a feature; the features are as they should be; numbers without names do not run over the end of the index space. -/
def DCont.Valid (pv : Vw.Parser F) (pj : Js.Parser F N) (h : U32) : DCont N → Prop
  | .named l => l ≠ [] ∧ ∀ e ∈ l, NameOk e.1 ∧ e.2.Valid pv pj
  | .numbers l => l ≠ [] ∧ h.toNat + l.length < 2 ^ 32 ∧ ∀ e ∈ l, NumberIs pv pj e.1 e.2

/-- The namespace that is meant. -/
def DNs.ns (hash : HashFn) (seed : U32) (d : DNs N) : Namespace :=
  match d.name with
  | none => .default
  | some s => .named (hash s seed)

structure DNs.Valid (pv : Vw.Parser F) (pj : Js.Parser F N) (d : DNs N) : Prop where
  name : ∀ s, d.name = some s → NameOk s
  cont : d.cont.Valid pv pj (d.ns pj.hash pj.hashSeed).seed

def DSimple.Valid (pv : Vw.Parser F) (pj : Js.Parser F N) (l : DSimple N) : Prop :=
  NumberIs pv pj l.value.1 l.value.2 ∧ ∀ w, l.weight = some w → NumberIs pv pj w.1 w.2

structure DCb.Valid (pv : Vw.Parser F) (pj : Js.Parser F N) (d : DCb N) : Prop where
  shared : ∀ n ∈ d.shared, n.Valid pv pj
  actions : ∀ a ∈ d.actions, a ≠ [] ∧ ∀ n ∈ a, n.Valid pv pj
  label : ∀ l, d.label = some l → l.index < d.actions.length ∧ pj.toU64 l.indexNum = some l.index ∧
    NumberIs pv pj l.cost.1 l.cost.2 ∧ NumberIs pv pj l.prob.1 l.prob.2

end Formats
end Rml
