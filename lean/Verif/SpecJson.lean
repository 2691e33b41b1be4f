import Verif.Model.JsonParser
import Verif.SpecText

/-! Specification vocabulary for the theorems about JSON and DsJson input. -/

namespace Rml
namespace Js
open Text
variable {F N : Type} [Flt F]

/-- Asking for chunks until there is none. -/
inductive Reads : Str → List Str → Prop
  | stop {input : Str} : getNextChunk input = (none, []) → Reads input []
  | chunk {input rest c : Str} {cs : List Str} : getNextChunk input = (some c, rest) → Reads rest cs → Reads input (c :: cs)

/-- A line with its newline. -/
def FullLine (c : Str) : Prop := ∃ l, '\n' ∉ l ∧ c = l ++ ['\n']

/-! ### The documented feature format -/

/-- The value of a named feature: a number, a string or a boolean. -/
inductive JVal (N : Type) where
  | num (n : N)
  | str (s : Str)
  | bool (b : Bool)

/-- The contents of a namespace: a list of numbers, a list of strings, or an object of named features. -/
inductive JCont (N : Type) where
  | numbers (l : List N)
  | strings (l : List Str)
  | named (l : List (Str × JVal N))

/-- The JSON of a value. -/
def JVal.render : JVal N → Json N
  | .num n => .num n
  | .str s => .str s
  | .bool b => .bool b

/-- The JSON of the contents of a namespace. -/
def JCont.render : JCont N → Json N
  | .numbers l => .arr (l.map .num)
  | .strings l => .arr (l.map .str)
  | .named l => .obj (l.map fun e => (e.1, e.2.render))

/-- The JSON of features: an object whose keys are the names of the namespaces. -/
def renderFeatures (l : List (Str × JCont N)) : Json N := .obj (l.map fun e => (e.1, e.2.render))

/-- The namespace that a name means: `:default` is the default namespace, and so is a single space. -/
def nsOf (pr : Parser F N) (name : Str) : Namespace :=
  if name = ":default".toList ∨ name = " ".toList then .default else .named (pr.hash name pr.hashSeed)

/-- The feature of a named value: nothing for `false`. -/
def JVal.feature (pr : Parser F N) (h : U32) (k : Str) : JVal N → List (U32 × F)
  | .num n => [(lowBits pr.numBits (pr.hash k h), pr.toF32 n)]
  | .str s => [(lowBits pr.numBits (pr.hash s (pr.hash k h)), Flt.one)]
  | .bool true => [(lowBits pr.numBits (pr.hash k h), Flt.one)]
  | .bool false => []

/-- The features of the contents of a namespace with hash `h`: numbers at consecutive indices from the hash, strings as hashed names. -/
def JCont.features (pr : Parser F N) (h : U32) : JCont N → List (U32 × F)
  | .numbers l => l.mapIdx fun i n => (lowBits pr.numBits (h + BitVec.ofNat 32 i), pr.toF32 n)
  | .strings l => l.map fun s => (lowBits pr.numBits (pr.hash s h), Flt.one)
  | .named l => l.flatMap fun e => e.2.feature pr h e.1

/-- The features that are meant: those of all entries of a namespace, in order. -/
def meaning (pr : Parser F N) (l : List (Str × JCont N)) : SMap F := fun ns =>
  match l.filter (fun e => nsOf pr e.1 = ns) with
  | [] => none
  | es => some (es.flatMap fun e => e.2.features pr ns.seed)

/-- Lists are not empty and number lists do not run over the end of the 32-bit index space. -/
def JCont.Valid (h : U32) : JCont N → Prop
  | .numbers l => l ≠ [] ∧ h.toNat + l.length < 2 ^ 32
  | .strings l => l ≠ []
  | .named _ => True

/-- A feature object has no spare room for the lists of strings: the capacity it has from former use in such a namespace is not more than the length
of the list, and the namespace has no other entry before. A new object has no capacity at all. -/
def NoSpare (pr : Parser F N) (f : SparseFeatures F) (l : List (Str × JCont N)) : Prop :=
  ∀ pre name ss post, l = pre ++ (name, .strings ss) :: post → (∀ e ∈ pre, nsOf pr e.1 ≠ nsOf pr name) ∧
    ∀ n, SparseFeatures.lookup f.entries (nsOf pr name) = some n → n.idx.cap ≤ ss.length ∧ n.vals.cap ≤ ss.length

/-- Features without lists of strings. -/
def NoStringLists (v : Json N) : Prop := ∀ l, v = .obj l → ∀ e ∈ l, ∀ x rest, e.2 ≠ .arr (.str x :: rest)

/-- A document without lists of strings as contents of a namespace. -/
structure DocNoStringLists (j : Json N) : Prop where
  features : NoStringLists (valueOf "features" j)
  shared : NoStringLists (valueOf "shared" j)
  actions : ∀ l, valueOf "actions" j = .arr l → ∀ v ∈ l, NoStringLists v

/-! ### Labels -/

/-- The simple labels that are read from the label entry of a document (`null` if there is none). -/
inductive SimpleLabelIs (pr : Parser F N) : Json N → Option (SimpleLabel F) → Prop
  | absent : SimpleLabelIs pr .null none
  | number (n : N) : SimpleLabelIs pr (.num n) (some ⟨pr.toF32 n, Flt.one⟩)
  | object (l : List (Str × Json N)) (v w : N) : lastValue "value" l = some (.num v) → lastValue "weight" l = some (.num w) →
      SimpleLabelIs pr (.obj l) (some ⟨pr.serdeF32 v, pr.serdeF32 w⟩)
  | array (v w : N) : SimpleLabelIs pr (.arr [.num v, .num w]) (some ⟨pr.serdeF32 v, pr.serdeF32 w⟩)

/-- The contextual bandit labels that are read from the label entry of a document. -/
inductive CbLabelIs (pr : Parser F N) : Json N → Option (CBLabel F) → Prop
  | absent : CbLabelIs pr .null none
  | object (l : List (Str × Json N)) (a c p : N) (i : Nat) : lastValue "action" l = some (.num a) → pr.toU64 a = some i →
      lastValue "cost" l = some (.num c) → lastValue "probability" l = some (.num p) →
      CbLabelIs pr (.obj l) (some ⟨i, pr.serdeF32 c, pr.serdeF32 p⟩)
  | array (a c p : N) (i : Nat) : pr.toU64 a = some i → CbLabelIs pr (.arr [.num a, .num c, .num p]) (some ⟨i, pr.serdeF32 c, pr.serdeF32 p⟩)

end Js

namespace Ds
open Text Js
variable {F N : Type} [Flt F]

mutual
/-- The features of a value with a key inside the namespace `ns`. Numbers, strings and `true` are features of `ns`; an array or object is a namespace of
its own, named by the key; an object in an array belongs to the namespace of the array. Keys that start with an underscore contribute nothing. -/
def features (pr : Parser F N) (ns : Namespace) (key : Str) (v : Json N) : List (Namespace × U32 × F) :=
  if key.head? = some '_' then []
  else
    match v with
    | .null => []
    | .bool true => [(ns, lowBits pr.numBits (pr.hash key ns.seed), Flt.one)]
    | .bool false => []
    | .num x => [(ns, lowBits pr.numBits (pr.hash key ns.seed), pr.toF32 x)]
    | .str s => [(ns, lowBits pr.numBits (pr.hash s (pr.hash key ns.seed)), Flt.one)]
    | .arr l => elements pr (nsOf pr key) 0 l
    | .obj l => entries pr (nsOf pr key) l

/-- The features of the elements of an array, from position `i` on. -/
def elements (pr : Parser F N) (ns : Namespace) (i : Nat) (l : List (Json N)) : List (Namespace × U32 × F) :=
  match l with
  | [] => []
  | .num x :: vs => (ns, lowBits pr.numBits (ns.seed + BitVec.ofNat 32 i), pr.toF32 x) :: elements pr ns (i + 1) vs
  | .obj l :: vs => entries pr ns l ++ elements pr ns (i + 1) vs
  | _ :: vs => elements pr ns (i + 1) vs

/-- The features of the entries of an object. -/
def entries (pr : Parser F N) (ns : Namespace) (l : List (Str × Json N)) : List (Namespace × U32 × F) :=
  match l with
  | [] => []
  | (k, v) :: vs => features pr ns k v ++ entries pr ns vs
end

mutual
/-- The values that are accepted: no `null` except in arrays, arrays of numbers, objects and `null` only; in the debug profile positions in arrays of
numbers do not overflow. Below keys that start with an underscore anything is accepted. -/
def Accepted (pr : Parser F N) (key : Str) (v : Json N) : Prop :=
  key.head? = some '_' ∨
    match v with
    | .null => False
    | .arr l => AllElements pr (nsOf pr key) 0 l
    | .obj l => AllEntries pr l
    | _ => True

/-- All elements of an array are accepted. -/
def AllElements (pr : Parser F N) (ns : Namespace) (i : Nat) (l : List (Json N)) : Prop :=
  match l with
  | [] => True
  | .num _ :: vs => (pr.dbg = true → ns.seed.toNat + (BitVec.ofNat 32 i).toNat < 2 ^ 32) ∧ AllElements pr ns (i + 1) vs
  | .obj l :: vs => AllEntries pr l ∧ AllElements pr ns (i + 1) vs
  | .null :: vs => AllElements pr ns (i + 1) vs
  | _ :: _ => False

/-- All entries of an object are accepted. -/
def AllEntries (pr : Parser F N) (l : List (Str × Json N)) : Prop :=
  match l with
  | [] => True
  | (k, v) :: vs => Accepted pr k v ∧ AllEntries pr vs
end

/-- What a value is as a whole example: an object (or an array), in the default namespace. -/
def exampleFeatures (pr : Parser F N) (v : Json N) : List (Namespace × U32 × F) := features pr .default " ".toList v

/-- A value that is accepted as a whole example. -/
def ExampleAccepted (pr : Parser F N) (v : Json N) : Prop :=
  ((∃ l, v = .obj l) ∨ (∃ l, v = .arr l) ∨ v = .bool false) ∧ Accepted pr " ".toList v

/-- The features, grouped by namespace. -/
def group (l : List (Namespace × U32 × F)) : SMap F := fun ns =>
  match l.filter (fun e => e.1 = ns) with
  | [] => none
  | es => some (es.map (·.2))

/-- The keys on the way from one value to a value inside it, nearest first: an entry of an object is under its key, an object in an array is where the
array is. -/
inductive At : List Str → Json N → List Str → Json N → Prop
  | here (ks : List Str) (v : Json N) : At ks v ks v
  | entry {ks ks' : List Str} {v w : Json N} {k : Str} {l : List (Str × Json N)} : At ks v ks' (.obj l) → (k, w) ∈ l → At ks v (k :: ks') w
  | element {ks ks' : List Str} {v : Json N} {l : List (Json N)} {o : List (Str × Json N)} : At ks v ks' (.arr l) → .obj o ∈ l → At ks v ks' (.obj o)

/-- The feature `(i, x)` of namespace `ns` is described somewhere in the example `v`, under keys none of which starts with an underscore: `true`, a
number or a string is a feature of the namespace named by the nearest enclosing key; a number in an array is a feature of the namespace named by the key
of the array. -/
inductive Described (pr : Parser F N) (v : Json N) : Namespace × U32 × F → Prop
  | flag {k e : Str} {ks : List Str} : At [" ".toList] v (k :: e :: ks) (.bool true) → (∀ x ∈ k :: e :: ks, x.head? ≠ some '_') →
      Described pr v (nsOf pr e, lowBits pr.numBits (pr.hash k (nsOf pr e).seed), Flt.one)
  | number {k e : Str} {ks : List Str} {x : N} : At [" ".toList] v (k :: e :: ks) (.num x) → (∀ x ∈ k :: e :: ks, x.head? ≠ some '_') →
      Described pr v (nsOf pr e, lowBits pr.numBits (pr.hash k (nsOf pr e).seed), pr.toF32 x)
  | text {k e : Str} {ks : List Str} {s : Str} : At [" ".toList] v (k :: e :: ks) (.str s) → (∀ x ∈ k :: e :: ks, x.head? ≠ some '_') →
      Described pr v (nsOf pr e, lowBits pr.numBits (pr.hash s (pr.hash k (nsOf pr e).seed)), Flt.one)
  | item {k : Str} {ks : List Str} {l : List (Json N)} {i : Nat} {x : N} : At [" ".toList] v (k :: ks) (.arr l) → l[i]? = some (.num x) →
      (∀ x ∈ k :: ks, x.head? ≠ some '_') → Described pr v (nsOf pr k, lowBits pr.numBits ((nsOf pr k).seed + BitVec.ofNat 32 i), pr.toF32 x)

/-- The label of a document: three numbers, or nothing at all. `none`: the document is not accepted. -/
def labelOf (pr : Parser F N) (j : Json N) : Option (Option (CBLabel F)) :=
  match valueOf "_label_cost" j, valueOf "_label_probability" j, valueOf "_labelIndex" j with
  | .num c, .num p, .num a => (pr.toU64 a).map fun i => some ⟨i, pr.toF32 c, pr.toF32 p⟩
  | .null, .null, .null => some none
  | _, _, _ => none

end Ds
end Rml
