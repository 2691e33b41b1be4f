import Verif.Model.Hash
import Verif.Model.Json

/-! Specification vocabulary for hashes and indices, and for looking up entries of JSON objects, stated without the model's functions. -/

namespace Rml

/-- The lowest `n` bits of a hash: the remainder modulo `2 ^ n`. -/
def lowBits (n : Nat) (h : U32) : U32 := BitVec.ofNat 32 (h.toNat % 2 ^ n)

/-- The index of the interaction of two features: 16777619 (the 32-bit FNV prime) times the first index, exclusive or the second, all in 32 bits. -/
def pairIndex (a b : U32) : U32 := (16777619#32 * a) ^^^ b

/-- The index of the interaction of three features: the first two as a pair, and that with the third. -/
def tripleIndex (a b c : U32) : U32 := pairIndex (pairIndex a b) c

/-- The index of the interaction of any number of features, taken one after the other. -/
def chainIndex (first : U32) (rest : List U32) : U32 := rest.foldl pairIndex first

/-- The hash that the names of the features of a namespace are hashed with: that of the namespace, 0 for the default namespace. -/
def Namespace.seed : Namespace → U32
  | .named h => h
  | .rawHash h => h
  | .default => 0#32

/-- The namespace that a name means: a single space and `:default` mean the default namespace. -/
def namespaceOf (hash : HashFn) (name : List Char) (seed : U32) : Namespace :=
  if name = ":default".toList ∨ name = " ".toList then .default else .named (hash name seed)

/-- The value of the first entry of an object with this key; `null` if there is none, or if the value is not an object. -/
def valueOf {N : Type} (k : String) : Json N → Json N
  | .obj l => match l.find? (fun e => e.1 = k.toList) with
    | some e => e.2
    | none => .null
  | _ => .null

/-- The value of the last entry with this key. -/
def lastValue {N : Type} (k : String) (l : List (List Char × Json N)) : Option (Json N) :=
  match l.reverse.find? (fun e => e.1 = k.toList) with
  | some e => some e.2
  | none => none

end Rml
