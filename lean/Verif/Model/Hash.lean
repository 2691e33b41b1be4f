import Verif.Model.Base

/-
Hashes, feature indices and masks: `hash.rs`, `types.rs:398-437`, `utils.rs`,
`sparse_namespaced_features.rs:173-199, 250-269`.
-/

namespace Rml

/-- Rust `u32`: `FeatureIndex`, `FeatureHash`, `NamespaceHash` are all newtypes of it (`types.rs:398-437`). -/
abbrev U32 := BitVec 32

/-- `hash_bytes(bytes, seed) : u32` (`hash.rs:2-5`): xxh3 truncated to 32 bits. The hash function itself is not
modelled: it is a parameter. Rust strings are represented by their character lists; `as_bytes` is injective. -/
abbrev HashFn := List Char → U32 → U32

/-- `FNV_PRIME : u32` (`hash.rs:63`). -/
def FNV_PRIME : U32 := 16777619#32

/-- `(FNV_PRIME as u64).wrapping_mul(x as u64) as u32` (`weights.rs:44-45, 64-65, 68-70`,
`sparse_namespaced_features.rs:251, 257, 258`). -/
def fnvMul (x : U32) : U32 := ((FNV_PRIME.setWidth 64) * (x.setWidth 64)).setWidth 32

/-- `FeatureMask::from_num_bits` (`types.rs:414-417`): `(1u32 << num_bits) - 1`.
For `num_bits >= 32` the shift overflows (debug profile panics, see `maskChecked`). -/
def maskBits (numBits : Nat) : U32 := (1#32 <<< numBits) - 1#32

/-- `FeatureMask::from_num_bits` with the debug-profile overflow check of `<<` (`types.rs:414-417`). -/
def maskChecked (numBits : Nat) : M U32 :=
  if numBits < 32 then .ok (maskBits numBits) else .error .overflow

/-- `FeatureHash::mask` / `FeatureMask::mask` (`types.rs:419-421, 433-437`). -/
def maskIdx (numBits : Nat) (h : U32) : U32 := h &&& maskBits numBits

/-- `bits_to_max_feature_index` (`utils.rs:4-6`): `1u32 << val`. -/
def bitsToMaxFeatureIndex (numBits : Nat) : U32 := 1#32 <<< numBits

/-- `constant_feature_index` (`sparse_namespaced_features.rs:262-269`): `(1 << bits) / 2`. -/
def constantFeatureIndex (numBits : Nat) : U32 := bitsToMaxFeatureIndex numBits / 2#32

/-- `quadratic_feature_hash` (`sparse_namespaced_features.rs:250-253`). -/
def quadraticHash (i1 i2 : U32) : U32 := fnvMul i1 ^^^ i2

/-- `cubic_feature_hash` (`sparse_namespaced_features.rs:256-260`). -/
def cubicHash (i1 i2 i3 : U32) : U32 := fnvMul (fnvMul i1 ^^^ i2) ^^^ i3

/-- `Namespace` (`sparse_namespaced_features.rs:173-178`). -/
inductive Namespace where
  | named (h : U32)
  | rawHash (h : U32)
  | default
  deriving DecidableEq, Repr

/-- The derived `Ord` of `Namespace` (`sparse_namespaced_features.rs:173`): variants in declaration order, then
the hash. Encoded as the order of a natural number. -/
def Namespace.rank : Namespace → Nat
  | .named h => h.toNat
  | .rawHash h => 2 ^ 32 + h.toNat
  | .default => 2 ^ 33

/-- `Namespace::from_name` (`sparse_namespaced_features.rs:181-191`). -/
def Namespace.fromName (hash : HashFn) (name : List Char) (seed : U32) : Namespace :=
  if name = " ".toList then .default
  else if name = ":default".toList then .default
  else .named (hash name seed)

/-- `Namespace::hash` (`sparse_namespaced_features.rs:193-199`). -/
def Namespace.hash : Namespace → U32
  | .named h => h
  | .rawHash h => h
  | .default => 0#32

end Rml
