import Verif.Model.Factory

/-! Shifts by `num_bits` in both build profiles. The other modules use `maskBits`, `bitsToMaxFeatureIndex` and `constantFeatureIndex`, which are correct for
`num_bits <= 31`; here the shift is modelled for every `u8`. -/

namespace Rml
variable {F : Type}

/-- The shift `x << n` of Rust on `u32` (used in `utils.rs:5`, `types.rs:416`): with overflow checks (`dbg`) it panics for `n >= 32`, without them only the low five
bits of `n` count. -/
def shl32 (dbg : Bool) (x : U32) (n : Nat) : M U32 :=
  if n < 32 then .ok (x <<< n) else if dbg then .error .overflow else .ok (x <<< (n % 32))

/-- `FeatureMask::from_num_bits` (`types.rs:414-417`). The subtraction cannot overflow, because the shifted 1 is not 0. -/
def fromNumBits (dbg : Bool) (n : Nat) : M U32 := do
  let top ← shl32 dbg 1#32 n
  .ok (top - 1#32)

/-- `bits_to_max_feature_index` (`utils.rs:4-6`). -/
def bitsToMax (dbg : Bool) (n : Nat) : M U32 := shl32 dbg 1#32 n

/-- `constant_feature_index` (`sparse_namespaced_features.rs:262-269`). -/
def constantIndex (dbg : Bool) (n : Nat) : M U32 := do
  let top ← bitsToMax dbg n
  .ok (top / 2#32)

/-- `Workspace::new` (`workspace.rs:125-138`) for any `num_bits`. Everywhere in the library `num_bits` is only an argument of the three functions above
(`coin.rs:126`, `sparse_namespaced_features.rs:263-309`, `weights.rs:38`, `elementwise_interaction.rs:134`, and the parsers), so without overflow checks a workspace works as
if `num_bits` was its remainder. Simplified: the number stored in the model file is the remainder here, the configured number in the code. -/
def Workspace.newIn [Flt F] (dbg : Bool) (hash : HashFn) (g : GlobalConfig) (c : RedConfig F) : Except CreateError (Workspace F) :=
  if dbg then Workspace.new hash g c else Workspace.new hash { g with numBits := g.numBits % 32 } c

end Rml
