/-
Basic vocabulary of the model: panics, float operations, `Vec`.
-/

namespace Rml

/-- The ways a Rust call can fail to return (`panic!`, failed `assert!`, arithmetic overflow in the debug
profile, slice index out of bounds, `unwrap` on `None`/`Err`, `todo!()`), and `Err` results that carry a message. -/
inductive Panic where
  | assert
  | overflow
  | index
  | unwrap
  | todo
  | explicit
  | typeMismatch
  deriving DecidableEq, Repr

/-- A Rust computation that may panic. -/
abbrev M (α : Type) := Except Panic α

/-- `assert!(b)`. -/
def massert (b : Bool) : M Unit := if b then .ok () else .error .assert

/-- `debug_assert!(b)`: checked only when `dbg` (the debug profile) is set. -/
def debugAssert (dbg b : Bool) : M Unit := if dbg && !b then .error .assert else .ok ()

/-- `Option::unwrap`. -/
def unwrapOpt {α : Type} : Option α → M α
  | some a => .ok a
  | none => .error .unwrap

/-- `expr as f32`-style float operations used by the code, as a signature **without laws**.
Every definition of the model is generic in it; see `DESIGN.md`. -/
class Flt (F : Type) where
  zero : F
  one : F
  add : F → F → F
  sub : F → F → F
  mul : F → F → F
  div : F → F → F
  neg : F → F
  abs : F → F
  /-- `f32::min` -/
  fmin : F → F → F
  /-- `f32::max` -/
  fmax : F → F → F
  lt : F → F → Bool
  le : F → F → Bool
  /-- `==` on floats -/
  eq : F → F → Bool
  isNaN : F → Bool
  /-- `n as f32` -/
  ofNat : Nat → F
  /-- decimal literal `num / den` -/
  lit : Int → Nat → F
  exp : F → F
  ln : F → F
  powf : F → F → F
  sqrt : F → F
  signum : F → F

namespace Flt
variable {F : Type} [Flt F]

/-- `f32::clamp`: asserts `min <= max` (false for NaN bounds), keeps NaN arguments. Standard library. -/
def clamp (x lo hi : F) : M F :=
  if le lo hi then
    .ok (if lt x lo then lo else if lt hi x then hi else x)
  else .error .assert

/-- `approx::AbsDiffEq for f32`: `(a - b).abs() <= epsilon`. External crate `approx`. -/
def absDiffEq (a b eps : F) : Bool := le (abs (sub a b)) eps

/-- `f32::EPSILON` = 2^-23. -/
def epsilon : F := lit 1 8388608

end Flt

/-- `Vec<T>`: contents and capacity. The capacity matters only for `reserve`
(`sparse_namespaced_features.rs:131-136`). -/
structure RVec (α : Type) where
  data : List α
  cap : Nat
  deriving DecidableEq, Repr

namespace RVec
variable {α : Type}

/-- `Vec::new`. -/
def new : RVec α := ⟨[], 0⟩
/-- `Vec::with_capacity`. -/
def withCapacity (n : Nat) : RVec α := ⟨[], n⟩
/-- Amortised growth of `Vec` when `needed` elements must fit (standard library `grow_amortized`). -/
def growTo (cap needed : Nat) : Nat :=
  if needed ≤ cap then cap else max (2 * cap) (max needed 4)
/-- `Vec::push`. -/
def push (v : RVec α) (a : α) : RVec α := ⟨v.data ++ [a], growTo v.cap (v.data.length + 1)⟩
/-- `Vec::extend_from_slice` / `extend`. -/
def extend (v : RVec α) (l : List α) : RVec α := ⟨v.data ++ l, growTo v.cap (v.data.length + l.length)⟩
/-- `Vec::truncate`: keeps the capacity. -/
def truncate (v : RVec α) (n : Nat) : RVec α := ⟨v.data.take n, v.cap⟩
/-- `Vec::clear`: keeps the capacity. -/
def clear (v : RVec α) : RVec α := ⟨[], v.cap⟩
/-- `Vec::reserve_exact`. -/
def reserveExact (v : RVec α) (additional : Nat) : RVec α :=
  ⟨v.data, if v.data.length + additional ≤ v.cap then v.cap else v.data.length + additional⟩
/-- `Vec::reserve`. -/
def reserve (v : RVec α) (additional : Nat) : RVec α :=
  ⟨v.data, growTo v.cap (v.data.length + additional)⟩

end RVec

end Rml
