import Verif.Model.Loss

/-
The parts of IEEE 754 single precision that the theorems about "any float semantics" need: comparisons, minimum and maximum, sign, zero and
NaN, on bit patterns. Arithmetic is left open.
-/

namespace Rml

/-- Laws of comparison, minimum and maximum that IEEE 754 floats satisfy (`f32::min`, `f32::max`, `<`, `<=` of the standard library).
Nothing is assumed about arithmetic. -/
class LawfulCmp (F : Type) [Flt F] : Prop where
  zero_num : Flt.isNaN (Flt.zero : F) = false
  le_num : ∀ a b : F, Flt.le a b = true → Flt.isNaN a = false ∧ Flt.isNaN b = false
  lt_eq : ∀ a b : F, Flt.lt a b = (!Flt.isNaN a && !Flt.isNaN b && !Flt.le b a)
  le_refl : ∀ a : F, Flt.isNaN a = false → Flt.le a a = true
  le_trans : ∀ a b c : F, Flt.le a b = true → Flt.le b c = true → Flt.le a c = true
  le_total : ∀ a b : F, Flt.isNaN a = false → Flt.isNaN b = false → Flt.le a b = true ∨ Flt.le b a = true
  fmin_nan : ∀ a b : F, Flt.isNaN a = true → Flt.isNaN b = false → Flt.fmin a b = b
  fmax_nan : ∀ a b : F, Flt.isNaN a = true → Flt.isNaN b = false → Flt.fmax a b = b
  fmin_num : ∀ a b : F, Flt.isNaN a = false → Flt.isNaN b = false →
    (Flt.fmin a b = a ∨ Flt.fmin a b = b) ∧ Flt.le (Flt.fmin a b) a = true ∧ Flt.le (Flt.fmin a b) b = true
  fmax_num : ∀ a b : F, Flt.isNaN a = false → Flt.isNaN b = false →
    (Flt.fmax a b = a ∨ Flt.fmax a b = b) ∧ Flt.le a (Flt.fmax a b) = true ∧ Flt.le b (Flt.fmax a b) = true
  lit_mono : ∀ m n : Int, m ≤ n → Flt.le (fl m : F) (fl n) = true

/-- A value that compares equal to zero, or NaN. -/
def Flt.zeroOrNaN {F : Type} [Flt F] (x : F) : Prop := Flt.isNaN x = true ∨ Flt.eq x Flt.zero = true

/-- Laws of zero that IEEE 754 floats satisfy: `v * 0` is a zero or NaN, sums of zeros and NaNs are zeros or NaN. -/
class LawfulZero (F : Type) [Flt F] : Prop where
  zero_eq : Flt.eq (Flt.zero : F) Flt.zero = true
  mul_zero : ∀ a b : F, Flt.eq b Flt.zero = true → Flt.zeroOrNaN (Flt.mul a b)
  add_zero : ∀ a b : F, Flt.zeroOrNaN a → Flt.zeroOrNaN b → Flt.zeroOrNaN (Flt.add a b)

/-- The operations of single precision arithmetic whose results are left open. -/
structure F32Ops where
  add : BitVec 32 → BitVec 32 → BitVec 32
  sub : BitVec 32 → BitVec 32 → BitVec 32
  mul : BitVec 32 → BitVec 32 → BitVec 32
  div : BitVec 32 → BitVec 32 → BitVec 32
  ofNat : Nat → BitVec 32
  lit : Int → Nat → BitVec 32
  exp : BitVec 32 → BitVec 32
  ln : BitVec 32 → BitVec 32
  powf : BitVec 32 → BitVec 32 → BitVec 32
  sqrt : BitVec 32 → BitVec 32

/-- Magnitude bits of a float (IEEE 754 binary32: sign, 8 exponent bits, 23 fraction bits). -/
def f32Mag (b : BitVec 32) : Nat := b.toNat % 2 ^ 31
/-- Sign bit of a float. -/
def f32Sign (b : BitVec 32) : Bool := decide (2 ^ 31 ≤ b.toNat)
/-- NaN: exponent all ones and a nonzero fraction. -/
def f32IsNaN (b : BitVec 32) : Bool := decide (0x7f800000 < f32Mag b)
/-- Numbers other than NaN in order; both zeros are 0. -/
def f32Key (b : BitVec 32) : Int := if f32Sign b then -(f32Mag b : Int) else f32Mag b
/-- `<=` of `f32`. -/
def f32Le (a b : BitVec 32) : Bool := !f32IsNaN a && !f32IsNaN b && decide (f32Key a ≤ f32Key b)
/-- `<` of `f32`. -/
def f32Lt (a b : BitVec 32) : Bool := !f32IsNaN a && !f32IsNaN b && decide (f32Key a < f32Key b)

/-- Single precision floats as bit patterns. -/
@[reducible] def f32Flt (o : F32Ops) : Flt (BitVec 32) where
  zero := 0#32
  one := 0x3f800000#32
  add := o.add
  sub := o.sub
  mul := o.mul
  div := o.div
  neg := fun b => b ^^^ 0x80000000#32
  abs := fun b => b &&& 0x7fffffff#32
  fmin := fun a b => if f32IsNaN a then b else if f32IsNaN b then a else if f32Key a ≤ f32Key b then a else b
  fmax := fun a b => if f32IsNaN a then b else if f32IsNaN b then a else if f32Key a ≤ f32Key b then b else a
  lt := f32Lt
  le := f32Le
  eq := fun a b => !f32IsNaN a && !f32IsNaN b && decide (f32Key a = f32Key b)
  isNaN := f32IsNaN
  ofNat := o.ofNat
  lit := o.lit
  exp := o.exp
  ln := o.ln
  powf := o.powf
  sqrt := o.sqrt
  signum := fun b => if f32IsNaN b then b else if f32Sign b then 0xbf800000#32 else 0x3f800000#32

end Rml
