import Verif.Model.F32

/-
Single precision arithmetic (IEEE 754 binary32, round to nearest, ties to even) on bit patterns: what `+`, `-`, `*`, `/` on `f32`, `as f32` and decimal literals mean in
Rust. It is used by every `f32` expression of `reductionml-core/src` (for example `reductions/coin.rs:187-418`, `explore.rs:3-78`). The transcendental functions
(`exp`, `ln`, `powf`, `sqrt`), whose results depend on the platform, remain parameters.
-/

namespace Rml

/-- The quiet NaN that invalid operations return; `f32` does not specify sign and payload, and no code looks at them. -/
def f32NaN : BitVec 32 := 0x7fc00000#32

/-- Infinite: exponent all ones, no fraction. -/
def f32IsInf (b : BitVec 32) : Bool := decide (f32Mag b = 0x7f800000)

/-- The absolute value of a finite float in units of 2^-149, the smallest positive float. -/
def f32Units (b : BitVec 32) : Nat :=
  if f32Mag b / 2 ^ 23 = 0 then f32Mag b else (2 ^ 23 + f32Mag b % 2 ^ 23) * 2 ^ (f32Mag b / 2 ^ 23 - 1)

/-- The value of a finite float in units of 2^-149. -/
def f32Int (b : BitVec 32) : Int := if f32Sign b then -(f32Units b : Int) else f32Units b

/-- `num / den` to the nearest integer, ties to even. -/
def divEven (num den : Nat) : Nat :=
  if 2 * (num % den) < den then num / den
  else if den < 2 * (num % den) then num / den + 1
  else if num / den % 2 = 0 then num / den else num / den + 1

/-- How many bits of `num / den` are below the 24 that a float can hold. -/
def dropBits (num den : Nat) : Nat := Nat.log2 (num / den) - 23

/-- The magnitude bits of the float nearest to `num / den` units; infinity if it is too large. -/
def encMag (num den : Nat) : Nat :=
  min (dropBits num den * 2 ^ 23 + divEven num (den * 2 ^ dropBits num den)) 0x7f800000

/-- A float from its sign and its magnitude bits. -/
def f32Make (sign : Bool) (mag : Nat) : BitVec 32 := BitVec.ofNat 32 ((if sign then 2 ^ 31 else 0) + mag)

/-- `a + b` on `f32`. -/
def f32Add (a b : BitVec 32) : BitVec 32 :=
  if f32IsNaN a || f32IsNaN b then f32NaN
  else if f32IsInf a then (if f32IsInf b && f32Sign a != f32Sign b then f32NaN else a)
  else if f32IsInf b then b
  else if f32Int a + f32Int b = 0 then f32Make (f32Sign a && f32Sign b) 0
  else f32Make (decide (f32Int a + f32Int b < 0)) (encMag (f32Int a + f32Int b).natAbs 1)

/-- `-a` on `f32`. -/
def f32Neg (a : BitVec 32) : BitVec 32 := a ^^^ 0x80000000#32

/-- `a - b` on `f32`. -/
def f32Sub (a b : BitVec 32) : BitVec 32 := f32Add a (f32Neg b)

/-- `a * b` on `f32`. -/
def f32Mul (a b : BitVec 32) : BitVec 32 :=
  if f32IsNaN a || f32IsNaN b then f32NaN
  else if f32IsInf a || f32IsInf b then
    (if f32Mag a = 0 || f32Mag b = 0 then f32NaN else f32Make (f32Sign a != f32Sign b) 0x7f800000)
  else f32Make (f32Sign a != f32Sign b) (encMag (f32Units a * f32Units b) (2 ^ 149))

/-- `a / b` on `f32`. -/
def f32Div (a b : BitVec 32) : BitVec 32 :=
  if f32IsNaN a || f32IsNaN b then f32NaN
  else if f32IsInf a then (if f32IsInf b then f32NaN else f32Make (f32Sign a != f32Sign b) 0x7f800000)
  else if f32IsInf b then f32Make (f32Sign a != f32Sign b) 0
  else if f32Mag b = 0 then (if f32Mag a = 0 then f32NaN else f32Make (f32Sign a != f32Sign b) 0x7f800000)
  else f32Make (f32Sign a != f32Sign b) (encMag (f32Units a * 2 ^ 149) (f32Units b))

/-- `n as f32` for an unsigned integer `n`. -/
def f32OfNat (n : Nat) : BitVec 32 := f32Make false (encMag (n * 2 ^ 149) 1)

/-- The literal `num / den`. -/
def f32Lit (num : Int) (den : Nat) : BitVec 32 := f32Make (decide (num < 0)) (encMag (num.natAbs * 2 ^ 149) den)

/-- Transcendental functions of `f32`, left open. -/
class F32Trans where
  exp : BitVec 32 → BitVec 32
  ln : BitVec 32 → BitVec 32
  powf : BitVec 32 → BitVec 32 → BitVec 32
  sqrt : BitVec 32 → BitVec 32

/-- The operations of `f32`. -/
def ieeeOps (t : F32Trans) : F32Ops :=
  { add := f32Add, sub := f32Sub, mul := f32Mul, div := f32Div, ofNat := f32OfNat, lit := f32Lit, exp := t.exp, ln := t.ln, powf := t.powf, sqrt := t.sqrt }

/-- `f32` as Rust has it. -/
@[reducible] def ieeeFlt (t : F32Trans) : Flt (BitVec 32) := f32Flt (ieeeOps t)

end Rml
