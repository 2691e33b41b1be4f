import Verif.Model.Base
import Mathlib.Algebra.Order.Field.Basic
import Mathlib.Algebra.Order.Ring.Abs
import Mathlib.Data.Int.Cast.Lemmas

/-
Exact arithmetic as an instance of the float signature: used by the theorems whose statement is about numbers (`DESIGN.md`, "Numbers").
-/

namespace Rml

/-- The transcendental functions, without laws (`f32::exp`, `f32::ln`, `f32::powf`, `f32::sqrt`). -/
class Trans (K : Type) where
  exp : K → K
  ln : K → K
  powf : K → K → K
  sqrt : K → K

/-- Exact arithmetic on an ordered field. There is no NaN; `signum 0 = 1` as for `f32::signum(+0.0)`. -/
@[reducible] def fieldFlt (K : Type) [Field K] [LinearOrder K] [Trans K] : Flt K where
  zero := 0
  one := 1
  add := (· + ·)
  sub := (· - ·)
  mul := (· * ·)
  div := (· / ·)
  neg := (- ·)
  abs := fun x => |x|
  fmin := min
  fmax := max
  lt := fun a b => decide (a < b)
  le := fun a b => decide (a ≤ b)
  eq := fun a b => decide (a = b)
  isNaN := fun _ => false
  ofNat := fun n => (n : K)
  lit := fun n d => (n : K) / (d : K)
  exp := Trans.exp
  ln := Trans.ln
  powf := Trans.powf
  sqrt := Trans.sqrt
  signum := fun x => if 0 ≤ x then 1 else -1

/-- Integers as a toy instance, used only in the `example`s that show hypotheses to be satisfiable. -/
@[reducible] def intFlt : Flt Int where
  zero := 0
  one := 1
  add := (· + ·)
  sub := (· - ·)
  mul := (· * ·)
  div := (· / ·)
  neg := (- ·)
  abs := fun x => if x < 0 then -x else x
  fmin := fun a b => if a < b then a else b
  fmax := fun a b => if a < b then b else a
  lt := fun a b => decide (a < b)
  le := fun a b => decide (a ≤ b)
  eq := fun a b => decide (a = b)
  isNaN := fun _ => false
  ofNat := fun n => n
  lit := fun n d => n / d
  exp := id
  ln := id
  powf := fun a _ => a
  sqrt := id
  signum := fun x => if 0 ≤ x then 1 else -1

end Rml
