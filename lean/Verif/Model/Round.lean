import Verif.Model.Field
import Mathlib.Data.Real.Archimedean
import Mathlib.Data.Int.Log
import Mathlib.Algebra.Order.Round

/-
Rounded arithmetic: the real numbers with an operation `fl` after every operation, as `f32` arithmetic does. Overflow is not modelled (there is no
largest number); underflow is. It stands for the `f32` operations in `reductionml-core/src/utils/explore.rs:3-78`,
`reductionml-core/src/reductions/cb_explore_adf_{greedy,softmax,squarecb}.rs`, `reductionml-core/src/reductions/coin.rs` and `reductionml-core/src/metrics/*.rs`;
the functions themselves are the generic ones of the other model files.
-/

namespace Rml

/-- Round to an integer, ties to the even one. -/
noncomputable def rne (y : ℝ) : ℤ :=
  if y - ⌊y⌋ < 1 / 2 then ⌊y⌋ else if 1 / 2 < y - ⌊y⌋ then ⌊y⌋ + 1 else if Even ⌊y⌋ then ⌊y⌋ else ⌊y⌋ + 1

/-- The exponent of the last bit of `f32` numbers near `x`: 24 bits of precision, subnormals below 2^-126. -/
noncomputable def ulpExp (x : ℝ) : ℤ := max (Int.log 2 |x| - 23) (-149)

/-- Rounding to `f32` (IEEE 754 binary32, to nearest, ties to even), without a largest number. -/
noncomputable def fl32 (x : ℝ) : ℝ := (rne (x / (2 : ℝ) ^ ulpExp x) : ℝ) * (2 : ℝ) ^ ulpExp x

/-- `f32` arithmetic on real numbers: every operation rounds its exact result with `fl`. Comparisons, sign changes, minimum and maximum are exact. The
transcendental functions `t` are arbitrary (their results need not be rounded correctly). -/
@[reducible] noncomputable def roundFlt (fl : ℝ → ℝ) (t : Trans ℝ) : Flt ℝ where
  zero := 0
  one := 1
  add := fun a b => fl (a + b)
  sub := fun a b => fl (a - b)
  mul := fun a b => fl (a * b)
  div := fun a b => fl (a / b)
  neg := (- ·)
  abs := fun x => |x|
  fmin := min
  fmax := max
  lt := fun a b => decide (a < b)
  le := fun a b => decide (a ≤ b)
  eq := fun a b => decide (a = b)
  isNaN := fun _ => false
  ofNat := fun n => fl n
  lit := fun n d => fl (n / d)
  exp := t.exp
  ln := t.ln
  powf := t.powf
  sqrt := t.sqrt
  signum := fun x => if 0 ≤ x then 1 else -1

/-- What is assumed of rounding: a relative error of at most `u`, and at most `eta` in addition for very small results; the order is kept,
small integers and results of operations are not changed, and the sign does not matter. -/
structure Rounding (fl : ℝ → ℝ) (u eta : ℝ) : Prop where
  err : ∀ x, |fl x - x| ≤ u * |x| + eta
  mono : Monotone fl
  nat : ∀ n : Nat, n ≤ 2 ^ 24 → fl n = n
  idem : ∀ x, fl (fl x) = fl x
  neg : ∀ x, fl (-x) = -fl x

end Rml
