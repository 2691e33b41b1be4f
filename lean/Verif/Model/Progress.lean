import Verif.Model.Train
import Verif.Model.Ieee

/-! The multiplicative period of the progress output in single precision. -/

namespace Rml

/-- `b as u32` on `f32` (the Rust reference): NaN and negative numbers become 0, numbers above the range `u32::MAX`, others lose their fraction. -/
def f32ToU32 (b : BitVec 32) : Nat :=
  if f32IsNaN b then 0
  else if f32Sign b then 0
  else if f32IsInf b then 2 ^ 32 - 1
  else min (f32Units b / 2 ^ 149) (2 ^ 32 - 1)

/-- `(self.iteration as f32 * period) as u32` (`train.rs:183`). -/
def scale32 (period : BitVec 32) (i : Nat) : Nat := f32ToU32 (f32Mul (f32OfNat i) period)

end Rml
