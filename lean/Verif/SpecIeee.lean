import Verif.Model.Round

/-! Specification vocabulary for C97: what a bit pattern means as an IEEE 754 binary32 number, and what a correctly rounded result is. -/

namespace Rml

/-- The sign: the first bit. -/
def ieeeSign (b : BitVec 32) : Bool := b.getLsbD 31

/-- The exponent: the next 8 bits. -/
def ieeeExponent (b : BitVec 32) : Nat := b.toNat / 2 ^ 23 % 2 ^ 8

/-- The fraction: the last 23 bits. -/
def ieeeFraction (b : BitVec 32) : Nat := b.toNat % 2 ^ 23

/-- Finite numbers: the exponent is not 255. -/
def IeeeFinite (b : BitVec 32) : Prop := ieeeExponent b ≠ 255

/-- Infinities: exponent 255, fraction 0. -/
def IeeeInf (b : BitVec 32) : Prop := ieeeExponent b = 255 ∧ ieeeFraction b = 0

/-- NaN: exponent 255, another fraction. -/
def IeeeNaN (b : BitVec 32) : Prop := ieeeExponent b = 255 ∧ ieeeFraction b ≠ 0

/-- The number that a finite pattern stands for: `(-1)^sign * 1.fraction * 2^(exponent - 127)`, or `(-1)^sign * 0.fraction * 2^-126` for exponent 0. -/
noncomputable def ieeeValue (b : BitVec 32) : ℝ :=
  (if ieeeSign b then -1 else 1) *
    (if ieeeExponent b = 0 then (ieeeFraction b / 2 ^ 23 : ℝ) * (2 : ℝ) ^ (-126 : ℤ) else (1 + ieeeFraction b / 2 ^ 23 : ℝ) * (2 : ℝ) ^ ((ieeeExponent b : ℤ) - 127))

/-- `r` is the correctly rounded result for the exact result `x`: if no finite number overflows (below `2^128 - 2^103`, halfway between the largest number and `2^128`),
a finite number that is nearest to `x`, and has an even fraction if there are two of them; otherwise infinity with the sign of `x`. -/
def CorrectlyRounded (x : ℝ) (r : BitVec 32) : Prop :=
  (|x| < 2 ^ 128 - 2 ^ 103 → IeeeFinite r ∧ ∀ b, IeeeFinite b → |ieeeValue r - x| ≤ |ieeeValue b - x| ∧
    (|ieeeValue r - x| = |ieeeValue b - x| → ieeeValue b ≠ ieeeValue r → Even (ieeeFraction r))) ∧
  (2 ^ 128 - 2 ^ 103 ≤ |x| → IeeeInf r ∧ (ieeeSign r = true ↔ x < 0))

end Rml
