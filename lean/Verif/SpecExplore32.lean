import Verif.SpecIeee
import Verif.SpecSafe
import Verif.Model.Ieee

/-! Specification vocabulary for C110: the single precision numbers and settings for which exploration works. -/

namespace Rml

/-- A finite number that is not huge: at most `2^126` (about `8.5e37`) in magnitude. -/
def Moderate (a : BitVec 32) : Prop := IeeeFinite a ∧ |ieeeValue a| ≤ 2 ^ 126

/-- A finite number that is not negative. -/
def NotNegative (a : BitVec 32) : Prop := IeeeFinite a ∧ 0 ≤ ieeeValue a

/-- A number between 0 and 1. -/
def BetweenZeroOne (a : BitVec 32) : Prop := IeeeFinite a ∧ 0 ≤ ieeeValue a ∧ ieeeValue a ≤ 1

/-- What is assumed of `f32::exp`: on numbers that are not positive, and minus infinity, it is between 0 and 1; on zero it is 1. -/
structure SaneExp (t : F32Trans) : Prop where
  unit : ∀ x, (IeeeFinite x ∧ ieeeValue x ≤ 0 ∨ IeeeInf x ∧ ieeeSign x = true) → BetweenZeroOne (t.exp x)
  zero : ∀ x, IeeeFinite x → ieeeValue x = 0 → ieeeValue (t.exp x) = 1

/-- The settings of the exploration reductions: every epsilon is between 0 and 1, every lambda is a nonnegative number, and SquareCB's
`gammaScale * n^gammaExponent` is a nonnegative number for every number `n` of examples. -/
def Sane32 (t : F32Trans) : RedConfig (BitVec 32) → Prop
  | .coin _ => True
  | .binary c => Sane32 t c
  | .cbAdf _ c => Sane32 t c
  | .greedy e c => BetweenZeroOne e ∧ Sane32 t c
  | .softmax e l c => BetweenZeroOne e ∧ NotNegative l ∧ Sane32 t c
  | .squareCb e s x c => BetweenZeroOne e ∧ (∀ n, NotNegative (f32Mul s (t.powf (f32OfNat n) x))) ∧ Sane32 t c
  | .debug c => Sane32 t c
  | .elementwise _ _ _ c => Sane32 t c
  | .unknown _ => True

end Rml
