import Verif.Model.Field
import Verif.Model.Loss
import Mathlib.Tactic.Ring
import Mathlib.Tactic.Linarith
import Mathlib.Tactic.FieldSimp
import Mathlib.Tactic.Positivity
import Mathlib.Algebra.Order.BigOperators.Group.List

/-! The float operations on an ordered field are the field operations. -/

namespace Rml
variable {K : Type} [Field K] [LinearOrder K] [Trans K]

@[simp] theorem flt_zero : @Flt.zero K (fieldFlt K) = 0 := rfl
@[simp] theorem flt_one : @Flt.one K (fieldFlt K) = 1 := rfl
@[simp] theorem flt_add (a b : K) : @Flt.add K (fieldFlt K) a b = a + b := rfl
@[simp] theorem flt_sub (a b : K) : @Flt.sub K (fieldFlt K) a b = a - b := rfl
@[simp] theorem flt_mul (a b : K) : @Flt.mul K (fieldFlt K) a b = a * b := rfl
@[simp] theorem flt_div (a b : K) : @Flt.div K (fieldFlt K) a b = a / b := rfl
@[simp] theorem flt_neg (a : K) : @Flt.neg K (fieldFlt K) a = -a := rfl
@[simp] theorem flt_abs (a : K) : @Flt.abs K (fieldFlt K) a = |a| := rfl
@[simp] theorem flt_fmin (a b : K) : @Flt.fmin K (fieldFlt K) a b = min a b := rfl
@[simp] theorem flt_fmax (a b : K) : @Flt.fmax K (fieldFlt K) a b = max a b := rfl
@[simp] theorem flt_lt (a b : K) : @Flt.lt K (fieldFlt K) a b = decide (a < b) := rfl
@[simp] theorem flt_le (a b : K) : @Flt.le K (fieldFlt K) a b = decide (a ≤ b) := rfl
@[simp] theorem flt_eq (a b : K) : @Flt.eq K (fieldFlt K) a b = decide (a = b) := rfl
@[simp] theorem flt_isNaN (a : K) : @Flt.isNaN K (fieldFlt K) a = false := rfl
@[simp] theorem flt_ofNat (n : Nat) : @Flt.ofNat K (fieldFlt K) n = (n : K) := rfl
@[simp] theorem flt_lit (n : Int) (d : Nat) : @Flt.lit K (fieldFlt K) n d = (n : K) / (d : K) := rfl
@[simp] theorem flt_exp (a : K) : @Flt.exp K (fieldFlt K) a = Trans.exp a := rfl
@[simp] theorem flt_ln (a : K) : @Flt.ln K (fieldFlt K) a = Trans.ln a := rfl
@[simp] theorem flt_powf (a b : K) : @Flt.powf K (fieldFlt K) a b = Trans.powf a b := rfl
@[simp] theorem flt_sqrt (a : K) : @Flt.sqrt K (fieldFlt K) a = Trans.sqrt a := rfl
@[simp] theorem flt_signum (a : K) : @Flt.signum K (fieldFlt K) a = if 0 ≤ a then 1 else -1 := rfl
@[simp] theorem fl_eq (n : Int) : @fl K (fieldFlt K) n = (n : K) := by simp [fl]

end Rml
