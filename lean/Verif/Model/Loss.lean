import Verif.Model.Base

/-
`loss_function.rs`, `loss_function/squared_loss.rs`, `loss_function/logistic_loss.rs`.
-/

namespace Rml
variable {F : Type} [Flt F]

/-- Literal `n.0`. -/
def fl (n : Int) : F := Flt.lit n 1

namespace SquaredLoss

/-- `get_loss` (`squared_loss.rs:16-32`). -/
def getLoss (minL maxL p l : F) : F :=
  if Flt.le p maxL && Flt.le minL p then Flt.mul (Flt.sub p l) (Flt.sub p l)
  else if Flt.lt p minL then
    if Flt.eq l minL then Flt.zero
    else Flt.add (Flt.mul (Flt.sub l minL) (Flt.sub l minL))
      (Flt.mul (Flt.mul (fl 2) (Flt.sub l minL)) (Flt.sub minL p))
  else if Flt.eq l maxL then Flt.zero
  else Flt.add (Flt.mul (Flt.sub maxL l) (Flt.sub maxL l))
      (Flt.mul (Flt.mul (fl 2) (Flt.sub maxL l)) (Flt.sub p maxL))

/-- `get_update` (`squared_loss.rs:34-51`). -/
def getUpdate (p l scale ppu : F) : F :=
  if Flt.lt (Flt.mul scale ppu) (Flt.lit 1 1000000) then Flt.mul (Flt.mul (fl 2) (Flt.sub l p)) scale
  else Flt.div (Flt.mul (Flt.sub l p)
    (Flt.sub Flt.one (Flt.exp (Flt.mul (Flt.mul (fl (-2)) scale) ppu)))) ppu

/-- `get_unsafe_update` (`squared_loss.rs:53-55`). -/
def getUnsafeUpdate (p l scale : F) : F := Flt.mul (Flt.mul (fl 2) (Flt.sub l p)) scale

/-- `get_square_grad` (`squared_loss.rs:57-59`). -/
def getSquareGrad (p l : F) : F := Flt.mul (Flt.mul (fl 4) (Flt.sub p l)) (Flt.sub p l)

/-- `first_derivative` (`squared_loss.rs:61-71`). -/
def firstDerivative (minL maxL p l : F) : F :=
  let pred := if Flt.lt p minL then minL else if Flt.lt maxL p then maxL else p
  Flt.mul (fl 2) (Flt.sub pred l)

/-- `second_derivative` (`squared_loss.rs:73-85`). -/
def secondDerivative (minL maxL p : F) : F :=
  if Flt.le p maxL && Flt.le minL p then fl 2 else Flt.zero

end SquaredLoss

namespace LogisticLoss

/-- `get_loss_sub` (`logistic_loss.rs:22-25`), without the debug assertion on its constant arguments. -/
def getLossSub (p l : F) : F := Flt.ln (Flt.add Flt.one (Flt.exp (Flt.mul (Flt.neg l) p)))

/-- `wexpmx` (`logistic_loss.rs:28-48`). The computation is in `f64` in Rust; here in the same number type. -/
def wexpmx (x : F) : F :=
  let w := if Flt.le Flt.one x then Flt.add (Flt.mul (Flt.lit 86 100) x) (Flt.lit 1 100)
    else Flt.exp (Flt.add (Flt.lit (-65) 100) (Flt.mul (Flt.lit 8 10) x))
  let r := if Flt.le Flt.one x then Flt.sub (Flt.sub x (Flt.ln w)) w
    else Flt.sub (Flt.add (Flt.mul (Flt.lit 2 10) x) (Flt.lit 65 100)) w
  let t := Flt.add Flt.one w
  let u := Flt.mul (Flt.mul (fl 2) t) (Flt.add t (Flt.div (Flt.mul (fl 2) r) (fl 3)))
  Flt.sub (Flt.mul w (Flt.add Flt.one
    (Flt.div (Flt.mul (Flt.div r t) (Flt.sub u r)) (Flt.sub u (Flt.mul (fl 2) r))))) x

/-- `get_update_sub` (`logistic_loss.rs:50-61`). -/
def getUpdateSub (p l scale ppu : F) : F :=
  let d := Flt.exp (Flt.mul l p)
  if Flt.lt (Flt.mul scale ppu) (Flt.lit 1 1000000) then Flt.div (Flt.mul l scale) (Flt.add Flt.one d)
  else
    let x := Flt.add (Flt.add (Flt.mul scale ppu) (Flt.mul l p)) d
    let w := wexpmx x
    Flt.div (Flt.neg (Flt.add (Flt.mul l w) p)) ppu

/-- `get_unsafe_update_sub` (`logistic_loss.rs:63-66`). -/
def getUnsafeUpdateSub (p l scale : F) : F :=
  Flt.div (Flt.mul l scale) (Flt.add Flt.one (Flt.exp (Flt.mul l p)))

/-- `first_derivative_sub` (`logistic_loss.rs:68-70`). -/
def firstDerivativeSub (p l : F) : F := Flt.div (Flt.neg l) (Flt.add Flt.one (Flt.exp (Flt.mul l p)))

/-- `second_derivative_sub` (`logistic_loss.rs:72-75`). -/
def secondDerivativeSub (p l : F) : F :=
  let q := Flt.div Flt.one (Flt.add Flt.one (Flt.exp (Flt.mul l p)))
  Flt.mul q (Flt.sub Flt.one q)

/-- `std_label` (`logistic_loss.rs:89, 101, 107, 124, 136`). -/
def stdLabel (minL maxL l : F) : F := Flt.div (Flt.sub l minL) (Flt.sub maxL minL)

/-- The mixture used by all methods (`logistic_loss.rs:90-91, 102-103, 108-109, 125-126, 137-138`). -/
def mix (s a b : F) : F := Flt.add (Flt.mul s a) (Flt.mul (Flt.sub Flt.one s) b)

/-- `get_loss` (`logistic_loss.rs:87-92`), without the debug assertion that the label is in range. -/
def getLoss (minL maxL p l : F) : F :=
  mix (stdLabel minL maxL l) (getLossSub p Flt.one) (getLossSub p (fl (-1)))

/-- `get_update` (`logistic_loss.rs:94-104`). -/
def getUpdate (minL maxL p l scale ppu : F) : F :=
  mix (stdLabel minL maxL l) (getUpdateSub p Flt.one scale ppu) (getUpdateSub p (fl (-1)) scale ppu)

/-- `get_unsafe_update` (`logistic_loss.rs:106-110`). -/
def getUnsafeUpdate (minL maxL p l scale : F) : F :=
  mix (stdLabel minL maxL l) (getUnsafeUpdateSub p Flt.one scale) (getUnsafeUpdateSub p (fl (-1)) scale)

/-- `first_derivative` (`logistic_loss.rs:117-127`). -/
def firstDerivative (minL maxL p l : F) : F :=
  mix (stdLabel minL maxL l) (firstDerivativeSub p Flt.one) (firstDerivativeSub p (fl (-1)))

/-- `second_derivative` (`logistic_loss.rs:129-139`). -/
def secondDerivative (minL maxL p l : F) : F :=
  mix (stdLabel minL maxL l) (secondDerivativeSub p Flt.one) (secondDerivativeSub p (fl (-1)))

/-- `get_square_grad` (`logistic_loss.rs:112-115`). -/
def getSquareGrad (minL maxL p l : F) : F :=
  let d := firstDerivative minL maxL p l
  Flt.mul d d

end LogisticLoss

/-- `LossFunction` (`loss_function.rs:26-30`); the logistic loss carries its own label range (`logistic_loss.rs:7-13`). -/
inductive LossFunction (F : Type) where
  | squared
  | logistic (minLabel maxLabel : F)
  deriving DecidableEq, Repr

/-- Dispatch of `first_derivative` (`loss_function.rs:105-114`). -/
def LossFunction.firstDerivative (lf : LossFunction F) (minL maxL p l : F) : F :=
  match lf with
  | .squared => SquaredLoss.firstDerivative minL maxL p l
  | .logistic a b => LogisticLoss.firstDerivative a b p l

/-- Dispatch of `second_derivative` (`loss_function.rs:116-131`). -/
def LossFunction.secondDerivative (lf : LossFunction F) (minL maxL p l : F) : F :=
  match lf with
  | .squared => SquaredLoss.secondDerivative minL maxL p
  | .logistic a b => LogisticLoss.secondDerivative a b p l

/-- Dispatch of `get_loss` (`loss_function.rs:67-72`). -/
def LossFunction.getLoss (lf : LossFunction F) (minL maxL p l : F) : F :=
  match lf with
  | .squared => SquaredLoss.getLoss minL maxL p l
  | .logistic a b => LogisticLoss.getLoss a b p l

/-- Dispatch of `get_update` (`loss_function.rs:74-89`). -/
def LossFunction.getUpdate (lf : LossFunction F) (p l scale ppu : F) : F :=
  match lf with
  | .squared => SquaredLoss.getUpdate p l scale ppu
  | .logistic a b => LogisticLoss.getUpdate a b p l scale ppu

/-- Dispatch of `get_unsafe_update` (`loss_function.rs:91-96`). -/
def LossFunction.getUnsafeUpdate (lf : LossFunction F) (p l scale : F) : F :=
  match lf with
  | .squared => SquaredLoss.getUnsafeUpdate p l scale
  | .logistic a b => LogisticLoss.getUnsafeUpdate a b p l scale

/-- Dispatch of `get_square_grad` (`loss_function.rs:98-103`). -/
def LossFunction.getSquareGrad (lf : LossFunction F) (p l : F) : F :=
  match lf with
  | .squared => SquaredLoss.getSquareGrad p l
  | .logistic a b => LogisticLoss.getSquareGrad a b p l

end Rml
