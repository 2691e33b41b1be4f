import Verif.Model.Reductions

/-
`ReductionWrapper::sensitivity` and `ReductionImpl::sensitivity` (`reduction.rs:117-128, 320-332`): every reduction except Coin asks its first child, with the same
features.
-/

namespace Rml
variable {F : Type} [Flt F]

/-- `sensitivity` of a stack (`reduction.rs:117-128, 320-332`; Coin: `coin.rs:247-276`, where the features must be simple ones). The label, the prediction, the weight
and the depth are passed on and used by no reduction; they are left out. -/
def Red.sensitivity (dbg : Bool) : (r : Red F) → r.State → Features F → M F
  | .coin _, s, ft => do
    let f ← ft.asSimple
    Coin.sensitivity dbg s f
  | .binary _ r, s, ft => r.sensitivity dbg s ft
  | .cbAdf _ _ r, s, ft => r.sensitivity dbg s.2 ft
  | .greedy _ _ r, s, ft => r.sensitivity dbg s ft
  | .softmax _ _ _ r, s, ft => r.sensitivity dbg s.2 ft
  | .squareCb _ _ _ _ r, s, ft => r.sensitivity dbg s.2 ft
  | .debug _ r, s, ft => r.sensitivity dbg s ft
  | .elementwise _ _ _ _ r, s, ft => r.sensitivity dbg s ft

end Rml
