import Verif.Model.F32
import Verif.Model.Serde
import Verif.Spec

/-! Specification vocabulary for the theorems about saved models: laws of signed zeros. -/

namespace Rml
variable {F : Type} [Flt F]

/-- Not a zero other than the plain one: on `f32`, not `-0.0`. -/
def Flt.Plain (x : F) : Prop := Flt.eq x Flt.zero = true → x = Flt.zero

/-- Laws of signed zeros that IEEE 754 floats satisfy (in the default rounding mode): a sum is `-0.0` only if both terms are; adding `v * ±0`
to anything but `-0.0` does not depend on the sign, except for the payload of a NaN; NaN stays NaN under addition; an absolute value is
neither negative nor `-0.0`; what equals zero is at most zero. -/
class SignedZero (F : Type) [Flt F] : Prop where
  zero_eq : Flt.eq (Flt.zero : F) Flt.zero = true
  zero_num : Flt.isNaN (Flt.zero : F) = false
  add_plain : ∀ a b : F, Flt.Plain a → Flt.Plain (Flt.add a b)
  add_mul_zero : ∀ a v w : F, Flt.Plain a → Flt.eq w Flt.zero = true →
    Flt.add a (Flt.mul v w) = Flt.add a (Flt.mul v Flt.zero) ∨
      Flt.isNaN (Flt.add a (Flt.mul v w)) = true ∧ Flt.isNaN (Flt.add a (Flt.mul v Flt.zero)) = true
  add_nan : ∀ a b : F, Flt.isNaN a = true → Flt.isNaN (Flt.add a b) = true
  abs_plain : ∀ a : F, Flt.Plain (Flt.abs a)
  abs_nonneg : ∀ a : F, Flt.lt (Flt.abs a) Flt.zero = false
  eq_le : ∀ a b : F, Flt.eq a b = true → Flt.le a b = true

namespace Serde

/-- All values of a table that are not zeros can be written. -/
def FinW (fin : F → Bool) (w : DenseWeights F) : Prop := ∀ x ∈ w.weights, Flt.eq x Flt.zero = false → fin x = true

/-- The object has all the keys of a weight table. -/
def HasTableKeys (l : List (List Char × Doc F)) : Prop :=
  ∀ k ∈ ["weights", "feature_index_size", "model_index_size", "feature_state_size", "model_index_size_shift", "feature_state_size_shift"],
    k.toList ∈ l.map Prod.fst

instance (l : List (List Char × Doc F)) : Decidable (HasTableKeys l) := by unfold HasTableKeys; infer_instance

mutual
/-- Every weight table in the document (searched from the outside) satisfies `P`. -/
def TablesAre (P : Doc F → Prop) : Doc F → Prop
  | .obj l => if HasTableKeys l then P (.obj l) else TablesAreE P l
  | .arr l => TablesAreL P l
  | _ => True
/-- Every weight table in the values of an object satisfies `P`. -/
def TablesAreE (P : Doc F → Prop) : List (List Char × Doc F) → Prop
  | [] => True
  | (_, v) :: l => TablesAre P v ∧ TablesAreE P l
/-- Every weight table in the elements of an array satisfies `P`. -/
def TablesAreL (P : Doc F → Prop) : List (Doc F) → Prop
  | [] => True
  | v :: l => TablesAre P v ∧ TablesAreL P l
end

/-- The values of a loss function can be written. -/
def FinLoss (fin : F → Bool) : LossFunction F → Prop
  | .squared => True
  | .logistic lo hi => fin lo = true ∧ fin hi = true

/-- The values of a Coin configuration can be written. -/
def FinConfig (fin : F → Bool) (c : CoinConfig F) : Prop :=
  fin c.alpha = true ∧ fin c.beta = true ∧ fin c.l1Lambda = true ∧ fin c.l2Lambda = true ∧ FinLoss fin c.lossFunction

/-- The values of a Coin regressor can be written. -/
structure FinCoin (fin : F → Bool) (c : Coin F) : Prop where
  weights : FinW fin c.weights
  config : FinConfig fin c.config
  states : ∀ s ∈ c.modelStates, fin s.normalizedSumNormX = true ∧ fin s.totalWeight = true
  avg : fin c.averageSquaredNormX = true
  minL : fin c.minLabel = true
  maxL : fin c.maxLabel = true
  loss : FinLoss fin c.lossFunction

/-- All values of a stack can be written. -/
def FinRed (fin : F → Bool) : (r : Red F) → r.State → Prop
  | .coin _, c => FinCoin fin c
  | .binary _ r, s => FinRed fin r s
  | .cbAdf _ _ r, s => FinRed fin r s.2
  | .greedy _ e r, s => fin e = true ∧ FinRed fin r s
  | .softmax _ e la r, s => fin e = true ∧ fin la = true ∧ FinRed fin r s.2
  | .squareCb _ e gs ge r, s => fin e = true ∧ fin gs = true ∧ fin ge = true ∧ FinRed fin r s.2
  | .debug _ r, s => FinRed fin r s
  | .elementwise _ _ _ _ r, s => FinRed fin r s

/-- The values agree, except that a zero of any sign may have become the plain zero. -/
def SameUpToZeroSign (x y : F) : Prop := y = x ∨ Flt.eq x Flt.zero = true ∧ y = Flt.zero

/-- The lists agree value by value, except for signs of zeros. -/
def SameValues (v v' : List F) : Prop := v'.length = v.length ∧ ∀ (k : Nat) x y, v[k]? = some x → v'[k]? = some y → SameUpToZeroSign x y

/-- The documents agree in everything except weight tables: same structure, same keys in the same order, same leaves. -/
inductive OnlyTablesDiffer : Doc F → Doc F → Prop
  | table (l : List (List Char × Doc F)) (d : Doc F) : HasTableKeys l → OnlyTablesDiffer (.obj l) d
  | obj (l l' : List (List Char × Doc F)) : l.map Prod.fst = l'.map Prod.fst →
      (∀ (k : Nat) e e', l[k]? = some e → l'[k]? = some e' → OnlyTablesDiffer e.2 e'.2) → OnlyTablesDiffer (.obj l) (.obj l')
  | arr (l l' : List (Doc F)) : l.length = l'.length →
      (∀ (k : Nat) d d', l[k]? = some d → l'[k]? = some d' → OnlyTablesDiffer d d') → OnlyTablesDiffer (.arr l) (.arr l')
  | null : OnlyTablesDiffer .null .null
  | bool (b : Bool) : OnlyTablesDiffer (.bool b) (.bool b)
  | num (n : JNum F) : OnlyTablesDiffer (.num n) (.num n)
  | str (s : List Char) : OnlyTablesDiffer (.str s) (.str s)

end Serde

/-- Two runs show the client the same thing: the same panic, or the same returned predictions and the same examples afterwards, with
models that are saved to the same document. -/
def SameOutcome (g : GlobalConfig) : M (Session F × List (Call F × Option (Prediction F))) → M (Session F × List (Call F × Option (Prediction F))) → Prop
  | .ok (S, o), .ok (S', o') => o = o' ∧ S.ex = S'.ex ∧ Serde.serializeModel ⟨g, S.w⟩ = Serde.serializeModel ⟨g, S'.w⟩
  | .error e, .error e' => e = e'
  | _, _ => False

end Rml
