import Verif.Model.Hash
import Mathlib.Algebra.Order.Field.Basic
import Mathlib.Algebra.BigOperators.Group.List.Basic

/-! Specification for C105: coin betting for regression, as one would write it down on paper, as a function of the whole history. There are no tables, no passes over features and no stored
statistics here, and nothing of the model is used except the type of feature indices. -/

namespace Rml
namespace Reference
variable {K : Type} [Field K] [LinearOrder K]

/-- An example: the values of its features (with interactions and constant), its label and its importance weight. -/
structure Example (K : Type) where
  values : List (U32 × K)
  label : K
  weight : K

/-- A round of training: the example, the derivative of its weighted loss at the prediction, and the average squared length of the examples so far. -/
structure Step (K : Type) where
  ex : Example K
  gradient : K
  average : K

/-- The outcomes that the bettor of feature `i` has seen in a round (latest first): the gradient and the value. -/
def outcomesOf (s : Step K) (i : U32) : List (K × K) := ((s.ex.values.filter fun iv => iv.1 = i).map fun iv => (s.gradient, iv.2)).reverse

/-- All outcomes for the feature `i` in a history (latest round first). -/
def outcomes (h : List (Step K)) (i : U32) : List (K × K) := h.flatMap fun s => outcomesOf s i

/-- The largest value so far. -/
def largestValue (l : List (K × K)) : K := (l.map fun gx => |gx.2|).foldr max 0

/-- The bound on the gradients: `beta` or the largest one so far; zero as long as there was none. -/
def largestGradient (beta : K) (l : List (K × K)) : K :=
  if ∀ gx ∈ l, gx.1 = 0 then 0 else max beta ((l.map fun gx => |gx.1|).foldr max 0)

/-- The bet with a given wealth, when outcomes are bounded by `bound`: a fraction of the wealth, proportional to the sum of the outcomes. -/
def bet (wealth bound : K) (l : List (K × K)) : K :=
  if 0 < bound then wealth / (bound * (bound + (l.map fun gx => |gx.1 * gx.2|).sum)) * -(l.map fun gx => gx.1 * gx.2).sum else 0

/-- The wealth after the outcomes `l` (latest first): it starts with `alpha`, and each outcome adds the amount of the bet times the outcome. -/
def wealth (alpha beta : K) : List (K × K) → K
  | [] => alpha
  | gx :: l => wealth alpha beta l - gx.1 * gx.2 * bet (wealth alpha beta l) (largestGradient beta (gx :: l) * largestValue (gx :: l)) l

/-- The bet on the latest outcome. -/
def lastBet (alpha beta : K) : List (K × K) → K
  | [] => 0
  | gx :: l => bet (wealth alpha beta l) (largestGradient beta (gx :: l) * largestValue (gx :: l)) l

/-- The bet on a new value, before the gradient is known. -/
def newBet (alpha beta : K) (l : List (K × K)) (x : K) : K := bet (wealth alpha beta l) (largestGradient beta l * max (largestValue l) |x|) l

/-- The squared length of an example, its values in units of the largest one so far. -/
def normOf (h : List (Step K)) (e : Example K) : K := (e.values.map fun iv => (iv.2 / max (largestValue (outcomes h iv.1)) |iv.2|) ^ 2).sum

/-- The sum of the squared lengths. -/
def totalNorm : List (Step K) → K
  | [] => 0
  | s :: h => totalNorm h + normOf h s.ex * s.ex.weight

/-- The average squared length including that of a new example. -/
def average (h : List (Step K)) (e : Example K) : K :=
  (totalNorm h + normOf h e * e.weight + 1 / 1000000) / ((h.map fun s => s.ex.weight).sum + e.weight)

/-- The smallest label so far. -/
def lowest (lo : K) (h : List (Step K)) : K := (h.map fun s => s.ex.label).foldr min lo
/-- The largest label so far. -/
def highest (hi : K) (h : List (Step K)) : K := (h.map fun s => s.ex.label).foldr max hi

/-- The nearest number in the range. -/
def clip (lo hi x : K) : K := max lo (min x hi)

/-- A round: the bets are added up and divided by the average; the gradient is that of the squared loss. -/
def step (alpha beta lo hi : K) (h : List (Step K)) (e : Example K) : Step K :=
  let p := clip (min e.label (lowest lo h)) (max e.label (highest hi h)) ((e.values.map fun iv => newBet alpha beta (outcomes h iv.1) iv.2 * iv.2).sum / average h e)
  ⟨e, 2 * (p - e.label) * e.weight, average h e⟩

/-- Training. -/
def train (alpha beta lo hi : K) (es : List (Example K)) : List (Step K) := es.foldl (fun h e => step alpha beta lo hi h e :: h) []

/-- The weight of a feature for predictions: its latest bet, divided by the average of that round. -/
def weightOf (alpha beta : K) : List (Step K) → U32 → K
  | [], _ => 0
  | s :: h, i => if outcomesOf s i = [] then weightOf alpha beta h i else lastBet alpha beta (outcomes (s :: h) i) / s.average

/-- The score of an example. -/
def score (alpha beta : K) (h : List (Step K)) (values : List (U32 × K)) : K := (values.map fun iv => iv.2 * weightOf alpha beta h iv.1).sum

end Reference
end Rml
