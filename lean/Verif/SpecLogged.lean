import Verif.Model.Train
import Verif.Model.Field
import Mathlib.Algebra.BigOperators.Group.Finset.Basic
import Mathlib.Data.Finset.Range
import Mathlib.Algebra.Order.Field.Basic

/-! Specification vocabulary for C90: data that was logged by a random policy, and expected values. All numbers are exact. -/

namespace Rml
variable {K : Type} [Field K] [LinearOrder K] [Trans K]

/-- A round of a contextual bandit problem: the event, the number of its actions, the cost that each action would have, and the probability with which
the logging policy chooses each action. -/
structure LogRound (K : Type) where
  feats : Features K
  actions : Nat
  cost : Nat → K
  prob : Nat → K

/-- The logging policy explores: every action has a positive probability, and together they have probability 1. -/
def LogRound.Explores (r : LogRound K) : Prop := (∀ a < r.actions, 0 < r.prob a) ∧ ∑ a ∈ Finset.range r.actions, r.prob a = 1

/-- What is logged if this action is chosen: the action, its cost and its probability. -/
def LogRound.label (r : LogRound K) (a : Nat) : CBLabel K := ⟨a, r.cost a, r.prob a⟩

/-- An environment: the next round, given the actions that were chosen before. So events, costs and the logging policy may depend on the past. -/
abbrev LogEnv (K : Type) := List Nat → LogRound K

/-- These actions can be chosen, one after the other. -/
def LogEnv.Possible (env : LogEnv K) (h : List Nat) : Prop := ∀ i a, h[i]? = some a → a < (env (h.take i)).actions

/-- The logged examples, if these actions are chosen. -/
def LogEnv.logged (env : LogEnv K) (h : List Nat) : List (Features K × Label K) :=
  h.mapIdx fun i a => ((env (h.take i)).feats, .cb ((env (h.take i)).label a))

/-- The expected value of a quantity that depends on the chosen actions, for `n` more rounds after `h`. -/
def LogEnv.expect (env : LogEnv K) : Nat → List Nat → (List Nat → K) → K
  | 0, h, x => x h
  | n + 1, h, x => ∑ a ∈ Finset.range (env h).actions, (env h).prob a * env.expect n (h ++ [a]) x

/-- The reward (negative cost) that a policy with these action probabilities can expect in the round. -/
def LogRound.reward (r : LogRound K) : Prediction K → K
  | .actionProbs probs => ∑ a ∈ Finset.range r.actions, (probs.lookup a).getD 0 * -(r.cost a)
  | _ => 0

/-- The average of the rewards that the predicted policies can expect, one policy for each round. -/
def LogEnv.averageReward (env : LogEnv K) (h : List Nat) (ps : List (Prediction K)) : K :=
  (ps.mapIdx fun i p => (env (h.take i)).reward p).sum / (ps.length : K)

end Rml
