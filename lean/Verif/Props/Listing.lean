import Verif.Props.Visit

/-! C102: the listing of interaction features. -/

namespace Rml
variable {F : Type}

/-- C102, two namespaces: nothing is listed exactly if one of them is missing; otherwise every pair is listed exactly once, with the hashed index in `numBits` bits and
the product of the values. -/
theorem C102_quadratic [Flt F] (numBits : Nat) (f : SparseFeatures F) (A B : Namespace) :
    (f.quadraticFeatures A B numBits = none ↔ f.getNamespace A = none ∨ f.getNamespace B = none) ∧
    ∀ l, f.quadraticFeatures A B numBits = some l →
      l = ((activeFeats f A) ×ˢ (activeFeats f B)).map (fun p => pairFeature numBits p.1 p.2) := by
  unfold SparseFeatures.quadraticFeatures
  cases hA : f.getNamespace A with
  | none => simp
  | some n1 =>
    cases hB : f.getNamespace B with
    | none => simp
    | some n2 =>
      refine ⟨by simp, ?_⟩
      intro l hl
      simp only [Option.some.injEq] at hl
      subst hl
      have e1 : activeFeats f A = n1.iter := by rw [← nsIter_eq]; unfold nsIter; rw [hA]
      have e2 : activeFeats f B = n2.iter := by rw [← nsIter_eq]; unfold nsIter; rw [hB]
      rw [e1, e2]
      change _ = List.map _ (n1.iter.flatMap fun a => n2.iter.map (Prod.mk a))
      rw [List.map_flatMap]
      simp only [List.map_map, Function.comp_def, pairFeature, pairIndex, quadraticHash, fnvMul_eq, lowBits_eq, FNV_PRIME]

/-- C102, three namespaces. -/
theorem C102_cubic [Flt F] (numBits : Nat) (f : SparseFeatures F) (A B C : Namespace) :
    (f.cubicFeatures A B C numBits = none ↔ f.getNamespace A = none ∨ f.getNamespace B = none ∨ f.getNamespace C = none) ∧
    ∀ l, f.cubicFeatures A B C numBits = some l →
      l = ((activeFeats f A) ×ˢ ((activeFeats f B) ×ˢ (activeFeats f C))).map (fun p => tripleFeature numBits p.1 p.2.1 p.2.2) := by
  unfold SparseFeatures.cubicFeatures
  cases hA : f.getNamespace A with
  | none => simp
  | some n1 =>
    cases hB : f.getNamespace B with
    | none => simp
    | some n2 =>
      cases hC : f.getNamespace C with
      | none => simp
      | some n3 =>
        refine ⟨by simp, ?_⟩
        intro l hl
        simp only [Option.some.injEq] at hl
        subst hl
        have e1 : activeFeats f A = n1.iter := by rw [← nsIter_eq]; unfold nsIter; rw [hA]
        have e2 : activeFeats f B = n2.iter := by rw [← nsIter_eq]; unfold nsIter; rw [hB]
        have e3 : activeFeats f C = n3.iter := by rw [← nsIter_eq]; unfold nsIter; rw [hC]
        rw [e1, e2, e3]
        change _ = List.map _ (n1.iter.flatMap fun a => (n2.iter.flatMap fun b => n3.iter.map (Prod.mk b)).map (Prod.mk a))
        rw [List.map_flatMap]
        simp only [List.map_map, List.map_flatMap, Function.comp_def, tripleFeature, tripleIndex, pairIndex, cubicHash, fnvMul_eq, lowBits_eq, FNV_PRIME]

/-- C102: for different namespaces the listed features are, in order, those that predicting and learning visit for the interaction. -/
theorem C102_visited [Flt F] (numBits : Nat) (f : SparseFeatures F) (A B C : Namespace) :
    (A ≠ B → quadVisit numBits f (A, B) = (f.quadraticFeatures A B numBits).getD []) ∧
    (A ≠ B → B ≠ C → cubicVisit numBits f (A, B, C) = (f.cubicFeatures A B C numBits).getD []) := by
  refine ⟨fun h => ?_, fun h1 h2 => ?_⟩
  · cases hl : f.quadraticFeatures A B numBits with
    | none => exact C13_quadratic_missing numBits f A B ((C102_quadratic numBits f A B).1.1 hl)
    | some l => rw [C13_quadratic_distinct numBits f A B h, (C102_quadratic numBits f A B).2 l hl]; rfl
  · rw [C14_cubic_distinct_partial numBits f A B C h1 h2]
    cases hl : f.cubicFeatures A B C numBits with
    | none =>
      have z : ∀ ns, f.getNamespace ns = none → activeFeats f ns = [] := by
        intro ns h
        rw [← nsIter_eq]
        unfold nsIter
        rw [h]
      rcases (C102_cubic numBits f A B C).1.1 hl with h | h | h
      · rw [z _ h]; rfl
      · rw [z _ h]; simp
      · rw [z _ h]; simp
    | some l => rw [(C102_cubic numBits f A B C).2 l hl]; rfl

/-- C102: for the same namespace twice the listing has more features than learning visits: of two features it lists both orders. -/
theorem C102_same_false : ¬ ∀ (numBits : Nat) (f : SparseFeatures Int) (A : Namespace),
    @quadVisit Int intFlt numBits f (A, A) = (@SparseFeatures.quadraticFeatures Int intFlt f A A numBits).getD [] := by
  intro h
  have := congrArg List.length (h 18 sampleFeats (.named 1#32))
  revert this
  decide

/-- Both listings of an example. -/
example : (@SparseFeatures.quadraticFeatures Int intFlt sampleFeats (.named 1#32) (.named 2#32) 18).map (·.map (·.2)) = some [14, 35] ∧
    (@SparseFeatures.cubicFeatures Int intFlt sampleFeats (.named 1#32) (.named 2#32) (.named 1#32) 18).map (·.map (·.2)) = some [28, 70, 70, 175] ∧
    @SparseFeatures.quadraticFeatures Int intFlt sampleFeats (.named 1#32) (.named 3#32) 18 = none := by decide

end Rml
