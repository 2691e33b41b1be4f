import Verif.Props.ZeroFeatures
import Verif.Props.Expanded

/-!
C117 with interactions: the products with a factor 0 do not matter, either (exact arithmetic).
-/

set_option linter.unusedSectionVars false

namespace Rml
open Coin
variable {K : Type} [Field K] [LinearOrder K] [IsStrictOrderedRing K] [Trans K]

attribute [local instance] fieldFlt

/-- In every namespace, the second example lists the features of the first whose value is not 0, in the same order. -/
def WithoutZerosNs (f f' : SparseFeatures K) : Prop :=
  WithoutZeros f f' ∧ ∀ ns, activeFeats f' ns = (activeFeats f ns).filter fun iv => iv.2 ≠ 0

theorem unordered_filter {α : Type} (p : α → Bool) (l : List α) : unorderedPairs (l.filter p) = (unorderedPairs l).filter fun q => p q.1 && p q.2 := by
  induction l with
  | nil => rfl
  | cons a l ih =>
    rw [List.filter_cons, unorderedPairs, List.filter_append, ← ih]
    cases ha : p a with
    | true =>
      simp only [if_true]
      rw [unorderedPairs, List.filter_map]
      congr 1
      have : List.filter ((fun q : α × α => p q.1 && p q.2) ∘ Prod.mk a) (a :: l) = List.filter p (a :: l) :=
        List.filter_congr fun b _ => by simp [ha]
      rw [this, List.filter_cons, ha]
      rfl
    | false =>
      have : List.filter (fun q : α × α => p q.1 && p q.2) ((a :: l).map (Prod.mk a)) = [] := by
        rw [List.filter_eq_nil_iff]
        intro q hq
        obtain ⟨b, _, rfl⟩ := List.mem_map.1 hq
        simp [ha]
      rw [this]
      rfl

theorem product_filter {α β : Type} (p : α → Bool) (q : β → Bool) (l : List α) (m : List β) :
    (l.filter p) ×ˢ (m.filter q) = (l ×ˢ m).filter fun x => p x.1 && q x.2 := by
  change (l.filter p).flatMap (fun a => (m.filter q).map (Prod.mk a)) = (l.flatMap fun a => m.map (Prod.mk a)).filter _
  induction l with
  | nil => rfl
  | cons a l ih =>
    rw [List.filter_cons, List.flatMap_cons, List.filter_append, ← ih]
    cases ha : p a with
    | true =>
      simp only [if_true, List.flatMap_cons]
      congr 1
      rw [List.filter_map]
      congr 1
      exact List.filter_congr fun b _ => by simp [ha]
    | false =>
      have : List.filter (fun x : α × β => p x.1 && q x.2) (m.map (Prod.mk a)) = [] := by
        rw [List.filter_eq_nil_iff]
        intro x hx
        obtain ⟨b, _, rfl⟩ := List.mem_map.1 hx
        simp [ha]
      rw [this]
      rfl

theorem pairs_zeros {f f' : SparseFeatures K} (h : WithoutZerosNs f f') (A B : Namespace) :
    featurePairs f' A B = (featurePairs f A B).filter fun q => decide (q.1.2 ≠ 0) && decide (q.2.2 ≠ 0) := by
  unfold featurePairs
  split
  · rw [h.2 A]; exact unordered_filter (fun iv : U32 × K => decide (iv.2 ≠ 0)) _
  · rw [h.2 A, h.2 B]; exact product_filter (fun iv : U32 × K => decide (iv.2 ≠ 0)) (fun iv : U32 × K => decide (iv.2 ≠ 0)) _ _

theorem visited_zerosNs {pass : PassCfg} (ht : ∀ t ∈ pass.triples, t.2.1 ≠ t.2.2) {f f' : SparseFeatures K} (h : WithoutZerosNs f f') :
    visited pass f' = (visited pass f).filter fun iv => iv.2 ≠ 0 := by
  unfold visited
  rw [List.filter_append, List.filter_append, List.filter_append, List.filter_flatMap, List.filter_flatMap]
  congr 1
  · congr 1
    · congr 1
      · exact h.1
      · refine List.flatMap_congr fun p _ => ?_
        rw [quad_pairs, quad_pairs, pairs_zeros h, List.filter_map]
        congr 1
        refine List.filter_congr fun q _ => ?_
        simp only [pairFeature, Function.comp, flt_mul]
        rw [Bool.eq_iff_iff]
        simp [not_or]
    · refine List.flatMap_congr fun t hm => ?_
      rw [cubic_pairs _ _ _ (ht t hm), cubic_pairs _ _ _ (ht t hm), pairs_zeros h, h.2,
        product_filter (fun q : (U32 × K) × (U32 × K) => decide (q.1.2 ≠ 0) && decide (q.2.2 ≠ 0)) (fun iv : U32 × K => decide (iv.2 ≠ 0)), List.filter_map]
      congr 1
      refine List.filter_congr fun q _ => ?_
      simp only [tripleFeature, Function.comp, flt_mul]
      rw [Bool.eq_iff_iff]
      simp [not_or]
  · unfold constVisit
    split
    · simp
    · rfl

/-- C117 for predictions with interactions. An example with features of value 0 has the prediction of the example without them, unless the last two namespaces
of an interaction of three are the same (see C14 for what the code does then). -/
theorem C117_predict_interactions_partial (dbg : Bool) (hash : HashFn) (cfg : CoinConfig K) (g : GlobalConfig) (es : List (TrainEx K)) (c : Coin K)
    (hc : Coin.Reached dbg hash cfg g es c) (ht : ∀ t ∈ c.pass.triples, t.2.1 ≠ t.2.2) (f f' : SparseFeatures K) (hf : WithoutZerosNs f f') (p raw : K)
    (hp : c.predict dbg f = .ok (p, raw)) : c.predict dbg f' = .ok (p, raw) :=
  predict_zeros (reached_ok hc).1 (visited_zerosNs ht hf) hp

/-- C117 for one learn call with interactions; see `C117_learn_partial` for what is missing. -/
theorem C117_learn_interactions_partial (dbg : Bool) (hash : HashFn) (cfg : CoinConfig K) (g : GlobalConfig) (es : List (TrainEx K))
    (c c1 : Coin K) (hc : Coin.Reached dbg hash cfg g es c) (ht : ∀ t ∈ c.pass.triples, t.2.1 ≠ t.2.2) (f f' : SparseFeatures K) (hf : WithoutZerosNs f f')
    (l w : K) (h : c.learn dbg f l w = .ok c1) :
    ∃ c2, c.learn dbg f' l w = .ok c2 ∧ c2.modelStates = c1.modelStates ∧ c2.averageSquaredNormX = c1.averageSquaredNormX ∧
      c2.minLabel = c1.minLabel ∧ c2.maxLabel = c1.maxLabel ∧
      ∀ i s s', c1.Holds i s → c2.Holds i s' → s'.zt = s.zt ∧ s'.g2 = s.g2 ∧ s'.mx = s.mx ∧ s'.we = s.we := by
  obtain ⟨c2, h1, h2, h3, h4, h5, h6⟩ := learn_zeros hc (visited_zerosNs ht hf) h
  refine ⟨c2, h1, h2, h3, h4, h5, fun i s s' hs hs' => ?_⟩
  obtain ⟨k1, k2, k3, k4, _⟩ := h6 i s s' hs hs'
  exact ⟨k1, k2, k3, k4⟩

/-! ### A case that meets the hypotheses -/

section examples

/-- Exact arithmetic on the rationals, for the examples. -/
local instance transRatZeroInteractions : Trans ℚ where
  exp := id
  ln := id
  powf := fun a _ => a
  sqrt := id

/-- `pairExample` with another feature, of value 0, in the first namespace. -/
def zeroPair (v w : ℚ) : SparseFeatures ℚ :=
  SparseFeatures.modifyOrCreate (SparseFeatures.modifyOrCreate SparseFeatures.new (.named 1#32) (fun n => (n.addFeature 1#32 v).addFeature 2#32 0)) (.named 2#32)
    (fun n => n.addFeature 3#32 w)

theorem lookup_absent {ns : Namespace} : ∀ {es : List (Namespace × NsFeats ℚ)}, ns ∉ es.map Prod.fst → SparseFeatures.lookup es ns = none
  | [], _ => rfl
  | (k, v) :: es, h => by
    simp only [List.map_cons, List.mem_cons, not_or] at h
    rw [SparseFeatures.lookup, if_neg (fun e => h.1 e.symm), lookup_absent h.2]

/-- A regressor with an interaction of two namespaces, an example with a feature of value 0 and the example without it. -/
example : ∃ c c1 : Coin ℚ, ∃ p : ℚ × ℚ, Coin.Reached true tinyHash CoinConfig.dflt pairGlobal [⟨pairExample 2 5, 3, 1⟩, ⟨pairExample 1 1, 2, 1⟩] c ∧
    c.pass.pairs = [(.named 1#32, .named 2#32)] ∧ (∀ t ∈ c.pass.triples, t.2.1 ≠ t.2.2) ∧ WithoutZerosNs (zeroPair 2 5) (pairExample 2 5) ∧
    (zeroPair 2 5).allFeatures ≠ (pairExample 2 5).allFeatures ∧
    c.predict true (zeroPair 2 5) = .ok p ∧ p.1 ≠ 0 ∧ c.learn true (zeroPair 2 5) 10 1 = .ok c1 ∧ ∃ s, c1.Holds 2#32 s := by
  refine ⟨_, _, _, ⟨1, _, by decide, rfl, rfl⟩, by decide +kernel, by decide +kernel, ⟨by unfold WithoutZeros; decide +kernel, fun ns => ?_⟩, by decide +kernel,
    rfl, by decide +kernel, rfl, _, rfl⟩
  by_cases h1 : ns = .named 1#32
  · subst h1; decide +kernel
  by_cases h2 : ns = .named 2#32
  · subst h2; decide +kernel
  have l1 : SparseFeatures.lookup (pairExample 2 5).entries ns = none := by
    have : (pairExample 2 5).entries.map Prod.fst = [.named 1#32, .named 2#32] := by decide +kernel
    exact lookup_absent (by rw [this]; simp [h1, h2])
  have l2 : SparseFeatures.lookup (zeroPair 2 5).entries ns = none := by
    have : (zeroPair 2 5).entries.map Prod.fst = [.named 1#32, .named 2#32] := by decide +kernel
    exact lookup_absent (by rw [this]; simp [h1, h2])
  simp [activeFeats, l1, l2]

end examples

end Rml
