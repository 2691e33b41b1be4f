import Verif.Props.ZeroFeatures
import Verif.Props.Nan
import Verif.Lemmas.AddZero

/-!
# C117 on `f32` bit patterns

`C117_predict` is about exact arithmetic. Here the regressor runs on the bit patterns of `f32`, and the two predictions are the same bit for bit.
-/

namespace Rml
open Coin

/-- The second example lists the features of the first whose value is neither `0.0` nor `-0.0`, in the same order. -/
def WithoutZeros32 (f f' : SparseFeatures (BitVec 32)) : Prop :=
  f'.allFeatures = f.allFeatures.filter fun iv => iv.2 ≠ 0#32 ∧ iv.2 ≠ 0x80000000#32

section
variable [t : F32Trans]

/-- Numbers are `f32`. -/
@[reducible] local instance zeroNumbers : Flt (BitVec 32) := ieeeFlt t

theorem reached_pass32 {dbg : Bool} {hash : HashFn} {cfg : CoinConfig (BitVec 32)} {g : GlobalConfig} {es : List (TrainEx (BitVec 32))} {c : Coin (BitVec 32)}
    (h : Coin.Reached dbg hash cfg g es c) (hi : g.interactions = []) : c.pass = ⟨[], [], g.numBits, g.constantFeatureEnabled⟩ := by
  obtain ⟨nma, c0, hn, h0, ht⟩ := h
  have hp : c0.pass = c.pass := (Coin.trainAll_induct (dbg := dbg) (nb := g.numBits) (fun _ c => c0.pass = c.pass) (by
      intro es c c' e hc h1 hl
      obtain ⟨_, _, _, _, _, _, _, _, _, q, _⟩ := Coin.learn_inv hc hl
      rw [q, h1]) es [] c0 c (Coin.new_ok hn h0).1 rfl ht).2
  rw [← hp]
  unfold Coin.new at h0
  rw [hi] at h0
  simp only [compileInteractions, List.filter_nil, List.mapM_nil, bind, Except.bind, pure, Except.pure] at h0
  simp only [List.length_nil, Nat.add_zero, ne_eq, not_true_eq_false, if_false] at h0
  split at h0
  · split at h0
    · cases h0
    · cases h0; rfl
  · cases h0

theorem visited_zeros32 {nb : Nat} {b : Bool} {f f' : SparseFeatures (BitVec 32)} (h : WithoutZeros32 f f') :
    visited ⟨[], [], nb, b⟩ f' = (visited ⟨[], [], nb, b⟩ f).filter fun iv => iv.2 ≠ 0#32 ∧ iv.2 ≠ 0x80000000#32 := by
  unfold visited constVisit
  simp only [List.flatMap_nil, List.append_nil, List.filter_append]
  rw [h]
  congr 1
  cases b with
  | false => rfl
  | true =>
    have one : ((0x3f800000#32 : BitVec 32) ≠ 0#32 ∧ (0x3f800000#32 : BitVec 32) ≠ 0x80000000#32) := by decide
    exact (List.filter_eq_self.2 (by
      intro iv hiv
      have : iv = _ := List.mem_singleton.1 hiv
      rw [this, decide_eq_true_eq]
      exact one)).symm

omit t in
theorem sum_zeros32 (wt : U32 → BitVec 32) (vs : List (U32 × BitVec 32))
    (h : ∀ iv ∈ vs, iv.2 = 0#32 ∨ iv.2 = 0x80000000#32 → IeeeFinite (wt iv.1)) : ∀ a, Summed a →
    (vs.filter fun iv => iv.2 ≠ 0#32 ∧ iv.2 ≠ 0x80000000#32).foldl (fun acc iv => f32Add acc (f32Mul iv.2 (wt iv.1))) a =
      vs.foldl (fun acc iv => f32Add acc (f32Mul iv.2 (wt iv.1))) a := by
  induction vs with
  | nil => intro a _; rfl
  | cons iv vs ih =>
    intro a ha
    have ih := ih fun jv hj => h jv (List.mem_cons_of_mem _ hj)
    rw [List.filter_cons]
    by_cases hz : iv.2 = 0#32 ∨ iv.2 = 0x80000000#32
    · have hm : f32Mag iv.2 = 0 := by rcases hz with hz | hz <;> rw [hz] <;> rfl
      rw [if_neg (by rw [decide_eq_true_eq, ← not_or, not_not]; exact hz), List.foldl_cons,
        summed_add_zero ha (mul_zero_finite hm (h iv (by simp) hz))]
      exact ih a ha
    · rw [if_pos (by rw [decide_eq_true_eq, ← not_or]; exact hz), List.foldl_cons, List.foldl_cons]
      exact ih _ (summed_add _ ha)

/-- C117 for predictions on `f32`: an example with features of value `0.0` or `-0.0` has, bit for bit, the prediction of the example without them, if the
weights of these features are finite. Missing from the full statement: weights that have overflowed, where the product with 0 is NaN. -/
theorem C117_predict_f32_partial (dbg : Bool) (hash : HashFn) (cfg : CoinConfig (BitVec 32)) (g : GlobalConfig) (hg : g.interactions = [])
    (es : List (TrainEx (BitVec 32))) (c : Coin (BitVec 32)) (hc : Coin.Reached dbg hash cfg g es c) (f f' : SparseFeatures (BitVec 32))
    (hf : WithoutZeros32 f f') (hw : ∀ iv ∈ f.allFeatures, iv.2 = 0#32 ∨ iv.2 = 0x80000000#32 → ∀ s, c.Holds iv.1 s → IeeeFinite s.xt)
    (p raw : BitVec 32) (hp : c.predict dbg f = .ok (p, raw)) : c.predict dbg f' = .ok (p, raw) := by
  obtain ⟨hok, _, _⟩ := reached_ok hc
  have hps := reached_pass32 hc hg
  have hV : visited c.pass f' = (visited c.pass f).filter fun iv => iv.2 ≠ 0#32 ∧ iv.2 ≠ 0x80000000#32 := by rw [hps]; exact visited_zeros32 hf
  unfold predict at hp ⊢
  obtain ⟨x, h1, hp⟩ := bind_ok.1 hp
  obtain ⟨hr, hx⟩ := rawSum_inv hok h1
  have h1' := rawSum_eq (dbg := dbg) (f := f') hok (by rw [hV]; exact fun iv hiv => hr iv (List.mem_filter.1 hiv).1)
  rw [hV] at h1'
  have e := sum_zeros32 (fun i => (c.weights.wst i.toNat).xt) (visited c.pass f) (by
    intro iv hiv hz
    have hlt := hr iv hiv
    rw [hps] at hiv
    unfold visited constVisit at hiv
    simp only [List.flatMap_nil, List.append_nil, List.mem_append] at hiv
    rcases hiv with hiv | hiv
    · exact hw iv hiv hz _ ((holds_iff hok).2 ⟨hlt, rfl⟩)
    · split at hiv
      · have e : iv = _ := List.mem_singleton.1 hiv
        rw [e] at hz
        exact absurd hz (show ¬((0x3f800000#32 : BitVec 32) = 0#32 ∨ (0x3f800000#32 : BitVec 32) = 0x80000000#32) by decide)
      · simp at hiv) 0#32 summed_zero
  rw [h1']
  have hx' : ((visited c.pass f).filter fun iv => iv.2 ≠ 0#32 ∧ iv.2 ≠ 0x80000000#32).foldl
      (fun acc iv => Flt.add acc (Flt.mul iv.2 (c.weights.wst iv.1.toNat).xt)) Flt.zero = x := e.trans hx.symm
  rw [hx']
  exact hp

end

/-- An example with the features 1, 3 and 0, the last two with the values `0.0` and `-0.0`. -/
def zerosExample : SparseFeatures (BitVec 32) :=
  SparseFeatures.modifyOrCreate SparseFeatures.new .default
    (fun n => ((n.addFeature 1#32 0x3f800000#32).addFeature 3#32 0#32).addFeature 0#32 0x80000000#32)

/-- A trained model, the example and the example without the zeros. -/
example : letI : F32Trans := noTrans; letI := ieeeFlt noTrans
    ∃ c, Coin.Reached true (fun _ s => s) CoinConfig.dflt nanGlobal ordinaryData c ∧ nanGlobal.interactions = [] ∧
      WithoutZeros32 zerosExample (oneFeature 0x3f800000#32) ∧
      (∀ iv ∈ zerosExample.allFeatures, iv.2 = 0#32 ∨ iv.2 = 0x80000000#32 → ∀ s, c.Holds iv.1 s → IeeeFinite s.xt) ∧
      ∃ p, c.predict true zerosExample = .ok p ∧ p.1 ≠ 0#32 := by
  let _ : F32Trans := noTrans
  let _ := ieeeFlt noTrans
  have hchk : (match nanTrain ordinaryData with
    | .ok c => (zerosExample.allFeatures.all fun iv => decide (f32Mag (c.weights.wst iv.1.toNat).xt < 0x7f800000)) &&
        (match c.predict true zerosExample with
        | .ok p => decide (p.1 ≠ 0#32)
        | .error _ => false)
    | .error _ => false) = true := by decide +kernel
  split at hchk
  · rename_i c hc
    rw [Bool.and_eq_true, List.all_eq_true] at hchk
    obtain ⟨h1, h2⟩ := hchk
    unfold nanTrain at hc
    obtain ⟨c0, hc0, hc⟩ := bind_ok.1 hc
    have hr : Coin.Reached true (fun _ s => s) CoinConfig.dflt nanGlobal ordinaryData c := ⟨1, c0, by norm_num, hc0, hc⟩
    refine ⟨c, hr, rfl, by unfold WithoutZeros32; decide +kernel, fun iv hiv _ s hs => ?_, ?_⟩
    · obtain ⟨_, rfl⟩ := (holds_iff (reached_ok hr).1).1 hs
      exact (ieeeFinite_iff _).2 (by simpa using h1 iv hiv)
    · split at h2
      · rename_i p hp
        exact ⟨p, hp, by simpa using h2⟩
      · cases h2
  · cases hchk

/-- What `C117_predict_f32_partial` leaves out is false: after two examples with label 1 and a feature of value 1e-30 the weight of the feature is NaN, and
listing the feature with value 0 changes the prediction. -/
theorem C117_predict_f32_false : letI : F32Trans := noTrans; letI := ieeeFlt noTrans
    ∃ c p p', Coin.Reached true (fun _ s => s) CoinConfig.dflt nanGlobal (nanWitness.take 2) c ∧ nanGlobal.interactions = [] ∧
      WithoutZeros32 (oneFeature 0#32) SparseFeatures.new ∧
      c.predict true (oneFeature 0#32) = .ok p ∧ c.predict true SparseFeatures.new = .ok p' ∧ f32Lt p.1 p'.1 = true := by
  let _ : F32Trans := noTrans
  let _ := ieeeFlt noTrans
  have hchk : (match nanTrain (nanWitness.take 2) with
    | .ok c => (match c.predict true (oneFeature 0#32), c.predict true SparseFeatures.new with
        | .ok p, .ok p' => f32Lt p.1 p'.1
        | _, _ => false)
    | .error _ => false) = true := by decide +kernel
  split at hchk
  · rename_i c hc
    unfold nanTrain at hc
    obtain ⟨c0, hc0, hc⟩ := bind_ok.1 hc
    split at hchk
    · rename_i p p' hp hp'
      exact ⟨c, p, p', ⟨1, c0, by norm_num, hc0, hc⟩, rfl, by unfold WithoutZeros32; decide +kernel, hp, hp', hchk⟩
    · cases hchk
  · cases hchk

end Rml
