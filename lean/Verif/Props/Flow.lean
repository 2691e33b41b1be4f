import Verif.Lemmas.Lambert
import Verif.Props.Loss

/-! C103 and C43: updates with an importance follow the gradient of the loss. -/

namespace Rml

noncomputable section

attribute [local instance] fieldFlt
open Real

/-! ### C103: the approximation of Lambert's W -/

/-- Lambert's W at `exp x`: the equation has exactly one solution. -/
theorem C103_lambert_exists (x : ℝ) : ∃! W : ℝ, 0 < W ∧ W * exp W = exp x := by
  have hcont : ContinuousOn (fun W : ℝ => W * exp W) (Set.Icc 0 (exp x)) := (continuous_id.mul continuous_exp).continuousOn
  have h0 : (0 : ℝ) ≤ exp x := (exp_pos x).le
  have hmem : exp x ∈ Set.Icc ((fun W : ℝ => W * exp W) 0) ((fun W : ℝ => W * exp W) (exp x)) := by
    constructor
    · simp [h0]
    · have : (1 : ℝ) ≤ exp (exp x) := one_le_exp h0
      simp only
      nlinarith
  obtain ⟨W, hW, hWe⟩ := intermediate_value_Icc h0 hcont hmem
  simp only at hWe
  have hpos : 0 < W := by
    rcases hW.1.lt_or_eq with h | h
    · exact h
    · rw [← h] at hWe
      have := exp_pos x
      simp at hWe
      linarith
  refine ⟨W, ⟨hpos, hWe⟩, ?_⟩
  rintro V ⟨hV, hVe⟩
  rcases lt_trichotomy V W with h | h | h
  · have := mul_lt_mul'' h (exp_lt_exp.2 h) hV.le (exp_pos _).le
    linarith
  · exact h
  · have := mul_lt_mul'' h (exp_lt_exp.2 h) hpos.le (exp_pos _).le
    linarith

theorem lambert_log {x W : ℝ} (hW : 0 < W) (h : W * exp W = exp x) : W + log W = x := by
  have := congrArg log h
  rw [log_mul hW.ne' (exp_pos _).ne', log_exp, log_exp] at this
  linarith

/-- C103: the documented error of `wexpmx` (`logistic_loss.rs:28-48`): it approximates `W(exp x) - x`, and the error is less than `9e-5` for every `x`. -/
theorem C103_lambert (x W : ℝ) (hW : 0 < W) (h : W * exp W = exp x) : |LogisticLoss.wexpmx x - (W - x)| < 9 / 100000 := by
  have hl := lambert_log hW h
  unfold LogisticLoss.wexpmx
  simp only [flt_le, flt_one, flt_add, flt_mul, flt_sub, flt_div, real_exp, real_ln, flt_lit, fl, decide_eq_true_eq]
  by_cases hx : 1 ≤ x
  · simp only [if_pos hx]
    push_cast
    obtain ⟨w, hw⟩ : ∃ w, w = 86 / 100 * x + 1 / 100 := ⟨_, rfl⟩
    rw [← hw]
    have hw0 : 0 < w := by rw [hw]; linarith
    have hp := Wexp.right_guess hx hw
    have hs := Wexp.small_case hw0 hW hl hp
    have hd := (Wexp.pos_small (s := 1 / (1 + w)) (by positivity) (by rw [div_le_one (by positivity)]; linarith) hp).1.ne'
    have hf := Wexp.step_formula hw0 hd
    norm_num at hf hs ⊢
    rw [hf]
    exact lt_of_le_of_lt hs (by norm_num)
  · simp only [if_neg hx]
    push_cast
    obtain ⟨w, hw⟩ : ∃ w, w = exp (-(65 / 100) + 8 / 10 * x) := ⟨_, rfl⟩
    have hw' : exp (-65 / 100 + 8 / 10 * x) = w := by rw [hw]; congr 1; ring
    rw [hw']
    have hw0 : 0 < w := by rw [hw]; positivity
    obtain ⟨hd, hs⟩ := Wexp.left_case (not_le.1 hx) hw hW hl
    have hf := Wexp.step_formula hw0 hd
    have hr : 2 / 10 * x + 65 / 100 - w = x - log w - w := by rw [hw, log_exp]; ring
    rw [hr]
    norm_num at hf hs ⊢
    rw [hf]
    exact hs

/-! ### The flow -/

/-- A function with a constant derivative. -/
theorem linear_of_deriv {G : ℝ → ℝ} {c S : ℝ} (hS : 0 ≤ S) (h : ∀ t ∈ Set.Icc 0 S, HasDerivAt G c t) : G S = G 0 + c * S := by
  have h2 : ∀ t ∈ Set.Icc 0 S, HasDerivAt (fun t => G t - c * t) 0 t := by
    intro t ht
    have := (h t ht).sub ((hasDerivAt_id t).const_mul c)
    exact this.congr_deriv (by simp)
  have := constant_of_has_deriv_right_zero (fun t ht => (h2 t ht).continuousAt.continuousWithinAt)
    (fun t ht => (h2 t ⟨ht.1, ht.2.le⟩).hasDerivWithinAt) S (Set.right_mem_Icc.2 hS)
  linarith

/-- The curve `q` follows the negative gradient of the loss for the label `l`, at the speed `ppu`, from the prediction `p` for the time `S`. -/
structure FollowsGradient (lf : LossFunction ℝ) (a b p l ppu S : ℝ) (q : ℝ → ℝ) : Prop where
  start : q 0 = p
  moves : ∀ t ∈ Set.Icc 0 S, HasDerivAt q (-(ppu * lf.firstDerivative a b (q t) l)) t

/-- C43: an update of the squared loss with an importance moves the prediction exactly to where following the gradient for that time ends (outside the small-step
branch). -/
theorem C43_flow (a b p l S ppu : ℝ) (hs : 1 / 1000000 ≤ S * ppu) (hS : 0 ≤ S) (q : ℝ → ℝ) (hq : FollowsGradient .squared a b p l ppu S q)
    (hin : ∀ t ∈ Set.Icc 0 S, a ≤ q t ∧ q t ≤ b) : p + ppu * LossFunction.getUpdate .squared p l S ppu = q S := by
  have e : p + ppu * LossFunction.getUpdate .squared p l S ppu = afterUpdate p l S ppu := rfl
  rw [e, afterUpdate_exact hs]
  have hd : ∀ t ∈ Set.Icc 0 S, HasDerivAt (fun t => (q t - l) * exp (2 * ppu * t)) 0 t := by
    intro t ht
    have h1 := hq.moves t ht
    have h2 : HasDerivAt (fun t => exp (2 * ppu * t)) (exp (2 * ppu * t) * (2 * ppu)) t := by
      have := ((hasDerivAt_id t).const_mul (2 * ppu)).exp
      simpa using this
    refine ((h1.sub_const l).mul h2).congr_deriv ?_
    have hab : a ≤ b := (hin t ht).1.trans (hin t ht).2
    have : LossFunction.firstDerivative .squared a b (q t) l = 2 * (q t - l) := by
      unfold LossFunction.firstDerivative
      simp only
      rw [squared_deriv_closed hab, min_eq_left (hin t ht).2, max_eq_right (hin t ht).1]
    rw [this]
    ring
  have := linear_of_deriv hS hd
  simp only [hq.start, mul_zero, exp_zero, mul_one, zero_mul, add_zero] at this
  have hx : exp (2 * ppu * S) * exp (-2 * (S * ppu)) = 1 := by
    rw [← exp_add]
    have : 2 * ppu * S + -2 * (S * ppu) = 0 := by ring
    rw [this, exp_zero]
  calc l + (p - l) * exp (-2 * (S * ppu)) = l + (q S - l) * (exp (2 * ppu * S) * exp (-2 * (S * ppu))) := by rw [← this]; ring
    _ = q S := by rw [hx]; ring

/-- One of the two extreme labels. -/
theorem logistic_extreme {lo hi l : ℝ} (h : lo < hi) (hl : l = lo ∨ l = hi) : ∃ σ : ℝ, (σ = 1 ∨ σ = -1) ∧
    (∀ a b p, LossFunction.firstDerivative (.logistic lo hi) a b p l = LogisticLoss.firstDerivativeSub p σ) ∧
    (∀ p S ppu, LossFunction.getUpdate (.logistic lo hi) p l S ppu = LogisticLoss.getUpdateSub p σ S ppu) := by
  have hne : hi - lo ≠ 0 := by linarith
  rcases hl with rfl | rfl
  · refine ⟨-1, Or.inr rfl, fun a b p => ?_, fun p S ppu => ?_⟩
    · simp [LossFunction.firstDerivative, LogisticLoss.firstDerivative, LogisticLoss.mix, LogisticLoss.stdLabel, fl]
    · simp [LossFunction.getUpdate, LogisticLoss.getUpdate, LogisticLoss.mix, LogisticLoss.stdLabel, fl]
  · refine ⟨1, Or.inl rfl, fun a b p => ?_, fun p S ppu => ?_⟩
    · simp [LossFunction.firstDerivative, LogisticLoss.firstDerivative, LogisticLoss.mix, LogisticLoss.stdLabel, fl, div_self hne]
    · simp [LossFunction.getUpdate, LogisticLoss.getUpdate, LogisticLoss.mix, LogisticLoss.stdLabel, fl, div_self hne]

/-- Along the flow for an extreme label, `σ q + exp (σ q)` grows at a constant speed. -/
theorem logistic_invariant {q : ℝ → ℝ} {σ p ppu S : ℝ} (hσ : σ = 1 ∨ σ = -1) (hS : 0 ≤ S) (h0 : q 0 = p)
    (h : ∀ t ∈ Set.Icc 0 S, HasDerivAt q (-(ppu * LogisticLoss.firstDerivativeSub (q t) σ)) t) :
    σ * q S + exp (σ * q S) = σ * p + exp (σ * p) + ppu * S := by
  have hσ2 : σ * σ = 1 := by rcases hσ with rfl | rfl <;> norm_num
  have hd : ∀ t ∈ Set.Icc 0 S, HasDerivAt (fun t => σ * q t + exp (σ * q t)) ppu t := by
    intro t ht
    have h1 := (h t ht).const_mul σ
    refine (h1.add h1.exp).congr_deriv ?_
    have hp : (0 : ℝ) < 1 + exp (σ * q t) := by positivity
    unfold LogisticLoss.firstDerivativeSub
    simp only [flt_div, flt_neg, flt_add, flt_one, flt_mul, real_exp]
    field_simp
    linear_combination ppu * hσ2
  have := linear_of_deriv hS hd
  simp only [h0] at this
  exact this

/-- C103 for the two extreme labels, the part of the property that holds: for every prediction, importance and speed the update of the logistic loss moves the prediction to
within `9e-5` of where following the gradient for that time ends. Missing: labels in between, for which it is false (`C103_soft_false`). -/
theorem C103_flow_partial (lo hi : ℝ) (hlh : lo < hi) (a b p l S ppu : ℝ) (hl : l = lo ∨ l = hi) (hS : 0 ≤ S) (hppu : 0 < ppu) (q : ℝ → ℝ)
    (hq : FollowsGradient (.logistic lo hi) a b p l ppu S q) :
    |p + ppu * LossFunction.getUpdate (.logistic lo hi) p l S ppu - q S| < 9 / 100000 := by
  obtain ⟨σ, hσ, hd, hu⟩ := logistic_extreme hlh hl
  have hinv := logistic_invariant hσ hS hq.start (fun t ht => by rw [← hd a b]; exact hq.moves t ht)
  have hσ2 : σ * σ = 1 := by rcases hσ with rfl | rfl <;> norm_num
  have hσa : |σ| = 1 := by rcases hσ with rfl | rfl <;> simp
  rw [hu]
  unfold LogisticLoss.getUpdateSub
  simp only [flt_lt, flt_div, flt_neg, flt_add, flt_one, flt_mul, real_exp, flt_lit, decide_eq_true_eq]
  by_cases hsm : S * ppu < ((1 : ℤ) : ℝ) / ((1000000 : ℕ) : ℝ)
  · rw [if_pos hsm]
    push_cast at hsm
    have hE : (0 : ℝ) < exp (σ * p) := exp_pos _
    have hSp : 0 ≤ S * ppu := by positivity
    have hmono : 0 ≤ σ * (q S - p) ∧ σ * (q S - p) ≤ S * ppu := by
      have hle : σ * p ≤ σ * q S := by
        by_contra hc
        have hc := not_le.1 hc
        have := exp_lt_exp.2 hc
        linarith
      have := exp_le_exp.2 hle
      constructor <;> linarith
    have hf : 0 ≤ S * ppu / (1 + exp (σ * p)) ∧ S * ppu / (1 + exp (σ * p)) ≤ S * ppu :=
      ⟨by positivity, div_le_self hSp (by linarith)⟩
    have e : p + ppu * (σ * S / (1 + exp (σ * p))) - q S = σ * (S * ppu / (1 + exp (σ * p)) - σ * (q S - p)) := by
      have : σ * (S * ppu / (1 + exp (σ * p)) - σ * (q S - p)) = σ * (S * ppu / (1 + exp (σ * p))) - σ * σ * (q S - p) := by ring
      rw [this, hσ2]
      ring
    rw [e, abs_mul, hσa, one_mul, abs_lt]
    constructor <;> linarith
  · rw [if_neg hsm]
    have hx : S * ppu + σ * p + exp (σ * p) = σ * q S + exp (σ * q S) := by linarith
    have hw : exp (σ * q S) * exp (exp (σ * q S)) = exp (S * ppu + σ * p + exp (σ * p)) := by rw [hx, exp_add]
    have := C103_lambert _ _ (exp_pos (σ * q S)) hw
    generalize LogisticLoss.wexpmx (S * ppu + σ * p + exp (σ * p)) = v at *
    have e : p + ppu * (-(σ * v + p) / ppu) - q S = -σ * (v - (exp (σ * q S) - (S * ppu + σ * p + exp (σ * p)))) := by
      have h1 : ppu * (-(σ * v + p) / ppu) = -(σ * v + p) := by field_simp
      rw [h1, hx]
      have : -σ * (v - (exp (σ * q S) - (σ * q S + exp (σ * q S)))) = -σ * v - σ * σ * q S := by ring
      rw [this, hσ2]
      ring
    rw [e, abs_mul, abs_neg, hσa, one_mul]
    exact this

theorem zexp_strictMono : StrictMono (fun z : ℝ => z + exp z) := fun _ _ h => add_lt_add h (exp_lt_exp.2 h)

theorem zexp_surj : Function.Surjective (fun z : ℝ => z + exp z) := by
  intro x
  obtain ⟨W, ⟨hW, hWe⟩, _⟩ := C103_lambert_exists x
  refine ⟨x - W, ?_⟩
  have hl := lambert_log hW hWe
  have : exp (x - W) = W := by
    rw [← hl]
    simp [exp_log hW]
  simp [this]

/-- The inverse of `z + exp z`. -/
def zexpInv : ℝ ≃o ℝ := (zexp_strictMono.orderIsoOfSurjective _ zexp_surj).symm

theorem zexp_inv (x : ℝ) : zexpInv x + exp (zexpInv x) = x :=
  (zexp_strictMono.orderIsoOfSurjective _ zexp_surj).apply_symm_apply x

theorem inv_zexp (z : ℝ) : zexpInv (z + exp z) = z :=
  (zexp_strictMono.orderIsoOfSurjective _ zexp_surj).symm_apply_apply z

theorem zexpInv_deriv (x : ℝ) : HasDerivAt zexpInv (1 + exp (zexpInv x))⁻¹ x := by
  have h1 : HasDerivAt (fun z : ℝ => z + exp z) (1 + exp (zexpInv x)) (zexpInv x) := (hasDerivAt_id _).add (hasDerivAt_exp _)
  exact h1.of_local_left_inverse zexpInv.continuous.continuousAt (by positivity) (Filter.Eventually.of_forall fun y => zexp_inv y)

/-- C103: for the extreme labels there is a curve that follows the gradient, from every prediction, at every speed, for every time. -/
theorem C103_flow_exists (lo hi : ℝ) (hlh : lo < hi) (a b p l S ppu : ℝ) (hl : l = lo ∨ l = hi) :
    ∃ q, FollowsGradient (.logistic lo hi) a b p l ppu S q := by
  obtain ⟨σ, hσ, hd, _⟩ := logistic_extreme hlh hl
  have hσ2 : σ * σ = 1 := by rcases hσ with rfl | rfl <;> norm_num
  refine ⟨fun t => σ * zexpInv (σ * p + exp (σ * p) + ppu * t), ?_, ?_⟩
  · simp only [mul_zero, add_zero, inv_zexp]
    rw [← mul_assoc, hσ2, one_mul]
  · intro t _
    have h1 : HasDerivAt (fun t => σ * p + exp (σ * p) + ppu * t) ppu t := by
      simpa using ((hasDerivAt_id t).const_mul ppu).const_add (σ * p + exp (σ * p))
    have h2 := ((zexpInv_deriv _).comp t h1).const_mul σ
    refine h2.congr_deriv ?_
    rw [hd]
    unfold LogisticLoss.firstDerivativeSub
    simp only [flt_div, flt_neg, flt_add, flt_one, flt_mul, real_exp]
    have e : ∀ x, σ * (σ * x) = x := fun x => by rw [← mul_assoc, hσ2, one_mul]
    rw [e]
    field_simp

/-- C103 is false for a label in between: at the prediction with the smallest loss the gradient is zero, so following it stays there, but the update for a large importance
moves the prediction far past it. -/
theorem C103_soft_false : ∃ (p l S ppu : ℝ) (q : ℝ → ℝ), -1 < l ∧ l < 1 ∧ 0 ≤ S ∧ 0 < ppu ∧ FollowsGradient (.logistic (-1) 1) (-1) 1 p l ppu S q ∧
    q S + 1 / 2 < p + ppu * LossFunction.getUpdate (.logistic (-1) 1) p l S ppu := by
  have hl3 : log 3 ≤ 13 / 10 := by
    have := Wexp.log_tangent (show (0 : ℝ) < 3 by norm_num) (11 / 10)
    have := Wexp.exp_11
    linarith
  have hl0 : 0 < log 3 := log_pos (by norm_num)
  have he3 : exp (log 3) = 3 := exp_log (by norm_num)
  have he3' : exp (-log 3) = 1 / 3 := by rw [exp_neg, he3]; norm_num
  have hE8 : (0 : ℝ) < exp 8 := exp_pos _
  have hstd : LogisticLoss.stdLabel (-1 : ℝ) 1 (1 / 2) = 3 / 4 := by
    unfold LogisticLoss.stdLabel
    simp only [flt_div, flt_sub]
    norm_num
  refine ⟨log 3, 1 / 2, exp 8, 1, fun _ => log 3, by norm_num, by norm_num, hE8.le, by norm_num, ⟨rfl, ?_⟩, ?_⟩
  · intro t _
    refine (hasDerivAt_const t (log 3)).congr_deriv ?_
    unfold LossFunction.firstDerivative LogisticLoss.firstDerivative LogisticLoss.mix LogisticLoss.firstDerivativeSub
    simp only [hstd, flt_div, flt_neg, flt_add, flt_sub, flt_one, flt_mul, real_exp, fl, flt_lit]
    push_cast
    norm_num [he3, he3']
  · obtain ⟨q1, hq1⟩ := C103_flow_exists (-1) 1 (by norm_num) (-1) 1 (log 3) 1 (exp 8) 1 (Or.inr rfl)
    obtain ⟨q2, hq2⟩ := C103_flow_exists (-1) 1 (by norm_num) (-1) 1 (log 3) (-1) (exp 8) 1 (Or.inl rfl)
    have b1 := C103_flow_partial (-1) 1 (by norm_num) (-1) 1 (log 3) 1 (exp 8) 1 (Or.inr rfl) hE8.le (by norm_num) q1 hq1
    have b2 := C103_flow_partial (-1) 1 (by norm_num) (-1) 1 (log 3) (-1) (exp 8) 1 (Or.inl rfl) hE8.le (by norm_num) q2 hq2
    have u1 : LossFunction.getUpdate (.logistic (-1 : ℝ) 1) (log 3) 1 (exp 8) 1 = LogisticLoss.getUpdateSub (log 3) 1 (exp 8) 1 := by
      simp [LossFunction.getUpdate, LogisticLoss.getUpdate, LogisticLoss.mix, LogisticLoss.stdLabel, fl]
    have u2 : LossFunction.getUpdate (.logistic (-1 : ℝ) 1) (log 3) (-1) (exp 8) 1 = LogisticLoss.getUpdateSub (log 3) (-1) (exp 8) 1 := by
      simp [LossFunction.getUpdate, LogisticLoss.getUpdate, LogisticLoss.mix, LogisticLoss.stdLabel, fl]
    have d1 : ∀ p, LossFunction.firstDerivative (.logistic (-1 : ℝ) 1) (-1) 1 p 1 = LogisticLoss.firstDerivativeSub p 1 := by
      intro p
      simp [LossFunction.firstDerivative, LogisticLoss.firstDerivative, LogisticLoss.mix, LogisticLoss.stdLabel, fl]
    have d2 : ∀ p, LossFunction.firstDerivative (.logistic (-1 : ℝ) 1) (-1) 1 p (-1) = LogisticLoss.firstDerivativeSub p (-1) := by
      intro p
      simp [LossFunction.firstDerivative, LogisticLoss.firstDerivative, LogisticLoss.mix, LogisticLoss.stdLabel, fl]
    have i1 := logistic_invariant (Or.inl rfl) hE8.le hq1.start (fun t ht => by rw [← d1]; exact hq1.moves t ht)
    have i2 := logistic_invariant (Or.inr rfl) hE8.le hq2.start (fun t ht => by rw [← d2]; exact hq2.moves t ht)
    have u : LossFunction.getUpdate (.logistic (-1 : ℝ) 1) (log 3) (1 / 2) (exp 8) 1 =
        3 / 4 * LogisticLoss.getUpdateSub (log 3) 1 (exp 8) 1 + 1 / 4 * LogisticLoss.getUpdateSub (log 3) (-1) (exp 8) 1 := by
      unfold LossFunction.getUpdate LogisticLoss.getUpdate LogisticLoss.mix
      simp only [hstd, flt_add, flt_sub, flt_one, flt_mul, fl, flt_lit]
      norm_num
    rw [u1] at b1
    rw [u2] at b2
    rw [u]
    simp only [one_mul, neg_mul, he3, he3'] at i1 i2
    obtain ⟨b1, _⟩ := abs_lt.1 b1
    obtain ⟨b2, _⟩ := abs_lt.1 b2
    have h4 : 4 ≤ q1 (exp 8) := by
      by_contra hc
      have hc := not_le.1 hc
      have h1 := exp_lt_exp.2 hc
      have h2 : exp (8 : ℝ) = exp 4 * exp 4 := by rw [← exp_add]; norm_num
      have h3 : (4 : ℝ) + 1 ≤ exp 4 := add_one_le_exp _
      nlinarith
    have h5 : -q2 (exp 8) ≤ q1 (exp 8) := by
      by_contra hc
      have hc := not_le.1 hc
      have h1 := exp_lt_exp.2 hc
      linarith
    linarith

/-- The squared loss has such a curve too: from 3 towards the label 1. -/
example : ∃ q, FollowsGradient (.squared : LossFunction ℝ) 0 5 3 1 1 2 q ∧ (∀ t ∈ Set.Icc (0 : ℝ) 2, 0 ≤ q t ∧ q t ≤ 5) ∧ (1 / 1000000 : ℝ) ≤ 2 * 1 := by
  have hin : ∀ t ∈ Set.Icc (0 : ℝ) 2, 0 ≤ 1 + 2 * exp (-2 * t) ∧ 1 + 2 * exp (-2 * t) ≤ 5 := by
    intro t ht
    have h1 := exp_pos (-2 * t)
    have h2 : exp (-2 * t) ≤ 1 := exp_le_one_iff.2 (by linarith [ht.1])
    constructor <;> linarith
  refine ⟨fun t => 1 + 2 * exp (-2 * t), ⟨by norm_num, ?_⟩, hin, by norm_num⟩
  intro t ht
  have h1 : HasDerivAt (fun t : ℝ => 1 + 2 * exp (-2 * t)) (2 * (exp (-2 * t) * -2)) t := by
    have := ((((hasDerivAt_id t).const_mul (-2)).exp).const_mul 2).const_add 1
    simpa using this
  refine h1.congr_deriv ?_
  have : LossFunction.firstDerivative .squared 0 5 (1 + 2 * exp (-2 * t)) 1 = 2 * (1 + 2 * exp (-2 * t) - 1) := by
    unfold LossFunction.firstDerivative
    simp only
    rw [squared_deriv_closed (by norm_num), min_eq_left (hin t ht).2, max_eq_right (hin t ht).1]
  rw [this]
  ring

end

end Rml
