import Verif.Model.Loss
import Verif.Lemmas.Field
import Verif.Props.ExplorePolicies
import Mathlib.Analysis.SpecialFunctions.ExpDeriv
import Mathlib.Analysis.SpecialFunctions.Log.Deriv
import Mathlib.Analysis.Complex.ExponentialBounds

/-! C42, C43: the loss functions over the reals. -/

namespace Rml

noncomputable section

attribute [local instance] fieldFlt

theorem real_exp (x : ℝ) : (Flt.exp x : ℝ) = Real.exp x := rfl
theorem real_ln (x : ℝ) : (Flt.ln x : ℝ) = Real.log x := rfl

/-! ### C42 -/

/-- A function with a quadratic error bound is differentiable. -/
theorem hasDerivAt_of_quadratic {f : ℝ → ℝ} {f' p : ℝ} (h : ∀ x, |f x - f p - f' * (x - p)| ≤ 3 * |x - p| ^ 2) : HasDerivAt f f' p := by
  rw [hasDerivAt_iff_isLittleO, Asymptotics.isLittleO_iff]
  intro c hc
  have : ∀ᶠ x in nhds p, |x - p| < c / 3 := by
    have := Metric.ball_mem_nhds p (show (0 : ℝ) < c / 3 by linarith)
    filter_upwards [this] with x hx
    simpa [Real.dist_eq] using hx
  filter_upwards [this] with x hx
  simp only [smul_eq_mul, Real.norm_eq_abs]
  calc |f x - f p - (x - p) * f'| = |f x - f p - f' * (x - p)| := by ring_nf
    _ ≤ 3 * |x - p| ^ 2 := h x
    _ = 3 * |x - p| * |x - p| := by ring
    _ ≤ c * |x - p| := by
      apply mul_le_mul_of_nonneg_right _ (abs_nonneg _)
      linarith

/-- The squared loss in closed form: quadratic at the clamped prediction, continued linearly. -/
theorem squared_closed {a b : ℝ} (hab : a ≤ b) (p l : ℝ) : SquaredLoss.getLoss a b p l =
    (max a (min p b) - l) ^ 2 + 2 * (max a (min p b) - l) * (p - max a (min p b)) := by
  unfold SquaredLoss.getLoss
  simp only [flt_le, flt_lt, flt_eq, flt_mul, flt_sub, flt_add, flt_zero, fl, flt_lit, Bool.and_eq_true, decide_eq_true_eq]
  split
  · rename_i h
    rw [min_eq_left h.1, max_eq_right h.2]
    ring
  · split
    · rename_i h1 h2
      rw [min_eq_left (by linarith), max_eq_left h2.le]
      split
      · rename_i h3; subst h3; ring
      · push_cast; ring
    · rename_i h1 h2
      have h3 : b < p := by
        by_contra hc
        exact h1 ⟨not_lt.1 hc, not_lt.1 h2⟩
      rw [min_eq_right h3.le, max_eq_right hab]
      split
      · rename_i h4; subst h4; ring
      · push_cast; ring

theorem squared_deriv_closed {a b : ℝ} (hab : a ≤ b) (p l : ℝ) :
    SquaredLoss.firstDerivative a b p l = 2 * (max a (min p b) - l) := by
  unfold SquaredLoss.firstDerivative
  simp only [flt_lt, flt_mul, flt_sub, fl, flt_lit, decide_eq_true_eq]
  push_cast
  split
  · rename_i h
    rw [min_eq_left (by linarith), max_eq_left h.le]; ring
  · split
    · rename_i h1 h2
      rw [min_eq_right h2.le, max_eq_right hab]; ring
    · rename_i h1 h2
      rw [min_eq_left (not_lt.1 h2), max_eq_right (not_lt.1 h1)]; ring

theorem clamp_bound {a b : ℝ} (hab : a ≤ b) (p x : ℝ) :
    |(max a (min x b) - max a (min p b)) ^ 2 + 2 * (max a (min x b) - max a (min p b)) * (x - max a (min x b))| ≤ 3 * |x - p| ^ 2 := by
  rw [sq_abs, abs_le]
  rcases le_total x b with h1 | h1 <;> rcases le_total p b with h2 | h2 <;> rcases le_total a x with h3 | h3 <;>
    rcases le_total a p with h4 | h4 <;>
    simp only [min_eq_left, min_eq_right, max_eq_left, max_eq_right, h1, h2, h3, h4, hab] <;>
    constructor <;> nlinarith [sq_nonneg (x - p), mul_nonneg (sub_nonneg.2 h1) (sub_nonneg.2 h2), mul_nonneg (sub_nonneg.2 h3) (sub_nonneg.2 h4),
      mul_nonneg (sub_nonneg.2 h1) (sub_nonneg.2 h4), mul_nonneg (sub_nonneg.2 h2) (sub_nonneg.2 h3), mul_nonneg (sub_nonneg.2 h1) (sub_nonneg.2 hab),
      mul_nonneg (sub_nonneg.2 h2) (sub_nonneg.2 hab), mul_nonneg (sub_nonneg.2 h3) (sub_nonneg.2 hab), mul_nonneg (sub_nonneg.2 h4) (sub_nonneg.2 hab)]

theorem sub_deriv (l p : ℝ) : HasDerivAt (fun p => LogisticLoss.getLossSub p l) (LogisticLoss.firstDerivativeSub p l) p := by
  unfold LogisticLoss.getLossSub LogisticLoss.firstDerivativeSub
  simp only [real_exp, real_ln, flt_add, flt_one, flt_mul, flt_neg, flt_div]
  have h1 : HasDerivAt (fun p : ℝ => 1 + Real.exp (-l * p)) (Real.exp (-l * p) * (-l)) p := by
    have := ((hasDerivAt_id p).const_mul (-l)).exp.const_add 1
    simpa using this
  have hpos : 0 < 1 + Real.exp (-l * p) := by have := Real.exp_pos (-l * p); linarith
  have h2 := h1.log hpos.ne'
  convert h2 using 1
  have e : Real.exp (-l * p) = (Real.exp (l * p))⁻¹ := by rw [neg_mul, Real.exp_neg]
  rw [e]
  have := Real.exp_pos (l * p)
  field_simp
  ring

theorem sub_deriv2 (l p : ℝ) (hl : l = 1 ∨ l = -1) :
    HasDerivAt (fun p => LogisticLoss.firstDerivativeSub p l) (LogisticLoss.secondDerivativeSub p l) p := by
  unfold LogisticLoss.secondDerivativeSub LogisticLoss.firstDerivativeSub
  simp only [real_exp, flt_add, flt_one, flt_mul, flt_neg, flt_div, flt_sub]
  have h1 : HasDerivAt (fun p : ℝ => 1 + Real.exp (l * p)) (Real.exp (l * p) * l) p := by
    have := ((hasDerivAt_id p).const_mul l).exp.const_add 1
    simpa using this
  have hpos : 0 < 1 + Real.exp (l * p) := by have := Real.exp_pos (l * p); linarith
  have h2 := (hasDerivAt_const p (-l)).div h1 hpos.ne'
  have hl2 : l * l = 1 := by rcases hl with rfl | rfl <;> norm_num
  have he : 1 / (1 + Real.exp (l * p)) * (1 - 1 / (1 + Real.exp (l * p))) =
      (0 * (1 + Real.exp (l * p)) - -l * (Real.exp (l * p) * l)) / (1 + Real.exp (l * p)) ^ 2 := by
    field_simp
    linear_combination (-(Real.exp (l * p))) * hl2
  rw [he]
  exact h2

/-- C42: `first_derivative` is the derivative of `get_loss` in the prediction, for both losses, every label, every label range and every
prediction, inside, outside and at the borders of the range. -/
theorem C42_first_derivative (lf : LossFunction ℝ) (a b : ℝ) (hab : a ≤ b) (l p : ℝ) :
    HasDerivAt (fun p => lf.getLoss a b p l) (lf.firstDerivative a b p l) p := by
  cases lf with
  | squared =>
    unfold LossFunction.getLoss LossFunction.firstDerivative
    apply hasDerivAt_of_quadratic
    intro x
    rw [squared_closed hab, squared_closed hab, squared_deriv_closed hab]
    refine le_trans (le_of_eq ?_) (clamp_bound hab p x)
    congr 1
    ring
  | logistic lo hi =>
    unfold LossFunction.getLoss LossFunction.firstDerivative LogisticLoss.getLoss LogisticLoss.firstDerivative LogisticLoss.mix
    simp only [flt_add, flt_mul, flt_sub, flt_one]
    exact ((sub_deriv _ p).const_mul _).add ((sub_deriv _ p).const_mul _)

/-- C42: `second_derivative` is the derivative of `first_derivative`, except at the two borders of the label range for the squared loss, where
no derivative exists. -/
theorem C42_second_derivative (lf : LossFunction ℝ) (a b : ℝ) (hab : a ≤ b) (l p : ℝ) (hp : lf = .squared → p ≠ a ∧ p ≠ b) :
    HasDerivAt (fun p => lf.firstDerivative a b p l) (lf.secondDerivative a b p l) p := by
  cases lf with
  | squared =>
    obtain ⟨h1, h2⟩ := hp rfl
    unfold LossFunction.firstDerivative LossFunction.secondDerivative SquaredLoss.secondDerivative
    simp only [flt_le, Bool.and_eq_true, decide_eq_true_eq, flt_zero, fl, flt_lit]
    rcases lt_or_gt_of_ne h1 with h3 | h3
    · rw [if_neg (by intro h; linarith [h.2])]
      refine (hasDerivAt_const p (2 * (a - l))).congr_of_eventuallyEq ?_
      filter_upwards [gt_mem_nhds h3] with x hx
      rw [squared_deriv_closed hab, min_eq_left (by linarith), max_eq_left (by linarith)]
    · rcases lt_or_gt_of_ne h2 with h4 | h4
      · rw [if_pos ⟨h4.le, h3.le⟩]
        have : HasDerivAt (fun p : ℝ => 2 * (p - l)) 2 p := by
          have := ((hasDerivAt_id p).sub_const l).const_mul 2
          simpa using this
        have h5 : ((2 : ℤ) : ℝ) / ((1 : ℕ) : ℝ) = 2 := by norm_num
        rw [h5]
        refine this.congr_of_eventuallyEq ?_
        filter_upwards [lt_mem_nhds h3, gt_mem_nhds h4] with x hx hx'
        rw [squared_deriv_closed hab, min_eq_left (by linarith), max_eq_right (by linarith)]
      · rw [if_neg (by intro h; linarith [h.1])]
        refine (hasDerivAt_const p (2 * (b - l))).congr_of_eventuallyEq ?_
        filter_upwards [lt_mem_nhds h4] with x hx
        rw [squared_deriv_closed hab, min_eq_right (by linarith), max_eq_right hab]
  | logistic lo hi =>
    unfold LossFunction.secondDerivative LossFunction.firstDerivative LogisticLoss.firstDerivative LogisticLoss.secondDerivative
      LogisticLoss.mix
    simp only [flt_add, flt_mul, flt_sub, flt_one]
    refine ((sub_deriv2 _ p (.inl rfl)).const_mul _).add ((sub_deriv2 _ p (.inr ?_)).const_mul _)
    simp [fl]

/-- C42: losses are nonnegative for labels in the range of the loss (the tracked range for squared, the configured one for logistic). -/
theorem C42_nonneg (lf : LossFunction ℝ) (a b l p : ℝ)
    (hl : match lf with | .squared => a ≤ l ∧ l ≤ b | .logistic lo hi => lo ≤ l ∧ l ≤ hi) : 0 ≤ lf.getLoss a b p l := by
  cases lf with
  | squared =>
    simp only at hl
    unfold LossFunction.getLoss
    simp only
    rw [squared_closed (by linarith)]
    rcases le_total p a with h1 | h1
    · rw [min_eq_left (by linarith), max_eq_left h1]
      nlinarith [sq_nonneg (a - l), mul_nonneg (sub_nonneg.2 h1) (sub_nonneg.2 hl.1)]
    · rcases le_total p b with h2 | h2
      · rw [min_eq_left h2, max_eq_right h1]
        nlinarith [sq_nonneg (p - l)]
      · rw [min_eq_right h2, max_eq_right (by linarith)]
        nlinarith [sq_nonneg (b - l), mul_nonneg (sub_nonneg.2 h2) (sub_nonneg.2 hl.2)]
  | logistic lo hi =>
    simp only at hl
    unfold LossFunction.getLoss LogisticLoss.getLoss LogisticLoss.mix LogisticLoss.stdLabel
    simp only [flt_add, flt_mul, flt_sub, flt_one, flt_div]
    have hs0 : 0 ≤ (l - lo) / (hi - lo) := div_nonneg (by linarith) (by linarith)
    have hs1 : (l - lo) / (hi - lo) ≤ 1 := div_le_one_of_le₀ (by linarith) (by linarith)
    have hsub : ∀ q : ℝ, 0 ≤ LogisticLoss.getLossSub p q := by
      intro q
      unfold LogisticLoss.getLossSub
      simp only [real_exp, real_ln, flt_add, flt_one, flt_mul, flt_neg]
      apply Real.log_nonneg
      have := Real.exp_pos (-q * p)
      linarith
    exact add_nonneg (mul_nonneg hs0 (hsub _)) (mul_nonneg (by linarith) (hsub _))

/-- C42: `get_square_grad` is the square of the derivative, for predictions in the label range. -/
theorem C42_square_grad (lf : LossFunction ℝ) (a b l p : ℝ) (h1 : a ≤ p) (h2 : p ≤ b) :
    lf.getSquareGrad p l = lf.firstDerivative a b p l ^ 2 := by
  cases lf with
  | squared =>
    unfold LossFunction.getSquareGrad LossFunction.firstDerivative
    simp only
    rw [squared_deriv_closed (by linarith), min_eq_left h2, max_eq_right h1]
    simp only [SquaredLoss.getSquareGrad, flt_mul, flt_sub, fl, flt_lit]
    push_cast
    ring
  | logistic lo hi =>
    unfold LossFunction.getSquareGrad LossFunction.firstDerivative LogisticLoss.getSquareGrad
    simp only [flt_mul]
    ring

/-- C42: the unscaled update is the step against the gradient, for predictions in the label range. -/
theorem C42_unsafe_update (lf : LossFunction ℝ) (a b l p h : ℝ) (h1 : a ≤ p) (h2 : p ≤ b) :
    lf.getUnsafeUpdate p l h = -(h * lf.firstDerivative a b p l) := by
  cases lf with
  | squared =>
    unfold LossFunction.getUnsafeUpdate LossFunction.firstDerivative
    simp only
    rw [squared_deriv_closed (by linarith), min_eq_left h2, max_eq_right h1]
    simp only [SquaredLoss.getUnsafeUpdate, flt_mul, flt_sub, fl, flt_lit]
    push_cast
    ring
  | logistic lo hi =>
    unfold LossFunction.getUnsafeUpdate LossFunction.firstDerivative LogisticLoss.getUnsafeUpdate LogisticLoss.firstDerivative
      LogisticLoss.mix LogisticLoss.getUnsafeUpdateSub LogisticLoss.firstDerivativeSub
    simp only [flt_mul, flt_sub, flt_one, flt_add, flt_div, flt_neg]
    ring

/-- The hypotheses of C42 are met: a label range with a prediction inside it, one at its border, and a label inside. -/
example : ∃ a b l p p' : ℝ, a ≤ b ∧ a ≤ l ∧ l ≤ b ∧ a ≤ p ∧ p ≤ b ∧ p ≠ a ∧ p ≠ b ∧ p' = a :=
  ⟨0, 2, 1, 1, 0, by norm_num, by norm_num, by norm_num, by norm_num, by norm_num, by norm_num, by norm_num, rfl⟩

/-! ### C43 -/

/-- Where the prediction goes if the update for importance `h` is applied. -/
def afterUpdate (p l h ppu : ℝ) : ℝ := p + ppu * SquaredLoss.getUpdate p l h ppu

theorem afterUpdate_exact {p l h ppu : ℝ} (hs : 1 / 1000000 ≤ h * ppu) : afterUpdate p l h ppu = l + (p - l) * Real.exp (-2 * (h * ppu)) := by
  unfold afterUpdate SquaredLoss.getUpdate
  simp only [flt_lt, flt_mul, flt_sub, flt_div, flt_one, real_exp, fl, flt_lit, decide_eq_true_eq]
  rw [if_neg (by push_cast; linarith)]
  have hp : ppu ≠ 0 := by rintro rfl; norm_num at hs
  push_cast
  have e : (-2 : ℝ) / 1 * h * ppu = -2 * (h * ppu) := by ring
  rw [e]
  field_simp
  ring

theorem afterUpdate_taylor {p l h ppu : ℝ} (hs : h * ppu < 1 / 1000000) : afterUpdate p l h ppu = p + 2 * (h * ppu) * (l - p) := by
  unfold afterUpdate SquaredLoss.getUpdate
  simp only [flt_lt, flt_mul, flt_sub, flt_div, flt_one, real_exp, fl, flt_lit, decide_eq_true_eq]
  rw [if_pos (by push_cast; linarith)]
  push_cast
  ring

/-- C43: the update for importance `h1 + h2` moves the prediction to the same point as the update for `h1` followed by the one for `h2`
(outside the small-step branch). -/
theorem C43_composition (p l h1 h2 ppu : ℝ) (hs1 : 1 / 1000000 ≤ h1 * ppu) (hs2 : 1 / 1000000 ≤ h2 * ppu) :
    afterUpdate p l (h1 + h2) ppu = afterUpdate (afterUpdate p l h1 ppu) l h2 ppu := by
  rw [afterUpdate_exact hs1, afterUpdate_exact hs2, afterUpdate_exact (by nlinarith)]
  have : -2 * ((h1 + h2) * ppu) = -2 * (h1 * ppu) + -2 * (h2 * ppu) := by ring
  rw [this, Real.exp_add]
  ring

/-- C43: the update moves the prediction strictly towards the label and never past it, in both branches. -/
theorem C43_no_overshoot (p l h ppu : ℝ) (hs : 0 < h * ppu) :
    (p < l → p < afterUpdate p l h ppu ∧ afterUpdate p l h ppu < l) ∧ (l < p → afterUpdate p l h ppu < p ∧ l < afterUpdate p l h ppu) ∧
      (p = l → afterUpdate p l h ppu = l) := by
  have key : ∃ t : ℝ, 0 < t ∧ t < 1 ∧ afterUpdate p l h ppu = l + (p - l) * t := by
    rcases lt_or_ge (h * ppu) (1 / 1000000) with q | q
    · exact ⟨1 - 2 * (h * ppu), by linarith, by linarith, by rw [afterUpdate_taylor q]; ring⟩
    · exact ⟨_, Real.exp_pos _, by rw [Real.exp_lt_one_iff]; linarith, afterUpdate_exact q⟩
  obtain ⟨t, t0, t1, e⟩ := key
  rw [e]
  refine ⟨fun hl => ⟨by nlinarith, by nlinarith⟩, fun hl => ⟨by nlinarith, by nlinarith⟩, fun hl => by rw [hl]; ring⟩

/-- C43: a larger importance moves the prediction at least as close to the label (outside the small-step branch). -/
theorem C43_monotone (p l h h' ppu : ℝ) (hs : 1 / 1000000 ≤ h * ppu) (hh : h * ppu ≤ h' * ppu) :
    |afterUpdate p l h' ppu - l| ≤ |afterUpdate p l h ppu - l| := by
  rw [afterUpdate_exact hs, afterUpdate_exact (hs.trans hh)]
  simp only [add_sub_cancel_left, abs_mul, Real.abs_exp]
  apply mul_le_mul_of_nonneg_left _ (abs_nonneg _)
  rw [Real.exp_le_exp]
  linarith

/-- C43: the small-step branch differs from the exact solution by less than `2e-12` times the distance to the label. -/
theorem C43_small_step (p l h ppu : ℝ) (h0 : 0 ≤ h * ppu) (hs : h * ppu < 1 / 1000000) :
    |afterUpdate p l h ppu - (l + (p - l) * Real.exp (-2 * (h * ppu)))| ≤ 2 / 1000000000000 * |p - l| := by
  rw [afterUpdate_taylor hs]
  set y := h * ppu
  have h1 : -2 * y + 1 ≤ Real.exp (-2 * y) := Real.add_one_le_exp _
  have h2 : Real.exp (-2 * y) ≤ 1 - 2 * y + 2 * y ^ 2 := by
    have hq : Real.exp (2 * y) ≥ 1 + 2 * y + (2 * y) ^ 2 / 2 := Real.quadratic_le_exp_of_nonneg (by linarith)
    have hm : Real.exp (-2 * y) * Real.exp (2 * y) = 1 := by rw [← Real.exp_add]; ring_nf; exact Real.exp_zero
    have hp := Real.exp_pos (-2 * y)
    have hb : Real.exp (-2 * y) * (1 + 2 * y + (2 * y) ^ 2 / 2) ≤ 1 := by
      exact (mul_le_mul_of_nonneg_left hq hp.le).trans hm.le
    have hc : 1 ≤ (1 - 2 * y + 2 * y ^ 2) * (1 + 2 * y + (2 * y) ^ 2 / 2) := by nlinarith [pow_nonneg h0 4]
    have hd : 0 < 1 + 2 * y + (2 * y) ^ 2 / 2 := by positivity
    by_contra hcon
    have := mul_lt_mul_of_pos_right (not_le.1 hcon) hd
    linarith
  have e : p + 2 * y * (l - p) - (l + (p - l) * Real.exp (-2 * y)) = -(p - l) * (Real.exp (-2 * y) - (1 - 2 * y)) := by ring
  rw [e, abs_mul, abs_neg, mul_comm]
  apply mul_le_mul_of_nonneg_right _ (abs_nonneg _)
  rw [abs_of_nonneg (by linarith)]
  have : y ^ 2 ≤ (1 / 1000000) ^ 2 := by gcongr
  nlinarith

/-- The hypotheses of C43 are met in both branches. -/
example : ∃ h1 h2 h3 ppu : ℝ, 1 / 1000000 ≤ h1 * ppu ∧ 1 / 1000000 ≤ h2 * ppu ∧ h1 * ppu ≤ h2 * ppu ∧ 0 < h3 * ppu ∧ h3 * ppu < 1 / 1000000 :=
  ⟨1, 2, 1 / 10000000, 1, by norm_num, by norm_num, by norm_num, by norm_num, by norm_num⟩

end

end Rml
