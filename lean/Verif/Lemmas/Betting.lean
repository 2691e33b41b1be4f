import Mathlib.Analysis.SpecialFunctions.Pow.Deriv
import Mathlib.Analysis.SpecialFunctions.Trigonometric.InverseDeriv
import Mathlib.Analysis.SpecialFunctions.Integrals.Basic
import Mathlib.Analysis.Convex.Integral
import Mathlib.Analysis.Convex.SpecificFunctions.Basic
import Mathlib.Analysis.Convex.SpecificFunctions.Pow
import Mathlib.Analysis.Complex.ExponentialBounds
import Mathlib.Analysis.Real.Pi.Bounds
import Mathlib.MeasureTheory.Integral.IntervalIntegral.FundThmCalculus

/-
The Krichevsky-Trofimov potential for coins of any size: the average wealth of all constant betting fractions. Used for C104.
-/

namespace Rml.Bet
open Real MeasureTheory intervalIntegral Set

/-- The wealth of somebody who always bets the fraction `cos φ`, after wins of total `p` and losses of total `q`. -/
noncomputable def den (p q φ : ℝ) : ℝ := (1 + cos φ) ^ p * (1 - cos φ) ^ q

/-- The average over the fractions. -/
noncomputable def pot (p q : ℝ) : ℝ := (1 / π) * ∫ φ in (0 : ℝ)..π, den p q φ

theorem up_nonneg (φ : ℝ) : 0 ≤ 1 + cos φ := by linarith [neg_one_le_cos φ]
theorem down_nonneg (φ : ℝ) : 0 ≤ 1 - cos φ := by linarith [cos_le_one φ]

theorem den_nonneg (p q φ : ℝ) : 0 ≤ den p q φ := mul_nonneg (rpow_nonneg (up_nonneg φ) _) (rpow_nonneg (down_nonneg φ) _)

theorem den_cont {p q : ℝ} (hp : 0 ≤ p) (hq : 0 ≤ q) : Continuous (den p q) := by
  unfold den
  exact ((continuous_const.add continuous_cos).rpow_const (fun _ => .inr hp)).mul
    ((continuous_const.sub continuous_cos).rpow_const (fun _ => .inr hq))

theorem den_int {p q : ℝ} (hp : 0 ≤ p) (hq : 0 ≤ q) (a b : ℝ) : IntervalIntegrable (den p q) volume a b :=
  (den_cont hp hq).intervalIntegrable a b

theorem pot_zero : pot 0 0 = 1 := by
  unfold pot den
  simp

theorem pot_nonneg (p q : ℝ) : 0 ≤ pot p q := by
  unfold pot
  refine mul_nonneg (by positivity) ?_
  exact intervalIntegral.integral_nonneg pi_pos.le (fun φ _ => den_nonneg p q φ)

theorem mean {p q : ℝ} (hp : 0 ≤ p) (hq : 0 ≤ q) :
    ∫ φ in (0 : ℝ)..π, den p q φ * cos φ = (p - q) / (1 + p + q) * ∫ φ in (0 : ℝ)..π, den p q φ := by
  have hc := den_cont hp hq
  have h1 : ∫ φ in (0 : ℝ)..π, (den p q φ * ((1 + p + q) * cos φ - (p - q))) = 0 := by
    have hi : IntervalIntegrable (fun φ => den p q φ * ((1 + p + q) * cos φ - (p - q))) volume 0 π :=
      (hc.mul ((continuous_const.mul continuous_cos).sub continuous_const)).intervalIntegrable 0 π
    rw [integral_eq_sub_of_hasDerivAt_of_le pi_pos.le (f := fun φ => sin φ * den p q φ) (continuous_sin.mul hc).continuousOn ?_ hi]
    · simp
    intro φ hφ
    have hs : 0 < sin φ := sin_pos_of_pos_of_lt_pi hφ.1 hφ.2
    have hsq : sin φ ^ 2 = (1 + cos φ) * (1 - cos φ) := by nlinarith [sin_sq_add_cos_sq φ]
    have hu : 0 < 1 + cos φ := by
      rcases (up_nonneg φ).lt_or_eq with h | h
      · exact h
      · rw [← h] at hsq; nlinarith
    have hd : 0 < 1 - cos φ := by
      rcases (down_nonneg φ).lt_or_eq with h | h
      · exact h
      · rw [← h] at hsq; nlinarith
    have d1 : HasDerivAt (fun φ => (1 + cos φ) ^ p) (-sin φ * p * (1 + cos φ) ^ (p - 1)) φ := by
      have := ((hasDerivAt_cos φ).const_add 1).rpow_const (p := p) (.inl hu.ne')
      exact this
    have d2 : HasDerivAt (fun φ => (1 - cos φ) ^ q) (sin φ * q * (1 - cos φ) ^ (q - 1)) φ := by
      have := ((hasDerivAt_cos φ).const_sub 1).rpow_const (p := q) (.inl hd.ne')
      simpa using this
    refine ((hasDerivAt_sin φ).mul (d1.mul d2)).congr_deriv ?_
    have e1 : (1 + cos φ) ^ p = (1 + cos φ) ^ (p - 1) * (1 + cos φ) := by
      rw [← rpow_add_one hu.ne', sub_add_cancel]
    have e2 : (1 - cos φ) ^ q = (1 - cos φ) ^ (q - 1) * (1 - cos φ) := by
      rw [← rpow_add_one hd.ne', sub_add_cancel]
    unfold den
    simp only [Pi.mul_apply]
    rw [e1, e2]
    generalize (1 + cos φ) ^ (p - 1) = A
    generalize (1 - cos φ) ^ (q - 1) = B
    linear_combination (-A * B * p * (1 - cos φ) + A * B * q * (1 + cos φ)) * hsq
  have h2 : ∫ φ in (0 : ℝ)..π, (den p q φ * ((1 + p + q) * cos φ - (p - q))) =
      (1 + p + q) * (∫ φ in (0 : ℝ)..π, den p q φ * cos φ) - (p - q) * ∫ φ in (0 : ℝ)..π, den p q φ := by
    rw [← intervalIntegral.integral_const_mul, ← intervalIntegral.integral_const_mul, ← intervalIntegral.integral_sub]
    · congr 1; ext φ; ring
    · exact (continuous_const.mul (hc.mul continuous_cos)).intervalIntegrable 0 π
    · exact (continuous_const.mul hc).intervalIntegrable 0 π
  rw [h2] at h1
  have : 0 < 1 + p + q := by linarith
  rw [div_mul_eq_mul_div, eq_div_iff this.ne']
  linarith

theorem step_aux {p q c : ℝ} (hp : 0 ≤ p) (hq : 0 ≤ q) (p' q' : ℝ) (hp' : 0 ≤ p') (hq' : 0 ≤ q')
    (h : ∀ φ, den p' q' φ ≤ den p q φ * (1 + c * cos φ)) :
    pot p' q' ≤ pot p q * (1 + c * ((p - q) / (1 + p + q))) := by
  have hc := den_cont hp hq
  have h1 : ∫ φ in (0 : ℝ)..π, den p' q' φ ≤ ∫ φ in (0 : ℝ)..π, den p q φ * (1 + c * cos φ) :=
    integral_mono_on pi_pos.le (den_int hp' hq' 0 π)
      ((hc.mul (continuous_const.add (continuous_const.mul continuous_cos))).intervalIntegrable 0 π) (fun φ _ => h φ)
  have h2 : ∫ φ in (0 : ℝ)..π, den p q φ * (1 + c * cos φ) =
      (∫ φ in (0 : ℝ)..π, den p q φ) + c * ∫ φ in (0 : ℝ)..π, den p q φ * cos φ := by
    rw [← intervalIntegral.integral_const_mul, ← intervalIntegral.integral_add]
    · congr 1; ext φ; ring
    · exact den_int hp hq 0 π
    · exact (continuous_const.mul (hc.mul continuous_cos)).intervalIntegrable 0 π
  rw [h2, mean hp hq] at h1
  unfold pot
  have := mul_le_mul_of_nonneg_left h1 (show 0 ≤ 1 / π by positivity)
  refine this.trans (le_of_eq ?_)
  ring

theorem step_up {p q c : ℝ} (hp : 0 ≤ p) (hq : 0 ≤ q) (h0 : 0 ≤ c) (h1 : c ≤ 1) :
    pot (p + c) q ≤ pot p q * (1 + c * ((p - q) / (1 + p + q))) := by
  refine step_aux hp hq _ _ (by linarith) hq ?_
  intro φ
  unfold den
  rw [rpow_add_of_nonneg (up_nonneg φ) hp h0]
  have := rpow_one_add_le_one_add_mul_self (neg_one_le_cos φ) h0 h1
  have k : 0 ≤ (1 + cos φ) ^ p * (1 - cos φ) ^ q := den_nonneg p q φ
  nlinarith [mul_le_mul_of_nonneg_left this k]

theorem step_down {p q c : ℝ} (hp : 0 ≤ p) (hq : 0 ≤ q) (h0 : 0 ≤ c) (h1 : c ≤ 1) :
    pot p (q + c) ≤ pot p q * (1 - c * ((p - q) / (1 + p + q))) := by
  have := step_aux (c := -c) hp hq p (q + c) hp (by linarith) (by
    intro φ
    unfold den
    rw [rpow_add_of_nonneg (down_nonneg φ) hq h0]
    have := rpow_one_add_le_one_add_mul_self (s := -cos φ) (by linarith [cos_le_one φ]) h0 h1
    have k : 0 ≤ (1 + cos φ) ^ p * (1 - cos φ) ^ q := den_nonneg p q φ
    rw [← sub_eq_add_neg] at this
    nlinarith [mul_le_mul_of_nonneg_left this k])
  refine this.trans (le_of_eq ?_)
  ring

/-- The average is not much smaller than the wealth of the best constant fraction. -/
theorem lower {p q : ℝ} (hp : 0 ≤ p) (hq : 0 ≤ q) {b : ℝ} (hb : |b| ≤ 1) :
    (1 + b) ^ p * (1 - b) ^ q / (5 * (p + q + 2)) ≤ pot p q := by
  obtain ⟨hb1, hb2⟩ := abs_le.1 hb
  set s : ℝ := 1 / (p + q + 2) with hs
  have hG : 0 < p + q + 2 := by linarith
  have hs0 : 0 < s := by positivity
  have hs1 : s ≤ 1 / 2 := by rw [hs]; apply one_div_le_one_div_of_le <;> linarith
  set lo := arccos ((1 - s) * b + s)
  set hi := arccos ((1 - s) * b - s)
  have r1 : -1 ≤ (1 - s) * b + s := by nlinarith
  have r2 : (1 - s) * b + s ≤ 1 := by nlinarith
  have r3 : -1 ≤ (1 - s) * b - s := by nlinarith
  have r4 : (1 - s) * b - s ≤ 1 := by nlinarith
  have c1 : cos lo = (1 - s) * b + s := cos_arccos r1 r2
  have c2 : cos hi = (1 - s) * b - s := cos_arccos r3 r4
  have l0 : 0 ≤ lo := arccos_nonneg _
  have l1 : hi ≤ π := arccos_le_pi _
  have l3 : lo ≤ hi := antitone_arccos (by linarith)
  have l2 : 2 * s ≤ hi - lo := by
    have := abs_cos_sub_cos_le lo hi
    rw [c1, c2] at this
    have e : (1 - s) * b + s - ((1 - s) * b - s) = 2 * s := by ring
    rw [e, abs_of_nonneg (by linarith), abs_sub_comm, abs_of_nonneg (by linarith)] at this
    exact this
  have hval : ∀ φ ∈ Icc lo hi, (1 - s) ^ (p + q) * ((1 + b) ^ p * (1 - b) ^ q) ≤ den p q φ := by
    intro φ hφ
    have k1 : cos φ ≤ (1 - s) * b + s := by
      rw [← c1]; exact cos_le_cos_of_nonneg_of_le_pi l0 (hφ.2.trans l1) hφ.1
    have k2 : (1 - s) * b - s ≤ cos φ := by
      rw [← c2]; exact cos_le_cos_of_nonneg_of_le_pi (l0.trans hφ.1) l1 hφ.2
    have e1 : ((1 - s) * (1 + b)) ^ p ≤ (1 + cos φ) ^ p := rpow_le_rpow (by nlinarith) (by nlinarith) hp
    have e2 : ((1 - s) * (1 - b)) ^ q ≤ (1 - cos φ) ^ q := rpow_le_rpow (by nlinarith) (by nlinarith) hq
    rw [mul_rpow (by linarith) (by linarith)] at e1 e2
    unfold den
    calc (1 - s) ^ (p + q) * ((1 + b) ^ p * (1 - b) ^ q)
        = ((1 - s) ^ p * (1 + b) ^ p) * ((1 - s) ^ q * (1 - b) ^ q) := by
          rw [rpow_add (by linarith)]; ring
      _ ≤ _ := mul_le_mul e1 e2 (mul_nonneg (rpow_nonneg (by linarith) _) (rpow_nonneg (by linarith) _)) (rpow_nonneg (up_nonneg φ) _)
  have hint : (hi - lo) * ((1 - s) ^ (p + q) * ((1 + b) ^ p * (1 - b) ^ q)) ≤ ∫ φ in (0 : ℝ)..π, den p q φ := by
    have i1 : ∫ φ in lo..hi, ((1 - s) ^ (p + q) * ((1 + b) ^ p * (1 - b) ^ q)) ≤ ∫ φ in lo..hi, den p q φ :=
      integral_mono_on l3 (by simp) (den_int hp hq lo hi) hval
    have i2 : ∫ φ in lo..hi, den p q φ ≤ ∫ φ in (0 : ℝ)..π, den p q φ :=
      integral_mono_interval l0 l3 l1 (Filter.Eventually.of_forall (fun φ => den_nonneg p q φ)) (den_int hp hq 0 π)
    rw [intervalIntegral.integral_const, smul_eq_mul] at i1
    linarith
  have hexp : exp (-1) ≤ (1 - s) ^ (p + q) := by
    have h1s : 0 < 1 - s := by linarith
    rw [rpow_def_of_pos h1s]
    apply exp_le_exp.2
    have : 1 - (1 - s)⁻¹ ≤ log (1 - s) := one_sub_inv_le_log_of_pos h1s
    have e : 1 - (1 - s)⁻¹ = - (1 / (p + q + 1)) := by
      have : 1 - s = (p + q + 1) / (p + q + 2) := by rw [hs]; field_simp; ring
      rw [this]
      have : p + q + 1 ≠ 0 := by linarith
      field_simp; ring
    rw [e] at this
    have h2 : -(1 / (p + q + 1)) * (p + q) ≤ log (1 - s) * (p + q) := mul_le_mul_of_nonneg_right this (by linarith)
    have h3 : 1 / (p + q + 1) * (p + q) ≤ 1 := by
      rw [div_mul_eq_mul_div, div_le_one (by linarith)]; linarith
    linarith
  set f := (1 + b) ^ p * (1 - b) ^ q
  have hf : 0 ≤ f := mul_nonneg (rpow_nonneg (by linarith) _) (rpow_nonneg (by linarith) _)
  have h5 : (2 * s) * (exp (-1) * f) ≤ ∫ φ in (0 : ℝ)..π, den p q φ :=
    le_trans (mul_le_mul l2 (mul_le_mul_of_nonneg_right hexp hf) (mul_nonneg (exp_pos _).le hf) (by linarith)) hint
  have hpie : 1 / 5 ≤ 1 / π * 2 * exp (-1) := by
    rw [exp_neg]
    have a1 := exp_one_lt_d9
    have a2 := pi_lt_d2
    have : π * exp 1 ≤ 10 := by nlinarith [pi_pos, exp_pos 1]
    have e : 1 / π * 2 * (exp 1)⁻¹ = 2 / (π * exp 1) := by field_simp
    rw [e, div_le_div_iff₀ (by norm_num) (by positivity)]
    linarith
  unfold pot
  calc f / (5 * (p + q + 2)) = (1 / 5) * (s * f) := by rw [hs]; field_simp
    _ ≤ (1 / π * 2 * exp (-1)) * (s * f) := mul_le_mul_of_nonneg_right hpie (by positivity)
    _ = 1 / π * ((2 * s) * (exp (-1) * f)) := by ring
    _ ≤ _ := mul_le_mul_of_nonneg_left h5 (by positivity)

theorem pot_lower {p q : ℝ} (hp : 0 ≤ p) (hq : 0 ≤ q) : 1 / (5 * (p + q + 2)) ≤ pot p q := by
  have := lower hp hq (b := 0) (by simp)
  simpa using this

theorem pot_pos {p q : ℝ} (hp : 0 ≤ p) (hq : 0 ≤ q) : 0 < pot p q :=
  lt_of_lt_of_le (by positivity) (pot_lower hp hq)

/-- Smaller units. -/
theorem scale {p q r : ℝ} (hp : 0 ≤ p) (hq : 0 ≤ q) (h0 : 0 < r) (h1 : r ≤ 1) : pot (r * p) (r * q) ≤ pot p q ^ r := by
  have hfin : IsProbabilityMeasure ((ENNReal.ofReal (1 / π)) • (volume.restrict (Ioc (0 : ℝ) π))) := by
    constructor
    simp only [Measure.smul_apply, Measure.restrict_apply MeasurableSet.univ, univ_inter, volume_Ioc, sub_zero, smul_eq_mul]
    rw [← ENNReal.ofReal_mul (by positivity), one_div, inv_mul_cancel₀ pi_ne_zero, ENNReal.ofReal_one]
  have hint : ∀ (a b : ℝ), pot a b = ∫ φ, den a b φ ∂((ENNReal.ofReal (1 / π)) • (volume.restrict (Ioc (0 : ℝ) π))) := by
    intro a b
    rw [MeasureTheory.integral_smul_measure, ENNReal.toReal_ofReal (by positivity)]
    unfold pot
    rw [integral_of_le pi_pos.le, smul_eq_mul]
  have hi : ∀ {a b : ℝ}, 0 ≤ a → 0 ≤ b →
      Integrable (den a b) ((ENNReal.ofReal (1 / π)) • (volume.restrict (Ioc (0 : ℝ) π))) := by
    intro a b ha hb
    refine Integrable.smul_measure ?_ ENNReal.ofReal_ne_top
    exact (intervalIntegrable_iff_integrableOn_Ioc_of_le pi_pos.le).1 (den_int ha hb 0 π)
  have hden : ∀ φ, den (r * p) (r * q) φ = den p q φ ^ r := by
    intro φ
    unfold den
    rw [mul_rpow (rpow_nonneg (up_nonneg φ) _) (rpow_nonneg (down_nonneg φ) _), ← rpow_mul (up_nonneg φ), ← rpow_mul (down_nonneg φ),
      mul_comm r p, mul_comm r q]
  rw [hint, hint]
  have := (concaveOn_rpow h0.le h1).le_map_integral (μ := (ENNReal.ofReal (1 / π)) • (volume.restrict (Ioc (0 : ℝ) π)))
    (f := den p q) (continuous_rpow_const h0.le).continuousOn isClosed_Ici
    (Filter.Eventually.of_forall (fun φ => den_nonneg p q φ)) (hi hp hq)
    ((hi (a := r * p) (b := r * q) (by positivity) (by positivity)).congr (Filter.Eventually.of_forall (fun φ => hden φ)))
  refine le_trans (le_of_eq ?_) this
  congr 1; ext φ; exact hden φ

theorem sq_log {b : ℝ} (hb : |b| ≤ 1 / 2) : exp (b - b ^ 2) ≤ 1 + b := by
  obtain ⟨h1, h2⟩ := abs_le.1 hb
  rcases le_total 0 b with h | h
  · have hpos : (0 : ℝ) < 1 + b := by linarith
    rw [← le_log_iff_exp_le hpos]
    have := le_log_one_add_of_nonneg h
    refine le_trans ?_ this
    rw [le_div_iff₀ (by linarith)]
    nlinarith [mul_nonneg h h, mul_nonneg (mul_nonneg h h) h]
  · obtain ⟨y, rfl⟩ : ∃ y, b = -y := ⟨-b, by ring⟩
    have hy : 0 ≤ y := by linarith
    have hy2 : y ≤ 1 / 2 := by linarith
    have hq := quadratic_le_exp_of_nonneg (x := y + y ^ 2) (by positivity)
    have e : -y - (-y) ^ 2 = -(y + y ^ 2) := by ring
    rw [e, exp_neg, inv_le_comm₀ (exp_pos _) (by linarith)]
    refine le_trans ?_ hq
    rw [inv_le_iff_one_le_mul₀ (by linarith)]
    have key : 0 ≤ y ^ 2 * ((1 - y) * (1 + y) ^ 2 - 2 * y) := by
      apply mul_nonneg (by positivity)
      nlinarith [mul_nonneg hy hy, mul_nonneg hy (show 0 ≤ 1/2 - y by linarith)]
    nlinarith

theorem exp_lower {p q b : ℝ} (hp : 0 ≤ p) (hq : 0 ≤ q) (hb : |b| ≤ 1 / 2) :
    exp (b * (p - q) - b ^ 2 * (p + q)) ≤ (1 + b) ^ p * (1 - b) ^ q := by
  have h1 := sq_log hb
  have h2 := sq_log (b := -b) (by rwa [abs_neg])
  have e1 : exp ((b - b ^ 2) * p) ≤ (1 + b) ^ p := by
    rw [exp_mul]; exact rpow_le_rpow (exp_pos _).le h1 hp
  have e2 : exp ((-b - (-b) ^ 2) * q) ≤ (1 - b) ^ q := by
    rw [exp_mul]; exact rpow_le_rpow (exp_pos _).le (by rwa [← sub_eq_add_neg] at h2) hq
  have e : b * (p - q) - b ^ 2 * (p + q) = (b - b ^ 2) * p + (-b - (-b) ^ 2) * q := by ring
  rw [e, exp_add]
  exact mul_le_mul e1 e2 (exp_pos _).le ((exp_pos _).le.trans e1)

end Rml.Bet
