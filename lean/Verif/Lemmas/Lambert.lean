import Mathlib.Analysis.SpecialFunctions.ExpDeriv
import Mathlib.Analysis.SpecialFunctions.Log.Deriv
import Mathlib.Analysis.Complex.ExponentialBounds
import Mathlib.Analysis.Calculus.Deriv.MeanValue
import Mathlib.Analysis.Convex.SpecificFunctions.Basic

/-! The error of the approximation of Lambert's W function in the logistic loss: one step of a fourth order iteration from a first guess. -/

namespace Rml
namespace Wexp
open Real

noncomputable section

/-- Denominator. -/
def dd (s p : ℝ) : ℝ := 2 + (4 / 3 - 2 * s) * p
/-- Relative step. -/
def ee (s p : ℝ) : ℝ := p + s * p ^ 2 / dd s p
/-- Residual of the equation after the step. -/
def res (s p : ℝ) : ℝ := log (1 + ee s p) - ee s p + p ^ 2 / dd s p
/-- Numerator of `1 + ee`. -/
def en (s p : ℝ) : ℝ := dd s p + p * dd s p + s * p ^ 2
/-- Numerator of the derivative of the residual. -/
def pp (s p : ℝ) : ℝ := 8 / 9 - (4 / 3 - 2 * s) ^ 2 + p * ((4 / 3 - 2 * s) * (4 / 3 - s) * (s - 1 / 3))

theorem one_add_ee {s p : ℝ} (h : dd s p ≠ 0) : 1 + ee s p = en s p / dd s p := by
  unfold ee en
  field_simp
  ring

theorem deriv_dd (s p : ℝ) : HasDerivAt (dd s) (4 / 3 - 2 * s) p := by
  unfold dd
  simpa using ((hasDerivAt_id p).const_mul (4 / 3 - 2 * s)).const_add 2

theorem deriv_res {s p : ℝ} (hd : 0 < dd s p) (he : 0 < en s p) : HasDerivAt (res s) (p ^ 3 * pp s p / (dd s p ^ 2 * en s p)) p := by
  have h1 : HasDerivAt (fun p => p ^ 2 / dd s p) ((2 * p * dd s p - p ^ 2 * (4 / 3 - 2 * s)) / dd s p ^ 2) p := by
    exact (((hasDerivAt_id p).pow 2).div (deriv_dd s p) hd.ne').congr_deriv (by simp)
  have h2 : HasDerivAt (ee s) (1 + s * ((2 * p * dd s p - p ^ 2 * (4 / 3 - 2 * s)) / dd s p ^ 2)) p := by
    have := (hasDerivAt_id p).add (h1.const_mul s)
    refine this.congr_of_eventuallyEq (Filter.Eventually.of_forall fun x => ?_)
    simp only [ee, Pi.add_apply, id]
    ring
  have hpos : 0 < 1 + ee s p := by rw [one_add_ee hd.ne']; positivity
  have h3 := ((h2.const_add 1).log hpos.ne').sub h2 |>.add h1
  have : HasDerivAt (res s) _ p := h3
  convert this using 1
  rw [one_add_ee hd.ne']
  have e1 : dd s p ≠ 0 := hd.ne'
  have e2 : en s p ≠ 0 := he.ne'
  field_simp
  unfold en pp dd
  ring

/-- A bound of the derivative bounds the residual. -/
theorem res_bound {s p K : ℝ} (h : ∀ τ : ℝ, 0 ≤ τ → τ ≤ 1 → 0 < dd s (τ * p) ∧ 0 < en s (τ * p) ∧ |pp s (τ * p)| ≤ K * (dd s (τ * p) ^ 2 * en s (τ * p))) :
    |res s p| ≤ K / 4 * p ^ 4 := by
  have hr : ∀ τ ∈ Set.Icc (0 : ℝ) 1, HasDerivAt (fun τ => res s (τ * p))
      ((τ * p) ^ 3 * pp s (τ * p) / (dd s (τ * p) ^ 2 * en s (τ * p)) * p) τ := by
    intro τ hτ
    obtain ⟨a, b, _⟩ := h τ hτ.1 hτ.2
    have hm : HasDerivAt (fun τ : ℝ => τ * p) p τ := by simpa using (hasDerivAt_id τ).mul_const p
    exact (deriv_res a b).comp τ hm
  have hb : ∀ τ ∈ Set.Icc (0 : ℝ) 1, |(τ * p) ^ 3 * pp s (τ * p) / (dd s (τ * p) ^ 2 * en s (τ * p)) * p| ≤ K * p ^ 4 * τ ^ 3 := by
    intro τ hτ
    obtain ⟨a, b, c⟩ := h τ hτ.1 hτ.2
    have hD : 0 < dd s (τ * p) ^ 2 * en s (τ * p) := by positivity
    have : (τ * p) ^ 3 * pp s (τ * p) / (dd s (τ * p) ^ 2 * en s (τ * p)) * p =
        (p ^ 4 * τ ^ 3) * (pp s (τ * p) / (dd s (τ * p) ^ 2 * en s (τ * p))) := by ring
    rw [this, abs_mul, abs_div, abs_of_pos hD]
    have h0 : 0 ≤ p ^ 4 * τ ^ 3 := mul_nonneg (by positivity) (pow_nonneg hτ.1 3)
    rw [abs_of_nonneg h0]
    calc p ^ 4 * τ ^ 3 * (|pp s (τ * p)| / (dd s (τ * p) ^ 2 * en s (τ * p))) ≤ p ^ 4 * τ ^ 3 * K := by
          apply mul_le_mul_of_nonneg_left _ h0
          rw [div_le_iff₀ hD]
          exact c
      _ = _ := by ring
  have hz : res s 0 = 0 := by simp [res, ee]
  have mono : ∀ σ : ℝ, |σ| ≤ 1 → σ * res s p ≤ K / 4 * p ^ 4 := by
    intro σ hσ
    have hq : ∀ τ ∈ Set.Icc (0 : ℝ) 1, HasDerivAt (fun τ => K / 4 * p ^ 4 * τ ^ 4 - σ * res s (τ * p))
        (K * p ^ 4 * τ ^ 3 - σ * ((τ * p) ^ 3 * pp s (τ * p) / (dd s (τ * p) ^ 2 * en s (τ * p)) * p)) τ := by
      intro τ hτ
      have a := ((hasDerivAt_id τ).pow 4).const_mul (K / 4 * p ^ 4)
      have b := (hr τ hτ).const_mul σ
      refine (a.sub b).congr_deriv ?_
      simp
      ring
    have hm : MonotoneOn (fun τ => K / 4 * p ^ 4 * τ ^ 4 - σ * res s (τ * p)) (Set.Icc 0 1) := by
      apply monotoneOn_of_deriv_nonneg (convex_Icc 0 1)
      · exact fun τ hτ => (hq τ hτ).continuousAt.continuousWithinAt
      · exact fun τ hτ => (hq τ (interior_subset hτ)).differentiableAt.differentiableWithinAt
      · intro τ hτ
        have hτ' := interior_subset hτ
        rw [(hq τ hτ').deriv]
        have := hb τ hτ'
        have h2 : σ * ((τ * p) ^ 3 * pp s (τ * p) / (dd s (τ * p) ^ 2 * en s (τ * p)) * p) ≤ K * p ^ 4 * τ ^ 3 := by
          refine (le_abs_self _).trans ?_
          rw [abs_mul]
          nlinarith [abs_nonneg σ, abs_nonneg ((τ * p) ^ 3 * pp s (τ * p) / (dd s (τ * p) ^ 2 * en s (τ * p)) * p)]
        linarith
    have := hm (Set.left_mem_Icc.2 zero_le_one) (Set.right_mem_Icc.2 zero_le_one) zero_le_one
    simp only [zero_mul, hz, mul_zero, one_mul, one_pow, mul_one] at this
    norm_num at this
    linarith
  rw [abs_le]
  constructor
  · have := mono (-1) (by simp)
    linarith
  · have := mono 1 (by simp)
    linarith

/-- Small relative residuals. -/
theorem res_small {s p : ℝ} (hs0 : 0 ≤ s) (hs1 : s ≤ 1) (hp : |p| ≤ 18 / 100) : |res s p| ≤ 8 / 100000 := by
  have h : |res s p| ≤ (3 / 10) / 4 * p ^ 4 := by
    apply res_bound
    intro τ h0 h1
    have hq : |τ * p| ≤ 18 / 100 := by
      rw [abs_mul, abs_of_nonneg h0]
      nlinarith [abs_nonneg p]
    obtain ⟨q1, q2⟩ := abs_le.1 hq
    generalize τ * p = q at *
    have hd : 176 / 100 ≤ dd s q := by unfold dd; nlinarith
    have he : 14 / 10 ≤ en s q := by
      have : en s q = 2 + (10 / 3 - 2 * s) * q + (4 / 3 - s) * q ^ 2 := by unfold en dd; ring
      rw [this]
      nlinarith [mul_nonneg (show (0 : ℝ) ≤ 4 / 3 - s by linarith) (sq_nonneg q)]
    have hD : 43 / 10 ≤ dd s q ^ 2 * en s q := by
      have : 307 / 100 ≤ dd s q ^ 2 := by nlinarith
      nlinarith
    refine ⟨by linarith, by linarith, ?_⟩
    have hp1 : |8 / 9 - (4 / 3 - 2 * s) ^ 2| ≤ 8 / 9 := by
      rw [abs_le]
      constructor <;> nlinarith
    have hp2 : |(4 / 3 - 2 * s) * (4 / 3 - s) * (s - 1 / 3)| ≤ 32 / 27 := by
      rw [abs_mul, abs_mul]
      have a1 : |4 / 3 - 2 * s| ≤ 4 / 3 := by rw [abs_le]; constructor <;> linarith
      have a2 : |4 / 3 - s| ≤ 4 / 3 := by rw [abs_le]; constructor <;> linarith
      have a3 : |s - 1 / 3| ≤ 2 / 3 := by rw [abs_le]; constructor <;> linarith
      calc |4 / 3 - 2 * s| * |4 / 3 - s| * |s - 1 / 3| ≤ 4 / 3 * (4 / 3) * (2 / 3) := by gcongr
        _ = 32 / 27 := by norm_num
    have hpp : |pp s q| ≤ 8 / 9 + 18 / 100 * (32 / 27) := by
      unfold pp
      refine (abs_add_le _ _).trans (add_le_add hp1 ?_)
      rw [abs_mul]
      exact mul_le_mul (abs_le.2 ⟨q1, q2⟩) hp2 (abs_nonneg _) (by norm_num)
    linarith
  have h4 : p ^ 4 ≤ (18 / 100) ^ 4 := by
    have : p ^ 4 = |p| ^ 4 := by rw [← abs_pow, abs_of_nonneg (by positivity)]
    rw [this]
    gcongr
  linarith

theorem quartic {z : ℝ} (hz : 0 ≤ z) : 51 / 100 + 161 / 1000 * z ≤ 18 / 100 * ((2 + 62 / 100 * z) ^ 2 * (2 - 138 / 100 * z + 1 / 3 * z ^ 2)) := by
  nlinarith [sq_nonneg (z - 2), sq_nonneg (z * (z - 2)), mul_nonneg hz (sq_nonneg (z - 2)), sq_nonneg (z ^ 2 - 2 * z), mul_nonneg hz hz, mul_nonneg hz (mul_nonneg hz hz)]

/-- Negative relative residuals of small weights. -/
theorem res_neg {s p : ℝ} (hs0 : 977 / 1000 ≤ s) (hs1 : s ≤ 1) (hp : p ≤ 0) : 0 < dd s p ∧ 0 < en s p ∧ |res s p| ≤ 45 / 1000 * p ^ 4 := by
  have key : ∀ q : ℝ, q ≤ 0 → 0 < dd s q ∧ 0 < en s q ∧ |pp s q| ≤ 18 / 100 * (dd s q ^ 2 * en s q) := by
    intro q hq
    obtain ⟨z, rfl⟩ : ∃ z, q = -z := ⟨-q, by ring⟩
    have hz : 0 ≤ z := by linarith
    have hd : 2 + 62 / 100 * z ≤ dd s (-z) := by unfold dd; nlinarith
    have he : 2 - 138 / 100 * z + 1 / 3 * z ^ 2 ≤ en s (-z) := by
      have : en s (-z) = 2 - (10 / 3 - 2 * s) * z + (4 / 3 - s) * z ^ 2 := by unfold en dd; ring
      rw [this]
      nlinarith [mul_nonneg (show (0 : ℝ) ≤ 1 - s by linarith) (sq_nonneg z)]
    have hb : 0 < 2 - 138 / 100 * z + 1 / 3 * z ^ 2 := by nlinarith [sq_nonneg (z - 2)]
    refine ⟨by nlinarith, by linarith, ?_⟩
    have hpp : |pp s (-z)| ≤ 51 / 100 + 161 / 1000 * z := by
      unfold pp
      refine (abs_add_le _ _).trans (add_le_add ?_ ?_)
      · rw [abs_le]
        constructor <;> nlinarith
      · rw [abs_mul, abs_neg, abs_of_nonneg hz, abs_mul, abs_mul]
        have a1 : |4 / 3 - 2 * s| ≤ 2 / 3 := by rw [abs_le]; constructor <;> linarith
        have a2 : |4 / 3 - s| ≤ 357 / 1000 := by rw [abs_le]; constructor <;> linarith
        have a3 : |s - 1 / 3| ≤ 2 / 3 := by rw [abs_le]; constructor <;> linarith
        have : |4 / 3 - 2 * s| * |4 / 3 - s| * |s - 1 / 3| ≤ 2 / 3 * (357 / 1000) * (2 / 3) := by gcongr
        nlinarith
    refine hpp.trans ((quartic hz).trans ?_)
    gcongr
  refine ⟨(key p hp).1, (key p hp).2.1, ?_⟩
  have := res_bound (s := s) (p := p) (K := 18 / 100) fun τ h0 _ => key _ (mul_nonpos_of_nonneg_of_nonpos h0 hp)
  linarith

/-- One step from `w`: the residual afterwards. -/
theorem step_residual {w x : ℝ} (hw : 0 < w) (hd : 0 < dd (1 / (1 + w)) ((x - log w - w) / (1 + w))) (he : 0 < en (1 / (1 + w)) ((x - log w - w) / (1 + w))) :
    w * (1 + ee (1 / (1 + w)) ((x - log w - w) / (1 + w))) + log (w * (1 + ee (1 / (1 + w)) ((x - log w - w) / (1 + w)))) - x =
      res (1 / (1 + w)) ((x - log w - w) / (1 + w)) := by
  have hpos : 0 < 1 + ee (1 / (1 + w)) ((x - log w - w) / (1 + w)) := by rw [one_add_ee hd.ne']; positivity
  rw [log_mul hw.ne' hpos.ne']
  unfold res
  generalize hL : log (1 + ee (1 / (1 + w)) ((x - log w - w) / (1 + w))) = L
  unfold ee
  have hr : x - log w = (x - log w - w) / (1 + w) * (1 + w) + w := by field_simp; ring
  generalize (x - log w - w) / (1 + w) = q at *
  generalize dd (1 / (1 + w)) q = d at *
  have : x = log w + q * (1 + w) + w := by linarith
  rw [this]
  field_simp
  ring

/-- The formula of the code is that step. -/
theorem step_formula {w r : ℝ} (hw : 0 < w) (hd : dd (1 / (1 + w)) (r / (1 + w)) ≠ 0) :
    r / (1 + w) * (2 * (1 + w) * ((1 + w) + 2 * r / 3) - r) / (2 * (1 + w) * ((1 + w) + 2 * r / 3) - 2 * r) = ee (1 / (1 + w)) (r / (1 + w)) := by
  have ht : 1 + w ≠ 0 := by positivity
  obtain ⟨q, rfl⟩ : ∃ q, r = q * (1 + w) := ⟨r / (1 + w), by field_simp⟩
  have hq : q * (1 + w) / (1 + w) = q := by field_simp
  rw [hq] at hd ⊢
  have e1 : 2 * (1 + w) * ((1 + w) + 2 * (q * (1 + w)) / 3) - 2 * (q * (1 + w)) = (1 + w) ^ 2 * dd (1 / (1 + w)) q := by
    unfold dd
    field_simp
    ring
  have e2 : 2 * (1 + w) * ((1 + w) + 2 * (q * (1 + w)) / 3) - q * (1 + w) = (1 + w) ^ 2 * dd (1 / (1 + w)) q + q * (1 + w) := by
    rw [← e1]; ring
  rw [e1, e2]
  unfold ee
  generalize dd (1 / (1 + w)) q = d at *
  field_simp

/-- Distance from the solution by the residual. -/
theorem dist_le {W v x : ℝ} (hW : 0 < W) (hv : 0 < v) (h : W + log W = x) : |v - W| ≤ |v + log v - x| ∧ |v - W| ≤ max v W * |v + log v - x| := by
  rw [← h]
  rcases le_total W v with hle | hle
  · have hl : log W ≤ log v := log_le_log hW hle
    have h2 : v - W ≤ v * (log v - log W) := by
      have := log_le_sub_one_of_pos (show 0 < W / v by positivity)
      rw [log_div hW.ne' hv.ne'] at this
      have h3 : W / v * v = W := by field_simp
      nlinarith
    rw [abs_of_nonneg (by linarith), abs_of_nonneg (by linarith), max_eq_left hle]
    exact ⟨by linarith, by nlinarith⟩
  · have hl : log v ≤ log W := log_le_log hv hle
    have h2 : W - v ≤ W * (log W - log v) := by
      have := log_le_sub_one_of_pos (show 0 < v / W by positivity)
      rw [log_div hv.ne' hW.ne'] at this
      have h3 : v / W * W = v := by field_simp
      nlinarith
    rw [abs_of_nonpos (by linarith), abs_of_nonpos (by linarith), max_eq_right hle]
    exact ⟨by linarith, by nlinarith⟩

/-- The logarithm is below its tangents. -/
theorem log_tangent {w : ℝ} (hw : 0 < w) (c : ℝ) : log w ≤ w * exp (-c) - 1 + c := by
  have := log_le_sub_one_of_pos (show 0 < w * exp (-c) by positivity)
  rw [log_mul hw.ne' (exp_pos _).ne', log_exp] at this
  linarith

/-- Positive denominators for small relative residuals. -/
theorem pos_small {s p : ℝ} (hs0 : 0 ≤ s) (hs1 : s ≤ 1) (hp : |p| ≤ 18 / 100) : 0 < dd s p ∧ 0 < en s p := by
  obtain ⟨q1, q2⟩ := abs_le.1 hp
  refine ⟨by unfold dd; nlinarith, ?_⟩
  have : en s p = 2 + (10 / 3 - 2 * s) * p + (4 / 3 - s) * p ^ 2 := by unfold en dd; ring
  rw [this]
  nlinarith [mul_nonneg (show (0 : ℝ) ≤ 4 / 3 - s by linarith) (sq_nonneg p)]

/-- A step with a small relative residual. -/
theorem small_case {w x W : ℝ} (hw : 0 < w) (hW : 0 < W) (h : W + log W = x) (hp : |(x - log w - w) / (1 + w)| ≤ 18 / 100) :
    |w * (1 + ee (1 / (1 + w)) ((x - log w - w) / (1 + w))) - W| ≤ 8 / 100000 := by
  have hs0 : 0 ≤ 1 / (1 + w) := by positivity
  have hs1 : 1 / (1 + w) ≤ 1 := by rw [div_le_one (by positivity)]; linarith
  obtain ⟨hd, he⟩ := pos_small hs0 hs1 hp
  have hpos : 0 < 1 + ee (1 / (1 + w)) ((x - log w - w) / (1 + w)) := by rw [one_add_ee hd.ne']; positivity
  have := (dist_le hW (mul_pos hw hpos) h).1
  rw [step_residual hw hd he] at this
  exact this.trans (res_small hs0 hs1 hp)

theorem exp_11 : exp (-(11 / 10)) ≤ 3378 / 10000 := by
  have h1 : (2.7182818283 : ℝ) < exp 1 := exp_one_gt_d9
  have h2 : (1 / 10 : ℝ) + 1 ≤ exp (1 / 10) := add_one_le_exp _
  have h3 : exp (11 / 10) = exp 1 * exp (1 / 10) := by rw [← exp_add]; norm_num
  rw [exp_neg, h3]
  rw [inv_le_comm₀ (by positivity) (by norm_num)]
  nlinarith

/-- The first guess of the code for `x ≥ 1` has a small relative residual. -/
theorem right_guess {x w : ℝ} (hx : 1 ≤ x) (hw : w = 86 / 100 * x + 1 / 100) : |(x - log w - w) / (1 + w)| ≤ 18 / 100 := by
  have hw1 : 87 / 100 ≤ w := by rw [hw]; linarith
  have hw0 : 0 < w := by linarith
  have hx' : x = (w - 1 / 100) / (86 / 100) := by rw [hw]; ring
  rw [abs_div, abs_of_pos (show 0 < 1 + w by linarith), div_le_iff₀ (by linarith), abs_le]
  constructor
  · have h1 := log_tangent hw0 (11 / 10)
    have h2 := mul_le_mul_of_nonneg_left exp_11 hw0.le
    rw [hx']
    linarith
  · have h1 := one_sub_inv_le_log_of_pos hw0
    have h2 : w⁻¹ ≤ 100 / 87 := by
      rw [inv_le_comm₀ hw0 (by norm_num)]
      linarith
    rw [hx']
    linarith

theorem exp_154 : exp (154 / 100) ≤ 472 / 100 := by
  have h1 : exp 1 < 2.7182818286 := exp_one_lt_d9
  have h2 : (1 - 54 / 1600 : ℝ) ≤ exp (-(54 / 1600)) := one_sub_le_exp_neg _
  have h3 : (1 - 54 / 1600 : ℝ) ^ 16 ≤ exp (-(54 / 100)) := by
    have : exp (-(54 / 100)) = exp (-(54 / 1600)) ^ 16 := by rw [← exp_nat_mul]; norm_num
    rw [this]
    exact pow_le_pow_left₀ (by norm_num) h2 16
  have h4 : (576 / 1000 : ℝ) ≤ exp (-(54 / 100)) := le_trans (by norm_num) h3
  have h5 : exp (154 / 100) * exp (-(54 / 100)) = exp 1 := by rw [← exp_add]; norm_num
  have h6 := exp_pos (154 / 100 : ℝ)
  nlinarith

theorem exp_m38 : exp (-(38 / 10)) ≤ 23 / 1000 := by
  have h1 : (2.7182818283 : ℝ) < exp 1 := exp_one_gt_d9
  have h2 : (1 - 2 / 10 : ℝ) ≤ exp (-(2 / 10)) := one_sub_le_exp_neg _
  have h3 : exp (38 / 10) = exp 1 ^ 4 * exp (-(2 / 10)) := by rw [← exp_nat_mul, ← exp_add]; norm_num
  have h4 : (2.718 : ℝ) ^ 4 ≤ exp 1 ^ 4 := pow_le_pow_left₀ (by norm_num) (by linarith) 4
  have h5 : (2.718 : ℝ) ^ 4 * (1 - 2 / 10) ≤ exp (38 / 10) := by
    rw [h3]
    exact mul_le_mul h4 h2 (by norm_num) (by positivity)
  rw [exp_neg, inv_le_comm₀ (exp_pos _) (by norm_num)]
  refine le_trans ?_ h5
  norm_num

theorem exp_015 : exp (15 / 100) ≤ 118 / 100 := by
  have h2 : (1 - 15 / 100 : ℝ) ≤ exp (-(15 / 100)) := one_sub_le_exp_neg _
  have h5 : exp (15 / 100 : ℝ) * exp (-(15 / 100)) = 1 := by rw [← exp_add]; norm_num
  have h6 := exp_pos (15 / 100 : ℝ)
  nlinarith

/-- A first guess for `x < 1` whose relative residual is not small is a small number. -/
theorem left_small {y : ℝ} (hy : y ≤ 15 / 100) (h : 25 / 100 * y + 8125 / 10000 - exp y < -(18 / 100) * (1 + exp y)) : y < -(38 / 10) := by
  by_contra hc
  have hc : -(38 / 10) ≤ y := not_lt.1 hc
  obtain ⟨a, b, ha, hb, hab, rfl⟩ : ∃ a b : ℝ, 0 ≤ a ∧ 0 ≤ b ∧ a + b = 1 ∧ y = a * (-(38 / 10)) + b * (15 / 100) :=
    ⟨(15 / 100 - y) / (395 / 100), (y + 38 / 10) / (395 / 100), by apply div_nonneg <;> linarith, by apply div_nonneg <;> linarith, by ring, by ring⟩
  have := convexOn_exp.2 (Set.mem_univ (-(38 / 10) : ℝ)) (Set.mem_univ (15 / 100 : ℝ)) ha hb hab
  simp only [smul_eq_mul] at this
  have h1 := mul_le_mul_of_nonneg_left exp_m38 ha
  have h2 := mul_le_mul_of_nonneg_left exp_015 hb
  nlinarith

/-- The tail: the first guess times powers of the residual. -/
theorem tail_bound {y z : ℝ} (hz : 0 ≤ z) (hzy : z ≤ -(25 / 100) * y - 3 / 4) : exp y * (z ^ 4 + z ^ 5) ≤ 1945 / 1000000 := by
  have h1 : (2.7182818283 : ℝ) < exp 1 := exp_one_gt_d9
  have a : z ≤ exp (z - 1) := by have := add_one_le_exp (z - 1); linarith
  have b : 8 / 10 * z ≤ exp (8 / 10 * z - 1) := by have := add_one_le_exp (8 / 10 * z - 1); linarith
  have a4 : z ^ 4 ≤ exp (4 * z - 4) := by
    have : exp (4 * z - 4) = exp (z - 1) ^ 4 := by rw [← exp_nat_mul]; congr 1; push_cast; ring
    rw [this]
    exact pow_le_pow_left₀ hz a 4
  have b5 : (8 / 10 * z) ^ 5 ≤ exp (4 * z - 5) := by
    have : exp (4 * z - 5) = exp (8 / 10 * z - 1) ^ 5 := by rw [← exp_nat_mul]; congr 1; push_cast; ring
    rw [this]
    exact pow_le_pow_left₀ (by linarith) b 5
  have hy : exp y ≤ exp (-4 * z - 3) := exp_le_exp.2 (by linarith)
  have e7 : exp (-4 * z - 3) * exp (4 * z - 4) = exp (-7) := by rw [← exp_add]; congr 1; ring
  have e8 : exp (-4 * z - 3) * exp (4 * z - 5) = exp (-8) := by rw [← exp_add]; congr 1; ring
  have hz5 : z ^ 5 = 3125 / 1024 * (8 / 10 * z) ^ 5 := by ring
  have i7 : exp (-7) ≤ 914 / 1000000 := by
    have h7 : exp (7 : ℝ) = exp 1 ^ 7 := by rw [← exp_nat_mul]; norm_num
    have : (2.718 : ℝ) ^ 7 ≤ exp 1 ^ 7 := pow_le_pow_left₀ (by norm_num) (by linarith) 7
    rw [exp_neg, h7, inv_le_comm₀ (by positivity) (by norm_num)]
    refine le_trans ?_ this
    norm_num
  have i8 : exp (-8) ≤ 336 / 1000000 := by
    have h8 : exp (8 : ℝ) = exp 1 ^ 8 := by rw [← exp_nat_mul]; norm_num
    have : (2.718 : ℝ) ^ 8 ≤ exp 1 ^ 8 := pow_le_pow_left₀ (by norm_num) (by linarith) 8
    rw [exp_neg, h8, inv_le_comm₀ (by positivity) (by norm_num)]
    refine le_trans ?_ this
    norm_num
  calc exp y * (z ^ 4 + z ^ 5) ≤ exp (-4 * z - 3) * (exp (4 * z - 4) + 3125 / 1024 * exp (4 * z - 5)) := by
        rw [hz5]
        gcongr
    _ = exp (-7) + 3125 / 1024 * exp (-8) := by rw [mul_add, e7, mul_left_comm, e8]
    _ ≤ _ := by linarith

/-- The error of one step from the first guess for `x < 1`. -/
theorem left_case {x w W : ℝ} (hx : x < 1) (hw : w = exp (-(65 / 100) + 8 / 10 * x)) (hW : 0 < W) (h : W + log W = x) :
    dd (1 / (1 + w)) ((x - log w - w) / (1 + w)) ≠ 0 ∧ |w * (1 + ee (1 / (1 + w)) ((x - log w - w) / (1 + w))) - W| < 9 / 100000 := by
  obtain ⟨y, hy⟩ : ∃ y, y = -(65 / 100) + 8 / 10 * x := ⟨_, rfl⟩
  have hwy : w = exp y := by rw [hw, hy]
  have hxy : x = 125 / 100 * y + 8125 / 10000 := by rw [hy]; ring
  have hw0 : 0 < w := by rw [hwy]; positivity
  have hlog : log w = y := by rw [hwy, log_exp]
  by_cases hp : -(18 / 100) ≤ (x - log w - w) / (1 + w)
  · have hp2 : |(x - log w - w) / (1 + w)| ≤ 18 / 100 := by
      rw [abs_le]
      refine ⟨hp, ?_⟩
      rw [div_le_iff₀ (by linarith)]
      have h1 := log_tangent hw0 (-(154 / 100))
      rw [neg_neg] at h1
      have h2 := mul_le_mul_of_nonneg_left exp_154 hw0.le
      rw [hlog] at h1 ⊢
      linarith
    refine ⟨(pos_small (by positivity) (by rw [div_le_one (by positivity)]; linarith) hp2).1.ne', ?_⟩
    exact lt_of_le_of_lt (small_case hw0 hW h hp2) (by norm_num)
  · have hp : (x - log w - w) / (1 + w) < -(18 / 100) := not_le.1 hp
    have hy38 : y < -(38 / 10) := by
      apply left_small (by linarith)
      rw [div_lt_iff₀ (by linarith), hlog, hxy, hwy] at hp
      linarith
    have hw23 : w ≤ 23 / 1000 := by
      rw [hwy]
      exact (exp_le_exp.2 hy38.le).trans exp_m38
    have hs0 : 977 / 1000 ≤ 1 / (1 + w) := by
      rw [le_div_iff₀ (by linarith)]
      linarith
    have hs1 : 1 / (1 + w) ≤ 1 := by rw [div_le_one (by positivity)]; linarith
    obtain ⟨z, hz⟩ : ∃ z, z = -((x - log w - w) / (1 + w)) := ⟨_, rfl⟩
    have hpz : (x - log w - w) / (1 + w) = -z := by rw [hz]; ring
    have hz0 : 0 < z := by rw [hz]; linarith
    obtain ⟨hd, he, hr⟩ := res_neg hs0 hs1 (show (x - log w - w) / (1 + w) ≤ 0 by linarith)
    refine ⟨hd.ne', ?_⟩
    have hpos : 0 < 1 + ee (1 / (1 + w)) ((x - log w - w) / (1 + w)) := by rw [one_add_ee hd.ne']; positivity
    have hdist := (dist_le hW (mul_pos hw0 hpos) h).2
    rw [step_residual hw0 hd he] at hdist
    have hzr : z * (1 + w) = -(x - log w - w) := by rw [hz]; field_simp
    have hzy : z ≤ -(25 / 100) * y - 3 / 4 := by
      rw [hlog, hxy] at hzr
      nlinarith
    have hWw : W ≤ w := by
      by_contra hc
      have hc := not_le.1 hc
      have := log_lt_log hw0 hc
      nlinarith
    have hee : ee (1 / (1 + w)) ((x - log w - w) / (1 + w)) ≤ z := by
      rw [hpz] at hd ⊢
      unfold ee
      have : 1 / (1 + w) * (-z) ^ 2 / dd (1 / (1 + w)) (-z) ≤ 2 * z := by
        rw [div_le_iff₀ hd]
        generalize 1 / (1 + w) = s at *
        unfold dd
        nlinarith [mul_pos hz0 hz0]
      linarith
    have hmax : max (w * (1 + ee (1 / (1 + w)) ((x - log w - w) / (1 + w)))) W ≤ w * (1 + z) := by
      apply max_le
      · gcongr
      · nlinarith
    have ht := tail_bound hz0.le hzy
    rw [← hwy] at ht
    have hz4 : ((x - log w - w) / (1 + w)) ^ 4 = z ^ 4 := by rw [hpz]; ring
    rw [hz4] at hr
    have : max (w * (1 + ee (1 / (1 + w)) ((x - log w - w) / (1 + w)))) W * |res (1 / (1 + w)) ((x - log w - w) / (1 + w))| ≤
        w * (1 + z) * (45 / 1000 * z ^ 4) := mul_le_mul hmax hr (abs_nonneg _) (by positivity)
    have e : w * (1 + z) * (45 / 1000 * z ^ 4) = 45 / 1000 * (w * (z ^ 4 + z ^ 5)) := by ring
    linarith

end
end Wexp
end Rml
