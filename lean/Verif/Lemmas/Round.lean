import Verif.Model.Round
import Mathlib.Tactic.Linarith
import Mathlib.Tactic.Ring
import Mathlib.Tactic.NormNum
import Mathlib.Tactic.Positivity
import Mathlib.Tactic.FieldSimp

/-!
`fl32` is a rounding in the sense of `Rounding`, with relative error 2^-24 and absolute error 2^-150.
-/

namespace Rml

theorem rne_err (y : ℝ) : |(rne y : ℝ) - y| ≤ 1 / 2 := by
  have h1 := Int.floor_le y
  have h2 := Int.lt_floor_add_one y
  unfold rne
  split
  · rw [abs_le]
    constructor <;> linarith
  · split
    · push_cast
      rw [abs_le]
      constructor <;> linarith
    · split
      · rw [abs_le]
        constructor <;> linarith
      · push_cast
        rw [abs_le]
        constructor <;> linarith

theorem rne_int (k : ℤ) : rne (k : ℝ) = k := by
  unfold rne
  rw [Int.floor_intCast, sub_self, if_pos (by norm_num)]

theorem rne_mono : Monotone rne := by
  intro x y hxy
  have e1 := rne_err x
  have e2 := rne_err y
  rw [abs_le] at e1 e2
  by_contra h
  push Not at h
  have h' : (rne y : ℝ) + 1 ≤ rne x := by exact_mod_cast h
  -- then both are ties at the same point
  have hx : x = (rne x : ℝ) - 1 / 2 := by linarith
  have hy : y = (rne y : ℝ) + 1 / 2 := by linarith
  have : x = y := by linarith
  subst this
  omega

theorem rne_neg (y : ℝ) : rne (-y) = - rne y := by
  have h1 := Int.floor_le y
  have h2 := Int.lt_floor_add_one y
  by_cases h0 : y = ⌊y⌋
  · rw [h0, ← Int.cast_neg, rne_int, rne_int]
  · have hlt : (⌊y⌋ : ℝ) < y := lt_of_le_of_ne h1 (Ne.symm h0)
    have hf : ⌊-y⌋ = -⌊y⌋ - 1 := by
      rw [Int.floor_eq_iff]
      push_cast
      constructor <;> linarith
    have he : Even (-⌊y⌋ - 1) ↔ ¬ Even ⌊y⌋ := by
      rw [Int.even_sub_one, even_neg]
    unfold rne
    rw [hf]
    push_cast
    by_cases c1 : y - ⌊y⌋ < 1 / 2
    · rw [if_neg (by linarith), if_pos (by linarith), if_pos c1]; ring
    · by_cases c2 : 1 / 2 < y - ⌊y⌋
      · rw [if_pos (by linarith), if_neg c1, if_pos c2]; ring
      · rw [if_neg (by linarith), if_neg (by linarith), if_neg c1, if_neg c2]
        by_cases c3 : Even ⌊y⌋
        · rw [if_neg (by rw [he]; exact fun h => h c3), if_pos c3]; ring
        · rw [if_pos (by rw [he]; exact c3), if_neg c3]; ring

theorem two_zpow_pos (e : ℤ) : (0 : ℝ) < 2 ^ e := zpow_pos (by norm_num) e

theorem ulpExp_neg (x : ℝ) : ulpExp (-x) = ulpExp x := by unfold ulpExp; rw [abs_neg]

theorem fl32_neg (x : ℝ) : fl32 (-x) = - fl32 x := by
  unfold fl32
  rw [ulpExp_neg, neg_div, rne_neg]
  push_cast
  ring

theorem fl32_zero : fl32 0 = 0 := by
  unfold fl32
  rw [zero_div, show (0 : ℝ) = ((0 : ℤ) : ℝ) by simp, rne_int]
  simp

theorem fl32_err_ulp (x : ℝ) : |fl32 x - x| ≤ 2 ^ ulpExp x / 2 := by
  have hp := two_zpow_pos (ulpExp x)
  have h := rne_err (x / 2 ^ ulpExp x)
  have : fl32 x - x = ((rne (x / 2 ^ ulpExp x) : ℝ) - x / 2 ^ ulpExp x) * 2 ^ ulpExp x := by
    unfold fl32
    rw [sub_mul, div_mul_cancel₀ _ hp.ne']
  rw [this, abs_mul, abs_of_pos hp]
  nlinarith

theorem fl32_err (x : ℝ) : |fl32 x - x| ≤ (1 / 2 ^ 24 : ℝ) * |x| + 1 / 2 ^ 150 := by
  rcases eq_or_ne x 0 with rfl | hx
  · rw [fl32_zero, sub_zero, abs_zero, mul_zero, zero_add]
    positivity
  refine (fl32_err_ulp x).trans ?_
  have hpos : 0 < |x| := abs_pos.2 hx
  have hlog : (2 : ℝ) ^ Int.log 2 |x| ≤ |x| := by exact_mod_cast Int.zpow_log_le_self (b := 2) (by norm_num) hpos
  unfold ulpExp
  rcases le_total (Int.log 2 |x| - 23) (-149) with h | h
  · rw [max_eq_right h]
    have : (2 : ℝ) ^ (-149 : ℤ) = 1 / 2 ^ 149 := by rw [zpow_neg, one_div]; norm_cast
    rw [this]
    have : 0 ≤ (1 / 2 ^ 24 : ℝ) * |x| := by positivity
    have h2 : (1 / 2 ^ 149 : ℝ) / 2 = 1 / 2 ^ 150 := by norm_num
    linarith
  · rw [max_eq_left h, zpow_sub₀ (by norm_num)]
    have : (2 : ℝ) ^ (23 : ℤ) = 2 ^ 23 := by norm_cast
    rw [this]
    have h2 : (2 : ℝ) ^ Int.log 2 |x| / 2 ^ 23 / 2 = 1 / 2 ^ 24 * 2 ^ Int.log 2 |x| := by ring
    rw [h2]
    have h3 : (0 : ℝ) ≤ 1 / 2 ^ 150 := by positivity
    have := mul_le_mul_of_nonneg_left hlog (show (0 : ℝ) ≤ 1 / 2 ^ 24 by positivity)
    linarith

theorem ulpExp_mono {x y : ℝ} (h0 : 0 < x) (h : x ≤ y) : ulpExp x ≤ ulpExp y := by
  unfold ulpExp
  rw [abs_of_pos h0, abs_of_pos (h0.trans_le h)]
  exact max_le_max (by have := Int.log_mono_right (b := 2) h0 h; omega) le_rfl

theorem fl32_nonneg {x : ℝ} (h : 0 ≤ x) : 0 ≤ fl32 x := by
  unfold fl32
  have hp := two_zpow_pos (ulpExp x)
  have : (0 : ℤ) ≤ rne (x / 2 ^ ulpExp x) := by
    have := rne_mono (div_nonneg h hp.le)
    rwa [show (0 : ℝ) = ((0 : ℤ) : ℝ) by simp, rne_int] at this
  exact mul_nonneg (by exact_mod_cast this) hp.le

theorem fl32_mono_pos {x y : ℝ} (h0 : 0 < x) (h : x ≤ y) : fl32 x ≤ fl32 y := by
  have hy := h0.trans_le h
  rcases eq_or_lt_of_le (ulpExp_mono h0 h) with he | he
  · unfold fl32
    rw [he]
    have hp := two_zpow_pos (ulpExp y)
    exact mul_le_mul_of_nonneg_right (by exact_mod_cast rne_mono (div_le_div_of_nonneg_right h hp.le)) hp.le
  · -- fl32 x is at most the power of two above x, fl32 y at least the one below y
    have hxp := two_zpow_pos (ulpExp x)
    have hyp := two_zpow_pos (ulpExp y)
    have h1 : x ≤ 2 ^ (ulpExp x + 24) := by
      have := Int.lt_zpow_succ_log_self (b := 2) (by norm_num) x
      have h2 : (2 : ℝ) ^ (Int.log 2 x + 1) ≤ 2 ^ (ulpExp x + 24) := by
        apply zpow_le_zpow_right₀ (by norm_num)
        unfold ulpExp
        rw [abs_of_pos h0]
        have := le_max_left (Int.log 2 x - 23) (-149)
        omega
      have h3 : x < (2 : ℝ) ^ (Int.log 2 x + 1) := by exact_mod_cast this
      linarith
    have h2 : (2 : ℝ) ^ (ulpExp y + 23) ≤ y := by
      have := Int.zpow_log_le_self (b := 2) (by norm_num) hy
      have h3 : ulpExp y = Int.log 2 y - 23 := by
        unfold ulpExp at he ⊢
        rw [abs_of_pos hy] at he ⊢
        rcases le_total (Int.log 2 y - 23) (-149) with h4 | h4
        · rw [max_eq_right h4] at he
          have := le_max_right (Int.log 2 |x| - 23) (-149)
          omega
        · exact max_eq_left h4
      rw [h3, sub_add_cancel]
      exact_mod_cast this
    have hx' : fl32 x ≤ 2 ^ (ulpExp x + 24) := by
      unfold fl32
      have h3 : x / 2 ^ ulpExp x ≤ ((2 ^ 24 : ℤ) : ℝ) := by
        rw [div_le_iff₀ hxp]
        rw [zpow_add₀ (by norm_num)] at h1
        have : (2 : ℝ) ^ (24 : ℤ) = 2 ^ 24 := by norm_cast
        rw [this] at h1
        push_cast
        linarith
      have h4 := rne_mono h3
      rw [rne_int] at h4
      rw [zpow_add₀ (by norm_num)]
      have h5 : (rne (x / 2 ^ ulpExp x) : ℝ) ≤ 2 ^ 24 := by exact_mod_cast h4
      have : (2 : ℝ) ^ (24 : ℤ) = 2 ^ 24 := by norm_cast
      rw [this]
      nlinarith
    have hy' : (2 : ℝ) ^ (ulpExp y + 23) ≤ fl32 y := by
      unfold fl32
      have h3 : ((2 ^ 23 : ℤ) : ℝ) ≤ y / 2 ^ ulpExp y := by
        rw [le_div_iff₀ hyp]
        rw [zpow_add₀ (by norm_num)] at h2
        have : (2 : ℝ) ^ (23 : ℤ) = 2 ^ 23 := by norm_cast
        rw [this] at h2
        push_cast
        linarith
      have h4 := rne_mono h3
      rw [rne_int] at h4
      rw [zpow_add₀ (by norm_num)]
      have h5 : (2 : ℝ) ^ 23 ≤ (rne (y / 2 ^ ulpExp y) : ℝ) := by exact_mod_cast h4
      have : (2 : ℝ) ^ (23 : ℤ) = 2 ^ 23 := by norm_cast
      rw [this]
      nlinarith
    have : (2 : ℝ) ^ (ulpExp x + 24) ≤ 2 ^ (ulpExp y + 23) := zpow_le_zpow_right₀ (by norm_num) (by omega)
    linarith

theorem fl32_mono : Monotone fl32 := by
  intro x y h
  rcases lt_or_ge 0 x with hx | hx
  · exact fl32_mono_pos hx h
  · rcases lt_or_ge y 0 with hy | hy
    · have := fl32_mono_pos (x := -y) (y := -x) (by linarith) (by linarith)
      rw [fl32_neg, fl32_neg] at this
      linarith
    · have h1 := fl32_nonneg hy
      have h2 := fl32_nonneg (x := -x) (by linarith)
      rw [fl32_neg] at h2
      linarith

theorem fl32_grid (x : ℝ) (k : ℤ) (e : ℤ) (hx : x = (k : ℝ) * 2 ^ e) (he : ulpExp x ≤ e) : fl32 x = x := by
  obtain ⟨d, hd⟩ := Int.eq_ofNat_of_zero_le (sub_nonneg.2 he)
  have h1 : x / 2 ^ ulpExp x = ((k * 2 ^ d : ℤ) : ℝ) := by
    rw [div_eq_iff (two_zpow_pos _).ne', hx]
    have : e = d + ulpExp x := by omega
    conv_lhs => rw [this]
    rw [zpow_add₀ (by norm_num), zpow_natCast]
    push_cast
    rw [← hx]
    ring
  unfold fl32
  rw [h1, rne_int, ← h1, div_mul_cancel₀ _ (two_zpow_pos _).ne']

/-- Numbers with at most 24 bits are not changed. -/
theorem fl32_exact (k e : ℤ) (hk : |k| ≤ 2 ^ 24) (he : -149 ≤ e) : fl32 ((k : ℝ) * 2 ^ e) = (k : ℝ) * 2 ^ e := by
  have small : ∀ k e : ℤ, |k| < 2 ^ 24 → -149 ≤ e → fl32 ((k : ℝ) * 2 ^ e) = (k : ℝ) * 2 ^ e := by
    intro k e hk he
    by_cases h0 : k = 0
    · subst h0
      simp [fl32_zero]
    · refine fl32_grid _ k e rfl ?_
      unfold ulpExp
      refine max_le ?_ he
      have hpos : 0 < |(k : ℝ) * 2 ^ e| := abs_pos.2 (mul_ne_zero (by exact_mod_cast h0) (two_zpow_pos e).ne')
      have h1 : |(k : ℝ) * 2 ^ e| < ((2 : ℕ) : ℝ) ^ (e + 24) := by
        rw [abs_mul, abs_of_pos (two_zpow_pos e), Nat.cast_ofNat, zpow_add₀ (by norm_num), mul_comm]
        refine mul_lt_mul_of_pos_left ?_ (two_zpow_pos e)
        have : (2 : ℝ) ^ (24 : ℤ) = 2 ^ 24 := by norm_cast
        rw [this]
        have h2 : ((|k| : ℤ) : ℝ) < ((2 ^ 24 : ℤ) : ℝ) := by exact_mod_cast hk
        push_cast at h2
        norm_num at h2 ⊢
        exact h2
      have := (Int.lt_zpow_iff_log_lt (by norm_num) hpos).1 h1
      omega
  rcases lt_or_eq_of_le hk with h | h
  · exact small k e h he
  · rcases abs_eq (show (0 : ℤ) ≤ 2 ^ 24 by norm_num) |>.1 h with h | h
    · have := small (2 ^ 23) (e + 1) (by norm_num) (by omega)
      have h2 : (((2 ^ 23 : ℤ) : ℝ)) * 2 ^ (e + 1) = (k : ℝ) * 2 ^ e := by
        rw [h, zpow_add₀ (by norm_num)]
        push_cast
        ring
      rwa [h2] at this
    · have := small (-2 ^ 23) (e + 1) (by norm_num) (by omega)
      have h2 : (((-2 ^ 23 : ℤ) : ℝ)) * 2 ^ (e + 1) = (k : ℝ) * 2 ^ e := by
        rw [h, zpow_add₀ (by norm_num)]
        push_cast
        ring
      rwa [h2] at this

theorem fl32_nat (n : Nat) (h : n ≤ 2 ^ 24) : fl32 n = n := by
  have := fl32_exact n 0 (by rw [abs_of_nonneg (by positivity)]; exact_mod_cast h) (by norm_num)
  simpa using this

theorem fl32_idem (x : ℝ) : fl32 (fl32 x) = fl32 x := by
  rcases eq_or_ne x 0 with rfl | hx
  · rw [fl32_zero, fl32_zero]
  have hp := two_zpow_pos (ulpExp x)
  have h1 : |x / 2 ^ ulpExp x| ≤ ((2 ^ 24 : ℤ) : ℝ) := by
    rw [abs_div, abs_of_pos hp, div_le_iff₀ hp]
    have h2 := Int.lt_zpow_succ_log_self (b := 2) (by norm_num) |x|
    refine h2.le.trans ?_
    have h3 : (((2 : ℕ) : ℝ)) ^ (Int.log 2 |x| + 1) ≤ (2 : ℝ) ^ (24 + ulpExp x) := by
      rw [Nat.cast_ofNat]
      refine zpow_le_zpow_right₀ (by norm_num) ?_
      have : Int.log 2 |x| - 23 ≤ ulpExp x := le_max_left _ _
      omega
    refine h3.trans (le_of_eq ?_)
    rw [zpow_add₀ (by norm_num)]
    norm_num
  rw [abs_le] at h1
  have h4 : rne (x / 2 ^ ulpExp x) ≤ 2 ^ 24 := by
    have := rne_mono h1.2
    rwa [rne_int] at this
  have h5 : -(2 ^ 24) ≤ rne (x / 2 ^ ulpExp x) := by
    have := rne_mono h1.1
    rwa [← Int.cast_neg, rne_int] at this
  exact fl32_exact _ _ (abs_le.2 ⟨h5, h4⟩) (le_max_right _ _)

theorem fl32_tiny {x : ℝ} (h0 : 0 ≤ x) (h : x ≤ 1 / 2 ^ 151) : fl32 x = 0 := by
  rcases h0.eq_or_lt with rfl | h0
  · exact fl32_zero
  have he : ulpExp x = -149 := by
    unfold ulpExp
    rw [abs_of_pos h0]
    refine max_eq_right ?_
    have h1 := Int.log_mono_right (b := 2) h0 h
    have h2 : Int.log 2 ((1 : ℝ) / 2 ^ 151) = -151 := by
      have := Int.log_zpow (R := ℝ) (b := 2) (by norm_num) (-151)
      rw [← this]
      congr 1
      norm_num
    omega
  unfold fl32
  rw [he]
  have h3 : x / 2 ^ (-149 : ℤ) < 1 / 2 := by
    rw [div_lt_iff₀ (two_zpow_pos _)]
    refine h.trans_lt ?_
    norm_num
  have h4 : 0 ≤ x / 2 ^ (-149 : ℤ) := by positivity
  have h5 : ⌊x / 2 ^ (-149 : ℤ)⌋ = 0 := Int.floor_eq_zero_iff.2 ⟨h4, by linarith⟩
  unfold rne
  rw [h5, if_pos (by simpa using h3)]
  simp

theorem rounding_fl32 : Rounding fl32 (1 / 2 ^ 24) (1 / 2 ^ 150) := ⟨fl32_err, fl32_mono, fl32_nat, fl32_idem, fl32_neg⟩

end Rml
