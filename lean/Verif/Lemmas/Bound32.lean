import Verif.Props.Ieee

/-! Bounds of `f32` results: what is needed to show that a computation does not overflow. -/

namespace Rml

/-- The value of a bit pattern. -/
noncomputable abbrev V (b : BitVec 32) : ℝ := ieeeValue b

theorem zero_fin : IeeeFinite 0#32 := by unfold IeeeFinite; decide
theorem V_zero : V 0#32 = 0 := by unfold V; rw [ieeeValue_eq]; simp [f32Val, f32Int, f32Units, f32Mag]

theorem pow_lt_over {k : ℤ} (h : k ≤ 127) : (2 : ℝ) ^ k < 2 ^ 128 - 2 ^ 103 := by
  have h1 : (2 : ℝ) ^ k ≤ (2 : ℝ) ^ (127 : ℤ) := zpow_le_zpow_right₀ (by norm_num) h
  have h2 : (2 : ℝ) ^ (127 : ℤ) < 2 ^ 128 - 2 ^ 103 := by norm_num
  exact h1.trans_lt h2

theorem fl_pow {k : ℤ} (h : -149 ≤ k) : fl32 ((2 : ℝ) ^ k) = (2 : ℝ) ^ k := by
  have := fl32_exact 1 k (by norm_num) h
  simpa using this

theorem fl_le {x : ℝ} {k : ℤ} (hk : -149 ≤ k) (h : x ≤ (2 : ℝ) ^ k) : fl32 x ≤ (2 : ℝ) ^ k := by
  rw [← fl_pow hk]
  exact fl32_mono h

theorem fl_ge {x : ℝ} {k : ℤ} (hk : -149 ≤ k) (h : (2 : ℝ) ^ k ≤ x) : (2 : ℝ) ^ k ≤ fl32 x := by
  rw [← fl_pow hk]
  exact fl32_mono h

theorem fl_abs (x : ℝ) : fl32 |x| = |fl32 x| := by
  rcases le_total 0 x with h | h
  · rw [abs_of_nonneg h, abs_of_nonneg (fl32_nonneg h)]
  · rw [abs_of_nonpos h, fl32_neg, abs_of_nonpos]
    have := fl32_nonneg (neg_nonneg.2 h)
    rw [fl32_neg] at this
    linarith

theorem fl_abs_le {x : ℝ} {k : ℤ} (hk : -149 ≤ k) (h : |x| ≤ (2 : ℝ) ^ k) : |fl32 x| ≤ (2 : ℝ) ^ k := by
  rw [← fl_abs]
  exact fl_le hk h

/-- Adding less than a quarter of the last bit to a power of two changes nothing. -/
theorem fl_stuck {x : ℝ} {k : ℤ} (hk : -126 ≤ k) (h : x ≤ (2 : ℝ) ^ k + (2 : ℝ) ^ (k - 25)) : fl32 x ≤ (2 : ℝ) ^ k := by
  refine (fl32_mono h).trans ?_
  set y : ℝ := (2 : ℝ) ^ k + (2 : ℝ) ^ (k - 25) with hy
  have p0 : (0 : ℝ) < (2 : ℝ) ^ k := by positivity
  have e1 : (2 : ℝ) ^ (k - 25) = (2 : ℝ) ^ k / 2 ^ 25 := by rw [zpow_sub₀ (by norm_num)]; norm_num
  have hy0 : 0 < y := by positivity
  have hl : Int.log 2 y = k := by
    refine le_antisymm ?_ ?_
    · have : Int.log 2 y < k + 1 := by
        rw [← Int.lt_zpow_iff_log_lt (by norm_num) hy0]
        push_cast
        rw [zpow_add₀ (by norm_num), hy, e1]
        linarith
      omega
    · rw [← Int.zpow_le_iff_le_log (by norm_num) hy0]
      push_cast
      rw [hy]
      have : (0 : ℝ) < (2 : ℝ) ^ (k - 25) := by positivity
      linarith
  have hu : ulpExp y = k - 23 := by
    unfold ulpExp
    rw [abs_of_pos hy0, hl]
    exact max_eq_left (by omega)
  unfold fl32
  rw [hu]
  have e2 : (2 : ℝ) ^ (k - 23) = (2 : ℝ) ^ k / 2 ^ 23 := by rw [zpow_sub₀ (by norm_num)]; norm_num
  have e3 : y / (2 : ℝ) ^ (k - 23) = 2 ^ 23 + 1 / 4 := by
    rw [hy, e1, e2]
    field_simp
    norm_num
  rw [e3]
  have e4 := rne_err ((2 : ℝ) ^ 23 + 1 / 4)
  have e5 : rne ((2 : ℝ) ^ 23 + 1 / 4) ≤ 2 ^ 23 := by
    rw [abs_le] at e4
    have : (rne ((2 : ℝ) ^ 23 + 1 / 4) : ℝ) < ((2 ^ 23 + 1 : ℤ) : ℝ) := by push_cast; linarith [e4.2]
    have := Int.cast_lt.1 this
    omega
  have e6 : (rne ((2 : ℝ) ^ 23 + 1 / 4) : ℝ) ≤ 2 ^ 23 := by exact_mod_cast e5
  calc (rne ((2 : ℝ) ^ 23 + 1 / 4) : ℝ) * (2 : ℝ) ^ (k - 23) ≤ 2 ^ 23 * (2 : ℝ) ^ (k - 23) := mul_le_mul_of_nonneg_right e6 (by positivity)
    _ = (2 : ℝ) ^ k := by rw [e2]; field_simp

section
variable [t : F32Trans]

theorem add_val {a b : BitVec 32} (ha : IeeeFinite a) (hb : IeeeFinite b) (h : |V a + V b| ≤ (2 : ℝ) ^ (127 : ℤ)) :
    IeeeFinite (f32Add a b) ∧ V (f32Add a b) = fl32 (V a + V b) := by
  have hf := (C97_add t a b ha hb).1 (h.trans_lt (pow_lt_over le_rfl))
  exact ⟨hf.1, (C97_rounding t a b ha hb).1 hf.1⟩

theorem sub_val {a b : BitVec 32} (ha : IeeeFinite a) (hb : IeeeFinite b) (h : |V a - V b| ≤ (2 : ℝ) ^ (127 : ℤ)) :
    IeeeFinite (f32Sub a b) ∧ V (f32Sub a b) = fl32 (V a - V b) := by
  have hf := (C97_sub t a b ha hb).1 (h.trans_lt (pow_lt_over le_rfl))
  exact ⟨hf.1, (C97_rounding t a b ha hb).2.1 hf.1⟩

theorem mul_val {a b : BitVec 32} (ha : IeeeFinite a) (hb : IeeeFinite b) (h : |V a * V b| ≤ (2 : ℝ) ^ (127 : ℤ)) :
    IeeeFinite (f32Mul a b) ∧ V (f32Mul a b) = fl32 (V a * V b) := by
  have hf := (C97_mul t a b ha hb).1 (h.trans_lt (pow_lt_over le_rfl))
  exact ⟨hf.1, (C97_rounding t a b ha hb).2.2.1 hf.1⟩

theorem div_val {a b : BitVec 32} (ha : IeeeFinite a) (hb : IeeeFinite b) (h0 : V b ≠ 0) (h : |V a / V b| ≤ (2 : ℝ) ^ (127 : ℤ)) :
    IeeeFinite (f32Div a b) ∧ V (f32Div a b) = fl32 (V a / V b) := by
  have hf := (C97_div t a b ha hb h0).1 (h.trans_lt (pow_lt_over le_rfl))
  exact ⟨hf.1, (C97_rounding t a b ha hb).2.2.2 h0 hf.1⟩

theorem neg_fin {a : BitVec 32} (ha : IeeeFinite a) : IeeeFinite (f32Neg a) ∧ V (f32Neg a) = -V a :=
  ⟨by rw [ieeeFinite_iff, neg_mag, ← ieeeFinite_iff]; exact ha, (C97_neg_abs t a).1⟩

theorem abs_fin {a : BitVec 32} (ha : IeeeFinite a) : IeeeFinite (a &&& 0x7fffffff#32) ∧ V (a &&& 0x7fffffff#32) = |V a| := by
  refine ⟨?_, (C97_neg_abs t a).2⟩
  rw [ieeeFinite_iff] at ha ⊢
  have h1 := and_mag a
  have : f32Mag a < 2 ^ 31 := by unfold f32Mag; omega
  rw [show f32Mag (a &&& 0x7fffffff#32) = (a &&& 0x7fffffff#32).toNat % 2 ^ 31 from rfl, h1]
  omega

theorem lt_val {a b : BitVec 32} (ha : IeeeFinite a) (hb : IeeeFinite b) : f32Lt a b = true ↔ V a < V b := (C97_compare t a b ha hb).1

/-- Finite numbers are fixed points of the rounding. -/
theorem fl_V {a : BitVec 32} (ha : IeeeFinite a) (h : |V a| ≤ (2 : ℝ) ^ (127 : ℤ)) : fl32 (V a) = V a := by
  have h1 := add_val ha zero_fin (by rw [V_zero, add_zero]; exact h)
  have h2 := (C97_add t a 0#32 ha zero_fin).1 (by rw [show ieeeValue 0#32 = 0 from V_zero, add_zero]; exact h.trans_lt (pow_lt_over le_rfl))
  have h3 := (h2.2 a ha).1
  rw [show ieeeValue 0#32 = 0 from V_zero, add_zero, sub_self, abs_zero] at h3
  have h4 : V (f32Add a 0#32) = V a := by
    have := abs_nonpos_iff.1 h3
    exact sub_eq_zero.1 this
  rw [h1.2, V_zero, add_zero] at h4
  exact h4

end

/-- A pattern whose value is small is a finite number. -/
theorem fin_of_small {a : BitVec 32} (h : |V a| ≤ (2 : ℝ) ^ (127 : ℤ)) : IeeeFinite a := by
  intro h1
  unfold V ieeeValue at h
  rw [if_neg (show ¬ ieeeExponent a = 0 by omega), h1, abs_mul] at h
  have e1 : |(if ieeeSign a then (-1 : ℝ) else 1)| = 1 := by split <;> simp
  have e2 : (0 : ℝ) ≤ (ieeeFraction a : ℝ) / 2 ^ 23 := by positivity
  rw [e1, one_mul, abs_of_nonneg (by positivity)] at h
  have e3 : (2 : ℝ) ^ ((255 : ℕ) - 127 : ℤ) = 2 * (2 : ℝ) ^ (127 : ℤ) := by norm_num
  rw [e3] at h
  have p : (0 : ℝ) < (2 : ℝ) ^ (127 : ℤ) := by positivity
  nlinarith

end Rml
