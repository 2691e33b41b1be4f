import Verif.Lemmas.CoinBound

/-! The wealth of a Coin weight at most doubles with each visit, up to rounding. -/

namespace Rml

section
variable [t : F32Trans]

/-- Numbers are `f32`. -/
@[reducible] local instance wealthNumbers : Flt (BitVec 32) := ieeeFlt t

omit t in
theorem fl_up (x : ℝ) : |fl32 x| ≤ (1 + 1 / 2 ^ 24) * |x| + 1 / 2 ^ 150 := by
  have h := fl32_err x
  have h2 : |fl32 x| ≤ |fl32 x - x| + |x| := by
    have := abs_add_le (fl32 x - x) x
    rwa [sub_add_cancel] at this
  linarith

omit t in
theorem fl_down {x : ℝ} (hx : 1 / 2 ^ 60 ≤ x) : (1 - 1 / 2 ^ 23) * x ≤ fl32 x := by
  have h := (abs_le.1 (fl32_err x)).1
  rw [abs_of_nonneg (le_trans (by positivity) hx)] at h
  have : (1 / 2 ^ 150 : ℝ) ≤ 1 / 2 ^ 24 * x := le_trans (by norm_num) (mul_le_mul_of_nonneg_left hx (by norm_num))
  have e : (1 / 2 ^ 23 : ℝ) = 1 / 2 ^ 24 + 1 / 2 ^ 24 := by norm_num
  rw [e]
  linarith

omit t in
/-- The size of the quotient, times the size of the denominator. -/
theorem quotient_bound {A D m σ R a K : ℝ} (hK : 1 ≤ K) (ha : 0 ≤ a) (hm : 1 / 2 ^ 30 ≤ m) (hm' : m ≤ 2 ^ 36) (hσ : m ≤ σ) (hσ' : σ ≤ 2 ^ 62)
    (hA : |A| ≤ (1 + 1 / 2 ^ 24) * (K + a) + 1 / 2 ^ 150) (hD : (1 - 1 / 2 ^ 23) * (m * σ) ≤ D) (hR : |R| ≤ (1 + 1 / 2 ^ 24) * |A / D| + 1 / 2 ^ 150) :
    |R| * (m * σ) ≤ (1 + 1 / 2 ^ 21) * (K + a) + 1 / 2 ^ 52 := by
  have m0 : 0 < m := lt_of_lt_of_le (by norm_num) hm
  have σ0 : 0 < σ := lt_of_lt_of_le m0 hσ
  have p0 : 0 < m * σ := mul_pos m0 σ0
  have d0 : 0 < D := lt_of_lt_of_le (mul_pos (by norm_num) p0) hD
  have hp : m * σ ≤ 2 ^ 98 := by
    calc m * σ ≤ 2 ^ 36 * 2 ^ 62 := mul_le_mul hm' hσ' σ0.le (by positivity)
      _ = 2 ^ 98 := by norm_num
  have h1 : |A / D| * (m * σ) ≤ |A| * (1 + 1 / 2 ^ 22) := by
    rw [abs_div, abs_of_pos d0, div_mul_eq_mul_div, div_le_iff₀ d0, mul_assoc]
    refine mul_le_mul_of_nonneg_left ?_ (abs_nonneg _)
    calc m * σ ≤ (1 + 1 / 2 ^ 22) * ((1 - 1 / 2 ^ 23) * (m * σ)) := by
          rw [← mul_assoc]
          exact le_mul_of_one_le_left p0.le (by norm_num)
      _ ≤ (1 + 1 / 2 ^ 22) * D := mul_le_mul_of_nonneg_left hD (by norm_num)
  have h2 : |R| * (m * σ) ≤ (1 + 1 / 2 ^ 24) * (|A / D| * (m * σ)) + 1 / 2 ^ 150 * (m * σ) := by
    have := mul_le_mul_of_nonneg_right hR p0.le
    linarith
  have h3 : (1 / 2 ^ 150 : ℝ) * (m * σ) ≤ 1 / 2 ^ 52 := by
    calc (1 / 2 ^ 150 : ℝ) * (m * σ) ≤ 1 / 2 ^ 150 * 2 ^ 98 := mul_le_mul_of_nonneg_left hp (by norm_num)
      _ = 1 / 2 ^ 52 := by norm_num
  have h4 : |A| ≤ (1 + 1 / 2 ^ 23) * (K + a) := by linarith
  have h5 : (1 + 1 / 2 ^ 24 : ℝ) * (|A / D| * (m * σ)) ≤ (1 + 1 / 2 ^ 24) * (((1 + 1 / 2 ^ 23) * (K + a)) * (1 + 1 / 2 ^ 22)) :=
    mul_le_mul_of_nonneg_left (h1.trans (mul_le_mul_of_nonneg_right h4 (by norm_num))) (by norm_num)
  have h6 : (1 + 1 / 2 ^ 24 : ℝ) * (((1 + 1 / 2 ^ 23) * (K + a)) * (1 + 1 / 2 ^ 22)) ≤ (1 + 1 / 2 ^ 21) * (K + a) := by
    have e : (1 + 1 / 2 ^ 24 : ℝ) * (((1 + 1 / 2 ^ 23) * (K + a)) * (1 + 1 / 2 ^ 22)) = ((1 + 1 / 2 ^ 24) * (1 + 1 / 2 ^ 23) * (1 + 1 / 2 ^ 22)) * (K + a) := by ring
    rw [e]
    exact mul_le_mul_of_nonneg_right (by norm_num) (by linarith)
  linarith

/-- What a bet can win. -/
theorem betWeight_gain {alpha mx : BitVec 32} {s : Coin.WState (BitVec 32)} {K : ℝ} (hK : 1 ≤ K) (hK' : K ≤ 2 ^ 20) (ha : UpTo 20 alpha) (haK : |V alpha| ≤ K) (hs : StatOk s) (hw : UpTo 20 s.we)
    (hm : UpTo 10 mx) (hm0 : V mx = 0 ∨ (2 : ℝ) ^ (-10 : ℤ) ≤ V mx) :
    V (f32Mul s.mg mx) * |V (Coin.betWeight alpha s mx)| ≤ (1 + 1 / 2 ^ 20) * (K + |V s.we|) + 1 / 2 ^ 50 := by
  unfold Coin.betWeight
  change V (f32Mul s.mg mx) * |V (if f32Lt 0#32 (f32Mul s.mg mx) then
    f32Mul (f32Div (f32Add alpha s.we) (f32Mul (f32Mul s.mg mx) (f32Add (f32Mul s.mg mx) s.g2))) s.zt else 0#32)| ≤ _
  obtain ⟨hM, vM⟩ := hs.mg.mul (t := t) hm (by norm_num) (by norm_num)
  have a0 := abs_nonneg (V s.we)
  split
  · rename_i hpos
    rw [lt_val (t := t) zero_fin hM.fin, V_zero] at hpos
    generalize f32Mul s.mg mx = M at *
    have hmm : (2 : ℝ) ^ (-30 : ℤ) ≤ V M := by
      rw [vM]
      refine fl_ge (by norm_num) ?_
      rcases hs.mg0 with h1 | h1
      · rw [vM, h1, zero_mul, fl32_zero] at hpos
        exact absurd hpos (lt_irrefl _)
      · rcases hm0 with h2 | h2
        · rw [vM, h2, mul_zero, fl32_zero] at hpos
          exact absurd hpos (lt_irrefl _)
        · calc (2 : ℝ) ^ (-30 : ℤ) = (2 : ℝ) ^ (-20 : ℤ) * (2 : ℝ) ^ (-10 : ℤ) := by rw [pow_mul]; norm_num
            _ ≤ V s.mg * V mx := mul_le_mul h1 h2 (by positivity) (le_trans (by positivity) h1)
    have hg0 : 0 ≤ V s.g2 := (abs_nonneg _).trans hs.zg
    obtain ⟨hS, vS⟩ := (hM.mono (show (26 + 10 : ℤ) ≤ 61 by norm_num)).add (t := t) hs.g2 (by norm_num) (by norm_num)
    have sM : V M ≤ V (f32Add M s.g2) := by
      rw [vS]
      conv_lhs => rw [← fl_V (t := t) hM.fin (hM.le.trans (pow_mono (by norm_num)))]
      exact fl32_mono (by linarith)
    have sG : V s.g2 ≤ V (f32Add M s.g2) := by
      rw [vS]
      conv_lhs => rw [← fl_V (t := t) hs.g2.fin (hs.g2.le.trans (pow_mono (by norm_num)))]
      exact fl32_mono (by linarith)
    generalize f32Add M s.g2 = S at *
    obtain ⟨hD, vD⟩ := hM.mul (t := t) hS (by norm_num) (by norm_num)
    obtain ⟨hA, vA⟩ := ha.add (t := t) hw (by norm_num) (by norm_num)
    have m30 : (1 / 2 ^ 30 : ℝ) ≤ V M := le_trans (by norm_num) hmm
    have m36 : V M ≤ 2 ^ 36 := (le_abs_self _).trans (hM.le.trans (by norm_num))
    have s62 : V S ≤ 2 ^ 62 := (le_abs_self _).trans (hS.le.trans (by norm_num))
    have msp : (1 / 2 ^ 60 : ℝ) ≤ V M * V S := by
      calc (1 / 2 ^ 60 : ℝ) = 1 / 2 ^ 30 * (1 / 2 ^ 30) := by norm_num
        _ ≤ V M * V S := mul_le_mul m30 (m30.trans sM) (by positivity) hpos.le
    have bD : (1 - 1 / 2 ^ 23) * (V M * V S) ≤ V (f32Mul M S) := by rw [vD]; exact fl_down msp
    have d0 : (2 : ℝ) ^ (-61 : ℤ) ≤ |V (f32Mul M S)| := by
      refine le_trans ?_ (le_abs_self _)
      refine le_trans ?_ bD
      calc (2 : ℝ) ^ (-61 : ℤ) ≤ (1 - 1 / 2 ^ 23) * (1 / 2 ^ 60) := by norm_num
        _ ≤ _ := mul_le_mul_of_nonneg_left msp (by norm_num)
    obtain ⟨hR, vR⟩ := hA.div (t := t) hD d0 (by norm_num) (by norm_num)
    have bA : |V (f32Add alpha s.we)| ≤ (1 + 1 / 2 ^ 24) * (K + |V s.we|) + 1 / 2 ^ 150 := by
      rw [vA]
      refine (fl_up _).trans ?_
      have : |V alpha + V s.we| ≤ K + |V s.we| := (abs_add_le _ _).trans (by linarith)
      have := mul_le_mul_of_nonneg_left this (show (0 : ℝ) ≤ 1 + 1 / 2 ^ 24 by norm_num)
      linarith
    have bR := quotient_bound (R := V (f32Div (f32Add alpha s.we) (f32Mul M S))) hK a0 m30 m36 sM s62 bA bD (by rw [vR]; exact fl_up _)
    generalize f32Div (f32Add alpha s.we) (f32Mul M S) = R at *
    have hz : |V s.zt| ≤ V S := hs.zg.trans sG
    have k1 : V M * |V R * V s.zt| ≤ (1 + 1 / 2 ^ 21) * (K + |V s.we|) + 1 / 2 ^ 52 := by
      refine le_trans ?_ bR
      rw [abs_mul]
      calc V M * (|V R| * |V s.zt|) = |V R| * (V M * |V s.zt|) := by ring
        _ ≤ |V R| * (V M * V S) := mul_le_mul_of_nonneg_left (mul_le_mul_of_nonneg_left hz hpos.le) (abs_nonneg _)
    have we20 : |V s.we| ≤ 2 ^ 20 := hw.le.trans (by norm_num)
    have k2 : |V R * V s.zt| ≤ (2 : ℝ) ^ (127 : ℤ) := by
      have h1 : (1 / 2 ^ 30 : ℝ) * |V R * V s.zt| ≤ 2 ^ 22 := by
        refine (mul_le_mul_of_nonneg_right m30 (abs_nonneg _)).trans (k1.trans ?_)
        linarith
      have h2 : |V R * V s.zt| ≤ 2 ^ 52 := by
        have e : |V R * V s.zt| = 2 ^ 30 * (1 / 2 ^ 30 * |V R * V s.zt|) := by ring
        rw [e]
        linarith
      exact h2.trans (by norm_num)
    have hW := mul_val (t := t) hR.fin hs.zt.fin k2
    rw [hW.2]
    have h3 := mul_le_mul_of_nonneg_left (fl_up (V R * V s.zt)) hpos.le
    have h4 : V M * ((1 + 1 / 2 ^ 24) * |V R * V s.zt| + 1 / 2 ^ 150) = (1 + 1 / 2 ^ 24) * (V M * |V R * V s.zt|) + 1 / 2 ^ 150 * V M := by ring
    rw [h4] at h3
    have h5 := mul_le_mul_of_nonneg_left k1 (show (0 : ℝ) ≤ 1 + 1 / 2 ^ 24 by norm_num)
    have h6 : (1 / 2 ^ 150 : ℝ) * V M ≤ 1 / 2 ^ 60 := by
      calc (1 / 2 ^ 150 : ℝ) * V M ≤ 1 / 2 ^ 150 * 2 ^ 36 := mul_le_mul_of_nonneg_left m36 (by norm_num)
        _ ≤ 1 / 2 ^ 60 := by norm_num
    have h7 : (1 + 1 / 2 ^ 24 : ℝ) * ((1 + 1 / 2 ^ 21) * (K + |V s.we|) + 1 / 2 ^ 52) =
        ((1 + 1 / 2 ^ 24) * (1 + 1 / 2 ^ 21)) * (K + |V s.we|) + (1 + 1 / 2 ^ 24) * (1 / 2 ^ 52) := by ring
    have h8 : ((1 + 1 / 2 ^ 24 : ℝ) * (1 + 1 / 2 ^ 21)) * (K + |V s.we|) ≤ (1 + 1 / 2 ^ 20) * (K + |V s.we|) := mul_le_mul_of_nonneg_right (by norm_num) (by linarith)
    have h9 : (1 + 1 / 2 ^ 24 : ℝ) * (1 / 2 ^ 52) + 1 / 2 ^ 60 ≤ 1 / 2 ^ 50 := by norm_num
    linarith
  · rw [V_zero, abs_zero, mul_zero]
    positivity

/-- The wealth at most doubles, up to rounding. -/
theorem wealth_double {alpha beta avg u x : BitVec 32} {s : Coin.WState (BitVec 32)} {K : ℝ} (hK : 1 ≤ K) (hK' : K ≤ 2 ^ 20) (ha : UpTo 20 alpha) (haK : |V alpha| ≤ K) (hb : UpTo 20 beta) (hb0 : (2 : ℝ) ^ (-20 : ℤ) ≤ V beta)
    (hu : UpTo 26 u) (hx : ValueOk x) (hs : StatOk s) (hw : UpTo 20 s.we) :
    |V (Coin.innerUpdate alpha beta avg u x s).we| + K ≤ (2 + 1 / 2 ^ 10) * (|V s.we| + K) := by
  obtain ⟨hax, vax⟩ := hx.1.abs (t := t)
  obtain ⟨hau, vau⟩ := hu.abs (t := t)
  obtain ⟨hg, vg⟩ := hu.mul (t := t) hx.1 (by norm_num) (by norm_num)
  have mxOk : UpTo 10 (if f32Lt s.mx (x &&& 0x7fffffff#32) then x &&& 0x7fffffff#32 else s.mx) ∧
      (V (if f32Lt s.mx (x &&& 0x7fffffff#32) then x &&& 0x7fffffff#32 else s.mx) = 0 ∨
        (2 : ℝ) ^ (-10 : ℤ) ≤ V (if f32Lt s.mx (x &&& 0x7fffffff#32) then x &&& 0x7fffffff#32 else s.mx)) ∧
      |V x| ≤ V (if f32Lt s.mx (x &&& 0x7fffffff#32) then x &&& 0x7fffffff#32 else s.mx) := by
    split
    · refine ⟨hax, ?_, vax.ge⟩
      rw [vax]
      rcases hx.2 with h | h
      · exact .inl (by rw [h, abs_zero])
      · exact .inr h
    · rename_i h
      rw [lt_val (t := t) hs.mx.fin hax.fin, not_lt, vax] at h
      exact ⟨hs.mx, hs.mx0, h⟩
  have mgOk : UpTo 26 (if f32Lt s.mg (u &&& 0x7fffffff#32) then (if f32Lt beta (u &&& 0x7fffffff#32) then u &&& 0x7fffffff#32 else beta) else s.mg) ∧
      (V (if f32Lt s.mg (u &&& 0x7fffffff#32) then (if f32Lt beta (u &&& 0x7fffffff#32) then u &&& 0x7fffffff#32 else beta) else s.mg) = 0 ∨
        (2 : ℝ) ^ (-20 : ℤ) ≤ V (if f32Lt s.mg (u &&& 0x7fffffff#32) then (if f32Lt beta (u &&& 0x7fffffff#32) then u &&& 0x7fffffff#32 else beta) else s.mg)) ∧
      |V u| ≤ V (if f32Lt s.mg (u &&& 0x7fffffff#32) then (if f32Lt beta (u &&& 0x7fffffff#32) then u &&& 0x7fffffff#32 else beta) else s.mg) := by
    split
    · split
      · rename_i h
        rw [lt_val (t := t) hb.fin hau.fin] at h
        exact ⟨hau, .inr (hb0.trans h.le), vau.ge⟩
      · rename_i h
        rw [lt_val (t := t) hb.fin hau.fin, not_lt, vau] at h
        exact ⟨hb.mono (by norm_num), .inr hb0, h⟩
    · rename_i h
      rw [lt_val (t := t) hs.mg.fin hau.fin, not_lt, vau] at h
      exact ⟨hs.mg, hs.mg0, h⟩
  obtain ⟨hng, vng⟩ := hg.neg (t := t)
  change |V (f32Add s.we (f32Mul (f32Neg (f32Mul u x)) (Coin.betWeight alpha
    { s with mg := (if f32Lt s.mg (u &&& 0x7fffffff#32) then (if f32Lt beta (u &&& 0x7fffffff#32) then u &&& 0x7fffffff#32 else beta) else s.mg) }
    (if f32Lt s.mx (x &&& 0x7fffffff#32) then x &&& 0x7fffffff#32 else s.mx))))| + K ≤ _
  generalize (if f32Lt s.mx (x &&& 0x7fffffff#32) then x &&& 0x7fffffff#32 else s.mx) = mx at *
  generalize (if f32Lt s.mg (u &&& 0x7fffffff#32) then (if f32Lt beta (u &&& 0x7fffffff#32) then u &&& 0x7fffffff#32 else beta) else s.mg) = mg at *
  have hs' : StatOk { s with mg := mg } := ⟨hs.zt, hs.g2, hs.zg, hs.mx, hs.mx0, mgOk.1, mgOk.2.1⟩
  have hbet := betWeight_bound (t := t) ha hs' hw mxOk.1 mxOk.2.1
  have hgain := betWeight_gain (t := t) hK hK' ha haK hs' hw mxOk.1 mxOk.2.1
  obtain ⟨_, vM⟩ := mgOk.1.mul (t := t) mxOk.1 (by norm_num) (by norm_num)
  have gM : |V (f32Neg (f32Mul u x))| ≤ V (f32Mul mg mx) := by
    rw [vng, abs_neg, vg, vM, ← fl_abs, abs_mul]
    exact fl32_mono (mul_le_mul mgOk.2.2 mxOk.2.2 (abs_nonneg _) ((abs_nonneg _).trans mgOk.2.2))
  simp only at hgain
  generalize Coin.betWeight alpha { s with mg := mg } mx = w at *
  obtain ⟨hP, vP⟩ := hng.mul (t := t) hbet (by norm_num) (by norm_num)
  obtain ⟨_, vW⟩ := (hw.mono (show (20 : ℤ) ≤ 26 + 10 + 52 by norm_num)).add (t := t) hP (by norm_num) (by norm_num)
  have a0 := abs_nonneg (V s.we)
  have b1 : |V (f32Neg (f32Mul u x)) * V w| ≤ (1 + 1 / 2 ^ 20) * (K + |V s.we|) + 1 / 2 ^ 50 := by
    rw [abs_mul]
    exact (mul_le_mul_of_nonneg_right gM (abs_nonneg _)).trans hgain
  have b2 := fl_up (V (f32Neg (f32Mul u x)) * V w)
  rw [← vP] at b2
  have b3 := mul_le_mul_of_nonneg_left b1 (show (0 : ℝ) ≤ 1 + 1 / 2 ^ 24 by norm_num)
  have b4 := fl_up (V s.we + V (f32Mul (f32Neg (f32Mul u x)) w))
  rw [← vW] at b4
  have b5 := abs_add_le (V s.we) (V (f32Mul (f32Neg (f32Mul u x)) w))
  linarith

end

end Rml
