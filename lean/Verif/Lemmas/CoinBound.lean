import Verif.Lemmas.Bound32
import Verif.Lemmas.Coin

/-! The statistics of a Coin weight stay within bounds on bounded data, as long as the wealth does. -/

namespace Rml

section
variable [t : F32Trans]

/-- Numbers are `f32`. -/
@[reducible] local instance boundNumbers : Flt (BitVec 32) := ieeeFlt t

/-- `a` is a finite number and its magnitude is at most `2^k`. -/
structure UpTo (k : ℤ) (a : BitVec 32) : Prop where
  fin : IeeeFinite a
  le : |V a| ≤ (2 : ℝ) ^ k

omit t in
theorem UpTo.mono {k l : ℤ} {a : BitVec 32} (h : UpTo k a) (hkl : k ≤ l) : UpTo l a :=
  ⟨h.fin, h.le.trans (zpow_le_zpow_right₀ (by norm_num) hkl)⟩

omit t in
theorem pow_mul {i j : ℤ} : (2 : ℝ) ^ i * (2 : ℝ) ^ j = (2 : ℝ) ^ (i + j) := (zpow_add₀ (by norm_num) _ _).symm

omit t in
theorem pow_mono {i j : ℤ} (h : i ≤ j) : (2 : ℝ) ^ i ≤ (2 : ℝ) ^ j := zpow_le_zpow_right₀ (by norm_num) h

omit t in
theorem abs_mul_le {x y : ℝ} {i j : ℤ} (hx : |x| ≤ (2 : ℝ) ^ i) (hy : |y| ≤ (2 : ℝ) ^ j) : |x * y| ≤ (2 : ℝ) ^ (i + j) := by
  rw [abs_mul, ← pow_mul]
  exact mul_le_mul hx hy (abs_nonneg _) (by positivity)

omit t in
theorem abs_div_le {x y : ℝ} {i j : ℤ} (hx : |x| ≤ (2 : ℝ) ^ i) (hy : (2 : ℝ) ^ j ≤ |y|) : |x / y| ≤ (2 : ℝ) ^ (i - j) := by
  rw [abs_div, zpow_sub₀ (by norm_num)]
  exact div_le_div₀ (by positivity) hx (by positivity) hy

omit t in
theorem abs_add_le' {x y : ℝ} {k : ℤ} (hx : |x| ≤ (2 : ℝ) ^ k) (hy : |y| ≤ (2 : ℝ) ^ k) : |x + y| ≤ (2 : ℝ) ^ (k + 1) := by
  have := abs_add_le x y
  rw [zpow_add_one₀ (by norm_num)]
  linarith

theorem UpTo.mul {i j : ℤ} {a b : BitVec 32} (ha : UpTo i a) (hb : UpTo j b) (h1 : i + j ≤ 127) (h2 : -149 ≤ i + j) :
    UpTo (i + j) (f32Mul a b) ∧ V (f32Mul a b) = fl32 (V a * V b) := by
  have h := abs_mul_le ha.le hb.le
  have := mul_val (t := t) ha.fin hb.fin (h.trans (pow_mono h1))
  exact ⟨⟨this.1, by rw [this.2]; exact fl_abs_le h2 h⟩, this.2⟩

theorem UpTo.add {k : ℤ} {a b : BitVec 32} (ha : UpTo k a) (hb : UpTo k b) (h1 : k + 1 ≤ 127) (h2 : -149 ≤ k + 1) :
    UpTo (k + 1) (f32Add a b) ∧ V (f32Add a b) = fl32 (V a + V b) := by
  have h := abs_add_le' ha.le hb.le
  have := add_val (t := t) ha.fin hb.fin (h.trans (pow_mono h1))
  exact ⟨⟨this.1, by rw [this.2]; exact fl_abs_le h2 h⟩, this.2⟩

/-- Sums of bounded terms stop growing. -/
theorem UpTo.acc {k : ℤ} {a b : BitVec 32} (ha : UpTo k a) (hb : UpTo (k - 25) b) (h1 : k + 1 ≤ 127) (h2 : -101 ≤ k) :
    UpTo k (f32Add a b) ∧ V (f32Add a b) = fl32 (V a + V b) := by
  have h3 := (ha.add (hb.mono (by omega)) h1 (by omega))
  refine ⟨⟨h3.1.fin, ?_⟩, h3.2⟩
  rw [h3.2, ← fl_abs]
  refine fl_stuck (by omega) ((abs_add_le _ _).trans ?_)
  have := ha.le
  have := hb.le
  linarith

theorem UpTo.neg {k : ℤ} {a : BitVec 32} (ha : UpTo k a) : UpTo k (f32Neg a) ∧ V (f32Neg a) = -V a := by
  have := neg_fin (t := t) ha.fin
  exact ⟨⟨this.1, by rw [this.2, abs_neg]; exact ha.le⟩, this.2⟩

theorem UpTo.abs {k : ℤ} {a : BitVec 32} (ha : UpTo k a) : UpTo k (a &&& 0x7fffffff#32) ∧ V (a &&& 0x7fffffff#32) = |V a| := by
  have := abs_fin (t := t) ha.fin
  exact ⟨⟨this.1, by rw [this.2, abs_abs]; exact ha.le⟩, this.2⟩

theorem UpTo.div {i j l : ℤ} {a b : BitVec 32} (ha : UpTo i a) (hb : UpTo l b) (hj : (2 : ℝ) ^ j ≤ |V b|) (h1 : i - j ≤ 127) (h2 : -149 ≤ i - j) :
    UpTo (i - j) (f32Div a b) ∧ V (f32Div a b) = fl32 (V a / V b) := by
  have h := abs_div_le ha.le hj
  have p : (0 : ℝ) < (2 : ℝ) ^ j := by positivity
  have := div_val (t := t) ha.fin hb.fin (by intro h0; rw [h0, abs_zero] at hj; linarith) (h.trans (pow_mono h1))
  exact ⟨⟨this.1, by rw [this.2]; exact fl_abs_le h2 h⟩, this.2⟩

omit t in
theorem upTo_zero {k : ℤ} : UpTo k 0#32 := ⟨zero_fin, by rw [V_zero, abs_zero]; positivity⟩

/-- The values of the example: 0, or of a magnitude between 2^-10 and 2^10. -/
def ValueOk (x : BitVec 32) : Prop := UpTo 10 x ∧ (V x = 0 ∨ (2 : ℝ) ^ (-10 : ℤ) ≤ |V x|)

/-- What holds for the statistics of a weight, apart from the wealth. -/
structure StatOk (s : Coin.WState (BitVec 32)) : Prop where
  zt : UpTo 61 s.zt
  g2 : UpTo 61 s.g2
  zg : |V s.zt| ≤ V s.g2
  mx : UpTo 10 s.mx
  mx0 : V s.mx = 0 ∨ (2 : ℝ) ^ (-10 : ℤ) ≤ V s.mx
  mg : UpTo 26 s.mg
  mg0 : V s.mg = 0 ∨ (2 : ℝ) ^ (-20 : ℤ) ≤ V s.mg

/-- The bet of a weight. -/
theorem betWeight_bound {alpha mx : BitVec 32} {s : Coin.WState (BitVec 32)} (ha : UpTo 20 alpha) (hs : StatOk s) (hw : UpTo 20 s.we)
    (hm : UpTo 10 mx) (hm0 : V mx = 0 ∨ (2 : ℝ) ^ (-10 : ℤ) ≤ V mx) : UpTo 52 (Coin.betWeight alpha s mx) := by
  unfold Coin.betWeight
  change UpTo 52 (if f32Lt 0#32 (f32Mul s.mg mx) then
    f32Mul (f32Div (f32Add alpha s.we) (f32Mul (f32Mul s.mg mx) (f32Add (f32Mul s.mg mx) s.g2))) s.zt else 0#32)
  obtain ⟨hM, vM⟩ := hs.mg.mul (t := t) hm (by norm_num) (by norm_num)
  split
  · rename_i hpos
    rw [lt_val (t := t) zero_fin hM.fin, V_zero] at hpos
    generalize f32Mul s.mg mx = M at *
    have hmm : (2 : ℝ) ^ (-30 : ℤ) ≤ V M := by
      rw [vM]
      refine fl_ge (by norm_num) ?_
      rcases hs.mg0 with h1 | h1
      · rw [vM, h1, zero_mul, fl32_zero] at hpos
        exact absurd hpos (lt_irrefl _)
      · rcases hm0 with h2 | h2
        · rw [vM, h2, mul_zero, fl32_zero] at hpos
          exact absurd hpos (lt_irrefl _)
        · calc (2 : ℝ) ^ (-30 : ℤ) = (2 : ℝ) ^ (-20 : ℤ) * (2 : ℝ) ^ (-10 : ℤ) := by rw [pow_mul]; norm_num
            _ ≤ V s.mg * V mx := mul_le_mul h1 h2 (by positivity) (le_trans (by positivity) h1)
    have hg0 : 0 ≤ V s.g2 := (abs_nonneg _).trans hs.zg
    obtain ⟨hS, vS⟩ := (hM.mono (show (26 + 10 : ℤ) ≤ 61 by norm_num)).add (t := t) hs.g2 (by norm_num) (by norm_num)
    have sM : V M ≤ V (f32Add M s.g2) := by
      rw [vS]
      conv_lhs => rw [← fl_V (t := t) hM.fin (hM.le.trans (pow_mono (by norm_num)))]
      exact fl32_mono (by linarith)
    have sG : V s.g2 ≤ V (f32Add M s.g2) := by
      rw [vS]
      conv_lhs => rw [← fl_V (t := t) hs.g2.fin (hs.g2.le.trans (pow_mono (by norm_num)))]
      exact fl32_mono (by linarith)
    generalize f32Add M s.g2 = S at *
    obtain ⟨hD, vD⟩ := hM.mul (t := t) hS (by norm_num) (by norm_num)
    obtain ⟨hA, _⟩ := ha.add (t := t) hw (by norm_num) (by norm_num)
    by_cases hsmall : V s.g2 ≤ (2 : ℝ) ^ (-30 : ℤ)
    · have d0 : (2 : ℝ) ^ (-60 : ℤ) ≤ |V (f32Mul M S)| := by
        refine le_trans ?_ (le_abs_self _)
        rw [vD]
        refine fl_ge (by norm_num) ?_
        calc (2 : ℝ) ^ (-60 : ℤ) = (2 : ℝ) ^ (-30 : ℤ) * (2 : ℝ) ^ (-30 : ℤ) := by rw [pow_mul]; norm_num
          _ ≤ V M * V S := mul_le_mul hmm (hmm.trans sM) (by positivity) hpos.le
      obtain ⟨hR, _⟩ := hA.div (t := t) hD d0 (by norm_num) (by norm_num)
      have hz : UpTo (-30) s.zt := ⟨hs.zt.fin, hs.zg.trans hsmall⟩
      exact (hR.mul (t := t) hz (by norm_num) (by norm_num)).1.mono (by norm_num)
    · rw [not_le] at hsmall
      have hG : 0 < V s.g2 := lt_trans (by positivity) hsmall
      set k := Int.log 2 (V s.g2) with hk
      have k1 : (2 : ℝ) ^ k ≤ V s.g2 := by
        have := Int.zpow_log_le_self (b := 2) (by norm_num) hG
        exact_mod_cast this
      have k2 : V s.g2 < (2 : ℝ) ^ (k + 1) := by
        have := Int.lt_zpow_succ_log_self (R := ℝ) (b := 2) (by norm_num) (V s.g2)
        exact_mod_cast this
      have k3 : -31 < k := by
        have : (2 : ℝ) ^ (-30 : ℤ) < (2 : ℝ) ^ (k + 1) := hsmall.trans k2
        have := (zpow_lt_zpow_iff_right₀ (a := (2 : ℝ)) (by norm_num)).1 this
        omega
      have k4 : k ≤ 61 := by
        have : (2 : ℝ) ^ k ≤ (2 : ℝ) ^ (61 : ℤ) := k1.trans ((le_abs_self _).trans hs.g2.le)
        exact (zpow_le_zpow_iff_right₀ (a := (2 : ℝ)) (by norm_num)).1 this
      have d0 : (2 : ℝ) ^ (-30 + k) ≤ |V (f32Mul M S)| := by
        refine le_trans ?_ (le_abs_self _)
        rw [vD]
        refine fl_ge (by omega) ?_
        rw [← pow_mul]
        exact mul_le_mul hmm (k1.trans sG) (by positivity) hpos.le
      obtain ⟨hR, _⟩ := hA.div (t := t) hD d0 (by omega) (by omega)
      have hz : UpTo (k + 1) s.zt := ⟨hs.zt.fin, hs.zg.trans k2.le⟩
      exact (hR.mul (t := t) hz (by omega) (by omega)).1.mono (by omega)
  · exact upTo_zero

/-- One visit of a weight. -/
theorem update_bound {alpha beta avg u x : BitVec 32} {s : Coin.WState (BitVec 32)} (ha : UpTo 20 alpha) (hb : UpTo 20 beta) (hb0 : (2 : ℝ) ^ (-20 : ℤ) ≤ V beta)
    (hv : UpTo 67 avg) (hv0 : (2 : ℝ) ^ (-53 : ℤ) ≤ V avg) (hu : UpTo 26 u) (hx : ValueOk x) (hs : StatOk s) (hw : UpTo 20 s.we) :
    StatOk (Coin.innerUpdate alpha beta avg u x s) ∧ IeeeFinite (Coin.innerUpdate alpha beta avg u x s).we ∧
      UpTo 105 (Coin.innerUpdate alpha beta avg u x s).xt := by
  obtain ⟨hax, vax⟩ := hx.1.abs (t := t)
  obtain ⟨hau, vau⟩ := hu.abs (t := t)
  obtain ⟨hg, _⟩ := hu.mul (t := t) hx.1 (by norm_num) (by norm_num)
  have mxOk : UpTo 10 (if f32Lt s.mx (x &&& 0x7fffffff#32) then x &&& 0x7fffffff#32 else s.mx) ∧
      (V (if f32Lt s.mx (x &&& 0x7fffffff#32) then x &&& 0x7fffffff#32 else s.mx) = 0 ∨
        (2 : ℝ) ^ (-10 : ℤ) ≤ V (if f32Lt s.mx (x &&& 0x7fffffff#32) then x &&& 0x7fffffff#32 else s.mx)) := by
    split
    · refine ⟨hax, ?_⟩
      rw [vax]
      rcases hx.2 with h | h
      · exact .inl (by rw [h, abs_zero])
      · exact .inr h
    · exact ⟨hs.mx, hs.mx0⟩
  have mgOk : UpTo 26 (if f32Lt s.mg (u &&& 0x7fffffff#32) then (if f32Lt beta (u &&& 0x7fffffff#32) then u &&& 0x7fffffff#32 else beta) else s.mg) ∧
      (V (if f32Lt s.mg (u &&& 0x7fffffff#32) then (if f32Lt beta (u &&& 0x7fffffff#32) then u &&& 0x7fffffff#32 else beta) else s.mg) = 0 ∨
        (2 : ℝ) ^ (-20 : ℤ) ≤ V (if f32Lt s.mg (u &&& 0x7fffffff#32) then (if f32Lt beta (u &&& 0x7fffffff#32) then u &&& 0x7fffffff#32 else beta) else s.mg)) := by
    split
    · split
      · rename_i h
        rw [lt_val (t := t) hb.fin hau.fin] at h
        exact ⟨hau, .inr (hb0.trans h.le)⟩
      · exact ⟨hb.mono (by norm_num), .inr hb0⟩
    · exact ⟨hs.mg, hs.mg0⟩
  obtain ⟨hng, vng⟩ := hg.neg (t := t)
  obtain ⟨hag, vag⟩ := hg.abs (t := t)
  obtain ⟨hz, vz⟩ := hs.zt.acc (t := t) (b := f32Neg (f32Mul u x)) hng (by norm_num) (by norm_num)
  obtain ⟨hG, vG⟩ := hs.g2.acc (t := t) (b := f32Mul u x &&& 0x7fffffff#32) hag (by norm_num) (by norm_num)
  have hzg : |V (f32Add s.zt (f32Neg (f32Mul u x)))| ≤ V (f32Add s.g2 (f32Mul u x &&& 0x7fffffff#32)) := by
    rw [vz, vG, ← fl_abs]
    refine fl32_mono ?_
    rw [vng, vag]
    refine (abs_add_le _ _).trans ?_
    rw [abs_neg]
    exact add_le_add_left hs.zg _
  have hbet := betWeight_bound (t := t) (s := { s with mg := (if f32Lt s.mg (u &&& 0x7fffffff#32) then (if f32Lt beta (u &&& 0x7fffffff#32) then u &&& 0x7fffffff#32 else beta) else s.mg) })
    ha ⟨hs.zt, hs.g2, hs.zg, hs.mx, hs.mx0, mgOk.1, mgOk.2⟩ hw mxOk.1 mxOk.2
  refine ⟨⟨hz, hG, hzg, mxOk.1, mxOk.2, mgOk.1, mgOk.2⟩, ?_, ?_⟩
  · have h1 := (hng.mul (t := t) hbet (by norm_num) (by norm_num)).1
    exact ((hw.mono (show (20 : ℤ) ≤ 26 + 10 + 52 by norm_num)).add (t := t) h1 (by norm_num) (by norm_num)).1.fin
  · exact (hbet.div (t := t) hv (hv0.trans (le_abs_self _)) (by norm_num) (by norm_num)).1

/-! ### The prediction of `learn` -/

theorem fmax_val {a b : BitVec 32} {k : ℤ} (ha : UpTo k a) (hb : UpTo k b) :
    UpTo k (Flt.fmax a b) ∧ (Flt.fmax a b = a ∨ Flt.fmax a b = b) ∧ V a ≤ V (Flt.fmax a b) ∧ V b ≤ V (Flt.fmax a b) := by
  haveI := lawfulCmp_ieee t
  obtain ⟨h1, h2, h3⟩ := LawfulCmp.fmax_num a b (fin_of a ha.fin).1 (fin_of b hb.fin).1
  have h4 : UpTo k (Flt.fmax a b) := by
    rcases h1 with h1 | h1 <;> rw [h1]
    · exact ha
    · exact hb
  exact ⟨h4, h1, (C97_compare t _ _ ha.fin h4.fin).2.1.1 h2, (C97_compare t _ _ hb.fin h4.fin).2.1.1 h3⟩

theorem fmin_val {a b : BitVec 32} {k : ℤ} (ha : UpTo k a) (hb : UpTo k b) : UpTo k (Flt.fmin a b) := by
  haveI := lawfulCmp_ieee t
  obtain ⟨h1, _⟩ := LawfulCmp.fmin_num a b (fin_of a ha.fin).1 (fin_of b hb.fin).1
  rcases h1 with h1 | h1 <;> rw [h1]
  · exact ha
  · exact hb

/-- The sums of the prediction of `learn`. -/
structure PredOk (acc : BitVec 32 × BitVec 32) : Prop where
  pred : UpTo 87 acc.1
  norm : UpTo 25 acc.2
  pos : 0 ≤ V acc.2

theorem predict_bound {alpha x : BitVec 32} {s : Coin.WState (BitVec 32)} {acc : BitVec 32 × BitVec 32} (ha : UpTo 20 alpha) (hx : ValueOk x) (hs : StatOk s)
    (hw : UpTo 20 s.we) (h : PredOk acc) : PredOk (Coin.innerPredict alpha acc x s) := by
  obtain ⟨hax, vax⟩ := hx.1.abs (t := t)
  obtain ⟨f1, f2, f3, f4⟩ := fmax_val (t := t) hs.mx hax
  have f5 : V (Flt.fmax s.mx (x &&& 0x7fffffff#32)) = 0 ∨ (2 : ℝ) ^ (-10 : ℤ) ≤ V (Flt.fmax s.mx (x &&& 0x7fffffff#32)) := by
    rcases f2 with f2 | f2 <;> rw [f2]
    · exact hs.mx0
    · rw [vax]
      rcases hx.2 with h | h
      · exact .inl (by rw [h, abs_zero])
      · exact .inr h
  have hbet := betWeight_bound (t := t) ha hs hw f1 f5
  have hp : UpTo 87 (f32Add acc.1 (f32Mul (Coin.betWeight alpha s (Flt.fmax s.mx (x &&& 0x7fffffff#32))) x)) :=
    (h.pred.acc (t := t) (hbet.mul (t := t) hx.1 (by norm_num) (by norm_num)).1 (by norm_num) (by norm_num)).1
  unfold Coin.innerPredict
  dsimp only
  change PredOk (if f32Lt 0#32 (Flt.fmax s.mx (x &&& 0x7fffffff#32)) then
    (f32Add acc.1 (f32Mul (Coin.betWeight alpha s (Flt.fmax s.mx (x &&& 0x7fffffff#32))) x),
      f32Add acc.2 (f32Mul (f32Div x (Flt.fmax s.mx (x &&& 0x7fffffff#32))) (f32Div x (Flt.fmax s.mx (x &&& 0x7fffffff#32)))))
    else (f32Add acc.1 (f32Mul (Coin.betWeight alpha s (Flt.fmax s.mx (x &&& 0x7fffffff#32))) x), acc.2))
  generalize f32Add acc.1 (f32Mul (Coin.betWeight alpha s (Flt.fmax s.mx (x &&& 0x7fffffff#32))) x) = q at hp ⊢
  generalize Flt.fmax s.mx (x &&& 0x7fffffff#32) = m at *
  split
  · rename_i hpos
    rw [lt_val (t := t) zero_fin f1.fin, V_zero] at hpos
    rw [vax] at f4
    have hle : |V x / V m| ≤ (2 : ℝ) ^ (0 : ℤ) := by
      rw [abs_div, zpow_zero, abs_of_pos hpos]
      exact div_le_one_of_le₀ f4 hpos.le
    have h1 := div_val (t := t) hx.1.fin f1.fin hpos.ne' (hle.trans (pow_mono (by norm_num)))
    have h2 : UpTo 0 (f32Div x m) := ⟨h1.1, by rw [h1.2]; exact fl_abs_le (by norm_num) hle⟩
    obtain ⟨h3, v3⟩ := h2.mul (t := t) h2 (by norm_num) (by norm_num)
    obtain ⟨h4, v4⟩ := h.norm.acc (t := t) h3 (by norm_num) (by norm_num)
    refine ⟨hp, h4, ?_⟩
    rw [v4]
    exact fl32_nonneg (add_nonneg h.pos (by rw [v3]; exact fl32_nonneg (mul_self_nonneg _)))
  · exact ⟨hp, h.norm, h.pos⟩

/-- The sums kept with the model. -/
structure NormOk (ms : CoinModelState (BitVec 32)) : Prop where
  norm : UpTo 58 ms.normalizedSumNormX
  pos : 0 ≤ V ms.normalizedSumNormX
  weight : UpTo 33 ms.totalWeight
  wpos : 0 ≤ V ms.totalWeight

omit t in
theorem V_pow (e : Nat) (h0 : 0 < e) (h : e < 255) : V (BitVec.ofNat 32 (e * 2 ^ 23)) = (2 : ℝ) ^ ((e : ℤ) - 127) := by
  have h1 : (BitVec.ofNat 32 (e * 2 ^ 23)).toNat = e * 2 ^ 23 := by
    rw [BitVec.toNat_ofNat]
    omega
  have h2 : ieeeExponent (BitVec.ofNat 32 (e * 2 ^ 23)) = e := by
    unfold ieeeExponent
    rw [h1]
    omega
  have h3 : ieeeFraction (BitVec.ofNat 32 (e * 2 ^ 23)) = 0 := by
    unfold ieeeFraction
    rw [h1]
    omega
  have h4 : ieeeSign (BitVec.ofNat 32 (e * 2 ^ 23)) = false := by
    rw [ieeeSign_eq]
    unfold f32Sign
    rw [h1]
    rw [decide_eq_false_iff_not]
    omega
  unfold V ieeeValue
  rw [h2, h3, h4, if_neg (show ¬ e = 0 by omega)]
  simp

theorem upTo_of_mag {m : BitVec 32} (e : Nat) (h0 : 0 < e) (h : e < 255) (hm : f32Mag m ≤ e * 2 ^ 23) : UpTo ((e : ℤ) - 127) m := by
  have hf : IeeeFinite m := by rw [ieeeFinite_iff]; omega
  refine ⟨hf, ?_⟩
  rw [← V_pow e h0 h, ← (abs_fin (t := t) hf).2]
  by_contra hn
  have h1 := (val_lt_iff _ _).1 (not_le.1 hn)
  have e1 : f32Key (BitVec.ofNat 32 (e * 2 ^ 23)) = e * 2 ^ 23 := by
    have h1 : (BitVec.ofNat 32 (e * 2 ^ 23)).toNat = e * 2 ^ 23 := by
      rw [BitVec.toNat_ofNat]
      omega
    unfold f32Key f32Sign f32Mag
    rw [h1, if_neg (by rw [decide_eq_true_eq]; omega)]
    omega
  have e2 : f32Key (m &&& 0x7fffffff#32) = f32Mag m := by
    have h1 := and_mag m
    have : f32Mag m < 2 ^ 31 := by unfold f32Mag; omega
    unfold f32Key
    rw [show f32Sign (m &&& 0x7fffffff#32) = decide ((m &&& 0x7fffffff#32).toNat ≥ 2 ^ 31) from rfl,
      show f32Mag (m &&& 0x7fffffff#32) = (m &&& 0x7fffffff#32).toNat % 2 ^ 31 from rfl, h1, if_neg (by rw [decide_eq_true_eq]; omega)]
    omega
  rw [e1, e2] at h1
  omega

theorem lit_ppm : UpTo 0 (f32Lit 1 1000000) ∧ (2 : ℝ) ^ (-20 : ℤ) ≤ V (f32Lit 1 1000000) := by
  have hf : IeeeFinite (f32Lit 1 1000000) := by rw [ieeeFinite_iff]; decide +kernel
  have h1 : IeeeFinite (BitVec.ofNat 32 (107 * 2 ^ 23)) := by rw [ieeeFinite_iff]; decide +kernel
  have h2 : IeeeFinite (BitVec.ofNat 32 (127 * 2 ^ 23)) := by rw [ieeeFinite_iff]; decide +kernel
  have e1 := (C97_compare t _ _ h1 hf).2.1.1 (show f32Le _ _ = true by decide +kernel)
  have e2 := (C97_compare t _ _ hf h2).2.1.1 (show f32Le _ _ = true by decide +kernel)
  have v1 := V_pow 107 (by norm_num) (by norm_num)
  have v2 := V_pow 127 (by norm_num) (by norm_num)
  have l1 : (2 : ℝ) ^ (-20 : ℤ) ≤ V (f32Lit 1 1000000) := by
    refine le_trans (le_of_eq ?_) e1
    rw [show ieeeValue (BitVec.ofNat 32 (107 * 2 ^ 23)) = V (BitVec.ofNat 32 (107 * 2 ^ 23)) from rfl, v1]
    norm_num
  refine ⟨⟨hf, ?_⟩, l1⟩
  rw [abs_of_nonneg (le_trans (by positivity) l1)]
  refine e2.trans (le_of_eq ?_)
  rw [show ieeeValue (BitVec.ofNat 32 (127 * 2 ^ 23)) = V (BitVec.ofNat 32 (127 * 2 ^ 23)) from rfl, v2]
  norm_num

theorem norm_bound {ms : CoinModelState (BitVec 32)} {acc : BitVec 32 × BitVec 32} {w : BitVec 32} (h : NormOk ms) (ha : PredOk acc) (hw : UpTo 8 w)
    (hw0 : (2 : ℝ) ^ (-8 : ℤ) ≤ V w) :
    NormOk ⟨f32Add ms.normalizedSumNormX (f32Mul acc.2 w), f32Add ms.totalWeight w⟩ ∧
      UpTo 67 (f32Div (f32Add (f32Add ms.normalizedSumNormX (f32Mul acc.2 w)) (f32Lit 1 1000000)) (f32Add ms.totalWeight w)) ∧
      (2 : ℝ) ^ (-53 : ℤ) ≤ V (f32Div (f32Add (f32Add ms.normalizedSumNormX (f32Mul acc.2 w)) (f32Lit 1 1000000)) (f32Add ms.totalWeight w)) := by
  have w0 : 0 ≤ V w := le_trans (by positivity) hw0
  obtain ⟨h1, v1⟩ := ha.norm.mul (t := t) hw (by norm_num) (by norm_num)
  have p1 : 0 ≤ V (f32Mul acc.2 w) := by rw [v1]; exact fl32_nonneg (mul_nonneg ha.pos w0)
  obtain ⟨h2, v2⟩ := h.norm.acc (t := t) (h1.mono (by norm_num)) (by norm_num) (by norm_num)
  have p2 : 0 ≤ V (f32Add ms.normalizedSumNormX (f32Mul acc.2 w)) := by rw [v2]; exact fl32_nonneg (add_nonneg h.pos p1)
  obtain ⟨h3, v3⟩ := h.weight.acc (t := t) (hw.mono (by norm_num)) (by norm_num) (by norm_num)
  have p3 : (2 : ℝ) ^ (-8 : ℤ) ≤ V (f32Add ms.totalWeight w) := by
    rw [v3]
    exact fl_ge (by norm_num) (by have := h.wpos; linarith)
  obtain ⟨l1, l2⟩ := lit_ppm (t := t)
  generalize f32Lit 1 1000000 = ppm at *
  generalize f32Add ms.normalizedSumNormX (f32Mul acc.2 w) = n at *
  generalize f32Add ms.totalWeight w = tw at *
  obtain ⟨h4, v4⟩ := h2.add (t := t) (l1.mono (by norm_num)) (by norm_num) (by norm_num)
  have p4 : (2 : ℝ) ^ (-20 : ℤ) ≤ V (f32Add n ppm) := by
    rw [v4]
    exact fl_ge (by norm_num) (by linarith)
  have q3 : 0 < V tw := lt_of_lt_of_le (by positivity) p3
  obtain ⟨h5, v5⟩ := h4.div (t := t) h3 (p3.trans (le_abs_self _)) (by norm_num) (by norm_num)
  refine ⟨⟨h2, p2, h3, q3.le⟩, h5.mono (by norm_num), ?_⟩
  rw [v5]
  refine fl_ge (by norm_num) ?_
  rw [le_div_iff₀ q3]
  calc (2 : ℝ) ^ (-53 : ℤ) * V tw ≤ (2 : ℝ) ^ (-53 : ℤ) * (2 : ℝ) ^ (33 : ℤ) := mul_le_mul_of_nonneg_left ((le_abs_self _).trans h3.le) (by positivity)
    _ = (2 : ℝ) ^ (-20 : ℤ) := by rw [pow_mul]; norm_num
    _ ≤ V (f32Add n ppm) := p4

omit t in
/-- What is between two finite numbers is finite. -/
theorem clamped_bound {lo hi x : BitVec 32} {k : ℤ} (hlo : UpTo k lo) (hhi : UpTo k hi) (hx : f32IsNaN x = false) :
    UpTo k (if f32Lt x lo then lo else if f32Lt hi x then hi else x) := by
  split
  · exact hlo
  · split
    · exact hhi
    · rename_i h1 h2
      have nlo := (fin_of lo hlo.fin).1
      have nhi := (fin_of hi hhi.fin).1
      have mlo := (ieeeFinite_iff lo).1 hlo.fin
      have mhi := (ieeeFinite_iff hi).1 hhi.fin
      unfold f32Lt at h1 h2
      simp only [hx, nlo, nhi, Bool.not_false, Bool.and_self, Bool.true_and, decide_eq_true_eq, not_lt] at h1 h2
      have hf : IeeeFinite x := by
        rw [ieeeFinite_iff]
        unfold f32Key at h1 h2
        split at h1 <;> split at h1 <;> split at h2 <;> simp_all <;> omega
      refine ⟨hf, abs_le.2 ⟨?_, ?_⟩⟩
      · have : V lo ≤ V x := by
          by_contra h
          exact absurd ((val_lt_iff x lo).1 (not_le.1 h)) (not_lt.2 h1)
        linarith [(abs_le.1 hlo.le).1]
      · have : V x ≤ V hi := by
          by_contra h
          exact absurd ((val_lt_iff hi x).1 (not_le.1 h)) (not_lt.2 h2)
        linarith [(abs_le.1 hhi.le).2]

omit t in
theorem lit_two : UpTo 1 (f32Lit 2 1) := by
  have h : f32Lit 2 1 = BitVec.ofNat 32 (128 * 2 ^ 23) := by decide +kernel
  rw [h]
  refine ⟨by rw [ieeeFinite_iff]; decide +kernel, ?_⟩
  rw [V_pow 128 (by norm_num) (by norm_num)]
  norm_num

end

end Rml
