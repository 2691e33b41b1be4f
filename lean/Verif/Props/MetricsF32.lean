import Verif.Props.RoundedMetrics
import Verif.Props.Progress
import Verif.Lemmas.CoinBound

/-!
# C95 on `f32` bit patterns

`C95_mse_partial` and `C95_ips_partial` are about rounded real numbers, which do not overflow. Here the metrics run on the bit patterns of `f32` with the IEEE operations, infinities and
NaN included: on data of moderate size nothing overflows, for any number of examples, and the reported number has the same error bound.
-/

namespace Rml

section
variable [t : F32Trans]

/-- Numbers are `f32`. -/
@[reducible] local instance metricNumbers : Flt (BitVec 32) := ieeeFlt t

omit t in
/-- A sum of bounded numbers stays finite, and is the sum with rounding. -/
theorem sum_val [F32Trans] {α : Type} (l : List α) (y : α → BitVec 32) (hy : ∀ x ∈ l, UpTo 85 (y x)) : ∀ v : BitVec 32, UpTo 110 v →
    UpTo 110 ((l.map y).foldl f32Add v) ∧ V ((l.map y).foldl f32Add v) = (l.map fun x => V (y x)).foldl (fun t x => fl32 (t + x)) (V v) := by
  induction l with
  | nil => exact fun v hv => ⟨hv, rfl⟩
  | cons x l ih =>
    intro v hv
    obtain ⟨h1, h2⟩ := hv.acc (b := y x) (hy x (by simp)) (by norm_num) (by norm_num)
    have h3 := ih (fun z hz => hy z (by simp [hz])) _ h1
    simp only [List.map_cons, List.foldl_cons]
    rw [← h2]
    exact h3

/-- The metric adds the squares one after the other. -/
theorem mse_feed_bits (pts : List (Features (BitVec 32) × SimpleLabel (BitVec 32) × (BitVec 32 × BitVec 32))) (v : BitVec 32) (c : Nat) :
    Metric.feed (pts.map (fun x => (x.1, Label.simple x.2.1, Prediction.scalar x.2.2.1 x.2.2.2))) (.mse v c) =
      .ok (.mse ((pts.map (fun x => f32Mul (f32Sub x.2.1.value x.2.2.1) (f32Sub x.2.1.value x.2.2.1))).foldl f32Add v) (c + pts.length)) := by
  induction pts generalizing v c with
  | nil => rfl
  | cons x pts ih =>
    have q := ih (f32Add v (f32Mul (f32Sub x.2.1.value x.2.2.1) (f32Sub x.2.1.value x.2.2.1))) (c + 1)
    simp only [Metric.feed, List.map_cons, List.foldlM_cons, List.foldl_cons, List.length_cons] at q ⊢
    refine Eq.trans q ?_
    rw [Nat.add_assoc, Nat.add_comm 1]

theorem square_val {a b : BitVec 32} (ha : UpTo 40 a) (hb : UpTo 40 b) :
    UpTo 85 (f32Mul (f32Sub a b) (f32Sub a b)) ∧ V (f32Mul (f32Sub a b) (f32Sub a b)) = fl32 (fl32 (V a - V b) * fl32 (V a - V b)) := by
  obtain ⟨n1, n2⟩ := hb.neg (t := t)
  obtain ⟨d1, d2⟩ := ha.add (t := t) n1 (by norm_num) (by norm_num)
  obtain ⟨m1, m2⟩ := d1.mul (t := t) d1 (by norm_num) (by norm_num)
  rw [d2, n2, ← sub_eq_add_neg] at m2
  exact ⟨m1.mono (by norm_num), m2⟩

/-- The mean of a number of terms. -/
theorem mean_val {α : Type} (l : List α) (y : α → BitVec 32) (hy : ∀ x ∈ l, UpTo 85 (y x)) (hne : l ≠ []) (hn : l.length ≤ 2 ^ 24) :
    IeeeFinite (f32Div ((l.map y).foldl f32Add 0#32) (f32OfNat l.length)) ∧
    V (f32Div ((l.map y).foldl f32Add 0#32) (f32OfNat l.length)) = fl32 ((l.map fun x => V (y x)).foldl (fun t x => fl32 (t + x)) 0 / fl32 l.length) := by
  obtain ⟨s1, s2⟩ := sum_val l y hy 0#32 upTo_zero
  obtain ⟨c1, c2⟩ := ofNat_exact hn
  have hl1 : (1 : ℝ) ≤ l.length := by exact_mod_cast List.length_pos_iff.2 hne
  have c3 : V (f32OfNat l.length) = l.length := c2
  have h := div_val (t := t) s1.fin c1 (by rw [c3]; positivity) (by
    rw [c3, abs_div, abs_of_pos (by linarith : (0 : ℝ) < l.length)]
    exact (div_le_self (abs_nonneg _) hl1).trans (s1.le.trans (pow_mono (by norm_num))))
  refine ⟨h.1, ?_⟩
  rw [h.2, s2, V_zero, c3, fl32_nat _ hn]

/-- C95, mean squared error on `f32`: for labels and predictions up to 2^40 and up to 160000 examples the metric reports a finite number, and it differs from the mean of the squared
errors by a relative error of at most `7 n 2^-24` (and underflow). -/
theorem C95_mse_f32_partial (dbg : Bool) (pts : List (Features (BitVec 32) × SimpleLabel (BitVec 32) × (BitVec 32 × BitVec 32))) (hne : pts ≠ []) (hn : pts.length ≤ 160000)
    (hd : ∀ x ∈ pts, IeeeFinite x.2.1.value ∧ |ieeeValue x.2.1.value| ≤ 2 ^ 40 ∧ IeeeFinite x.2.2.1 ∧ |ieeeValue x.2.2.1| ≤ 2 ^ 40)
    (m0 : Metric (BitVec 32)) (hm : getMetric "mse".toList = some m0) :
    ∃ m v, Metric.feed (pts.map (fun x => (x.1, Label.simple x.2.1, Prediction.scalar x.2.2.1 x.2.2.2))) m0 = .ok m ∧ Metric.getValue dbg m = .ok (.float v) ∧ IeeeFinite v ∧
      |ieeeValue v - (pts.map (fun x => (ieeeValue x.2.1.value - ieeeValue x.2.2.1) ^ 2)).sum / pts.length| ≤
        7 * pts.length * (1 / 2 ^ 24) * ((pts.map (fun x => (ieeeValue x.2.1.value - ieeeValue x.2.2.1) ^ 2)).sum / pts.length) +
          3 * (1 / 2 ^ 150) * ((pts.map (fun x => |ieeeValue x.2.1.value - ieeeValue x.2.2.1|)).sum / pts.length) + 6 * (1 / 2 ^ 150) := by
  have hl1 : (1 : ℝ) ≤ pts.length := by exact_mod_cast List.length_pos_iff.2 hne
  have hn' : (pts.length : ℝ) ≤ 160000 := by exact_mod_cast hn
  have : m0 = .mse 0#32 0 := by
    simp only [getMetric] at hm
    have := hm.symm
    simp at this
    exact this
  subst this
  have hsq : ∀ x ∈ pts, UpTo 85 (f32Mul (f32Sub x.2.1.value x.2.2.1) (f32Sub x.2.1.value x.2.2.1)) ∧
      V (f32Mul (f32Sub x.2.1.value x.2.2.1) (f32Sub x.2.1.value x.2.2.1)) = fl32 (fl32 (V x.2.1.value - V x.2.2.1) * fl32 (V x.2.1.value - V x.2.2.1)) := fun x hx => by
    obtain ⟨h1, h2, h3, h4⟩ := hd x hx
    exact square_val (t := t) ⟨h1, le_trans h2 (by norm_num)⟩ ⟨h3, le_trans h4 (by norm_num)⟩
  obtain ⟨f1, f2⟩ := mean_val (t := t) pts (fun x => f32Mul (f32Sub x.2.1.value x.2.2.1) (f32Sub x.2.1.value x.2.2.1)) (fun x hx => (hsq x hx).1) hne (by omega)
  refine ⟨_, _, mse_feed_bits pts 0#32 0, rfl, ?_⟩
  rw [Nat.zero_add]
  refine ⟨f1, ?_⟩
  have hu : (0 : ℝ) ≤ 1 / 2 ^ 24 := by positivity
  have := mean_round rounding_fl32 hu pts (fun x => V (f32Mul (f32Sub x.2.1.value x.2.2.1) (f32Sub x.2.1.value x.2.2.1))) (fun x => (ieeeValue x.2.1.value - ieeeValue x.2.2.1) ^ 2)
    (fun x => |ieeeValue x.2.1.value - ieeeValue x.2.2.1|) (fun _ _ => abs_nonneg _) hne (by omega) (by
      calc (pts.length : ℝ) * (1 / 2 ^ 24 + 1 / 2 ^ 150) ≤ 160000 * (1 / 2 ^ 24 + 1 / 2 ^ 150) := mul_le_mul_of_nonneg_right hn' (by positivity)
        _ ≤ 1 / 100 := by norm_num) (fun x hx => by
      rw [(hsq x hx).2]
      exact square_err rounding_fl32 hu (by norm_num) _)
  rw [← f2] at this
  refine this.trans (le_of_eq ?_)
  have e1 : (pts.map (fun x => |(ieeeValue x.2.1.value - ieeeValue x.2.2.1) ^ 2|)) = pts.map (fun x => (ieeeValue x.2.1.value - ieeeValue x.2.2.1) ^ 2) :=
    List.map_congr_left fun x _ => abs_of_nonneg (sq_nonneg _)
  rw [e1]
  congr 2
  field_simp

omit t in
theorem find_bits (probs : List (Nat × BitVec 32)) (a : Nat) (p : BitVec 32) (h : probs.lookup a = some p) : probs.find? (fun x => x.1 == a) = some (a, p) := by
  induction probs with
  | nil => simp at h
  | cons e probs ih =>
    obtain ⟨b, q⟩ := e
    rw [List.lookup_cons] at h
    by_cases hb : b = a
    · subst hb
      simp only [beq_self_eq_true, Option.some.injEq] at h
      simp [h]
    · have h1 : (a == b) = false := by simpa using fun h => hb h.symm
      rw [h1] at h
      rw [List.find?_cons_of_neg (by simpa using hb)]
      exact ih h

omit t in
/-- The factor -1 of the ips metric. -/
theorem lit_neg_one : f32Lit (-1) 1 = f32Neg 0x3f800000#32 := by decide +kernel

omit t in
theorem one_val : UpTo 0 0x3f800000#32 ∧ V 0x3f800000#32 = 1 := by
  have h : V 0x3f800000#32 = 1 := by
    have := V_pow 127 (by norm_num) (by norm_num)
    norm_num at this
    exact this
  exact ⟨⟨by unfold IeeeFinite; decide, by rw [h]; norm_num⟩, h⟩

/-- One term of the ips metric. -/
def ipsTerm (cost q p : BitVec 32) : BitVec 32 := f32Mul (f32Mul (f32Lit (-1) 1) cost) (f32Div q p)

theorem ipsTerm_val {cost q p : BitVec 32} (hc : UpTo 40 cost) (hq : UpTo 0 q) (hp : IeeeFinite p) (hp0 : (2 : ℝ) ^ (-40 : ℤ) ≤ V p) (hp1 : V p ≤ 1) :
    UpTo 85 (ipsTerm cost q p) ∧ V (ipsTerm cost q p) = fl32 (-V cost * fl32 (V q / V p)) := by
  have p0 : 0 < V p := lt_of_lt_of_le (by positivity) hp0
  obtain ⟨o1, o2⟩ := one_val
  obtain ⟨n1, n2⟩ := o1.neg (t := t)
  rw [← lit_neg_one] at n1 n2
  obtain ⟨m1, m2⟩ := n1.mul (t := t) hc (by norm_num) (by norm_num)
  have hp2 : UpTo 0 p := ⟨hp, by rw [abs_of_pos p0, zpow_zero]; exact hp1⟩
  obtain ⟨d1, d2⟩ := hq.div (t := t) hp2 (j := -40) (by rw [abs_of_pos p0]; exact hp0) (by norm_num) (by norm_num)
  obtain ⟨r1, r2⟩ := m1.mul (t := t) d1 (by norm_num) (by norm_num)
  have e1 : fl32 (-1 * V cost) = -V cost := by
    rw [neg_one_mul, fl32_neg, fl_V (t := t) hc.fin (hc.le.trans (pow_mono (by norm_num)))]
  rw [m2, d2, n2, o2, e1] at r2
  exact ⟨r1.mono (by norm_num), r2⟩

/-- The metric adds the terms one after the other. -/
theorem ips_feed_bits (pts : List (Features (BitVec 32) × CBLabel (BitVec 32) × List (Nat × BitVec 32) × BitVec 32))
    (hp : ∀ x ∈ pts, x.2.2.1.lookup x.2.1.action = some x.2.2.2) (v : BitVec 32) (c : Nat) :
    Metric.feed (pts.map (fun x => (x.1, Label.cb x.2.1, Prediction.actionProbs x.2.2.1))) (.ips c v) =
      .ok (.ips (c + pts.length) ((pts.map (fun x => ipsTerm x.2.1.cost x.2.2.2 x.2.1.probability)).foldl f32Add v)) := by
  induction pts generalizing v c with
  | nil => rfl
  | cons x pts ih =>
    have hf := find_bits _ _ _ (hp x (by simp))
    have q := ih (fun y hy => hp y (by simp [hy])) (f32Add v (ipsTerm x.2.1.cost x.2.2.2 x.2.1.probability)) (c + 1)
    simp only [Metric.feed, List.map_cons, List.foldlM_cons, List.foldl_cons, List.length_cons] at q ⊢
    have ha : Metric.addPoint (.ips c v) x.1 (.cb x.2.1) (.actionProbs x.2.2.1) =
        .ok (.ips (c + 1) (f32Add v (ipsTerm x.2.1.cost x.2.2.2 x.2.1.probability))) := by
      show (unwrapOpt (x.2.2.1.find? (fun y => y.1 == x.2.1.action)) >>= _) = _
      rw [hf]
      rfl
    rw [ha]
    refine Eq.trans q ?_
    rw [Nat.add_assoc, Nat.add_comm 1]

/-- C95, ips on `f32`: for costs up to 2^40, predicted probabilities up to 1, logged probabilities from 2^-40 to 1 and up to 160000 examples the metric reports a finite number, and it
differs from the mean of `-cost * p / p_logged` by at most `7 n 2^-24` times the mean of their absolute values (and underflow). -/
theorem C95_ips_f32_partial (dbg : Bool) (pts : List (Features (BitVec 32) × CBLabel (BitVec 32) × List (Nat × BitVec 32) × BitVec 32)) (hne : pts ≠ []) (hn : pts.length ≤ 160000)
    (hp : ∀ x ∈ pts, x.2.2.1.lookup x.2.1.action = some x.2.2.2)
    (hd : ∀ x ∈ pts, (IeeeFinite x.2.1.cost ∧ |ieeeValue x.2.1.cost| ≤ 2 ^ 40) ∧ (IeeeFinite x.2.2.2 ∧ |ieeeValue x.2.2.2| ≤ 1) ∧
      IeeeFinite x.2.1.probability ∧ 1 / 2 ^ 40 ≤ ieeeValue x.2.1.probability ∧ ieeeValue x.2.1.probability ≤ 1)
    (m0 : Metric (BitVec 32)) (hm : getMetric "ips".toList = some m0) :
    ∃ m v, Metric.feed (pts.map (fun x => (x.1, Label.cb x.2.1, Prediction.actionProbs x.2.2.1))) m0 = .ok m ∧ Metric.getValue dbg m = .ok (.float v) ∧ IeeeFinite v ∧
      |ieeeValue v - (pts.map (fun x => -ieeeValue x.2.1.cost * (ieeeValue x.2.2.2 / ieeeValue x.2.1.probability))).sum / pts.length| ≤
        7 * pts.length * (1 / 2 ^ 24) * ((pts.map (fun x => |-ieeeValue x.2.1.cost * (ieeeValue x.2.2.2 / ieeeValue x.2.1.probability)|)).sum / pts.length) +
          3 * (1 / 2 ^ 150) * ((pts.map (fun x => |ieeeValue x.2.1.cost|)).sum / pts.length) + 6 * (1 / 2 ^ 150) := by
  have hl1 : (1 : ℝ) ≤ pts.length := by exact_mod_cast List.length_pos_iff.2 hne
  have hn' : (pts.length : ℝ) ≤ 160000 := by exact_mod_cast hn
  have : m0 = .ips 0 0#32 := by
    simp only [getMetric] at hm
    have := hm.symm
    simp at this
    exact this
  subst this
  have ht : ∀ x ∈ pts, UpTo 85 (ipsTerm x.2.1.cost x.2.2.2 x.2.1.probability) ∧
      V (ipsTerm x.2.1.cost x.2.2.2 x.2.1.probability) = fl32 (-V x.2.1.cost * fl32 (V x.2.2.2 / V x.2.1.probability)) := fun x hx => by
    obtain ⟨⟨h1, h2⟩, ⟨h3, h4⟩, h5, h6, h7⟩ := hd x hx
    exact ipsTerm_val (t := t) ⟨h1, le_trans h2 (by norm_num)⟩ ⟨h3, le_trans h4 (by norm_num)⟩ h5 (le_trans (by norm_num) h6) h7
  obtain ⟨f1, f2⟩ := mean_val (t := t) pts (fun x => ipsTerm x.2.1.cost x.2.2.2 x.2.1.probability) (fun x hx => (ht x hx).1) hne (by omega)
  refine ⟨_, _, ips_feed_bits pts hp 0#32 0, rfl, ?_⟩
  rw [Nat.zero_add]
  refine ⟨f1, ?_⟩
  have hu : (0 : ℝ) ≤ 1 / 2 ^ 24 := by positivity
  have := mean_round rounding_fl32 hu pts (fun x => V (ipsTerm x.2.1.cost x.2.2.2 x.2.1.probability))
    (fun x => -ieeeValue x.2.1.cost * (ieeeValue x.2.2.2 / ieeeValue x.2.1.probability)) (fun x => |ieeeValue x.2.1.cost|) (fun _ _ => abs_nonneg _) hne (by omega) (by
      calc (pts.length : ℝ) * (1 / 2 ^ 24 + 1 / 2 ^ 150) ≤ 160000 * (1 / 2 ^ 24 + 1 / 2 ^ 150) := mul_le_mul_of_nonneg_right hn' (by positivity)
        _ ≤ 1 / 100 := by norm_num) (fun x hx => by
      rw [(ht x hx).2]
      exact product_err rounding_fl32 hu (by norm_num) _ _)
  rw [← f2] at this
  refine this.trans (le_of_eq ?_)
  congr 2
  field_simp

/-- C95, overflow: one example whose label is 1e30 and whose prediction is 0 makes the mean squared error infinite, although the label is a finite number. -/
theorem C95_overflow_false :
    ¬ ∀ (dbg : Bool) (pts : List (Features (BitVec 32) × SimpleLabel (BitVec 32) × (BitVec 32 × BitVec 32))) (m0 m : Metric (BitVec 32)) (v : BitVec 32), pts ≠ [] →
      (∀ x ∈ pts, IeeeFinite x.2.1.value ∧ IeeeFinite x.2.2.1) → getMetric "mse".toList = some m0 →
      Metric.feed (pts.map (fun x => (x.1, Label.simple x.2.1, Prediction.scalar x.2.2.1 x.2.2.2))) m0 = .ok m → Metric.getValue dbg m = .ok (.float v) → IeeeFinite v := by
  intro h
  obtain ⟨ft⟩ : Nonempty (Features (BitVec 32)) := ⟨.cbAdf ⟨none, []⟩⟩
  obtain ⟨L, big, inf⟩ : ∃ L : BitVec 32, IeeeFinite L ∧ ¬ IeeeFinite (f32Div (f32Add 0#32 (f32Mul (f32Sub L 0#32) (f32Sub L 0#32))) (f32OfNat 1)) :=
    ⟨f32Lit (10 ^ 30) 1, by rw [ieeeFinite_iff]; decide +kernel, by rw [ieeeFinite_iff]; decide +kernel⟩
  have := h false [(ft, ⟨L, 0#32⟩, (0#32, 0#32))] (.mse 0#32 0) _ _ (by simp) (by
    intro x hx
    simp only [List.mem_singleton] at hx
    subst hx
    exact ⟨big, zero_fin⟩) rfl (mse_feed_bits _ _ _) rfl
  exact inf this

end

/-! ### Concrete cases -/

/-- Two examples, off by 1 and by 2. -/
example (t : F32Trans) : letI := ieeeFlt t
    ∃ (pts : List (Features (BitVec 32) × SimpleLabel (BitVec 32) × (BitVec 32 × BitVec 32))) (m0 : Metric (BitVec 32)), pts.length = 2 ∧ pts.length ≤ 160000 ∧
      (∀ x ∈ pts, IeeeFinite x.2.1.value ∧ |ieeeValue x.2.1.value| ≤ 2 ^ 40 ∧ IeeeFinite x.2.2.1 ∧ |ieeeValue x.2.2.1| ≤ 2 ^ 40) ∧ getMetric "mse".toList = some m0 := by
  obtain ⟨ft⟩ : Nonempty (Features (BitVec 32)) := ⟨.cbAdf ⟨none, []⟩⟩
  have v1 := (one_val).2
  have v3 : V 0x40000000#32 = 2 := by
    have := V_pow 128 (by norm_num) (by norm_num)
    norm_num at this
    exact this
  have f1 : IeeeFinite 0x3f800000#32 := by unfold IeeeFinite; decide
  have f3 : IeeeFinite 0x40000000#32 := by unfold IeeeFinite; decide
  refine ⟨[(ft, ⟨0x3f800000#32, 0x3f800000#32⟩, (0#32, 0#32)), (ft, ⟨0x40000000#32, 0x3f800000#32⟩, (0#32, 0#32))], _, rfl, by simp, fun x hx => ?_, rfl⟩
  have v0 := V_zero
  unfold V at v0 v1 v3
  simp only [List.mem_cons, List.not_mem_nil, or_false] at hx
  rcases hx with rfl | rfl
  · simp only [v0, v1]
    exact ⟨f1, by norm_num, zero_fin, by norm_num⟩
  · simp only [v0, v3]
    exact ⟨f3, by norm_num, zero_fin, by norm_num⟩

/-- A bandit example: cost 1, predicted probability 1, logged probability 1/2. -/
example (t : F32Trans) : letI := ieeeFlt t
    ∃ (pts : List (Features (BitVec 32) × CBLabel (BitVec 32) × List (Nat × BitVec 32) × BitVec 32)) (m0 : Metric (BitVec 32)), pts ≠ [] ∧ pts.length ≤ 160000 ∧
      (∀ x ∈ pts, x.2.2.1.lookup x.2.1.action = some x.2.2.2) ∧
      (∀ x ∈ pts, (IeeeFinite x.2.1.cost ∧ |ieeeValue x.2.1.cost| ≤ 2 ^ 40) ∧ (IeeeFinite x.2.2.2 ∧ |ieeeValue x.2.2.2| ≤ 1) ∧
        IeeeFinite x.2.1.probability ∧ 1 / 2 ^ 40 ≤ ieeeValue x.2.1.probability ∧ ieeeValue x.2.1.probability ≤ 1) ∧ getMetric "ips".toList = some m0 := by
  obtain ⟨ft⟩ : Nonempty (Features (BitVec 32)) := ⟨.cbAdf ⟨none, []⟩⟩
  have v1 := (one_val).2
  have v2 : V 0x3f000000#32 = 1 / 2 := by
    have := V_pow 126 (by norm_num) (by norm_num)
    norm_num at this
    exact this
  have f1 : IeeeFinite 0x3f800000#32 := by unfold IeeeFinite; decide
  have f2 : IeeeFinite 0x3f000000#32 := by unfold IeeeFinite; decide
  refine ⟨[(ft, { action := 0, cost := 0x3f800000#32, probability := 0x3f000000#32 }, [(0, 0x3f800000#32)], 0x3f800000#32)], _, by simp, by simp, fun x hx => ?_, fun x hx => ?_, rfl⟩
  · simp only [List.mem_singleton] at hx
    subst hx
    rfl
  · simp only [List.mem_singleton] at hx
    subst hx
    unfold V at v1 v2
    simp only [v1, v2]
    exact ⟨⟨f1, by norm_num⟩, ⟨f1, by norm_num⟩, f2, by norm_num, by norm_num⟩

end Rml
