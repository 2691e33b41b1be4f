import Verif.Model.Progress
import Verif.Props.LongTrain
import Verif.Lemmas.Bound32

/-! C57 for multiplicative periods, in single precision, and for any number of examples. -/

namespace Rml

/-- `as u32`: a finite number that is not negative loses its fraction, or becomes `u32::MAX` if it is larger; negative numbers and NaN become 0,
infinity becomes `u32::MAX`. -/
theorem C57_cast (b : BitVec 32) :
    (IeeeFinite b → 0 ≤ ieeeValue b → f32ToU32 b = min ⌊ieeeValue b⌋₊ (2 ^ 32 - 1)) ∧ (IeeeFinite b → ieeeValue b ≤ 0 → f32ToU32 b = 0) ∧
    (IeeeNaN b → f32ToU32 b = 0) ∧ (IeeeInf b → f32ToU32 b = if ieeeSign b then 0 else 2 ^ 32 - 1) := by
  have hval : ieeeValue b = (if f32Sign b then -1 else 1) * ((f32Units b : ℝ) / (2 ^ 149 : ℕ)) := by
    rw [ieeeValue_eq, f32Val_abs, zpow_neg, div_eq_mul_inv]
    norm_num
  have hfin : IeeeFinite b → f32IsNaN b = false ∧ f32IsInf b = false := by
    rw [ieeeFinite_iff]
    intro h
    simp [f32IsNaN, f32IsInf]
    omega
  have hnn : (0 : ℝ) ≤ (f32Units b : ℝ) / (2 ^ 149 : ℕ) := by positivity
  refine ⟨fun hf h0 => ?_, fun hf h0 => ?_, fun hn => ?_, fun hi => ?_⟩
  · obtain ⟨h1, h2⟩ := hfin hf
    unfold f32ToU32
    rw [h1, h2]
    rw [hval] at h0 ⊢
    cases hs : f32Sign b
    · simp only [Bool.false_eq_true, if_false, one_mul]
      rw [Nat.floor_div_eq_div]
    · rw [hs] at h0
      simp only [if_true] at h0
      have h3 : (f32Units b : ℝ) / (2 ^ 149 : ℕ) = 0 := by linarith
      rw [h3]
      simp
  · obtain ⟨h1, h2⟩ := hfin hf
    unfold f32ToU32
    rw [h1, h2]
    rw [hval] at h0
    cases hs : f32Sign b
    · rw [hs] at h0
      simp only [Bool.false_eq_true, if_false, one_mul] at h0
      have h3 : (f32Units b : ℝ) / (2 ^ 149 : ℕ) = 0 := by linarith
      have h4 : f32Units b = 0 := by
        rw [div_eq_zero_iff] at h3
        rcases h3 with h3 | h3
        · exact_mod_cast h3
        · norm_num at h3
      simp [h4]
    · simp
  · rw [ieeeNaN_iff] at hn
    simp [f32ToU32, hn]
  · rw [ieeeInf_iff] at hi
    rw [ieeeSign_eq]
    unfold f32ToU32
    have : f32IsNaN b = false := by
      simp [f32IsNaN, f32IsInf] at hi ⊢
      omega
    rw [this, hi]
    simp

theorem scale_pow : ∀ c, c < 32 → scale32 (f32Lit 2 1) (2 ^ c) = if c = 31 then 2 ^ 32 - 1 else 2 ^ (c + 1) := by decide +kernel
theorem scale_last : scale32 (f32Lit 2 1) (2 ^ 32 - 1) = 2 ^ 32 - 1 := by decide +kernel
theorem scale_zero : scale32 (f32Lit 2 1) 0 = 0 := by decide +kernel

/-- The counters after `i` examples with the period `*2`. -/
def OnDoubling (i : Nat) (m : TrainManager) : Prop :=
  m.period = .multiplicative (scale32 (f32Lit 2 1)) ∧ m.iteration = i % 2 ^ 32 ∧
    ((i ≤ 1 ∧ m.next = 0) ∨ (1 < i ∧ i < 2 ^ 31 + 1 ∧ ∃ c, c < 32 ∧ m.next = 2 ^ c ∧ i ≤ 2 ^ c ∧ ∀ d, d < c → 2 ^ d < i) ∨ (2 ^ 31 < i ∧ m.next = 2 ^ 32 - 1))

/-- Example `i` (counted from 0) is due for a report with the default period `*2`: it is the first, or a power of 2 below `2^32`, or the counter is at its largest value. -/
def DueDoubling (i : Nat) : Prop := i = 0 ∨ (∃ c, c < 32 ∧ i = 2 ^ c) ∨ i % 2 ^ 32 = 2 ^ 32 - 1

theorem doubling_step (i : Nat) (m : TrainManager) (h : OnDoubling i m) :
    ∃ b m', m.inc false = .ok (b, m') ∧ OnDoubling (i + 1) m' ∧ (b = true ↔ DueDoubling i) := by
  obtain ⟨it, nx, pd⟩ := m
  obtain ⟨h1, h2, h3⟩ := h
  simp only at h1 h2 h3
  subst h1
  have hnext : (it + 1) % 2 ^ 32 = (i + 1) % 2 ^ 32 := by rw [h2]; omega
  have hit : it < 2 ^ 32 := by rw [h2]; exact Nat.mod_lt _ (by norm_num)
  by_cases hle : nx ≤ it
  · refine ⟨true, ⟨(it + 1) % 2 ^ 32, scale32 (f32Lit 2 1) it, .multiplicative (scale32 (f32Lit 2 1))⟩, ?_, ⟨rfl, hnext, ?_⟩, ?_⟩
    · unfold TrainManager.inc
      simp only [if_pos hle, OutputPeriod.nextAfter, add_release]
      rfl
    · simp only
      rcases h3 with ⟨a, b⟩ | ⟨a0, a, c, hc, b, d, e⟩ | ⟨a, b⟩
      · have : i = 0 ∨ i = 1 := by omega
        rcases this with rfl | rfl
        · left
          have : it = 0 := by rw [h2]; rfl
          rw [this, scale_zero]
          omega
        · right; left
          have : it = 1 := by rw [h2]; rfl
          rw [this]
          refine ⟨by norm_num, by norm_num, 1, by norm_num, scale_pow 0 (by norm_num), by norm_num, ?_⟩
          intro d hd
          have : d = 0 := by omega
          subst this
          norm_num
      · have hp : (2 : Nat) ^ c ≤ 2 ^ 31 := Nat.pow_le_pow_right (by norm_num) (by omega)
        have hi : it = i := by rw [h2]; exact Nat.mod_eq_of_lt (by omega)
        have hic : i = 2 ^ c := by omega
        rw [hi, hic, scale_pow c hc]
        by_cases h31 : c = 31
        · subst h31
          right; right
          refine ⟨by omega, by simp⟩
        · right; left
          rw [if_neg h31]
          have hlt : (2 : Nat) ^ c ≤ 2 ^ 30 := Nat.pow_le_pow_right (by norm_num) (by omega)
          have hge : 1 ≤ 2 ^ c := Nat.one_le_two_pow
          refine ⟨by omega, by omega, c + 1, by omega, rfl, by rw [pow_succ]; omega, fun d hd => ?_⟩
          have : (2 : Nat) ^ d ≤ 2 ^ c := Nat.pow_le_pow_right (by norm_num) (by omega)
          omega
      · have : it = 2 ^ 32 - 1 := by omega
        rw [this, scale_last]
        right; right
        exact ⟨by omega, rfl⟩
    · simp only [true_iff]
      unfold DueDoubling
      rcases h3 with ⟨a, b⟩ | ⟨a0, a, c, hc, b, d, e⟩ | ⟨a, b⟩
      · have : i = 0 ∨ i = 1 := by omega
        rcases this with rfl | rfl
        · exact .inl rfl
        · exact .inr (.inl ⟨0, by norm_num, by norm_num⟩)
      · have hi : it = i := by rw [h2]; exact Nat.mod_eq_of_lt (by omega)
        exact .inr (.inl ⟨c, hc, by omega⟩)
      · exact .inr (.inr (by omega))
  · refine ⟨false, ⟨(it + 1) % 2 ^ 32, nx, .multiplicative (scale32 (f32Lit 2 1))⟩, ?_, ⟨rfl, hnext, ?_⟩, ?_⟩
    · unfold TrainManager.inc
      simp only [if_neg hle, add_release]
      rfl
    · simp only
      rcases h3 with ⟨a, b⟩ | ⟨a0, a, c, hc, b, d, e⟩ | ⟨a, b⟩
      · omega
      · have hp : (2 : Nat) ^ c ≤ 2 ^ 31 := Nat.pow_le_pow_right (by norm_num) (by omega)
        have hi : it = i := by rw [h2]; exact Nat.mod_eq_of_lt (by omega)
        right; left
        exact ⟨by omega, by omega, c, hc, b, by omega, fun d hd => by have := e d hd; omega⟩
      · exact .inr (.inr ⟨by omega, b⟩)
    · simp only [Bool.false_eq_true, false_iff]
      rintro (hz | ⟨c', hc', hz⟩ | hz)
      · rcases h3 with ⟨a, b⟩ | ⟨a0, a, c, hc, b, d, e⟩ | ⟨a, b⟩
        · omega
        · omega
        · omega
      · rcases h3 with ⟨a, b⟩ | ⟨a0, a, c, hc, b, d, e⟩ | ⟨a, b⟩
        · omega
        · have hi : it = i := by rw [h2]; exact Nat.mod_eq_of_lt (by omega)
          have hlt : c' < c := by
            by_contra hn
            have : (2 : Nat) ^ c ≤ 2 ^ c' := Nat.pow_le_pow_right (by norm_num) (by omega)
            omega
          have := e c' hlt
          omega
        · have : (2 : Nat) ^ c' ≤ 2 ^ 31 := Nat.pow_le_pow_right (by norm_num) (by omega)
          omega
      · rw [← h2] at hz
        rcases h3 with ⟨a, b⟩ | ⟨a0, a, c, hc, b, d, e⟩ | ⟨a, b⟩
        · omega
        · have hp : (2 : Nat) ^ c ≤ 2 ^ 31 := Nat.pow_le_pow_right (by norm_num) (by omega)
          omega
        · omega

theorem doubling_run (k i : Nat) (m : TrainManager) (h : OnDoubling i m) :
    ∃ bs m', TrainManager.run false k m = .ok (bs, m') ∧ bs.length = k ∧ ∀ x, x < k → (bs[x]? = some true ↔ DueDoubling (i + x)) := by
  induction k generalizing i m with
  | zero => exact ⟨[], m, rfl, rfl, fun x hx => by omega⟩
  | succ k ih =>
    obtain ⟨b, m1, h1, h2, h3⟩ := doubling_step i m h
    obtain ⟨bs, m2, h4, h5, h6⟩ := ih (i + 1) m1 h2
    refine ⟨b :: bs, m2, ?_, by simp [h5], fun x hx => ?_⟩
    · simp only [TrainManager.run, h1]
      show (TrainManager.run false k m1 >>= _) = _
      rw [h4]
      rfl
    · cases x with
      | zero => simpa using h3
      | succ x =>
        rw [List.getElem?_cons_succ, h6 x (by omega), show i + 1 + x = i + (x + 1) by omega]

/-- C57 with the default period `*2` in single precision, release profile, any number of examples: an example is reported exactly if it is due. -/
theorem C57_default (k : Nat) :
    ∃ bs m, TrainManager.run false k (TrainManager.new (.multiplicative (scale32 (f32Lit 2 1)))) = .ok (bs, m) ∧ bs.length = k ∧
      ∀ i, i < k → (bs[i]? = some true ↔ DueDoubling i) := by
  obtain ⟨bs, m, h1, h2, h3⟩ := doubling_run k 0 (TrainManager.new (.multiplicative (scale32 (f32Lit 2 1)))) ⟨rfl, rfl, .inl ⟨by norm_num, rfl⟩⟩
  exact ⟨bs, m, h1, h2, fun i hi => by simpa using h3 i hi⟩

/-- The examples 0, 1, 2, 4, 2147483648, 4294967295 and 8589934591 are due, 3, 4294967296 and 4294967297 are not. -/
example : DueDoubling 0 ∧ DueDoubling 1 ∧ DueDoubling 2 ∧ ¬ DueDoubling 3 ∧ DueDoubling 4 ∧ DueDoubling 2147483648 ∧ DueDoubling 4294967295 ∧
    ¬ DueDoubling 4294967296 ∧ ¬ DueDoubling 4294967297 ∧ DueDoubling 8589934591 := by
  refine ⟨.inl rfl, .inr (.inl ⟨0, by norm_num, rfl⟩), .inr (.inl ⟨1, by norm_num, rfl⟩), ?_, .inr (.inl ⟨2, by norm_num, rfl⟩),
    .inr (.inl ⟨31, by norm_num, by norm_num⟩), .inr (.inr (by norm_num)), ?_, ?_, .inr (.inr (by norm_num))⟩ <;>
  · unfold DueDoubling
    decide +kernel

/-- C57, debug profile, every multiplicative period: training panics at example 4294967295, when the counter overflows, and not before. -/
theorem C57_debug_overflow_multiplicative (scale : Nat → Nat) (k : Nat) :
    (k < 2 ^ 32 → ∃ r, TrainManager.run true k (TrainManager.new (.multiplicative scale)) = .ok r) ∧
    (2 ^ 32 ≤ k → TrainManager.run true k (TrainManager.new (.multiplicative scale)) = .error .overflow) := by
  have hrun : ∀ k m, m.period = .multiplicative scale → m.iteration + k < 2 ^ 32 →
      ∃ bs m', TrainManager.run true k m = .ok (bs, m') ∧ m'.iteration = m.iteration + k ∧ m'.period = .multiplicative scale := by
    intro k
    induction k with
    | zero => exact fun m hm _ => ⟨[], m, rfl, rfl, hm⟩
    | succ k ih =>
      intro m hm hlt
      have hi := inc_ok (dbg := true) m (by omega) (fun q hq => by rw [hm] at hq; cases hq)
      obtain ⟨bs, m', h1, h2, h3⟩ := ih ⟨m.iteration + 1, if m.next ≤ m.iteration then m.period.schedule m.iteration else m.next, m.period⟩ hm (by simp only; omega)
      refine ⟨decide (m.next ≤ m.iteration) :: bs, m', ?_, by rw [h2]; simp only; omega, h3⟩
      simp only [TrainManager.run, hi]
      show (TrainManager.run true k _ >>= _) = _
      rw [h1]
      rfl
  constructor
  · intro hk
    obtain ⟨bs, m, h, _⟩ := hrun k (TrainManager.new (.multiplicative scale)) rfl (by simpa [TrainManager.new] using hk)
    exact ⟨_, h⟩
  · intro hk
    obtain ⟨N, hN⟩ : ∃ N, N = 2 ^ 32 - 1 := ⟨_, rfl⟩
    obtain ⟨bs, m, h, h1, h2⟩ := hrun N (TrainManager.new (.multiplicative scale)) rfl (by simp only [TrainManager.new]; omega)
    obtain ⟨c, rfl⟩ := Nat.exists_eq_add_of_le (show N + 1 ≤ k by omega)
    have hov : u32AddNat true m.iteration 1 = .error .overflow := by
      unfold u32AddNat
      rw [h1, if_neg (by simp only [TrainManager.new]; omega)]
      rfl
    have hinc : m.inc true = .error .overflow := by
      unfold TrainManager.inc
      rw [h2, hov]
      split <;> rfl
    rw [show N + 1 + c = N + (c + 1) by omega, run_add, h]
    show (TrainManager.run true (c + 1) m >>= _) = _
    simp only [TrainManager.run, hinc]
    rfl

theorem ofNat_exact {n : Nat} (h : n ≤ 2 ^ 24) : IeeeFinite (f32OfNat n) ∧ ieeeValue (f32OfNat n) = n := by
  have hb : (n : ℝ) ≤ 2 ^ 24 := by exact_mod_cast h
  have hc := (C97_of_nat noTrans n).1 (by rw [abs_of_nonneg (by positivity)]; exact hb.trans_lt (by norm_num))
  refine ⟨hc.1, ?_⟩
  rw [← fl32_nat n h]
  refine make_rounded false _ 1 (by norm_num) _ ?_ hc.1
  rw [Nat.cast_mul, cast_tiny, scale_tiny]
  simp

/-- A whole factor: exact up to `2^24`, and beyond if the product is. -/
theorem scale_whole {b i : Nat} (hb : b ≤ 2 ^ 24) (hi : i ≤ 2 ^ 24) :
    (b * i ≤ 2 ^ 24 → scale32 (f32OfNat b) i = b * i) ∧ (2 ^ 24 ≤ b * i → 2 ^ 24 ≤ scale32 (f32OfNat b) i) := by
  obtain ⟨b1, b2⟩ := ofNat_exact hb
  obtain ⟨i1, i2⟩ := ofNat_exact hi
  have hbr : (b : ℝ) ≤ 2 ^ 24 := by exact_mod_cast hb
  have hir : (i : ℝ) ≤ 2 ^ 24 := by exact_mod_cast hi
  have hprod : (i : ℝ) * b ≤ 2 ^ 24 * 2 ^ 24 := mul_le_mul hir hbr (by positivity) (by positivity)
  have hv := mul_val (t := noTrans) i1 b1 (by unfold V; rw [i2, b2, abs_of_nonneg (by positivity)]; exact hprod.trans (by norm_num))
  obtain ⟨r1, r2⟩ := hv
  unfold V at r2
  rw [i2, b2] at r2
  have hn : (0 : ℝ) ≤ fl32 ((i : ℝ) * b) := fl32_nonneg (by positivity)
  have hc := (C57_cast (f32Mul (f32OfNat i) (f32OfNat b))).1 r1 (by rw [r2]; exact hn)
  unfold scale32
  rw [hc, r2]
  constructor
  · intro hp
    have : fl32 ((i : ℝ) * b) = ((b * i : ℕ) : ℝ) := by
      rw [← fl32_nat _ hp]
      push_cast
      rw [mul_comm]
    rw [this, Nat.floor_natCast]
    omega
  · intro hp
    have h1 : (2 : ℝ) ^ (24 : ℤ) ≤ fl32 ((i : ℝ) * b) := by
      apply fl_ge (by norm_num)
      have : ((2 ^ 24 : ℕ) : ℝ) ≤ ((b * i : ℕ) : ℝ) := by exact_mod_cast hp
      push_cast at this
      rw [mul_comm]
      exact_mod_cast this
    have h2 : 2 ^ 24 ≤ ⌊fl32 ((i : ℝ) * b)⌋₊ := Nat.le_floor (by push_cast; exact_mod_cast h1)
    omega

theorem expected_congr {f g : Nat → Nat} {K : Nat} (h : ∀ i, i < K → f i = g i ∨ K ≤ f i ∧ K ≤ g i) (k i n n' : Nat) (hk : i + k ≤ K)
    (hn : n = n' ∨ K ≤ n ∧ K ≤ n') : expected f k i n = expected g k i n' := by
  induction k generalizing i n n' with
  | zero => rfl
  | succ k ih =>
    have hd : n ≤ i ↔ n' ≤ i := by omega
    simp only [expected, hd]
    congr 1
    apply ih _ _ _ (by omega)
    split
    · exact h i (by omega)
    · exact hn

theorem whole_expected {b K : Nat} (h : ∀ i, i < K → scale32 (f32OfNat b) i = b * i ∨ K ≤ scale32 (f32OfNat b) i ∧ K ≤ b * i) (k : Nat) (hk : k ≤ K) :
    expected (scale32 (f32OfNat b)) k 0 0 = expected (fun i => b * i) k 0 0 :=
  expected_congr h k 0 0 0 (by omega) (.inl rfl)

/-- C57 with a whole factor `b` in single precision, both profiles, up to `2^24` examples: the reports are at 0 and at the powers of `b`. -/
theorem C57_whole_factor (dbg : Bool) (b : Nat) (hb : 2 ≤ b) (hb2 : b ≤ 2 ^ 24) (k : Nat) (hk : k ≤ 2 ^ 24) :
    ∃ bs m, TrainManager.run dbg k (TrainManager.new (.multiplicative (scale32 (f32OfNat b)))) = .ok (bs, m) ∧ bs.length = k ∧
      ∀ x, x < k → (bs[x]? = some true ↔ x = 0 ∨ ∃ c, x = b ^ c) := by
  have hk2 : k < 2 ^ 32 := by omega
  obtain ⟨m, hm⟩ := run_expected dbg k (TrainManager.new (.multiplicative (scale32 (f32OfNat b)))) (by simpa only [TrainManager.new, Nat.zero_add] using hk2)
    (fun q hq => by simp only [TrainManager.new] at hq; cases hq)
  obtain ⟨bs, m', h1, h2, h3⟩ := C57_multiplicative dbg b hb k hk2
  obtain ⟨m2, hm2⟩ := run_expected dbg k (TrainManager.new (.multiplicative (fun i => b * i))) (by simpa only [TrainManager.new, Nat.zero_add] using hk2)
    (fun q hq => by simp only [TrainManager.new] at hq; cases hq)
  rw [h1] at hm2
  simp only [Except.ok.injEq, Prod.mk.injEq] at hm2
  refine ⟨bs, m, ?_, h2, h3⟩
  rw [hm, hm2.1]
  obtain ⟨K, hK⟩ : ∃ K, K = 2 ^ 24 := ⟨_, rfl⟩
  have hw := whole_expected (b := b) (K := K) (fun i hi => by
    obtain ⟨s1, s2⟩ := scale_whole hb2 (by omega : i ≤ 2 ^ 24)
    rw [← hK] at s1 s2
    by_cases hp : b * i ≤ K
    · exact .inl (s1 hp)
    · exact .inr ⟨s2 (by omega), by omega⟩) k (by omega)
  have he : ∀ f, OutputPeriod.schedule (.multiplicative f) = f := fun f => rfl
  simp only [TrainManager.new, he]
  rw [hw]

/-- A whole factor is not exact for more examples: with the factor 3 the report after example `3^15 = 14348907` is at 43046720, not at `3^16 = 43046721`. -/
example : scale32 (f32OfNat 3) (3 ^ 15) = 3 ^ 16 - 1 := by decide +kernel

end Rml
