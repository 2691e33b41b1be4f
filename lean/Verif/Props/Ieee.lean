import Verif.Lemmas.Ieee2
import Verif.Props.Play
import Verif.Props.TrainSafe

/-!
# C97: single precision arithmetic

The operations of `f32` as modelled on bit patterns are those of IEEE 754: every result is the correctly rounded exact result. So every theorem about
"any float semantics with these laws" holds for `f32` as it is, and where nothing overflows, the rounded arithmetic of C94, C95 and C96 is that of `f32`.
-/

namespace Rml

/-- C97: `a + b`. -/
theorem C97_add (t : F32Trans) (a b : BitVec 32) (ha : IeeeFinite a) (hb : IeeeFinite b) :
    CorrectlyRounded (ieeeValue a + ieeeValue b) ((ieeeFlt t).add a b) := by
  rw [ieeeValue_eq, ieeeValue_eq]
  exact add_correct a b ha hb

/-- C97: `a - b`. -/
theorem C97_sub (t : F32Trans) (a b : BitVec 32) (ha : IeeeFinite a) (hb : IeeeFinite b) :
    CorrectlyRounded (ieeeValue a - ieeeValue b) ((ieeeFlt t).sub a b) := by
  rw [ieeeValue_eq, ieeeValue_eq]
  exact sub_correct a b ha hb

/-- C97: `a * b`. -/
theorem C97_mul (t : F32Trans) (a b : BitVec 32) (ha : IeeeFinite a) (hb : IeeeFinite b) :
    CorrectlyRounded (ieeeValue a * ieeeValue b) ((ieeeFlt t).mul a b) := by
  rw [ieeeValue_eq, ieeeValue_eq]
  exact mul_correct a b ha hb

/-- C97: `a / b`, unless `b` is zero. -/
theorem C97_div (t : F32Trans) (a b : BitVec 32) (ha : IeeeFinite a) (hb : IeeeFinite b) (h0 : ieeeValue b ≠ 0) :
    CorrectlyRounded (ieeeValue a / ieeeValue b) ((ieeeFlt t).div a b) := by
  rw [ieeeValue_eq] at h0
  rw [ieeeValue_eq, ieeeValue_eq]
  exact div_correct a b ha hb h0

/-- C97: `n as f32`. -/
theorem C97_of_nat (t : F32Trans) (n : Nat) : CorrectlyRounded n ((ieeeFlt t).ofNat n) := nat_correct n

/-- C97: a literal. -/
theorem C97_literal (t : F32Trans) (num : Int) (den : Nat) (hd : 0 < den) : CorrectlyRounded ((num : ℝ) / den) ((ieeeFlt t).lit num den) :=
  lit_correct num den hd

/-- C97: `-a` and `a.abs()` are exact. -/
theorem C97_neg_abs (t : F32Trans) (a : BitVec 32) : ieeeValue ((ieeeFlt t).neg a) = -ieeeValue a ∧ ieeeValue ((ieeeFlt t).abs a) = |ieeeValue a| := by
  constructor
  · rw [ieeeValue_eq, ieeeValue_eq]
    exact neg_val a
  · rw [ieeeValue_eq, ieeeValue_eq]
    change f32Val (a &&& 0x7fffffff#32) = |f32Val a|
    have h1 := and_mag a
    have h2 : f32Mag (a &&& 0x7fffffff#32) = f32Mag a := by
      have : f32Mag a < 2 ^ 31 := by unfold f32Mag; omega
      rw [show f32Mag (a &&& 0x7fffffff#32) = (a &&& 0x7fffffff#32).toNat % 2 ^ 31 from rfl, h1]
      omega
    have h3 : f32Sign (a &&& 0x7fffffff#32) = false := by
      unfold f32Sign
      rw [h1, decide_eq_false_iff_not]
      unfold f32Mag
      omega
    have h4 : f32Units (a &&& 0x7fffffff#32) = f32Units a := by unfold f32Units; rw [h2]
    rw [f32Val_abs, f32Val_abs, h3, h4, abs_mul, abs_of_nonneg (mul_nonneg (Nat.cast_nonneg _) tiny_pos.le)]
    cases f32Sign a <;> simp

theorem units_lt {a b : BitVec 32} (h : f32Mag a < f32Mag b) : f32Units a < f32Units b := by
  unfold f32Units
  split
  · split
    · exact h
    · rename_i h1 h2
      have : 2 ^ 23 * 1 ≤ (2 ^ 23 + f32Mag b % 2 ^ 23) * 2 ^ (f32Mag b / 2 ^ 23 - 1) := Nat.mul_le_mul (by omega) (Nat.one_le_two_pow)
      omega
  · rename_i h1
    have h2 : f32Mag b / 2 ^ 23 ≠ 0 := by omega
    rw [if_neg h2]
    by_cases he : f32Mag a / 2 ^ 23 = f32Mag b / 2 ^ 23
    · rw [he]
      exact Nat.mul_lt_mul_of_pos_right (by omega) (by positivity)
    · have hp : 2 ^ (f32Mag b / 2 ^ 23 - 1) = 2 ^ (f32Mag b / 2 ^ 23 - 1 - (f32Mag a / 2 ^ 23 - 1) - 1) * 2 * 2 ^ (f32Mag a / 2 ^ 23 - 1) := by
        rw [← pow_succ, ← pow_add]
        congr 1
        omega
      calc (2 ^ 23 + f32Mag a % 2 ^ 23) * 2 ^ (f32Mag a / 2 ^ 23 - 1) < (2 ^ 23 * 2) * 2 ^ (f32Mag a / 2 ^ 23 - 1) :=
            Nat.mul_lt_mul_of_pos_right (by omega) (by positivity)
        _ ≤ 2 ^ 23 * 2 ^ (f32Mag b / 2 ^ 23 - 1) := by
            rw [mul_assoc]
            refine Nat.mul_le_mul_left _ ?_
            rw [← pow_succ']
            exact Nat.pow_le_pow_right (by norm_num) (by omega)
        _ ≤ _ := Nat.mul_le_mul_right _ (by omega)

theorem units_lt_iff (a b : BitVec 32) : f32Units a < f32Units b ↔ f32Mag a < f32Mag b := by
  refine ⟨fun h => ?_, units_lt⟩
  by_contra hn
  rcases Nat.lt_or_eq_of_le (not_lt.1 hn) with h1 | h1
  · have := units_lt h1
    omega
  · unfold f32Units at h
    rw [h1] at h
    exact lt_irrefl _ h

theorem val_lt_iff (a b : BitVec 32) : ieeeValue a < ieeeValue b ↔ f32Key a < f32Key b := by
  rw [ieeeValue_eq, ieeeValue_eq]
  unfold f32Val
  rw [mul_lt_mul_iff_left₀ tiny_pos, Int.cast_lt]
  have h1 := units_lt_iff a b
  have h2 := units_lt_iff b a
  have h3 : f32Units a = 0 ↔ f32Mag a = 0 := ⟨mag_zero_of_units, units_zero⟩
  have h4 : f32Units b = 0 ↔ f32Mag b = 0 := ⟨mag_zero_of_units, units_zero⟩
  unfold f32Int f32Key
  split <;> split <;> omega

/-- C97: comparisons of finite numbers are those of their values. -/
theorem C97_compare (t : F32Trans) (a b : BitVec 32) (ha : IeeeFinite a) (hb : IeeeFinite b) :
    ((ieeeFlt t).lt a b = true ↔ ieeeValue a < ieeeValue b) ∧ ((ieeeFlt t).le a b = true ↔ ieeeValue a ≤ ieeeValue b) ∧
      ((ieeeFlt t).eq a b = true ↔ ieeeValue a = ieeeValue b) := by
  obtain ⟨a1, _⟩ := fin_of a ha
  obtain ⟨b1, _⟩ := fin_of b hb
  have h1 := val_lt_iff a b
  have h2 := val_lt_iff b a
  refine ⟨?_, ?_, ?_⟩
  · change (!f32IsNaN a && !f32IsNaN b && decide (f32Key a < f32Key b)) = true ↔ _
    rw [a1, b1, h1]
    simp
  · change (!f32IsNaN a && !f32IsNaN b && decide (f32Key a ≤ f32Key b)) = true ↔ _
    rw [a1, b1, ← not_lt (a := ieeeValue b), h2]
    simp
  · change (!f32IsNaN a && !f32IsNaN b && decide (f32Key a = f32Key b)) = true ↔ _
    have h3 : ieeeValue a = ieeeValue b ↔ f32Key a = f32Key b := by
      constructor
      · intro h
        rw [h] at h1 h2
        have := lt_irrefl (ieeeValue b)
        have q1 : ¬ f32Key a < f32Key b := fun q => this (h1.2 q)
        have q2 : ¬ f32Key b < f32Key a := fun q => this (h2.2 q)
        omega
      · intro h
        rw [h] at h1 h2
        have q1 : ¬ ieeeValue a < ieeeValue b := fun q => absurd (h1.1 q) (lt_irrefl _)
        have q2 : ¬ ieeeValue b < ieeeValue a := fun q => absurd (h2.1 q) (lt_irrefl _)
        exact le_antisymm (not_lt.1 q2) (not_lt.1 q1)
    rw [a1, b1, h3]
    simp

/-- C97: nothing is less than, at most or equal to NaN. -/
theorem C97_compare_nan (t : F32Trans) (a b : BitVec 32) (h : IeeeNaN a ∨ IeeeNaN b) :
    (ieeeFlt t).lt a b = false ∧ (ieeeFlt t).le a b = false ∧ (ieeeFlt t).eq a b = false := by
  rw [ieeeNaN_iff, ieeeNaN_iff] at h
  refine ⟨?_, ?_, ?_⟩
  · change (!f32IsNaN a && !f32IsNaN b && decide (f32Key a < f32Key b)) = false
    rcases h with h | h <;> rw [h] <;> simp
  · change (!f32IsNaN a && !f32IsNaN b && decide (f32Key a ≤ f32Key b)) = false
    rcases h with h | h <;> rw [h] <;> simp
  · change (!f32IsNaN a && !f32IsNaN b && decide (f32Key a = f32Key b)) = false
    rcases h with h | h <;> rw [h] <;> simp

theorem nan_make (s : Bool) {m : Nat} (h : m ≤ 0x7f800000) : f32IsNaN (f32Make s m) = false := by
  rw [mag_le_inf, f32Mag_make s (by omega)]
  exact h

theorem inf_not_nan {b : BitVec 32} (h : f32IsInf b = true) : f32IsNaN b = false := by
  unfold f32IsInf at h
  rw [decide_eq_true_eq] at h
  rw [mag_le_inf]
  omega

/-- C97: which sums are NaN. -/
theorem C97_add_nan (t : F32Trans) (a b : BitVec 32) :
    IeeeNaN ((ieeeFlt t).add a b) ↔ IeeeNaN a ∨ IeeeNaN b ∨ IeeeInf a ∧ IeeeInf b ∧ ieeeSign a ≠ ieeeSign b := by
  rw [ieeeNaN_iff, ieeeNaN_iff, ieeeNaN_iff, ieeeInf_iff, ieeeInf_iff, ieeeSign_eq, ieeeSign_eq]
  change f32IsNaN (f32Add a b) = true ↔ _
  unfold f32Add
  cases ha : f32IsNaN a
  case true => simp [nan_nan]
  cases hb : f32IsNaN b
  case true => simp [nan_nan]
  cases hia : f32IsInf a
  · cases hib : f32IsInf b
    · simp only [Bool.or_self, Bool.false_eq_true, if_false, false_and, or_false, iff_false, Bool.not_eq_true]
      split
      · exact nan_make _ (by norm_num)
      · exact make_num _ _ _
    · simp [hb]
  · cases hib : f32IsInf b
    · simp [ha]
    · cases f32Sign a <;> cases f32Sign b <;> simp [ha, nan_nan]

/-- C97: which products are NaN. -/
theorem C97_mul_nan (t : F32Trans) (a b : BitVec 32) :
    IeeeNaN ((ieeeFlt t).mul a b) ↔ IeeeNaN a ∨ IeeeNaN b ∨ IeeeInf a ∧ ieeeValue b = 0 ∨ ieeeValue a = 0 ∧ IeeeInf b := by
  have hz : ∀ c, ieeeValue c = 0 ↔ f32Mag c = 0 := by
    intro c
    rw [ieeeValue_eq]
    refine ⟨fun h => ?_, fun h => by rw [f32Val_abs, units_zero h]; simp⟩
    refine mag_zero_of_units ?_
    unfold f32Val at h
    rcases mul_eq_zero.1 h with h | h
    · have : f32Int c = 0 := by exact_mod_cast h
      unfold f32Int at this
      split at this <;> omega
    · exact absurd h tiny_pos.ne'
  rw [ieeeNaN_iff, ieeeNaN_iff, ieeeNaN_iff, ieeeInf_iff, ieeeInf_iff, hz, hz]
  change f32IsNaN (f32Mul a b) = true ↔ _
  unfold f32Mul
  cases ha : f32IsNaN a
  case true => simp [nan_nan]
  cases hb : f32IsNaN b
  case true => simp [nan_nan]
  by_cases hia : f32IsInf a = true
  · have h1 : f32Mag a ≠ 0 := by
      intro h
      rw [not_inf_of_zero h] at hia
      exact absurd hia (by decide)
    by_cases h2 : f32Mag b = 0
    · simp [hia, h2, nan_nan]
    · simp [hia, h1, h2, nan_make]
  · rw [Bool.not_eq_true] at hia
    by_cases hib : f32IsInf b = true
    · have h1 : f32Mag b ≠ 0 := by
        intro h
        rw [not_inf_of_zero h] at hib
        exact absurd hib (by decide)
      by_cases h2 : f32Mag a = 0
      · simp [hib, h2, nan_nan]
      · simp [hia, hib, h1, h2, nan_make]
    · rw [Bool.not_eq_true] at hib
      simp [hia, hib, make_num]

/-- C97: which quotients are NaN. -/
theorem C97_div_nan (t : F32Trans) (a b : BitVec 32) :
    IeeeNaN ((ieeeFlt t).div a b) ↔ IeeeNaN a ∨ IeeeNaN b ∨ IeeeInf a ∧ IeeeInf b ∨ ieeeValue a = 0 ∧ ieeeValue b = 0 := by
  have hz : ∀ c, ieeeValue c = 0 ↔ f32Mag c = 0 := by
    intro c
    rw [ieeeValue_eq]
    refine ⟨fun h => ?_, fun h => by rw [f32Val_abs, units_zero h]; simp⟩
    refine mag_zero_of_units ?_
    unfold f32Val at h
    rcases mul_eq_zero.1 h with h | h
    · have : f32Int c = 0 := by exact_mod_cast h
      unfold f32Int at this
      split at this <;> omega
    · exact absurd h tiny_pos.ne'
  rw [ieeeNaN_iff, ieeeNaN_iff, ieeeNaN_iff, ieeeInf_iff, ieeeInf_iff, hz, hz]
  change f32IsNaN (f32Div a b) = true ↔ _
  unfold f32Div
  cases ha : f32IsNaN a
  case true => simp [nan_nan]
  cases hb : f32IsNaN b
  case true => simp [nan_nan]
  by_cases hia : f32IsInf a = true
  · have h1 : f32Mag a ≠ 0 := by
      intro h
      rw [not_inf_of_zero h] at hia
      exact absurd hia (by decide)
    cases hib : f32IsInf b
    · simp [hia, h1, nan_make]
    · simp [hia, nan_nan]
  · rw [Bool.not_eq_true] at hia
    by_cases hib : f32IsInf b = true
    · have h1 : f32Mag b ≠ 0 := by
        intro h
        rw [not_inf_of_zero h] at hib
        exact absurd hib (by decide)
      simp [hia, hib, h1, nan_make]
    · rw [Bool.not_eq_true] at hib
      by_cases h2 : f32Mag b = 0
      · by_cases h1 : f32Mag a = 0
        · simp [hia, hib, h1, h2, nan_nan]
        · simp [hia, hib, h1, h2, nan_make]
      · simp [hia, hib, h2, make_num]

/-! ### The rounding function of C94, C95 and C96 -/

/-- Two patterns that are correctly rounded from the same number have the same value, `fl32` of this number. -/
theorem make_rounded (s : Bool) (num den : Nat) (hd : 0 < den) (x : ℝ) (hx : x = (if s then -1 else 1) * ((num : ℝ) / den * (2 : ℝ) ^ (-149 : ℤ)))
    (h : IeeeFinite (f32Make s (encMag num den))) : ieeeValue (f32Make s (encMag num den)) = fl32 x := by
  rw [ieeeFinite_iff, f32Mag_make s (encMag_lt num den)] at h
  rw [ieeeValue_eq, f32Val_abs, f32Sign_make s (encMag_lt num den), units_make s num den h, ← fl32_units num den hd, hx]
  cases s
  · simp
  · simp only [if_true, neg_one_mul]
    rw [fl32_neg]

theorem zero_rounded (s : Bool) : ieeeValue (f32Make s 0) = 0 := by
  have h : f32Mag (f32Make s 0) = 0 := f32Mag_make s (by norm_num)
  rw [ieeeValue_eq, f32Val_abs, units_zero h]
  simp

theorem add_rounded (a b : BitVec 32) (ha : IeeeFinite a) (hb : IeeeFinite b) (h : IeeeFinite (f32Add a b)) :
    ieeeValue (f32Add a b) = fl32 (ieeeValue a + ieeeValue b) := by
  obtain ⟨a1, a2⟩ := fin_of a ha
  obtain ⟨b1, b2⟩ := fin_of b hb
  have hv : ieeeValue a + ieeeValue b = ((f32Int a + f32Int b : ℤ) : ℝ) * (2 : ℝ) ^ (-149 : ℤ) := by
    rw [ieeeValue_eq, ieeeValue_eq]
    unfold f32Val
    push_cast
    ring
  unfold f32Add at h ⊢
  rw [a1, b1, a2, b2] at h ⊢
  simp only [Bool.or_false, Bool.false_eq_true, if_false] at h ⊢
  rw [hv]
  by_cases h0 : f32Int a + f32Int b = 0
  · rw [if_pos h0, h0, zero_rounded]
    rw [Int.cast_zero, zero_mul, fl32_zero]
  · rw [if_neg h0] at h ⊢
    refine make_rounded _ _ 1 (by norm_num) _ ?_ h
    generalize f32Int a + f32Int b = z
    have hz : (z : ℝ) = (if decide (z < 0) = true then -1 else 1) * (z.natAbs : ℝ) := by
      have : z = (if decide (z < 0) = true then -1 else 1) * (z.natAbs : ℤ) := by
        split <;> rename_i h <;> rw [decide_eq_true_eq] at h <;> omega
      rw [← Int.cast_natCast (R := ℝ)]
      exact_mod_cast this
    rw [Nat.cast_one, div_one, ← mul_assoc, ← hz]

/-- C97: a finite result has the value that the rounding function of C94, C95 and C96 gives. -/
theorem C97_rounding (t : F32Trans) (a b : BitVec 32) (ha : IeeeFinite a) (hb : IeeeFinite b) :
    (IeeeFinite ((ieeeFlt t).add a b) → ieeeValue ((ieeeFlt t).add a b) = fl32 (ieeeValue a + ieeeValue b)) ∧
    (IeeeFinite ((ieeeFlt t).sub a b) → ieeeValue ((ieeeFlt t).sub a b) = fl32 (ieeeValue a - ieeeValue b)) ∧
    (IeeeFinite ((ieeeFlt t).mul a b) → ieeeValue ((ieeeFlt t).mul a b) = fl32 (ieeeValue a * ieeeValue b)) ∧
    (ieeeValue b ≠ 0 → IeeeFinite ((ieeeFlt t).div a b) → ieeeValue ((ieeeFlt t).div a b) = fl32 (ieeeValue a / ieeeValue b)) := by
  obtain ⟨a1, a2⟩ := fin_of a ha
  obtain ⟨b1, b2⟩ := fin_of b hb
  refine ⟨add_rounded a b ha hb, fun h => ?_, fun h => ?_, fun h0 h => ?_⟩
  · have := add_rounded a (f32Neg b) ha (by rw [ieeeFinite_iff, neg_mag, ← ieeeFinite_iff]; exact hb) h
    rw [ieeeValue_eq (f32Neg b), neg_val, ← ieeeValue_eq, ← sub_eq_add_neg] at this
    exact this
  · change IeeeFinite (f32Mul a b) at h
    change ieeeValue (f32Mul a b) = _
    unfold f32Mul at h ⊢
    rw [a1, b1, a2, b2] at h ⊢
    simp only [Bool.or_false, Bool.false_eq_true, if_false] at h ⊢
    refine make_rounded _ _ _ (by positivity) _ ?_ h
    rw [ieeeValue_eq, ieeeValue_eq, f32Val_abs, f32Val_abs, ← sign_mul, cast_tiny, Nat.cast_mul]
    have : (2 : ℝ) ^ (-149 : ℤ) = 1 / 2 ^ 149 := by
      rw [eq_div_iff (by positivity), mul_comm]
      exact tiny_mul
    rw [this]
    ring
  · rw [ieeeValue_eq] at h0
    have hm := val_ne_zero b h0
    have hu : 0 < f32Units b := Nat.pos_of_ne_zero fun h => hm (mag_zero_of_units h)
    change IeeeFinite (f32Div a b) at h
    change ieeeValue (f32Div a b) = _
    unfold f32Div at h ⊢
    rw [a1, b1, a2, b2] at h ⊢
    simp only [Bool.or_false, Bool.false_eq_true, if_false, hm] at h ⊢
    refine make_rounded _ _ _ hu _ ?_ h
    rw [ieeeValue_eq, ieeeValue_eq, f32Val_abs, f32Val_abs, ← sign_div, Nat.cast_mul, cast_tiny, scale_tiny, mul_div_mul_comm, mul_div_mul_right _ _ tiny_pos.ne']

/-! ### Concrete cases: the bits that hardware gives -/

/-- Square roots and the like play no part here. -/
def noTrans : F32Trans := ⟨id, id, fun a _ => a, id⟩

/-- 0.1 is 0x3dcccccd, 0.2 is 0x3e4ccccd, and their sum is 0x3e99999a. -/
example : (ieeeFlt noTrans).lit 1 10 = 0x3dcccccd#32 ∧ (ieeeFlt noTrans).lit 2 10 = 0x3e4ccccd#32 ∧ (ieeeFlt noTrans).add 0x3dcccccd#32 0x3e4ccccd#32 = 0x3e99999a#32 ∧
    IeeeFinite 0x3dcccccd#32 ∧ IeeeFinite 0x3e4ccccd#32 := by
  refine ⟨by decide +kernel, by decide +kernel, by decide +kernel, by unfold IeeeFinite; decide +kernel, by unfold IeeeFinite; decide +kernel⟩

/-- `1.0 / 3.0` is 0x3eaaaaab; the largest number plus its half unit overflows; the smallest number halved is 0 (a tie, to even). -/
example : (ieeeFlt noTrans).div 0x3f800000#32 0x40400000#32 = 0x3eaaaaab#32 ∧ (ieeeFlt noTrans).add 0x7f7fffff#32 0x73000000#32 = 0x7f800000#32 ∧
    (ieeeFlt noTrans).mul 0x00000001#32 0x3f000000#32 = 0#32 ∧ (ieeeFlt noTrans).mul 0x00000003#32 0x3f000000#32 = 2#32 := by
  refine ⟨by decide +kernel, by decide +kernel, by decide +kernel, by decide +kernel⟩

/-- 2^24 + 1 is no `f32`: `16777217 as f32` is 16777216. -/
example : (ieeeFlt noTrans).ofNat 16777217 = 0x4b800000#32 ∧ (ieeeFlt noTrans).ofNat 16777216 = 0x4b800000#32 := by
  refine ⟨by decide +kernel, by decide +kernel⟩

/-! ### Signs and infinities -/

theorem value_zero_iff (c : BitVec 32) : ieeeValue c = 0 ↔ f32Mag c = 0 := by
  rw [ieeeValue_eq]
  refine ⟨fun h => ?_, fun h => by rw [f32Val_abs, units_zero h]; simp⟩
  refine mag_zero_of_units ?_
  unfold f32Val at h
  rcases mul_eq_zero.1 h with h | h
  · have : f32Int c = 0 := by exact_mod_cast h
    unfold f32Int at this
    split at this <;> omega
  · exact absurd h tiny_pos.ne'

theorem inf_make (s : Bool) : IeeeInf (f32Make s 0x7f800000) := by
  rw [ieeeInf_iff]
  unfold f32IsInf
  rw [f32Mag_make s (by norm_num), decide_eq_true_eq]

theorem sign_make (s : Bool) {m : Nat} (h : m < 2 ^ 31) : ieeeSign (f32Make s m) = s := by
  rw [ieeeSign_eq, f32Sign_make s h]

theorem mag_of_inf {a : BitVec 32} (h : IeeeInf a) : f32Mag a ≠ 0 := by
  rw [ieeeInf_iff] at h
  intro h0
  rw [not_inf_of_zero h0] at h
  exact absurd h (by decide)

theorem not_nan_of_inf {a : BitVec 32} (h : IeeeInf a) : f32IsNaN a = false := by
  rw [ieeeInf_iff] at h
  unfold f32IsInf at h
  rw [mag_le_inf]
  simp only [decide_eq_true_eq] at h
  omega

/-- C97: sums with infinities, and the sign of sums that are 0: `-0` only for `-0 + -0`. -/
theorem C97_add_special (t : F32Trans) (a b : BitVec 32) :
    (IeeeInf a → ¬ IeeeNaN b → (IeeeInf b → ieeeSign b = ieeeSign a) → (ieeeFlt t).add a b = a) ∧
    (IeeeInf b → ¬ IeeeNaN a → (IeeeInf a → ieeeSign a = ieeeSign b) → (ieeeFlt t).add a b = b) ∧
    (IeeeFinite a → IeeeFinite b → ieeeValue a + ieeeValue b = 0 → (ieeeSign ((ieeeFlt t).add a b) = true ↔ ieeeSign a = true ∧ ieeeSign b = true)) := by
  change (_ → _ → _ → f32Add a b = a) ∧ (_ → _ → _ → f32Add a b = b) ∧ (_ → _ → _ → (ieeeSign (f32Add a b) = true ↔ _))
  refine ⟨fun ha hb hs => ?_, fun hb ha hs => ?_, fun ha hb h => ?_⟩
  · have h1 := not_nan_of_inf ha
    rw [ieeeNaN_iff, Bool.not_eq_true] at hb
    rw [ieeeInf_iff] at ha hs
    rw [ieeeSign_eq, ieeeSign_eq] at hs
    unfold f32Add
    rw [h1, hb, ha]
    cases hi : f32IsInf b
    · simp
    · rw [hs hi]; simp
  · have h1 := not_nan_of_inf hb
    have hb' := hb
    rw [ieeeNaN_iff, Bool.not_eq_true] at ha
    rw [ieeeInf_iff] at hb hs
    rw [ieeeSign_eq, ieeeSign_eq] at hs
    unfold f32Add
    rw [h1, ha, hb]
    cases hi : f32IsInf a
    · simp
    · have hsg := hs hi
      rw [hsg]
      simp only [Bool.or_self, Bool.false_eq_true, if_false, if_true, bne_self_eq_false, Bool.and_false]
      have e1 : f32Mag a = f32Mag b := by
        unfold f32IsInf at hi hb
        simp only [decide_eq_true_eq] at hi hb
        omega
      unfold f32Sign at hsg
      unfold f32Mag at e1
      apply BitVec.eq_of_toNat_eq
      have := a.isLt
      have := b.isLt
      simp only [decide_eq_decide] at hsg
      omega
  · obtain ⟨a1, a2⟩ := fin_of a ha
    obtain ⟨b1, b2⟩ := fin_of b hb
    have hz : f32Int a + f32Int b = 0 := by
      rw [ieeeValue_eq, ieeeValue_eq] at h
      unfold f32Val at h
      rw [← add_mul] at h
      rcases mul_eq_zero.1 h with h | h
      · exact_mod_cast h
      · exact absurd h tiny_pos.ne'
    unfold f32Add
    rw [a1, b1, a2, b2, hz]
    simp only [Bool.or_self, Bool.false_eq_true, if_false, if_true]
    rw [sign_make _ (by norm_num), ieeeSign_eq, ieeeSign_eq, Bool.and_eq_true]

/-- C97: the sign of every product, also of 0 and of infinity, and the products of infinities. -/
theorem C97_mul_special (t : F32Trans) (a b : BitVec 32) (h : ¬ IeeeNaN ((ieeeFlt t).mul a b)) :
    (ieeeSign ((ieeeFlt t).mul a b) = true ↔ ieeeSign a ≠ ieeeSign b) ∧ (IeeeInf a ∨ IeeeInf b → IeeeInf ((ieeeFlt t).mul a b)) := by
  change ¬ IeeeNaN (f32Mul a b) at h
  change (ieeeSign (f32Mul a b) = true ↔ _) ∧ (_ → IeeeInf (f32Mul a b))
  rw [ieeeInf_iff a, ieeeInf_iff b, ieeeSign_eq a, ieeeSign_eq b]
  unfold f32Mul at h ⊢
  split at h
  · exact absurd ((ieeeNaN_iff _).2 nan_nan) h
  · rename_i h1
    rw [if_neg h1]
    split at h
    · rename_i h2
      rw [if_pos h2]
      split at h
      · exact absurd ((ieeeNaN_iff _).2 nan_nan) h
      · rename_i h3
        rw [if_neg h3, sign_make _ (by norm_num)]
        exact ⟨by simp, fun _ => inf_make _⟩
    · rename_i h2
      rw [if_neg h2, sign_make _ (encMag_lt _ _)]
      refine ⟨by simp, fun hi => absurd ?_ h2⟩
      rw [Bool.or_eq_true]
      exact hi

/-- C97: the sign of every quotient, also of 0 and of infinity; infinity divided by a number is infinity, a number divided by infinity is 0, and a number
other than 0 divided by 0 is infinity. -/
theorem C97_div_special (t : F32Trans) (a b : BitVec 32) (h : ¬ IeeeNaN ((ieeeFlt t).div a b)) :
    (ieeeSign ((ieeeFlt t).div a b) = true ↔ ieeeSign a ≠ ieeeSign b) ∧ (IeeeInf a ∨ ieeeValue b = 0 → IeeeInf ((ieeeFlt t).div a b)) ∧
    (IeeeInf b → IeeeFinite ((ieeeFlt t).div a b) ∧ ieeeValue ((ieeeFlt t).div a b) = 0) := by
  change ¬ IeeeNaN (f32Div a b) at h
  change (ieeeSign (f32Div a b) = true ↔ _) ∧ (_ → IeeeInf (f32Div a b)) ∧ (_ → IeeeFinite (f32Div a b) ∧ ieeeValue (f32Div a b) = 0)
  rw [value_zero_iff, value_zero_iff, ieeeInf_iff a, ieeeInf_iff b, ieeeSign_eq a, ieeeSign_eq b]
  have hn : ∀ {c : BitVec 32}, c = f32NaN → ¬ IeeeNaN c → False := by
    intro c e hc
    rw [e] at hc
    exact hc ((ieeeNaN_iff _).2 nan_nan)
  unfold f32Div at h ⊢
  by_cases h1 : (f32IsNaN a || f32IsNaN b) = true
  · rw [if_pos h1] at h; exact (hn rfl h).elim
  rw [if_neg h1] at h ⊢
  by_cases h2 : f32IsInf a = true
  · rw [if_pos h2] at h ⊢
    by_cases h3 : f32IsInf b = true
    · rw [if_pos h3] at h; exact (hn rfl h).elim
    · rw [if_neg h3, sign_make _ (by norm_num)]
      exact ⟨by simp, fun _ => inf_make _, fun hb => absurd hb h3⟩
  rw [if_neg h2] at h ⊢
  by_cases h3 : f32IsInf b = true
  · have hb := mag_of_inf ((ieeeInf_iff b).2 h3)
    rw [if_pos h3, sign_make _ (by norm_num), ieeeFinite_iff, f32Mag_make _ (by norm_num)]
    exact ⟨by simp, fun hq => (hq.elim h2 hb).elim, fun _ => ⟨by norm_num, rfl⟩⟩
  rw [if_neg h3] at h ⊢
  by_cases h4 : f32Mag b = 0
  · rw [if_pos h4] at h ⊢
    by_cases h5 : f32Mag a = 0
    · rw [if_pos h5] at h; exact (hn rfl h).elim
    · rw [if_neg h5, sign_make _ (by norm_num)]
      exact ⟨by simp, fun _ => inf_make _, fun hb => absurd hb h3⟩
  · rw [if_neg h4, sign_make _ (encMag_lt _ _)]
    exact ⟨by simp, fun hq => (hq.elim h2 h4).elim, fun hb => absurd hb h3⟩

/-- C97: the sign bit of `-a` is the other one, also for 0 and infinity, and that of `a.abs()` is off. -/
theorem C97_neg_abs_sign (t : F32Trans) (a : BitVec 32) : ieeeSign ((ieeeFlt t).neg a) = !ieeeSign a ∧ ieeeSign ((ieeeFlt t).abs a) = false ∧
    (IeeeInf ((ieeeFlt t).neg a) ↔ IeeeInf a) ∧ (IeeeInf ((ieeeFlt t).abs a) ↔ IeeeInf a) := by
  have h1 := and_mag a
  have h2 : f32Mag (a &&& 0x7fffffff#32) = f32Mag a := by
    have : f32Mag a < 2 ^ 31 := by unfold f32Mag; omega
    rw [show f32Mag (a &&& 0x7fffffff#32) = (a &&& 0x7fffffff#32).toNat % 2 ^ 31 from rfl, h1]
    omega
  refine ⟨?_, ?_, ?_, ?_⟩
  · rw [ieeeSign_eq, ieeeSign_eq]; exact neg_sign a
  · rw [ieeeSign_eq]
    change f32Sign (a &&& 0x7fffffff#32) = false
    unfold f32Sign
    rw [h1, decide_eq_false_iff_not]
    unfold f32Mag
    omega
  · rw [ieeeInf_iff, ieeeInf_iff]
    change f32IsInf (f32Neg a) = true ↔ _
    unfold f32IsInf
    rw [neg_mag]
  · rw [ieeeInf_iff, ieeeInf_iff]
    change f32IsInf (a &&& 0x7fffffff#32) = true ↔ _
    unfold f32IsInf
    rw [h2]

/-- C97: differences with infinities, and the sign of differences that are 0: `-0` only for `-0 - 0`. -/
theorem C97_sub_special (t : F32Trans) (a b : BitVec 32) :
    (IeeeInf a → ¬ IeeeNaN b → (IeeeInf b → ieeeSign b ≠ ieeeSign a) → (ieeeFlt t).sub a b = a) ∧
    (IeeeInf b → ¬ IeeeNaN a → (IeeeInf a → ieeeSign a ≠ ieeeSign b) → (ieeeFlt t).sub a b = (ieeeFlt t).neg b) ∧
    (IeeeFinite a → IeeeFinite b → ieeeValue a = ieeeValue b → (ieeeSign ((ieeeFlt t).sub a b) = true ↔ ieeeSign a = true ∧ ieeeSign b = false)) := by
  obtain ⟨s1, _, i1, _⟩ := C97_neg_abs_sign t b
  obtain ⟨v1, _⟩ := C97_neg_abs t b
  obtain ⟨h1, h2, h3⟩ := C97_add_special t a ((ieeeFlt t).neg b)
  have n1 : IeeeNaN ((ieeeFlt t).neg b) ↔ IeeeNaN b := by
    rw [ieeeNaN_iff, ieeeNaN_iff]
    change f32IsNaN (f32Neg b) = true ↔ _
    unfold f32IsNaN
    rw [neg_mag]
  have f1 : IeeeFinite ((ieeeFlt t).neg b) ↔ IeeeFinite b := by
    rw [ieeeFinite_iff, ieeeFinite_iff]
    change f32Mag (f32Neg b) < _ ↔ _
    rw [neg_mag]
  rw [s1, i1, n1] at h1
  rw [s1, i1] at h2
  rw [s1, f1, v1] at h3
  change (_ → _ → _ → (ieeeFlt t).add a ((ieeeFlt t).neg b) = _) ∧ (_ → _ → _ → (ieeeFlt t).add a ((ieeeFlt t).neg b) = _) ∧
    (_ → _ → _ → (ieeeSign ((ieeeFlt t).add a ((ieeeFlt t).neg b)) = true ↔ _))
  refine ⟨fun ha hb hs => h1 ha hb fun hi => ?_, fun hb ha hs => h2 hb ha fun hi => ?_, fun ha hb h => ?_⟩
  · have := hs hi
    cases hx : ieeeSign a <;> cases hy : ieeeSign b <;> simp_all
  · have := hs hi
    cases hx : ieeeSign a <;> cases hy : ieeeSign b <;> simp_all
  · rw [h3 ha hb (by rw [h]; ring)]
    simp

/-- `-1 / inf` is `-0`, `1 / -0` is `-inf`, `0 - 0` is `0` and `-0 - 0` is `-0`. -/
example : (ieeeFlt noTrans).div 0xbf800000#32 0x7f800000#32 = 0x80000000#32 ∧ (ieeeFlt noTrans).div 0x3f800000#32 0x80000000#32 = 0xff800000#32 ∧
    (ieeeFlt noTrans).sub 0#32 0#32 = 0#32 ∧ (ieeeFlt noTrans).sub 0x80000000#32 0#32 = 0x80000000#32 := by
  refine ⟨by decide +kernel, by decide +kernel, by decide +kernel, by decide +kernel⟩

/-! ### The theorems about "any float semantics", for `f32` -/

theorem zero_lt_one_ieee (t : F32Trans) : (ieeeFlt t).lt (ieeeFlt t).zero (ieeeFlt t).one = true := by
  change f32Lt 0#32 0x3f800000#32 = true
  decide +kernel

section corollaries
open Serde Text
variable [t : F32Trans]

/-- Numbers are `f32`. -/
@[reducible] local instance f32Numbers : Flt (BitVec 32) := ieeeFlt t
local instance f32Cmp : LawfulCmp (BitVec 32) := lawfulCmp_ieee t
local instance f32Zero : LawfulZero (BitVec 32) := lawfulZero_ieee t
local instance f32SignedZero : SignedZero (BitVec 32) := signedZero_ieee t

/-- C36 for `f32`: a trained regressor predicts, without a panic, a number between the least and the greatest of 0 and the labels it has seen. -/
theorem C36_ieee (dbg : Bool) (hash : HashFn) (cfg : CoinConfig (BitVec 32)) (g : GlobalConfig) (hl : cfg.lossFunction = .squared) (hk : cfg.linkFunction = .identity)
    (es : List (TrainEx (BitVec 32))) (c : Coin (BitVec 32)) (hc : Coin.Reached dbg hash cfg g es c) (f : SparseFeatures (BitVec 32)) (hf : f.Fits g.numBits) :
    ∃ p raw, c.predict dbg f = .ok (p, raw) ∧ f32IsNaN p = false ∧
      (∃ lo ∈ 0#32 :: es.map (·.label), f32Le lo p = true) ∧ (∃ hi ∈ 0#32 :: es.map (·.label), f32Le p hi = true) :=
  C36_f32 (ieeeOps t) lit_mono_ieee dbg hash cfg g hl hk es c hc f hf

/-- C40 for `f32`: what shares no weight with a training example has raw prediction 0. -/
theorem C40_ieee (dbg : Bool) (hash : HashFn) (cfg : CoinConfig (BitVec 32)) (g : GlobalConfig)
    (es : List (TrainEx (BitVec 32))) (c : Coin (BitVec 32)) (hc : Coin.Reached dbg hash cfg g es c) (f : SparseFeatures (BitVec 32))
    (hd : ∀ e ∈ es, ∀ i, c.Touches e.feats i → ¬ c.Touches f i) (p raw : BitVec 32) (hp : c.predict dbg f = .ok (p, raw)) :
    ieeeValue raw = 0 ∧ IeeeFinite raw := by
  have h := C40_zero_until_trained dbg hash cfg g es c hc f hd p raw hp
  have h := (eq_zero_iff t raw).1 h
  exact ⟨by rw [ieeeValue_eq, f32Val_abs, units_zero h]; simp, (ieeeFinite_iff _).2 (by omega)⟩

/-- C59 for `f32`: a workspace that was saved in binary form after any history and loaded again behaves the same from then on. -/
theorem C59_ieee (dbg : Bool) (hash : HashFn) (g : GlobalConfig) (c : RedConfig (BitVec 32)) (w : Workspace (BitVec 32))
    (hw : Workspace.new hash g c = .ok w) (ex : Nat → Features (BitVec 32)) (before : List (Call (BitVec 32))) (S : Session (BitVec 32)) (os)
    (h : Session.run dbg ⟨w, ex⟩ before = .ok (S, os)) :
    ∃ m', createFromModel (serializeModel ⟨g, S.w⟩) = .ok m' ∧ m'.global = g ∧
      ∀ ex' after, SameOutcome g (Session.run dbg ⟨S.w, ex'⟩ after) (Session.run dbg ⟨m'.ws, ex'⟩ after) :=
  C59_save_load_same_behaviour dbg hash g c w hw ex before S os h

/-- C08 for `f32`: the same for JSON, as long as all weights are finite. -/
theorem C08_ieee (fin : BitVec 32 → Bool) (hf0 : fin 0#32 = true)
    (order : List (Nat × List (List (BitVec 32))) → List (Nat × List (List (BitVec 32)))) (horder : ∀ l, (order l).Perm l) (dbg : Bool) (hash : HashFn)
    (g : GlobalConfig) (c : RedConfig (BitVec 32)) (w : Workspace (BitVec 32)) (hw : Workspace.new hash g c = .ok w) (ex : Nat → Features (BitVec 32))
    (before : List (Call (BitVec 32))) (S : Session (BitVec 32)) (os) (h : Session.run dbg ⟨w, ex⟩ before = .ok (S, os)) (hfin : FinRed fin S.w.red S.w.st) :
    ∃ j m', serializeToJson fin order ⟨g, S.w⟩ = .ok j ∧ deserializeFromJson fin j = .ok m' ∧ m'.global = g ∧
      ∀ ex' after, SameOutcome g (Session.run dbg ⟨S.w, ex'⟩ after) (Session.run dbg ⟨m'.ws, ex'⟩ after) := by
  obtain ⟨j, m', h1, _, h2, h3, h4⟩ := C08_json_same_behaviour fin hf0 order horder dbg hash g c w hw ex before S os h hfin
  exact ⟨j, m', h1, h2, h3, h4⟩

/-- C79 for `f32`: no history of well-formed calls panics. -/
theorem C79_ieee (dbg : Bool) (hash : HashFn) (g : GlobalConfig) (c : RedConfig (BitVec 32)) (w : Workspace (BitVec 32)) (h : Workspace.new hash g c = .ok w)
    (ty : StackType) (ht : c.typeOf = some ty) (he : c.NoElementwise) (hu : c.NoUniform) (ex : Nat → Features (BitVec 32))
    (calls : List (Call (BitVec 32))) (hc : ∀ call ∈ calls, SafeCall dbg g.numBits c ty ex call) :
    ∃ r, Session.run dbg ⟨w, ex⟩ calls = .ok r :=
  C79_f32 (ieeeOps t) lit_mono_ieee dbg hash g c w h ty ht he hu ex calls hc

open Cli in
/-- C69 for `f32`: training on `A`, saving, and training further on `B` is training on `A` followed by `B`. -/
theorem C69_ieee {N : Type} (x : Externals (BitVec 32) N) (fmt : DataFormat) (input : Input (BitVec 32)) (hs : Saved x input) (m : Serde.Model (BitVec 32))
    (hm : input.load x.hash = .ok m) (A B : Str) (hA : WholeExamples (spansLines fmt m) A) (hcA : Clean x fmt A) (hcB : Clean x fmt B)
    (a1 a2 a : TrainArgs) (out1 out2 out : TrainOutput (BitVec 32)) (h1 : Train x a1 fmt input A out1) (h2 : Train x a2 fmt (.inputModel out1.model) B out2)
    (h : Train x a fmt input (A ++ B) out) :
    out.model = out2.model ∧
      (a1.predictions = true → a2.predictions = true → a.predictions = true → out.predictions = out1.predictions ++ out2.predictions) :=
  C69_resumed_training x fmt input hs m hm A B hA hcA hcB a1 a2 a out1 out2 out h1 h2 h

open Cli in
/-- C77 for `f32`: `train` learns the examples of the data in their order, and writes the predictions that were made before. -/
theorem C77_ieee {N : Type} (x : Externals (BitVec 32) N) (fmt : DataFormat) (input : Input (BitVec 32)) (hs : Saved x input) (m : Serde.Model (BitVec 32))
    (hm : input.load x.hash = .ok m) (data : Str) (hc : Clean x fmt data) (a : TrainArgs) (out : TrainOutput (BitVec 32)) (h : Train x a fmt input data out) :
    FormatFits fmt m ∧ ∃ cs exs w, Examples x fmt m data cs ∧ List.Forall₂ (Parsed x fmt m) cs exs ∧ Learns x.dbg m.ws exs w ∧
      out.model = serializeModel ⟨m.global, w⟩ ∧ (a.predictions = true → Plays x.dbg m.ws exs out.predictions) ∧
      (a.predictions = false → out.predictions = []) :=
  C77_train x fmt input hs m hm data hc a out h

open Cli in
/-- C81 for `f32`: training succeeds if every example can be parsed, has a label and is trainable. -/
theorem C81_ieee {N : Type} (x : Externals (BitVec 32) N) (fmt : DataFormat) (input : Input (BitVec 32))
    (hs : Saved x input) (m : Serde.Model (BitVec 32)) (hm : input.load x.hash = .ok m) (he : m.ws.red.NoElementwise) (hf : FormatFits fmt m) (data : Str)
    (hc : Clean x fmt data) (cs : List Str) (hd : Examples x fmt m data cs) (exs : List (Features (BitVec 32) × Label (BitVec 32)))
    (hp : List.Forall₂ (Parsed x fmt m) cs exs) (ht : ∀ ex ∈ exs, Trainable x.dbg m.ws.red.cbMode ex) (per : OutputPeriod) :
    ∃ w, Learns x.dbg m.ws exs w ∧ Train x (quietly per) fmt input data ⟨[], [], serializeModel ⟨m.global, w⟩⟩ :=
  C81_train x (fun _ => zero_lt_one_ieee t) fmt input hs m hm he hf data hc cs hd exs hp ht per

end corollaries

end Rml
