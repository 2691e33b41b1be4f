import Verif.Lemmas.Ieee2

/-! Adding a zero to an `f32`. -/

namespace Rml

theorem encMag_units (a : BitVec 32) (h : f32Mag a < 0x7f800000) : encMag (f32Units a) 1 = f32Mag a := by
  generalize hm : f32Mag a = m at h
  have hu : f32Units a = if m / 2 ^ 23 = 0 then m else (2 ^ 23 + m % 2 ^ 23) * 2 ^ (m / 2 ^ 23 - 1) := by rw [← hm]; rfl
  rw [hu]
  have hr : m % 2 ^ 23 < 2 ^ 23 := Nat.mod_lt _ (by norm_num)
  by_cases h0 : m / 2 ^ 23 = 0
  · rw [if_pos h0]
    have hd : dropBits m 1 = 0 := by
      unfold dropBits
      rw [Nat.div_one]
      have : m.log2 < 23 := by
        rcases Nat.eq_zero_or_pos m with h1 | h1
        · rw [h1]; decide
        · exact (Nat.log2_lt (by omega)).2 (by omega)
      omega
    unfold encMag divEven
    rw [hd]
    simp only [pow_zero, Nat.mod_one, Nat.div_one, Nat.zero_mul, Nat.mul_zero, Nat.one_mul, Nat.zero_add]
    simp only [Nat.lt_one_iff, if_true]
    omega
  · rw [if_neg h0]
    have hp : 0 < 2 ^ (m / 2 ^ 23 - 1) := by positivity
    have hd : dropBits ((2 ^ 23 + m % 2 ^ 23) * 2 ^ (m / 2 ^ 23 - 1)) 1 = m / 2 ^ 23 - 1 := by
      unfold dropBits
      rw [Nat.div_one]
      have hl : ((2 ^ 23 + m % 2 ^ 23) * 2 ^ (m / 2 ^ 23 - 1)).log2 = 23 + (m / 2 ^ 23 - 1) := by
        refine (Nat.log2_eq_iff (by positivity)).2 ⟨?_, ?_⟩
        · rw [pow_add]
          exact Nat.mul_le_mul_right _ (by omega)
        · rw [show 23 + (m / 2 ^ 23 - 1) + 1 = 24 + (m / 2 ^ 23 - 1) by omega, pow_add]
          exact Nat.mul_lt_mul_of_pos_right (by omega) hp
      rw [hl]; omega
    unfold encMag divEven
    rw [hd, Nat.one_mul, Nat.mul_mod_left, Nat.mul_div_cancel _ hp, if_pos (by omega)]
    have := Nat.div_add_mod m (2 ^ 23)
    omega

/-- A float that a sum can have: not `-0.0`, and the one NaN of the model. -/
def Summed (a : BitVec 32) : Prop := a ≠ 0x80000000#32 ∧ (f32IsNaN a = true → a = f32NaN)

theorem summed_zero : Summed 0#32 := ⟨by decide, by decide⟩

theorem summed_add {a : BitVec 32} (b : BitVec 32) (h : Summed a) : Summed (f32Add a b) := by
  refine ⟨add_plain_ieee a b h.1, ?_⟩
  unfold f32Add
  split
  · intro _; rfl
  · rename_i hn
    simp only [Bool.or_eq_true, not_or, Bool.not_eq_true] at hn
    split
    · split
      · intro _; rfl
      · exact h.2
    · split
      · intro hb; rw [hn.2] at hb; exact absurd hb (by decide)
      · split
        · intro hb
          rw [← encMag_zero 1 (by norm_num), make_num] at hb
          exact absurd hb (by decide)
        · intro hb
          rw [make_num] at hb
          exact absurd hb (by decide)

theorem make_self (a : BitVec 32) : f32Make (f32Sign a) (f32Mag a) = a := by
  apply BitVec.eq_of_toNat_eq
  have hl : f32Mag a < 2 ^ 31 := Nat.mod_lt _ (by norm_num)
  rw [f32Make_toNat _ hl]
  have := a.isLt
  unfold f32Sign f32Mag
  split
  · rename_i h; rw [decide_eq_true_eq] at h; omega
  · rename_i h; rw [decide_eq_true_eq] at h; omega

theorem summed_add_zero {a z : BitVec 32} (h : Summed a) (hz : f32Mag z = 0) : f32Add a z = a := by
  rw [add_zero_ieee a z h.1 hz]
  have h0 : f32Mag 0#32 = 0 := rfl
  unfold f32Add
  simp only [num_of_zero h0, not_inf_of_zero h0, int_zero h0, Bool.or_false, Bool.false_and, Bool.false_eq_true, if_false, add_zero]
  split
  · rename_i hn; exact (h.2 hn).symm
  split
  · rfl
  rename_i hn hi
  split
  · rename_i hu
    have : f32Units a = 0 := by
      unfold f32Int at hu
      split at hu <;> omega
    rcases mag_zero_cases a (mag_zero_of_units this) with h1 | h1
    · rw [h1]; rfl
    · exact absurd h1 h.1
  · rename_i hu
    have hlt : f32Mag a < 0x7f800000 := by
      unfold f32IsNaN at hn
      unfold f32IsInf at hi
      simp only [decide_eq_true_eq] at hn hi
      omega
    have e1 : (f32Int a).natAbs = f32Units a := by
      unfold f32Int
      split <;> omega
    have e2 : decide (f32Int a < 0) = f32Sign a := by
      unfold f32Int at hu ⊢
      cases hs : f32Sign a with
      | true => rw [hs] at hu; simp only [if_true] at hu ⊢; rw [decide_eq_true_eq]; omega
      | false => simp only [Bool.false_eq_true, if_false]; rw [decide_eq_false_iff_not]; omega
    rw [e1, e2, encMag_units a hlt, make_self]

theorem mul_zero_finite {v w : BitVec 32} (hv : f32Mag v = 0) (hw : IeeeFinite w) : f32Mag (f32Mul v w) = 0 := by
  obtain ⟨h1, h2⟩ := fin_of w hw
  unfold f32Mul
  simp only [num_of_zero hv, not_inf_of_zero hv, h1, h2, units_zero hv, Bool.or_false, Bool.false_eq_true, if_false, Nat.zero_mul]
  rw [encMag_zero _ (by positivity)]
  exact f32Mag_make _ (by norm_num)

end Rml
