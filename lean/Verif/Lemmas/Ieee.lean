import Verif.Model.Ieee
import Verif.Lemmas.Round
import Mathlib.Algebra.Order.Floor.Semifield

/-! The operations of single precision on bit patterns. -/

namespace Rml

theorem f32Make_toNat (s : Bool) {m : Nat} (h : m < 2 ^ 31) : (f32Make s m).toNat = (if s then 2 ^ 31 else 0) + m := by
  unfold f32Make
  rw [BitVec.toNat_ofNat, Nat.mod_eq_of_lt]
  split <;> omega

theorem f32Mag_make (s : Bool) {m : Nat} (h : m < 2 ^ 31) : f32Mag (f32Make s m) = m := by
  unfold f32Mag
  rw [f32Make_toNat s h]
  split <;> omega

theorem f32Sign_make (s : Bool) {m : Nat} (h : m < 2 ^ 31) : f32Sign (f32Make s m) = s := by
  unfold f32Sign
  rw [f32Make_toNat s h]
  cases s <;> simp <;> omega

theorem divEven_le (num den : Nat) : divEven num den ≤ num / den + 1 := by
  unfold divEven
  split_ifs <;> omega

theorem le_divEven (num den : Nat) : num / den ≤ divEven num den := by
  unfold divEven
  split_ifs <;> omega

theorem encMag_le (num den : Nat) : encMag num den ≤ 0x7f800000 := Nat.min_le_right _ _

theorem encMag_lt (num den : Nat) : encMag num den < 2 ^ 31 := lt_of_le_of_lt (encMag_le num den) (by norm_num)

theorem div_drop (num den : Nat) : num / (den * 2 ^ dropBits num den) = num / den / 2 ^ dropBits num den := (Nat.div_div_eq_div_mul _ _ _).symm

theorem drop_lt (num den : Nat) : num / (den * 2 ^ dropBits num den) < 2 ^ 24 := by
  rw [div_drop]
  unfold dropBits
  set q := num / den
  by_cases hq : q = 0
  · simp [hq]
  · have h1 : q < 2 ^ (Nat.log2 q + 1) := Nat.lt_log2_self
    rw [Nat.div_lt_iff_lt_mul (by positivity), ← pow_add]
    exact lt_of_lt_of_le h1 (Nat.pow_le_pow_right (by norm_num) (by omega))

theorem le_drop (num den : Nat) (h : dropBits num den ≠ 0) : 2 ^ 23 ≤ num / (den * 2 ^ dropBits num den) := by
  rw [div_drop]
  unfold dropBits at *
  set q := num / den
  have hq : q ≠ 0 := by
    rintro hq
    rw [hq] at h
    exact h rfl
  have h1 : 2 ^ Nat.log2 q ≤ q := Nat.log2_self_le hq
  rw [Nat.le_div_iff_mul_le (by positivity), ← pow_add]
  exact le_trans (Nat.pow_le_pow_right (by norm_num) (by omega)) h1

/-- The rounded number of units. -/
def encUnits (num den : Nat) : Nat := divEven num (den * 2 ^ dropBits num den) * 2 ^ dropBits num den

theorem enc_bounds (num den : Nat) : divEven num (den * 2 ^ dropBits num den) ≤ 2 ^ 24 ∧
    (dropBits num den ≠ 0 → 2 ^ 23 ≤ divEven num (den * 2 ^ dropBits num den)) := by
  have h1 := divEven_le num (den * 2 ^ dropBits num den)
  have h2 := drop_lt num den
  refine ⟨by omega, fun h => (le_drop num den h).trans (le_divEven _ _)⟩

theorem units_of_mag (b : BitVec 32) (s m : Nat) (hm : m ≤ 2 ^ 24) (hs : s ≠ 0 → 2 ^ 23 ≤ m) (h : f32Mag b = s * 2 ^ 23 + m) : f32Units b = m * 2 ^ s := by
  unfold f32Units
  rw [h]
  by_cases h1 : m < 2 ^ 23
  · have : s = 0 := by
      by_contra hs0
      have := hs hs0
      omega
    subst this
    have e : (0 * 2 ^ 23 + m) / 2 ^ 23 = 0 := by omega
    rw [if_pos e]
    simp
  · by_cases h2 : m = 2 ^ 24
    · subst h2
      have e : (s * 2 ^ 23 + 2 ^ 24) / 2 ^ 23 = s + 2 := by omega
      have e2 : (s * 2 ^ 23 + 2 ^ 24) % 2 ^ 23 = 0 := by omega
      rw [e, e2, if_neg (by omega)]
      have : s + 2 - 1 = s + 1 := by omega
      rw [this, pow_succ]
      ring
    · have e : (s * 2 ^ 23 + m) / 2 ^ 23 = s + 1 := by omega
      have e2 : (s * 2 ^ 23 + m) % 2 ^ 23 = m - 2 ^ 23 := by omega
      rw [e, e2, if_neg (by omega)]
      have : s + 1 - 1 = s := by omega
      have e3 : 2 ^ 23 + (m - 2 ^ 23) = m := by omega
      rw [this, e3]

/-- If the result is finite, it has the rounded number of units. -/
theorem units_make (s : Bool) (num den : Nat) (h : encMag num den < 0x7f800000) : f32Units (f32Make s (encMag num den)) = encUnits num den := by
  obtain ⟨h1, h2⟩ := enc_bounds num den
  refine units_of_mag _ _ _ h1 h2 ?_
  rw [f32Mag_make s (encMag_lt num den)]
  unfold encMag at h ⊢
  omega

/-- The result is infinite if and only if the rounded number of units is at least 2^277, that is, the rounded value is at least 2^128. -/
theorem encMag_inf (num den : Nat) : encMag num den = 0x7f800000 ↔ 2 ^ 277 ≤ encUnits num den := by
  obtain ⟨h1, h2⟩ := enc_bounds num den
  unfold encMag encUnits
  set s := dropBits num den
  set m := divEven num (den * 2 ^ s)
  constructor
  · intro h
    have h3 : 255 * 2 ^ 23 ≤ s * 2 ^ 23 + m := by omega
    by_cases hs : 254 ≤ s
    · calc 2 ^ 277 = 2 ^ 23 * 2 ^ 254 := by rw [← pow_add]
        _ ≤ m * 2 ^ s := Nat.mul_le_mul (h2 (by omega)) (Nat.pow_le_pow_right (by norm_num) hs)
    · have h4 : s = 253 := by omega
      have h5 : m = 2 ^ 24 := by omega
      rw [h4, h5, ← pow_add]
  · intro h
    have h3 : 255 * 2 ^ 23 ≤ s * 2 ^ 23 + m := by
      by_cases hs : 254 ≤ s
      · have := h2 (by omega)
        omega
      · by_cases hs' : s = 253
        · rw [hs'] at h ⊢
          have : 2 ^ 24 ≤ m := by
            by_contra hlt
            have : m * 2 ^ 253 < 2 ^ 24 * 2 ^ 253 := Nat.mul_lt_mul_of_pos_right (by omega) (by positivity)
            rw [← pow_add] at this
            omega
          omega
        · exfalso
          have : m * 2 ^ s ≤ 2 ^ 24 * 2 ^ 252 := Nat.mul_le_mul h1 (Nat.pow_le_pow_right (by norm_num) (by omega))
          have e : 2 ^ 24 * 2 ^ 252 < 2 ^ 277 := by
            rw [← pow_add]
            exact Nat.pow_lt_pow_right (by norm_num) (by norm_num)
          omega
    omega

/-- The value of a finite float. -/
noncomputable def f32Val (b : BitVec 32) : ℝ := (f32Int b : ℝ) * (2 : ℝ) ^ (-149 : ℤ)

theorem floor_div_nat (num den : Nat) : ⌊(num : ℝ) / den⌋₊ = num / den := by
  rw [Nat.floor_div_natCast, Nat.floor_natCast]

theorem rne_div (num den : Nat) (hd : 0 < den) : rne ((num : ℝ) / den) = divEven num den := by
  have hdr : (0 : ℝ) < den := by exact_mod_cast hd
  have hf : ⌊(num : ℝ) / den⌋ = ((num / den : ℕ) : ℤ) := by
    rw [← floor_div_nat num den, ← Int.natCast_floor_eq_floor (by positivity)]
  have hfr : (num : ℝ) / den - ((num / den : ℕ) : ℤ) = ((num % den : ℕ) : ℝ) / den := by
    have : (num : ℝ) = (den : ℝ) * ((num / den : ℕ) : ℝ) + ((num % den : ℕ) : ℝ) := by exact_mod_cast (Nat.div_add_mod num den).symm
    rw [eq_div_iff hdr.ne', sub_mul, div_mul_cancel₀ _ hdr.ne', Int.cast_natCast]
    linarith
  unfold rne divEven
  rw [hf, hfr]
  have c1 : ((num % den : ℕ) : ℝ) / den < 1 / 2 ↔ 2 * (num % den) < den := by
    rw [div_lt_div_iff₀ hdr (by norm_num)]
    rw [show ((num % den : ℕ) : ℝ) * 2 < 1 * den ↔ ((2 * (num % den) : ℕ) : ℝ) < (den : ℝ) by push_cast; constructor <;> intro h <;> linarith]
    exact Nat.cast_lt
  have c2 : 1 / 2 < ((num % den : ℕ) : ℝ) / den ↔ den < 2 * (num % den) := by
    rw [div_lt_div_iff₀ (by norm_num) hdr]
    rw [show (1 : ℝ) * den < ((num % den : ℕ) : ℝ) * 2 ↔ (den : ℝ) < ((2 * (num % den) : ℕ) : ℝ) by push_cast; constructor <;> intro h <;> linarith]
    exact Nat.cast_lt
  have c3 : Even (((num / den : ℕ) : ℤ)) ↔ num / den % 2 = 0 := by
    rw [Int.even_coe_nat, Nat.even_iff]
  simp only [c1, c2, c3]
  split_ifs <;> push_cast <;> rfl

theorem ulpExp_units (num den : Nat) (hn : 0 < num) (hd : 0 < den) : ulpExp ((num : ℝ) / den * (2 : ℝ) ^ (-149 : ℤ)) = (dropBits num den : ℤ) - 149 := by
  have hnr : (0 : ℝ) < num := by exact_mod_cast hn
  have hdr : (0 : ℝ) < den := by exact_mod_cast hd
  have hx : 0 < (num : ℝ) / den := by positivity
  have hlog : Int.log 2 ((num : ℝ) / den * (2 : ℝ) ^ (-149 : ℤ)) = Int.log 2 ((num : ℝ) / den) - 149 := by
    refine eq_of_forall_le_iff fun z => ?_
    rw [← Int.zpow_le_iff_le_log (by norm_num) (by positivity), le_sub_iff_add_le, ← Int.zpow_le_iff_le_log (by norm_num) hx]
    rw [zpow_add₀ (by norm_num), zpow_neg, ← div_eq_mul_inv, le_div_iff₀ (by positivity)]
    norm_num
  have hfl : ⌊(num : ℝ) / den⌋₊ = num / den := floor_div_nat num den
  unfold ulpExp dropBits
  rw [abs_of_pos (by positivity), hlog, Nat.log2_eq_log_two]
  by_cases h1 : (1 : ℝ) ≤ (num : ℝ) / den
  · rw [Int.log_of_one_le_right 2 h1, hfl]
    omega
  · have h2 : num / den = 0 := by
      rw [Nat.div_eq_zero_iff]
      right
      rw [le_div_iff₀ hdr, one_mul, not_le] at h1
      exact_mod_cast h1
    have h3 : Int.log 2 ((num : ℝ) / den) ≤ 0 := by
      rw [← Int.log_one_right (R := ℝ) 2]
      exact Int.log_mono_right hx (not_le.1 h1).le
    rw [h2]
    simp
    omega

theorem fl32_units (num den : Nat) (hd : 0 < den) : fl32 ((num : ℝ) / den * (2 : ℝ) ^ (-149 : ℤ)) = (encUnits num den : ℝ) * (2 : ℝ) ^ (-149 : ℤ) := by
  rcases Nat.eq_zero_or_pos num with rfl | hn
  · have : encUnits 0 den = 0 := by
      unfold encUnits divEven
      simp
    rw [this]
    have := fl32_nat 0 (by norm_num)
    simpa using this
  · have hu := ulpExp_units num den hn hd
    unfold fl32
    rw [hu]
    have e : (num : ℝ) / den * (2 : ℝ) ^ (-149 : ℤ) / (2 : ℝ) ^ ((dropBits num den : ℤ) - 149) = (num : ℝ) / ((den * 2 ^ dropBits num den : ℕ) : ℝ) := by
      rw [sub_eq_add_neg, zpow_add₀ (by norm_num), zpow_natCast]
      push_cast
      field_simp
    rw [e, rne_div _ _ (by positivity)]
    unfold encUnits
    rw [sub_eq_add_neg, zpow_add₀ (by norm_num), zpow_natCast]
    push_cast
    ring

end Rml
