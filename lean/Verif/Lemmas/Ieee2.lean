import Verif.Lemmas.Ieee
import Verif.SpecIeee
import Verif.SpecSerde
import Verif.Lemmas.F32
import Mathlib.Tactic.LinearCombination

/-! Correct rounding of the operations on bit patterns, and the laws of floats. -/

namespace Rml

theorem ieeeSign_eq (b : BitVec 32) : ieeeSign b = f32Sign b := by
  unfold ieeeSign f32Sign
  rw [BitVec.getLsbD, Nat.testBit_eq_decide_div_mod_eq]
  have := b.isLt
  congr 1
  rw [eq_iff_iff]
  omega

theorem ieeeExponent_eq (b : BitVec 32) : ieeeExponent b = f32Mag b / 2 ^ 23 := by
  unfold ieeeExponent f32Mag
  omega

theorem ieeeFraction_eq (b : BitVec 32) : ieeeFraction b = f32Mag b % 2 ^ 23 := by
  unfold ieeeFraction f32Mag
  omega

theorem ieeeFinite_iff (b : BitVec 32) : IeeeFinite b ↔ f32Mag b < 0x7f800000 := by
  unfold IeeeFinite
  rw [ieeeExponent_eq]
  unfold f32Mag
  omega

theorem ieeeInf_iff (b : BitVec 32) : IeeeInf b ↔ f32IsInf b = true := by
  unfold IeeeInf f32IsInf
  rw [ieeeExponent_eq, ieeeFraction_eq, decide_eq_true_eq]
  unfold f32Mag
  omega

theorem ieeeNaN_iff (b : BitVec 32) : IeeeNaN b ↔ f32IsNaN b = true := by
  unfold IeeeNaN f32IsNaN
  rw [ieeeExponent_eq, ieeeFraction_eq, decide_eq_true_eq]
  unfold f32Mag
  omega

theorem ieeeValue_eq (b : BitVec 32) : ieeeValue b = f32Val b := by
  have h2 : (2 : ℝ) ^ (-149 : ℤ) = (1 / 2 ^ 23) * (2 : ℝ) ^ (-126 : ℤ) := by
    rw [show (-149 : ℤ) = -23 + -126 by norm_num, zpow_add₀ (by norm_num)]
    norm_num
  have hu : (f32Units b : ℝ) * (2 : ℝ) ^ (-149 : ℤ) =
      if ieeeExponent b = 0 then (ieeeFraction b / 2 ^ 23 : ℝ) * (2 : ℝ) ^ (-126 : ℤ) else (1 + ieeeFraction b / 2 ^ 23 : ℝ) * (2 : ℝ) ^ ((ieeeExponent b : ℤ) - 127) := by
    unfold f32Units
    rw [ieeeExponent_eq, ieeeFraction_eq]
    split
    · rename_i h
      have : f32Mag b % 2 ^ 23 = f32Mag b := by omega
      rw [this, h2]
      ring
    · rename_i h
      have e : ((f32Mag b / 2 ^ 23 : ℕ) : ℤ) - 127 = ((f32Mag b / 2 ^ 23 - 1 : ℕ) : ℤ) + -126 := by omega
      rw [e, zpow_add₀ (by norm_num), zpow_natCast, h2]
      push_cast
      ring
  unfold ieeeValue f32Val f32Int
  rw [← hu, ieeeSign_eq]
  split <;> push_cast <;> ring

theorem rne_nearest (y : ℝ) (k : ℤ) : |(rne y : ℝ) - y| ≤ |(k : ℝ) - y| ∧ (|(rne y : ℝ) - y| = |(k : ℝ) - y| → k ≠ rne y → Even (rne y)) := by
  have h := rne_err y
  by_cases hk : k = rne y
  · subst hk
    exact ⟨le_rfl, fun _ h => absurd rfl h⟩
  · have h1 : (1 : ℝ) ≤ |(k : ℝ) - rne y| := by
      have : 1 ≤ |k - rne y| := Int.one_le_abs (sub_ne_zero.2 hk)
      exact_mod_cast this
    have h2 : |(k : ℝ) - rne y| ≤ |(k : ℝ) - y| + |(rne y : ℝ) - y| := by
      have : (k : ℝ) - rne y = (k - y) - (rne y - y) := by ring
      rw [this]
      exact abs_sub _ _
    refine ⟨by linarith, fun heq _ => ?_⟩
    have h3 : |(rne y : ℝ) - y| = 1 / 2 := by linarith
    have hf1 := Int.floor_le y
    have hf2 := Int.lt_floor_add_one y
    unfold rne at h3 ⊢
    by_cases c1 : y - ⌊y⌋ < 1 / 2
    · rw [if_pos c1] at h3
      rw [abs_sub_comm, abs_of_nonneg (by linarith)] at h3
      linarith
    · rw [if_neg c1] at h3 ⊢
      by_cases c2 : 1 / 2 < y - ⌊y⌋
      · rw [if_pos c2] at h3
        push_cast at h3
        rw [abs_of_nonneg (by linarith)] at h3
        linarith
      · rw [if_neg c2]
        split
        · assumption
        · rename_i ho
          rw [Int.even_add_one]
          exact ho

theorem nat_div_le (a b : Nat) : ((a / b : ℕ) : ℝ) ≤ (a : ℝ) / (b : ℝ) := by
  rw [← floor_div_nat a b]
  exact Nat.floor_le (by positivity)

theorem units_form (b : BitVec 32) : ∃ m s, f32Units b = m * 2 ^ s ∧ m < 2 ^ 24 ∧ (s ≠ 0 → 2 ^ 23 ≤ m) := by
  unfold f32Units
  split
  · rename_i h
    exact ⟨f32Mag b, 0, by simp, by omega, by simp⟩
  · exact ⟨2 ^ 23 + f32Mag b % 2 ^ 23, _, rfl, by omega, by omega⟩

theorem fraction_even (s : Bool) (num den : Nat) (h : encMag num den < 0x7f800000) (he : Even (divEven num (den * 2 ^ dropBits num den))) :
    Even (ieeeFraction (f32Make s (encMag num den))) := by
  rw [ieeeFraction_eq, f32Mag_make s (encMag_lt num den)]
  unfold encMag at h ⊢
  rw [Nat.even_iff] at *
  omega

/-- The nearest multiple, in units. -/
theorem enc_nearest (num den : Nat) (hd : 0 < den) (b : BitVec 32) :
    |(encUnits num den : ℝ) - num / den| ≤ |(f32Units b : ℝ) - num / den| ∧
      (|(encUnits num den : ℝ) - num / den| = |(f32Units b : ℝ) - num / den| → f32Units b ≠ encUnits num den → Even (divEven num (den * 2 ^ dropBits num den))) := by
  obtain ⟨m, s, hu, hm, hs⟩ := units_form b
  have hdr : (0 : ℝ) < den := by exact_mod_cast hd
  set s0 := dropBits num den with hs0
  set M := divEven num (den * 2 ^ s0) with hM
  set y : ℝ := (num : ℝ) / ((den * 2 ^ s0 : ℕ) : ℝ) with hy
  have hp : (0 : ℝ) < 2 ^ s0 := by positivity
  have hyx : (num : ℝ) / den = y * 2 ^ s0 := by
    rw [hy]
    push_cast
    field_simp
  have hrne : rne y = M := rne_div num _ (by positivity)
  have hR : (encUnits num den : ℝ) - num / den = ((M : ℝ) - y) * 2 ^ s0 := by
    unfold encUnits
    rw [hyx]
    push_cast
    ring
  have near : ∀ k : ℤ, |(encUnits num den : ℝ) - num / den| ≤ |(k : ℝ) * 2 ^ s0 - num / den| ∧
      (|(encUnits num den : ℝ) - num / den| = |(k : ℝ) * 2 ^ s0 - num / den| → k ≠ M → Even M) := by
    intro k
    obtain ⟨n1, n2⟩ := rne_nearest y k
    rw [hrne, Int.cast_natCast] at n1 n2
    have hk : (k : ℝ) * 2 ^ s0 - num / den = ((k : ℝ) - y) * 2 ^ s0 := by rw [hyx]; ring
    rw [hR, hk, abs_mul, abs_mul, abs_of_pos hp]
    refine ⟨mul_le_mul_of_nonneg_right n1 hp.le, fun he hne => ?_⟩
    have := n2 (mul_right_cancel₀ hp.ne' he) hne
    exact_mod_cast this
  by_cases hle : s0 ≤ s
  · have hk : (f32Units b : ℝ) = (((m * 2 ^ (s - s0) : ℕ) : ℤ) : ℝ) * 2 ^ s0 := by
      rw [hu]
      push_cast
      rw [mul_assoc, ← pow_add, Nat.sub_add_cancel hle]
    obtain ⟨n1, n2⟩ := near ((m * 2 ^ (s - s0) : ℕ) : ℤ)
    rw [hk]
    refine ⟨n1, fun he hne => n2 he ?_⟩
    intro hkM
    apply hne
    rw [hu]
    unfold encUnits
    rw [← hs0, ← hM]
    have : m * 2 ^ (s - s0) = M := by exact_mod_cast hkM
    rw [← this, mul_assoc, ← pow_add, Nat.sub_add_cancel hle]
  · have hlt : s < s0 := not_le.1 hle
    have hB : (2 : ℝ) ^ 23 ≤ y := by
      have h1 := le_drop num den (by omega)
      rw [← hs0] at h1
      have h2 : ((num / (den * 2 ^ s0) : ℕ) : ℝ) ≤ y := nat_div_le _ _
      calc (2 : ℝ) ^ 23 = ((2 ^ 23 : ℕ) : ℝ) := by norm_num
        _ ≤ ((num / (den * 2 ^ s0) : ℕ) : ℝ) := by exact_mod_cast h1
        _ ≤ y := h2
    have hU : (f32Units b : ℝ) < 2 ^ 23 * 2 ^ s0 := by
      have : f32Units b < 2 ^ 23 * 2 ^ s0 := by
        rw [hu]
        calc m * 2 ^ s < 2 ^ 24 * 2 ^ s := Nat.mul_lt_mul_of_pos_right hm (by positivity)
          _ = 2 ^ 23 * 2 ^ (s + 1) := by rw [← pow_add, ← pow_add]; congr 1; omega
          _ ≤ 2 ^ 23 * 2 ^ s0 := Nat.mul_le_mul_left _ (Nat.pow_le_pow_right (by norm_num) hlt)
      exact_mod_cast this
    have hX : (2 : ℝ) ^ 23 * 2 ^ s0 ≤ num / den := by
      rw [hyx]
      exact mul_le_mul_of_nonneg_right hB hp.le
    have n1 := (near (2 ^ 23)).1
    push_cast at n1
    have : |(2 : ℝ) ^ 23 * 2 ^ s0 - num / den| < |(f32Units b : ℝ) - num / den| := by
      rw [abs_of_nonpos (by linarith), abs_of_neg (by linarith)]
      linarith
    exact ⟨by linarith, fun he _ => absurd he (by linarith [n1] |> fun h => ne_of_lt h)⟩

theorem enc_overflow (num den : Nat) (hd : 0 < den) : encMag num den = 0x7f800000 ↔ (2 : ℝ) ^ 277 - 2 ^ 252 ≤ num / den := by
  rw [encMag_inf]
  have hdr : (0 : ℝ) < den := by exact_mod_cast hd
  obtain ⟨b1, b2⟩ := enc_bounds num den
  unfold encUnits
  set s0 := dropBits num den with hs0
  set M := divEven num (den * 2 ^ s0) with hM
  set y : ℝ := (num : ℝ) / ((den * 2 ^ s0 : ℕ) : ℝ) with hy
  have hyx : (num : ℝ) / den = y * 2 ^ s0 := by
    rw [hy]
    push_cast
    field_simp
  have hrne : rne y = M := rne_div num _ (by positivity)
  have herr := rne_err y
  rw [hrne, Int.cast_natCast] at herr
  have herr' := abs_le.1 herr
  rw [hyx]
  have hlog : dropBits num den = Nat.log2 (num / den) - 23 := rfl
  have hfl := floor_div_nat num den
  constructor
  · intro h
    by_cases h1 : 254 ≤ s0
    · have hM23 := b2 (by omega)
      have h2 := le_drop num den (by omega)
      rw [← hs0] at h2
      have h3 : ((num / (den * 2 ^ s0) : ℕ) : ℝ) ≤ y := nat_div_le _ _
      have h4 : (2 : ℝ) ^ 23 ≤ y := by
        calc (2 : ℝ) ^ 23 = ((2 ^ 23 : ℕ) : ℝ) := by norm_num
          _ ≤ ((num / (den * 2 ^ s0) : ℕ) : ℝ) := by exact_mod_cast h2
          _ ≤ y := h3
      calc (2 : ℝ) ^ 277 - 2 ^ 252 ≤ 2 ^ 277 := by linarith [show (0 : ℝ) ≤ 2 ^ 252 by positivity]
        _ = 2 ^ 23 * 2 ^ 254 := by rw [← pow_add]
        _ ≤ y * 2 ^ s0 := mul_le_mul h4 (pow_le_pow_right₀ (by norm_num) h1) (by positivity) (by linarith [show (0 : ℝ) ≤ 2 ^ 23 by positivity])
    · by_cases h5 : s0 = 253
      · rw [h5] at h ⊢
        have h6 : 2 ^ 24 ≤ M := by
          by_contra hlt
          have : M * 2 ^ 253 < 2 ^ 24 * 2 ^ 253 := Nat.mul_lt_mul_of_pos_right (by omega) (by positivity)
          rw [← pow_add] at this
          omega
        have h7 : (2 : ℝ) ^ 24 ≤ M := by exact_mod_cast h6
        have h8 : (2 : ℝ) ^ 24 - 1 / 2 ≤ y := by linarith [herr'.2]
        calc (2 : ℝ) ^ 277 - 2 ^ 252 = (2 ^ 24 - 1 / 2) * 2 ^ 253 := by
              rw [show (277 : ℕ) = 24 + 253 from rfl, show (253 : ℕ) = 252 + 1 from rfl, pow_add, pow_add]
              ring
          _ ≤ y * 2 ^ 253 := mul_le_mul_of_nonneg_right h8 (by positivity)
      · exfalso
        have : M * 2 ^ s0 ≤ 2 ^ 24 * 2 ^ 252 := Nat.mul_le_mul b1 (Nat.pow_le_pow_right (by norm_num) (by omega))
        have e : 2 ^ 24 * 2 ^ 252 < 2 ^ 277 := by
          rw [← pow_add]
          exact Nat.pow_lt_pow_right (by norm_num) (by norm_num)
        omega
  · intro h
    by_contra hlt
    rw [not_le] at hlt
    have hs : s0 ≤ 253 := by
      by_contra h1
      have hM23 := b2 (by omega)
      have : 2 ^ 23 * 2 ^ 254 ≤ M * 2 ^ s0 := Nat.mul_le_mul hM23 (Nat.pow_le_pow_right (by norm_num) (by omega))
      rw [← pow_add] at this
      omega
    have hy24 : y < 2 ^ 24 := by
      have h2 := drop_lt num den
      rw [← hs0] at h2
      have h3 : ⌊y⌋₊ = num / (den * 2 ^ s0) := floor_div_nat num _
      have h4 := Nat.lt_floor_add_one y
      rw [h3] at h4
      have : ((num / (den * 2 ^ s0) : ℕ) : ℝ) + 1 ≤ 2 ^ 24 := by exact_mod_cast h2
      linarith
    by_cases h5 : s0 = 253
    · rw [h5] at h hlt
      have h8 : (2 : ℝ) ^ 24 - 1 / 2 ≤ y := by
        have : (2 : ℝ) ^ 277 - 2 ^ 252 = (2 ^ 24 - 1 / 2) * 2 ^ 253 := by
          rw [show (277 : ℕ) = 24 + 253 from rfl, show (253 : ℕ) = 252 + 1 from rfl, pow_add, pow_add]
          ring
        rw [this] at h
        exact le_of_mul_le_mul_right h (by positivity)
      have hfloor : ⌊y⌋ = 2 ^ 24 - 1 := by
        rw [Int.floor_eq_iff]
        clear h hlt
        norm_num at h8 hy24 ⊢
        constructor <;> linarith
      have hM24 : (M : ℤ) = 2 ^ 24 := by
        rw [← hrne]
        unfold rne
        rw [hfloor]
        norm_num at h8
        rw [if_neg (by clear h hlt; push_cast; norm_num; linarith)]
        split
        · norm_num
        · rw [if_neg (by decide)]
          norm_num
      have : M = 2 ^ 24 := by exact_mod_cast hM24
      rw [this, ← pow_add] at hlt
      omega
    · have h9 : y * 2 ^ s0 < 2 ^ 24 * 2 ^ 252 := by
        calc y * 2 ^ s0 < 2 ^ 24 * 2 ^ s0 := mul_lt_mul_of_pos_right hy24 (by positivity)
          _ ≤ 2 ^ 24 * 2 ^ 252 := mul_le_mul_of_nonneg_left (pow_le_pow_right₀ (by norm_num) (by omega)) (by positivity)
      have e1 : (2 : ℝ) ^ 277 = 2 * (2 ^ 24 * 2 ^ 252) := by
        rw [← pow_add, show (277 : ℕ) = 24 + 252 + 1 from rfl, pow_succ]
        ring
      have e2 : (2 : ℝ) ^ 252 ≤ 2 ^ 24 * 2 ^ 252 := by
        have : (1 : ℝ) ≤ 2 ^ 24 := by norm_num
        have h0 : (0 : ℝ) ≤ 2 ^ 252 := by positivity
        exact le_mul_of_one_le_left h0 this
      rw [e1] at h
      clear e1 hlt
      generalize (2 : ℝ) ^ 24 * 2 ^ 252 = P at *
      generalize (2 : ℝ) ^ 252 = Q at *
      linarith

theorem tiny_pos : (0 : ℝ) < (2 : ℝ) ^ (-149 : ℤ) := by positivity

theorem f32Val_abs (b : BitVec 32) : f32Val b = (if f32Sign b then -1 else 1) * ((f32Units b : ℝ) * (2 : ℝ) ^ (-149 : ℤ)) := by
  unfold f32Val f32Int
  split <;> push_cast <;> ring

theorem mag_ne_inf (num den : Nat) : encMag num den ≠ 0x7f800000 ↔ encMag num den < 0x7f800000 := by
  unfold encMag
  omega

/-- A sign and the encoded magnitude make the correctly rounded float. -/
theorem make_correct (s : Bool) (num den : Nat) (hd : 0 < den) (x : ℝ) (hx : x = (if s then -1 else 1) * ((num : ℝ) / den * (2 : ℝ) ^ (-149 : ℤ))) :
    CorrectlyRounded x (f32Make s (encMag num den)) := by
  have hdr : (0 : ℝ) < den := by exact_mod_cast hd
  have hX : (0 : ℝ) ≤ (num : ℝ) / den := by positivity
  have hp := tiny_pos
  have hax : |x| = (num : ℝ) / den * (2 : ℝ) ^ (-149 : ℤ) := by
    rw [hx, abs_mul, abs_of_nonneg (mul_nonneg hX hp.le)]
    cases s <;> simp
  have hthr : (2 : ℝ) ^ 128 - 2 ^ 103 = ((2 : ℝ) ^ 277 - 2 ^ 252) * (2 : ℝ) ^ (-149 : ℤ) := by
    rw [sub_mul, ← zpow_natCast, ← zpow_natCast, ← zpow_natCast, ← zpow_natCast, ← zpow_add₀ (by norm_num), ← zpow_add₀ (by norm_num)]
    norm_num
  have hov := enc_overflow num den hd
  have hmag := f32Mag_make s (encMag_lt num den)
  have hsign := f32Sign_make s (encMag_lt num den)
  constructor
  · intro hlt
    have hfin : encMag num den < 0x7f800000 := by
      rw [← mag_ne_inf, Ne, hov, not_le]
      rw [hax, hthr] at hlt
      exact lt_of_mul_lt_mul_right hlt hp.le
    refine ⟨(ieeeFinite_iff _).2 (by rw [hmag]; exact hfin), fun b _ => ?_⟩
    have hunits := units_make s num den hfin
    obtain ⟨n1, n2⟩ := enc_nearest num den hd b
    rw [ieeeValue_eq, ieeeValue_eq, f32Val_abs, f32Val_abs b, hsign, hunits, hx]
    set sg : ℝ := if s then -1 else 1 with hsg
    have hsg2 : |sg| = 1 := by rw [hsg]; cases s <;> simp
    have hsg3 : sg * sg = 1 := by rw [hsg]; cases s <;> simp
    set sb : ℝ := if f32Sign b then -1 else 1 with hsb
    have hsb2 : sb = sg ∨ sb = -sg := by rw [hsb, hsg]; cases s <;> cases f32Sign b <;> simp
    have e1 : |sg * ((encUnits num den : ℝ) * (2 : ℝ) ^ (-149 : ℤ)) - sg * ((num : ℝ) / den * (2 : ℝ) ^ (-149 : ℤ))| =
        |(encUnits num den : ℝ) - num / den| * (2 : ℝ) ^ (-149 : ℤ) := by
      rw [← mul_sub, abs_mul, hsg2, one_mul, ← sub_mul, abs_mul, abs_of_pos hp]
    have e2 : |sb * ((f32Units b : ℝ) * (2 : ℝ) ^ (-149 : ℤ)) - sg * ((num : ℝ) / den * (2 : ℝ) ^ (-149 : ℤ))| =
        |sb * sg * (f32Units b : ℝ) - num / den| * (2 : ℝ) ^ (-149 : ℤ) := by
      have : sb * ((f32Units b : ℝ) * (2 : ℝ) ^ (-149 : ℤ)) - sg * ((num : ℝ) / den * (2 : ℝ) ^ (-149 : ℤ)) =
          sg * ((sb * sg * (f32Units b : ℝ) - num / den) * (2 : ℝ) ^ (-149 : ℤ)) := by
        linear_combination (-(sb * (f32Units b : ℝ) * (2 : ℝ) ^ (-149 : ℤ))) * hsg3
      rw [this, abs_mul, hsg2, one_mul, abs_mul, abs_of_pos hp]
    rw [e1, e2]
    have hfar : |(f32Units b : ℝ) - num / den| ≤ |sb * sg * (f32Units b : ℝ) - num / den| := by
      rcases hsb2 with h | h
      · rw [h, hsg3, one_mul]
      · have : sb * sg * (f32Units b : ℝ) - num / den = -((f32Units b : ℝ) + num / den) := by
          rw [h]
          linear_combination (-(f32Units b : ℝ)) * hsg3
        rw [this, abs_neg, abs_of_nonneg (by positivity : (0 : ℝ) ≤ (f32Units b : ℝ) + num / den)]
        have h0 : (0 : ℝ) ≤ f32Units b := by positivity
        rw [abs_le]
        constructor <;> linarith
    refine ⟨mul_le_mul_of_nonneg_right (n1.trans hfar) hp.le, fun he hne => ?_⟩
    have he' := mul_right_cancel₀ hp.ne' he
    have hsame : |(encUnits num den : ℝ) - num / den| = |(f32Units b : ℝ) - num / den| := le_antisymm n1 (he' ▸ hfar)
    by_cases hu : f32Units b = encUnits num den
    · exfalso
      rcases hsb2 with h | h
      · exact hne (by rw [h, hu])
      · have h3 : |(f32Units b : ℝ) - num / den| = (f32Units b : ℝ) + num / den := by
          rw [← hsame, he']
          have : sb * sg * (f32Units b : ℝ) - num / den = -((f32Units b : ℝ) + num / den) := by
            rw [h]
            linear_combination (-(f32Units b : ℝ)) * hsg3
          rw [this, abs_neg, abs_of_nonneg (by positivity : (0 : ℝ) ≤ (f32Units b : ℝ) + num / den)]
        have h0 : (0 : ℝ) ≤ f32Units b := by positivity
        have hz : (f32Units b : ℝ) = 0 := by
          by_contra hnz
          have hpos : (0 : ℝ) < f32Units b := lt_of_le_of_ne h0 (Ne.symm hnz)
          by_cases hnum : (num : ℝ) / den = 0
          · have : encUnits num den = 0 := by
              have hn : num = 0 := by
                rcases div_eq_zero_iff.1 hnum with h | h
                · exact_mod_cast h
                · exact absurd h hdr.ne'
              rw [hn]
              simp [encUnits, divEven, dropBits, Nat.log2_zero, hd]
            rw [hu, this] at hnz
            simp at hnz
          · have hpx : (0 : ℝ) < num / den := lt_of_le_of_ne hX (Ne.symm hnum)
            rcases abs_cases ((f32Units b : ℝ) - num / den) with ⟨h, _⟩ | ⟨h, _⟩ <;> linarith
        exact hne (by rw [← hu, hz]; simp)
    · exact fraction_even s num den hfin (n2 hsame hu)
  · intro hge
    have hinf : encMag num den = 0x7f800000 := by
      rw [hov]
      rw [hax, hthr] at hge
      exact le_of_mul_le_mul_right hge hp
    refine ⟨(ieeeInf_iff _).2 (by unfold f32IsInf; rw [hmag, hinf]; rfl), ?_⟩
    rw [ieeeSign_eq, hsign]
    have hpos : 0 < (num : ℝ) / den * (2 : ℝ) ^ (-149 : ℤ) := by
      rw [← hax]
      refine lt_of_lt_of_le ?_ hge
      rw [sub_pos]
      exact pow_lt_pow_right₀ (by norm_num) (by norm_num)
    rw [hx]
    cases s
    · simp only [Bool.false_eq_true, if_false, one_mul, false_iff, not_lt]
      exact hpos.le
    · simp only [if_true, true_iff]
      rw [neg_one_mul]
      exact neg_neg_of_pos hpos

theorem divEven_mono {a b : Nat} (h : a ≤ b) (D : Nat) : divEven a D ≤ divEven b D := by
  have hq := Nat.div_le_div_right (c := D) h
  rcases Nat.lt_or_eq_of_le hq with hlt | heq
  · exact (divEven_le a D).trans (le_trans hlt (le_divEven b D))
  · have h1 := Nat.div_add_mod a D
    have h2 := Nat.div_add_mod b D
    rw [heq] at h1
    have h3 : a % D ≤ b % D := by omega
    unfold divEven
    rw [heq]
    split_ifs <;> omega

theorem encMag_mono {a b : Nat} (h : a ≤ b) (den : Nat) : encMag a den ≤ encMag b den := by
  have hs : dropBits a den ≤ dropBits b den := by
    unfold dropBits
    have := Nat.log_mono_right (b := 2) (Nat.div_le_div_right (c := den) h)
    rw [Nat.log2_eq_log_two, Nat.log2_eq_log_two]
    omega
  unfold encMag
  refine min_le_min ?_ le_rfl
  obtain ⟨a1, a2⟩ := enc_bounds a den
  obtain ⟨b1, b2⟩ := enc_bounds b den
  rcases Nat.lt_or_eq_of_le hs with hlt | heq
  · have := b2 (by omega)
    omega
  · rw [heq]
    have := divEven_mono h (den * 2 ^ dropBits b den)
    omega

theorem mag_le_inf (b : BitVec 32) : f32IsNaN b = false ↔ f32Mag b ≤ 0x7f800000 := by
  unfold f32IsNaN
  simp

theorem make_num (s : Bool) (num den : Nat) : f32IsNaN (f32Make s (encMag num den)) = false := by
  rw [mag_le_inf, f32Mag_make s (encMag_lt num den)]
  exact encMag_le num den

theorem lit_mono_ieee (m n : Int) (h : m ≤ n) : f32Le (f32Lit m 1) (f32Lit n 1) = true := by
  unfold f32Le
  unfold f32Lit
  rw [make_num, make_num]
  simp only [Bool.not_false, Bool.and_self, Bool.true_and, decide_eq_true_eq]
  unfold f32Key
  rw [f32Mag_make _ (encMag_lt _ _), f32Mag_make _ (encMag_lt _ _), f32Sign_make _ (encMag_lt _ _), f32Sign_make _ (encMag_lt _ _)]
  by_cases hm : m < 0
  · by_cases hn : n < 0
    · simp only [hm, hn, decide_true, if_true]
      have : encMag (n.natAbs * 2 ^ 149) 1 ≤ encMag (m.natAbs * 2 ^ 149) 1 := encMag_mono (Nat.mul_le_mul_right _ (by omega)) 1
      omega
    · simp only [hm, hn, decide_true, decide_false, if_true, Bool.false_eq_true, if_false]
      omega
  · have hn : ¬ n < 0 := by omega
    simp only [hm, hn, decide_false, Bool.false_eq_true, if_false]
    have : encMag (m.natAbs * 2 ^ 149) 1 ≤ encMag (n.natAbs * 2 ^ 149) 1 := encMag_mono (Nat.mul_le_mul_right _ (by omega)) 1
    omega

theorem lawfulCmp_ieee (t : F32Trans) : @LawfulCmp (BitVec 32) (ieeeFlt t) := lawfulCmp_f32 (ieeeOps t) lit_mono_ieee

/-- Not NaN and equal to zero: one of the two zeros. -/
theorem eq_zero_iff (t : F32Trans) (b : BitVec 32) : (ieeeFlt t).eq b (ieeeFlt t).zero = true ↔ f32Mag b = 0 := by
  change (!f32IsNaN b && !f32IsNaN 0#32 && decide (f32Key b = f32Key 0#32)) = true ↔ _
  have h0 : f32Key 0#32 = 0 := rfl
  have h1 : f32IsNaN 0#32 = false := rfl
  rw [h0, h1]
  unfold f32Key f32IsNaN
  simp only [Bool.and_eq_true, Bool.not_eq_true', decide_eq_false_iff_not, decide_eq_true_eq, Bool.not_false, and_true, not_lt]
  split <;> omega

theorem mag_zero_cases (b : BitVec 32) (h : f32Mag b = 0) : b = 0#32 ∨ b = 0x80000000#32 := by
  unfold f32Mag at h
  have := b.isLt
  have : b.toNat = 0 ∨ b.toNat = 2 ^ 31 := by omega
  rcases this with h | h
  · left; exact BitVec.eq_of_toNat_eq h
  · right; exact BitVec.eq_of_toNat_eq h

theorem encMag_zero (den : Nat) (hd : 0 < den) : encMag 0 den = 0 := by
  simp [encMag, divEven, dropBits, Nat.log2_zero, hd]

theorem units_zero {b : BitVec 32} (h : f32Mag b = 0) : f32Units b = 0 := by
  unfold f32Units
  rw [h]
  rfl

theorem mag_zero_of_units {b : BitVec 32} (h : f32Units b = 0) : f32Mag b = 0 := by
  unfold f32Units at h
  split at h
  · exact h
  · exfalso
    have : 0 < (2 ^ 23 + f32Mag b % 2 ^ 23) * 2 ^ (f32Mag b / 2 ^ 23 - 1) := by positivity
    omega

theorem mul_zero_ieee (a w : BitVec 32) (h : f32Mag w = 0) : f32IsNaN (f32Mul a w) = true ∨ f32Mag (f32Mul a w) = 0 := by
  unfold f32Mul
  split
  · left; rfl
  split
  · rw [h]
    left
    simp [f32NaN, f32IsNaN, f32Mag]
  · right
    rw [units_zero h, Nat.mul_zero, encMag_zero _ (by positivity), f32Mag_make _ (by norm_num)]

theorem not_inf_of_zero {b : BitVec 32} (h : f32Mag b = 0) : f32IsInf b = false := by
  unfold f32IsInf
  rw [h]
  rfl

theorem int_zero {b : BitVec 32} (h : f32Mag b = 0) : f32Int b = 0 := by
  unfold f32Int
  rw [units_zero h]
  simp

theorem nan_nan : f32IsNaN f32NaN = true := rfl

theorem add_nan_left (a b : BitVec 32) (h : f32IsNaN a = true) : f32Add a b = f32NaN := by
  unfold f32Add
  simp [h]

theorem add_nan_right (a b : BitVec 32) (h : f32IsNaN b = true) : f32Add a b = f32NaN := by
  unfold f32Add
  simp [h]

theorem num_of_zero {b : BitVec 32} (h : f32Mag b = 0) : f32IsNaN b = false := by
  unfold f32IsNaN
  rw [h]
  rfl

theorem lawfulZero_ieee (t : F32Trans) : @LawfulZero (BitVec 32) (ieeeFlt t) := by
  refine @LawfulZero.mk (BitVec 32) (ieeeFlt t) rfl ?_ ?_
  · intro a b h
    unfold Flt.zeroOrNaN
    rw [eq_zero_iff] at h ⊢
    exact mul_zero_ieee a b h
  · intro a b ha hb
    unfold Flt.zeroOrNaN at *
    rw [eq_zero_iff] at *
    change f32IsNaN (f32Add a b) = true ∨ f32Mag (f32Add a b) = 0
    change f32IsNaN a = true ∨ _ at ha
    change f32IsNaN b = true ∨ _ at hb
    rcases ha with ha | ha
    · left; rw [add_nan_left _ _ ha]; rfl
    rcases hb with hb | hb
    · left; rw [add_nan_right _ _ hb]; rfl
    right
    unfold f32Add
    simp only [num_of_zero ha, num_of_zero hb, Bool.or_false, Bool.false_eq_true, if_false, not_inf_of_zero ha, not_inf_of_zero hb, int_zero ha, int_zero hb, add_zero, if_true]
    exact f32Mag_make _ (by norm_num)

theorem encMag_pos {n : Nat} (h : 0 < n) : 0 < encMag n 1 := by
  have h1 : 1 ≤ encMag 1 1 := by decide
  exact h1.trans (encMag_mono h 1)

/-- Adding a zero: the same for both zeros, unless both terms are `-0.0`. -/
theorem add_zero_ieee (a z : BitVec 32) (ha : a ≠ 0x80000000#32) (hz : f32Mag z = 0) : f32Add a z = f32Add a 0#32 := by
  have h0 : f32Mag 0#32 = 0 := rfl
  unfold f32Add
  simp only [num_of_zero hz, num_of_zero h0, not_inf_of_zero hz, not_inf_of_zero h0, int_zero hz, int_zero h0, Bool.or_false, Bool.false_and, Bool.false_eq_true, if_false, add_zero]
  split
  · rfl
  split
  · rfl
  split
  · rename_i h
    have hu : f32Units a = 0 := by
      unfold f32Int at h
      split at h <;> omega
    rcases mag_zero_cases a (mag_zero_of_units hu) with h | h
    · rw [h]; rfl
    · exact absurd h ha
  · rfl

theorem plain_iff (t : F32Trans) (a : BitVec 32) : @Flt.Plain (BitVec 32) (ieeeFlt t) a ↔ a ≠ 0x80000000#32 := by
  unfold Flt.Plain
  rw [eq_zero_iff]
  constructor
  · intro h ha
    subst ha
    have : (0x80000000#32 : BitVec 32) = 0#32 := h rfl
    exact absurd this (by decide)
  · intro h hm
    rcases mag_zero_cases a hm with h1 | h1
    · exact h1
    · exact absurd h1 h

theorem add_plain_ieee (a b : BitVec 32) (ha : a ≠ 0x80000000#32) : f32Add a b ≠ 0x80000000#32 := by
  unfold f32Add
  split
  · decide
  split
  · split
    · decide
    · exact ha
  split
  · rename_i h
    intro hb
    rw [hb] at h
    exact absurd h (by decide)
  split
  · rename_i h
    by_cases hs : (f32Sign a && f32Sign b) = true
    · exfalso
      rw [Bool.and_eq_true] at hs
      unfold f32Int at h
      rw [if_pos hs.1, if_pos hs.2] at h
      rcases mag_zero_cases a (mag_zero_of_units (by omega)) with h1 | h1
      · rw [h1] at hs
        exact absurd hs.1 (by decide)
      · exact ha h1
    · rw [Bool.not_eq_true] at hs
      rw [hs]
      decide
  · rename_i h
    intro he
    have h1 : f32Mag (f32Make (decide (f32Int a + f32Int b < 0)) (encMag (f32Int a + f32Int b).natAbs 1)) = 0 := by rw [he]; rfl
    rw [f32Mag_make _ (encMag_lt _ _)] at h1
    have := encMag_pos (n := (f32Int a + f32Int b).natAbs) (by omega)
    omega

theorem mul_zero_cases (v w : BitVec 32) (h : f32Mag w = 0) : f32Mul v w = f32NaN ∧ f32Mul v 0#32 = f32NaN ∨ f32Mag (f32Mul v w) = 0 ∧ f32Mag (f32Mul v 0#32) = 0 := by
  have h0 : f32Mag 0#32 = 0 := rfl
  unfold f32Mul
  rw [num_of_zero h, num_of_zero h0, not_inf_of_zero h, not_inf_of_zero h0, h, h0, units_zero h, units_zero h0]
  simp only [Bool.or_false, decide_true, Bool.or_true, if_true, Nat.mul_zero]
  split
  · left; exact ⟨rfl, rfl⟩
  split
  · left; exact ⟨rfl, rfl⟩
  · right
    rw [encMag_zero _ (by positivity)]
    exact ⟨f32Mag_make _ (by norm_num), f32Mag_make _ (by norm_num)⟩

theorem and_mag (b : BitVec 32) : (b &&& 0x7fffffff#32).toNat = f32Mag b := by
  unfold f32Mag
  rw [BitVec.toNat_and]
  exact Nat.and_two_pow_sub_one_eq_mod b.toNat 31

theorem signedZero_ieee (t : F32Trans) : @SignedZero (BitVec 32) (ieeeFlt t) := by
  refine @SignedZero.mk (BitVec 32) (ieeeFlt t) rfl rfl ?_ ?_ ?_ ?_ ?_ ?_
  · intro a b h
    rw [plain_iff] at *
    exact add_plain_ieee a b h
  · intro a v w ha hw
    rw [plain_iff] at ha
    rw [eq_zero_iff] at hw
    left
    change f32Add a (f32Mul v w) = f32Add a (f32Mul v 0#32)
    rcases mul_zero_cases v w hw with ⟨h1, h2⟩ | ⟨h1, h2⟩
    · rw [h1, h2]
    · rw [add_zero_ieee a _ ha h1, add_zero_ieee a _ ha h2]
  · intro a b h
    change f32IsNaN (f32Add a b) = true
    rw [add_nan_left a b h]
    rfl
  · intro a
    rw [plain_iff]
    change a &&& 0x7fffffff#32 ≠ 0x80000000#32
    intro h
    have h1 := and_mag a
    rw [h] at h1
    unfold f32Mag at h1
    have : (0x80000000#32 : BitVec 32).toNat = 2 ^ 31 := rfl
    omega
  · intro a
    change f32Lt (a &&& 0x7fffffff#32) 0#32 = false
    have h1 := and_mag a
    have h2 : f32Sign (a &&& 0x7fffffff#32) = false := by
      unfold f32Sign
      rw [h1]
      unfold f32Mag
      rw [decide_eq_false_iff_not]
      omega
    unfold f32Lt f32Key
    rw [h2]
    have : f32Sign 0#32 = false := rfl
    rw [this]
    have h3 : f32Mag 0#32 = 0 := rfl
    rw [h3]
    simp
  · intro a b h
    change (!f32IsNaN a && !f32IsNaN b && decide (f32Key a = f32Key b)) = true at h
    change (!f32IsNaN a && !f32IsNaN b && decide (f32Key a ≤ f32Key b)) = true
    rw [Bool.and_eq_true, decide_eq_true_eq] at *
    exact ⟨h.1, h.2.le⟩

theorem fin_of (b : BitVec 32) (h : IeeeFinite b) : f32IsNaN b = false ∧ f32IsInf b = false := by
  rw [ieeeFinite_iff] at h
  unfold f32IsNaN f32IsInf
  rw [decide_eq_false_iff_not, decide_eq_false_iff_not]
  omega

theorem neg_mag (b : BitVec 32) : f32Mag (f32Neg b) = f32Mag b := by
  unfold f32Neg f32Mag
  rw [BitVec.toNat_xor]
  have h := b.isLt
  have e : (0x80000000#32 : BitVec 32).toNat = 2 ^ 31 := rfl
  rw [e]
  apply Nat.eq_of_testBit_eq
  intro i
  rw [Nat.testBit_mod_two_pow, Nat.testBit_mod_two_pow, Nat.testBit_xor, Nat.testBit_two_pow]
  by_cases hi : i < 31
  · have : ¬ 31 = i := by omega
    simp [hi, this]
  · simp [hi]

theorem neg_sign (b : BitVec 32) : f32Sign (f32Neg b) = !f32Sign b := by
  rw [← ieeeSign_eq, ← ieeeSign_eq]
  unfold ieeeSign f32Neg
  rw [BitVec.getLsbD_xor]
  have : (0x80000000#32 : BitVec 32).getLsbD 31 = true := by decide
  rw [this]
  simp

theorem neg_val (b : BitVec 32) : f32Val (f32Neg b) = -f32Val b := by
  rw [f32Val_abs, f32Val_abs, neg_sign]
  have : f32Units (f32Neg b) = f32Units b := by unfold f32Units; rw [neg_mag]
  rw [this]
  cases f32Sign b <;> simp

theorem correct_zero (s : Bool) : CorrectlyRounded 0 (f32Make s 0) := by
  have := make_correct s 0 1 (by norm_num) 0 (by simp)
  rwa [encMag_zero _ (by norm_num)] at this

theorem add_correct (a b : BitVec 32) (ha : IeeeFinite a) (hb : IeeeFinite b) : CorrectlyRounded (f32Val a + f32Val b) (f32Add a b) := by
  obtain ⟨a1, a2⟩ := fin_of a ha
  obtain ⟨b1, b2⟩ := fin_of b hb
  have hv : f32Val a + f32Val b = ((f32Int a + f32Int b : ℤ) : ℝ) * (2 : ℝ) ^ (-149 : ℤ) := by
    unfold f32Val
    push_cast
    ring
  unfold f32Add
  rw [a1, b1, a2, b2]
  simp only [Bool.or_false, Bool.false_eq_true, if_false]
  rw [hv]
  split
  · rename_i h
    rw [h]
    simpa using correct_zero _
  · refine make_correct _ _ 1 (by norm_num) _ ?_
    generalize f32Int a + f32Int b = z
    have hz : (z : ℝ) = (if decide (z < 0) = true then -1 else 1) * (z.natAbs : ℝ) := by
      have : z = (if decide (z < 0) = true then -1 else 1) * (z.natAbs : ℤ) := by
        split <;> rename_i h <;> rw [decide_eq_true_eq] at h <;> omega
      rw [← Int.cast_natCast (R := ℝ)]
      exact_mod_cast this
    rw [Nat.cast_one, div_one, ← mul_assoc, ← hz]

theorem sub_correct (a b : BitVec 32) (ha : IeeeFinite a) (hb : IeeeFinite b) : CorrectlyRounded (f32Val a - f32Val b) (f32Sub a b) := by
  unfold f32Sub
  rw [sub_eq_add_neg, ← neg_val]
  exact add_correct a _ ha (by rw [ieeeFinite_iff, neg_mag, ← ieeeFinite_iff]; exact hb)

theorem sign_mul (a b : Bool) : ((if a then -1 else 1) * (if b then -1 else 1) : ℝ) = if (a != b) then -1 else 1 := by
  cases a <;> cases b <;> simp

theorem sign_div (a b : Bool) : ((if a then -1 else 1) / (if b then -1 else 1) : ℝ) = if (a != b) then -1 else 1 := by
  cases a <;> cases b <;> norm_num

theorem tiny_mul : (2 : ℝ) ^ 149 * (2 : ℝ) ^ (-149 : ℤ) = 1 := by
  rw [← zpow_natCast, ← zpow_add₀ (by norm_num)]
  norm_num

theorem cast_tiny : (((2 : ℕ) ^ 149 : ℕ) : ℝ) = (2 : ℝ) ^ 149 := by rw [Nat.cast_pow, Nat.cast_ofNat]

theorem scale_tiny (n : ℝ) (d : ℝ) : n * 2 ^ 149 / d * (2 : ℝ) ^ (-149 : ℤ) = n / d := by
  rw [mul_div_right_comm, mul_assoc, tiny_mul, mul_one]

theorem mul_correct (a b : BitVec 32) (ha : IeeeFinite a) (hb : IeeeFinite b) : CorrectlyRounded (f32Val a * f32Val b) (f32Mul a b) := by
  obtain ⟨a1, a2⟩ := fin_of a ha
  obtain ⟨b1, b2⟩ := fin_of b hb
  unfold f32Mul
  rw [a1, b1, a2, b2]
  simp only [Bool.or_false, Bool.false_eq_true, if_false]
  refine make_correct _ _ _ (by positivity) _ ?_
  rw [f32Val_abs, f32Val_abs, ← sign_mul, cast_tiny, Nat.cast_mul]
  have : (2 : ℝ) ^ (-149 : ℤ) = 1 / 2 ^ 149 := by
    rw [eq_div_iff (by positivity), mul_comm]
    exact tiny_mul
  rw [this]
  ring

theorem val_ne_zero (b : BitVec 32) (h : f32Val b ≠ 0) : f32Mag b ≠ 0 := by
  intro hm
  apply h
  rw [f32Val_abs, units_zero hm]
  simp

theorem div_correct (a b : BitVec 32) (ha : IeeeFinite a) (hb : IeeeFinite b) (h0 : f32Val b ≠ 0) : CorrectlyRounded (f32Val a / f32Val b) (f32Div a b) := by
  obtain ⟨a1, a2⟩ := fin_of a ha
  obtain ⟨b1, b2⟩ := fin_of b hb
  have hm := val_ne_zero b h0
  have hu : 0 < f32Units b := Nat.pos_of_ne_zero fun h => hm (mag_zero_of_units h)
  unfold f32Div
  rw [a1, b1, a2, b2]
  simp only [Bool.or_false, Bool.false_eq_true, if_false, hm]
  refine make_correct _ _ _ hu _ ?_
  rw [f32Val_abs, f32Val_abs, ← sign_div, Nat.cast_mul, cast_tiny, scale_tiny, mul_div_mul_comm, mul_div_mul_right _ _ tiny_pos.ne']

theorem nat_correct (n : Nat) : CorrectlyRounded n (f32OfNat n) := by
  refine make_correct false _ 1 (by norm_num) _ ?_
  rw [Nat.cast_mul, cast_tiny, scale_tiny]
  simp

theorem lit_correct (num : Int) (den : Nat) (hd : 0 < den) : CorrectlyRounded ((num : ℝ) / den) (f32Lit num den) := by
  refine make_correct _ _ den hd _ ?_
  have hz : (num : ℝ) = (if decide (num < 0) = true then -1 else 1) * (num.natAbs : ℝ) := by
    have : num = (if decide (num < 0) = true then -1 else 1) * (num.natAbs : ℤ) := by
      split <;> rename_i h <;> rw [decide_eq_true_eq] at h <;> omega
    rw [← Int.cast_natCast (R := ℝ)]
    exact_mod_cast this
  rw [Nat.cast_mul, cast_tiny, scale_tiny, ← mul_div_assoc, ← hz]

end Rml
