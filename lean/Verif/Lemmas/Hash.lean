import Verif.Model.Hash
import Verif.Model.InverseHash
import Mathlib.Data.Nat.Bitwise

/-! Helper lemmas about masks and hashes. -/

namespace Rml

theorem fnvMul_eq (x : U32) : fnvMul x = FNV_PRIME * x := by
  unfold fnvMul
  apply BitVec.eq_of_toNat_eq
  simp [BitVec.toNat_mul, BitVec.toNat_setWidth]

theorem maskBits_toNat {n : Nat} (h : n < 32) : (maskBits n).toNat = 2 ^ n - 1 := by
  unfold maskBits
  have h1 : (2:Nat) ^ n < 2 ^ 32 := Nat.pow_lt_pow_right (by decide) h
  have h2 : 0 < (2:Nat) ^ n := Nat.pow_pos (by decide)
  have hs : (1#32 <<< n).toNat = 2 ^ n := by
    simpa [BitVec.toNat_shiftLeft, Nat.shiftLeft_eq] using h1
  rw [BitVec.toNat_sub, hs]
  simp
  omega

theorem maskIdx_toNat {n : Nat} (h : n < 32) (x : U32) : (maskIdx n x).toNat = x.toNat % 2 ^ n := by
  unfold maskIdx
  rw [BitVec.toNat_and, maskBits_toNat h, Nat.and_two_pow_sub_one_eq_mod]

theorem maskIdx_lt {n : Nat} (h : n < 32) (x : U32) : (maskIdx n x).toNat < 2 ^ n := by
  rw [maskIdx_toNat h]
  exact Nat.mod_lt _ (Nat.pow_pos (by decide))

theorem maskIdx_eq_of_lt {n : Nat} (h : n < 32) (x : U32) (hx : x.toNat < 2 ^ n) : maskIdx n x = x := by
  apply BitVec.eq_of_toNat_eq
  rw [maskIdx_toNat h, Nat.mod_eq_of_lt hx]

theorem maskIdx_idem {n : Nat} (h : n < 32) (x : U32) : maskIdx n (maskIdx n x) = maskIdx n x :=
  maskIdx_eq_of_lt h _ (maskIdx_lt h x)

theorem bitsToMax_toNat {n : Nat} (h : n < 32) : (bitsToMaxFeatureIndex n).toNat = 2 ^ n := by
  unfold bitsToMaxFeatureIndex
  have h1 : (2:Nat) ^ n < 2 ^ 32 := Nat.pow_lt_pow_right (by decide) h
  simpa [BitVec.toNat_shiftLeft, Nat.shiftLeft_eq] using h1

theorem constantFeatureIndex_toNat {n : Nat} (h : n < 32) : (constantFeatureIndex n).toNat = 2 ^ n / 2 := by
  unfold constantFeatureIndex
  rw [BitVec.toNat_udiv, bitsToMax_toNat h]
  rfl

theorem constantFeatureIndex_lt {n : Nat} (h : n < 32) : (constantFeatureIndex n).toNat < 2 ^ n := by
  rw [constantFeatureIndex_toNat h]
  have : 0 < (2:Nat) ^ n := Nat.pow_pos (by decide)
  omega

theorem maskIdx_xor (n : Nat) (a b : U32) : maskIdx n (a ^^^ b) = maskIdx n a ^^^ maskIdx n b := by
  unfold maskIdx
  ext i
  simp [Bool.and_xor_distrib_right]

theorem maskIdx_xor_congr {n : Nat} {a a' b b' : U32} (h1 : maskIdx n a = maskIdx n a') (h2 : maskIdx n b = maskIdx n b') :
    maskIdx n (a ^^^ b) = maskIdx n (a' ^^^ b') := by
  rw [maskIdx_xor, maskIdx_xor, h1, h2]

theorem maskIdx_mul_congr {n : Nat} (h : n < 32) {c a a' : U32} (h1 : maskIdx n a = maskIdx n a') :
    maskIdx n (c * a) = maskIdx n (c * a') := by
  apply BitVec.eq_of_toNat_eq
  have e : a.toNat % 2 ^ n = a'.toNat % 2 ^ n := by
    have := congrArg BitVec.toNat h1
    rwa [maskIdx_toNat h, maskIdx_toNat h] at this
  rw [maskIdx_toNat h, maskIdx_toNat h, BitVec.toNat_mul, BitVec.toNat_mul]
  have hd : 2 ^ n ∣ 2 ^ 32 := Nat.pow_dvd_pow 2 (by omega)
  rw [Nat.mod_mod_of_dvd _ hd, Nat.mod_mod_of_dvd _ hd, Nat.mul_mod, e, ← Nat.mul_mod]

theorem foldl_hash_congr {n : Nat} (h : n < 32) (mid : List U32) :
    ∀ a a' : U32, maskIdx n a = maskIdx n a' →
      maskIdx n ((mid.map (maskIdx n)).foldl (fun h t => FNV_PRIME * (h ^^^ t)) a) =
      maskIdx n (mid.foldl (fun h t => FNV_PRIME * (h ^^^ t)) a') := by
  induction mid with
  | nil => intro a a' e; simpa using e
  | cons t ts ih =>
    intro a a' e
    simp only [List.map_cons, List.foldl_cons]
    apply ih
    apply maskIdx_mul_congr h
    exact maskIdx_xor_congr e (maskIdx_idem h t)

theorem Namespace.rank_inj {a b : Namespace} (h : a.rank = b.rank) : a = b := by
  cases a <;> cases b <;> simp only [Namespace.rank] at h
  case named.named x y => rw [BitVec.eq_of_toNat_eq h]
  case named.rawHash x y => have := x.isLt; omega
  case named.default x => have := x.isLt; omega
  case rawHash.named x y => have := y.isLt; omega
  case rawHash.rawHash x y => exact congrArg Namespace.rawHash (BitVec.eq_of_toNat_eq (by omega))
  case rawHash.default x => have := x.isLt; omega
  case default.named y => have := y.isLt; omega
  case default.rawHash y => have := y.isLt; omega
  case default.default => rfl

end Rml
