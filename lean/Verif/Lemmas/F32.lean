import Verif.Model.F32
import Verif.Lemmas.Field

/-! The float laws hold for exact arithmetic and for single precision bit patterns. -/

namespace Rml

theorem lawfulCmp_field (K : Type) [Field K] [LinearOrder K] [IsStrictOrderedRing K] [Trans K] : @LawfulCmp K (fieldFlt K) :=
  @LawfulCmp.mk K (fieldFlt K) rfl (by intros; exact ⟨rfl, rfl⟩) (by intro a b; rw [Bool.eq_iff_iff]; simp) (by intros; simp)
    (by intro a b c h1 h2; simp at *; exact le_trans h1 h2) (by intro a b _ _; simp; exact le_total a b)
    (by intro a b h; simp at h) (by intro a b h; simp at h)
    (by intro a b _ _; simp; exact le_total a b) (by intro a b _ _; simp; exact le_total b a)
    (by intro m n h; simp; exact h)

theorem lawfulZero_field (K : Type) [Field K] [LinearOrder K] [Trans K] : @LawfulZero K (fieldFlt K) :=
  @LawfulZero.mk K (fieldFlt K) (by simp) (by intro a b h; right; simp at h; simp [h])
    (by
      intro a b h1 h2
      right
      unfold Flt.zeroOrNaN at h1 h2
      simp at h1 h2
      simp [h1, h2])

theorem lawfulCmp_f32 (o : F32Ops) (h : ∀ m n : Int, m ≤ n → f32Le (o.lit m 1) (o.lit n 1) = true) :
    @LawfulCmp (BitVec 32) (f32Flt o) :=
  @LawfulCmp.mk (BitVec 32) (f32Flt o) rfl
    (by
      intro a b h
      change f32Le a b = true at h
      simp only [f32Le, Bool.and_eq_true, Bool.not_eq_true'] at h
      exact ⟨h.1.1, h.1.2⟩)
    (by
      intro a b
      change f32Lt a b = (!f32IsNaN a && !f32IsNaN b && !f32Le b a)
      unfold f32Lt f32Le
      cases f32IsNaN a <;> cases f32IsNaN b <;> rw [Bool.eq_iff_iff] <;> simp)
    (by intro a h; change f32Le a a = true; change f32IsNaN a = false at h; simp [f32Le, h])
    (by
      intro a b c h1 h2
      change f32Le a b = true at h1
      change f32Le b c = true at h2
      change f32Le a c = true
      simp only [f32Le, Bool.and_eq_true, Bool.not_eq_true', decide_eq_true_eq] at *
      exact ⟨⟨h1.1.1, h2.1.2⟩, le_trans h1.2 h2.2⟩)
    (by
      intro a b h1 h2
      change f32IsNaN a = false at h1
      change f32IsNaN b = false at h2
      change f32Le a b = true ∨ f32Le b a = true
      simp only [f32Le, h1, h2, Bool.not_false, Bool.and_self, Bool.true_and, decide_eq_true_eq]
      exact le_total _ _)
    (by
      intro a b h1 h2
      change f32IsNaN a = true at h1
      change (if f32IsNaN a then b else _) = b
      simp [h1])
    (by
      intro a b h1 h2
      change f32IsNaN a = true at h1
      change (if f32IsNaN a then b else _) = b
      simp [h1])
    (by
      intro a b h1 h2
      change f32IsNaN a = false at h1
      change f32IsNaN b = false at h2
      change ((if f32IsNaN a then b else if f32IsNaN b then a else if f32Key a ≤ f32Key b then a else b) = a ∨
          (if f32IsNaN a then b else if f32IsNaN b then a else if f32Key a ≤ f32Key b then a else b) = b) ∧
        f32Le (if f32IsNaN a then b else if f32IsNaN b then a else if f32Key a ≤ f32Key b then a else b) a = true ∧
        f32Le (if f32IsNaN a then b else if f32IsNaN b then a else if f32Key a ≤ f32Key b then a else b) b = true
      simp only [h1, h2, Bool.false_eq_true, if_false]
      split
      · rename_i h3; simp [f32Le, h1, h2, h3]
      · rename_i h3; simp [f32Le, h1, h2]; omega)
    (by
      intro a b h1 h2
      change f32IsNaN a = false at h1
      change f32IsNaN b = false at h2
      change ((if f32IsNaN a then b else if f32IsNaN b then a else if f32Key a ≤ f32Key b then b else a) = a ∨
          (if f32IsNaN a then b else if f32IsNaN b then a else if f32Key a ≤ f32Key b then b else a) = b) ∧
        f32Le a (if f32IsNaN a then b else if f32IsNaN b then a else if f32Key a ≤ f32Key b then b else a) = true ∧
        f32Le b (if f32IsNaN a then b else if f32IsNaN b then a else if f32Key a ≤ f32Key b then b else a) = true
      simp only [h1, h2, Bool.false_eq_true, if_false]
      split
      · rename_i h3; simp [f32Le, h1, h2, h3]
      · rename_i h3; simp [f32Le, h1, h2]; omega)
    h

end Rml
