import Verif.Model.Weights
import Verif.SpecTypes
import Mathlib.Tactic.Ring
import Mathlib.Tactic.Linarith

/-! Helper lemmas about the weight table. -/

namespace Rml

theorem lt_two_pow_numBits (v : Nat) : v < 2 ^ numBitsToRepresent v := by
  unfold numBitsToRepresent
  split
  · omega
  · exact Nat.lt_log2_self

theorem le_two_pow_numBits_pred {v : Nat} (_ : v ≠ 0) : v ≤ 2 ^ numBitsToRepresent (v - 1) := by
  have := lt_two_pow_numBits (v - 1); omega

namespace DenseWeights
variable {F : Type}

/-- The start of a slot. -/
def slot (w : DenseWeights F) (feat model : Nat) : Nat :=
  feat * 2 ^ (w.modelIndexSizeShift + w.featureStateSizeShift) + model * 2 ^ w.featureStateSizeShift

theorem new_wf [Flt F] {a b c : Nat} {w : DenseWeights F} (h : new a b c = .ok w) :
    w.WF ∧ w.featureIndexSize = a ∧ w.modelIndexSize = b ∧ w.featureStateSize = c ∧ 0 < c ∧
      ∀ x ∈ w.weights, x = Flt.zero := by
  unfold new at h
  split at h
  · exact absurd h (by simp)
  · rename_i h0
    simp only [not_or] at h0
    obtain ⟨ha, hb, hc⟩ := h0
    dsimp only at h
    split at h
    · injection h with h
      subst h
      refine ⟨⟨le_two_pow_numBits_pred hb, le_two_pow_numBits_pred hc, ?_⟩, rfl, rfl, rfl, Nat.pos_of_ne_zero hc, ?_⟩
      · simp only [List.length_replicate]
        rw [Nat.mul_assoc]
        exact Nat.mul_le_mul_right _ (le_two_pow_numBits_pred ha)
      · intro x hx; exact (List.mem_replicate.mp hx).2
    · exact absurd h (by simp)

theorem convertIndex_ok (dbg : Bool) (w : DenseWeights F) {f m : Nat} (hf : f < w.featureIndexSize)
    (hm : m < w.modelIndexSize) : w.convertIndex dbg f m = .ok (w.slot f m) := by
  simp [convertIndex, debugAssert, hf, hm, slot, bind, Except.bind]

theorem slot_add_le (w : DenseWeights F) (h : w.WF) {f m : Nat} (hf : f < w.featureIndexSize)
    (hm : m < w.modelIndexSize) : w.slot f m + w.featureStateSize ≤ w.weights.length := by
  unfold slot
  rw [Nat.pow_add]
  have h1 := h.model_le
  have h2 := h.state_le
  have h3 := h.len
  generalize 2 ^ w.modelIndexSizeShift = A at *
  generalize 2 ^ w.featureStateSizeShift = B at *
  have hmA : m + 1 ≤ A := by omega
  have e1 : (m + 1) * B ≤ A * B := Nat.mul_le_mul_right _ hmA
  have e2 : (f + 1) * (A * B) ≤ w.featureIndexSize * (A * B) := Nat.mul_le_mul_right _ hf
  have e3 : (m + 1) * B = m * B + B := by ring
  have e4 : (f + 1) * (A * B) = f * (A * B) + A * B := by ring
  omega

/-- Two different in-range slots are disjoint ranges. -/
theorem slot_disjoint (w : DenseWeights F) (h : w.WF) {f m f' m' : Nat}
    (hm : m < w.modelIndexSize) (hm' : m' < w.modelIndexSize) (hne : (f, m) ≠ (f', m')) :
    w.slot f m + w.featureStateSize ≤ w.slot f' m' ∨ w.slot f' m' + w.featureStateSize ≤ w.slot f m := by
  unfold slot
  rw [Nat.pow_add]
  have h1 := h.model_le
  have h2 := h.state_le
  generalize 2 ^ w.modelIndexSizeShift = A at *
  generalize 2 ^ w.featureStateSizeShift = B at *
  have key : ∀ x y x' y' : Nat, y < A → x < x' → x * (A * B) + y * B + B ≤ x' * (A * B) + y' * B := by
    intro x y x' y' hy hx
    have e1 : (y + 1) * B ≤ A * B := Nat.mul_le_mul_right _ hy
    have e2 : (x + 1) * (A * B) ≤ x' * (A * B) := Nat.mul_le_mul_right _ hx
    have e3 : (y + 1) * B = y * B + B := by ring
    have e4 : (x + 1) * (A * B) = x * (A * B) + A * B := by ring
    omega
  rcases lt_trichotomy f f' with hlt | heq | hgt
  · left; have := key f m f' m' (by omega) hlt; omega
  · subst heq
    have key2 : ∀ y y' : Nat, y < y' → y * B + B ≤ y' * B := by
      intro y y' hy
      have e2 : (y + 1) * B ≤ y' * B := Nat.mul_le_mul_right _ hy
      have e3 : (y + 1) * B = y * B + B := by ring
      omega
    rcases lt_trichotomy m m' with hl | he | hg
    · left; have := key2 m m' hl; omega
    · subst he; exact absurd rfl hne
    · right; have := key2 m' m hg; omega
  · right; have := key f' m' f m (by omega) hgt; omega

theorem stateAt_eq (dbg : Bool) (w : DenseWeights F) (h : w.WF) {f m : Nat} (hf : f < w.featureIndexSize)
    (hm : m < w.modelIndexSize) :
    w.stateAt dbg f m = .ok ((w.weights.drop (w.slot f m)).take w.featureStateSize) := by
  simp [stateAt, convertIndex_ok dbg w hf hm, slot_add_le w h hf hm, bind, Except.bind]

/-- The table after writing one slot. -/
def putState (w : DenseWeights F) (f m : Nat) (s : List F) : DenseWeights F :=
  { w with weights := w.weights.take (w.slot f m) ++ s ++ w.weights.drop (w.slot f m + w.featureStateSize) }

theorem setStateAt_eq (dbg : Bool) (w : DenseWeights F) (h : w.WF) {f m : Nat} (hf : f < w.featureIndexSize)
    (hm : m < w.modelIndexSize) {s : List F} (hs : s.length = w.featureStateSize) :
    w.setStateAt dbg f m s = .ok (w.putState f m s) := by
  simp [setStateAt, convertIndex_ok dbg w hf hm, slot_add_le w h hf hm, hs, bind, Except.bind, putState]

theorem putState_len (w : DenseWeights F) (h : w.WF) {f m : Nat} (hf : f < w.featureIndexSize)
    (hm : m < w.modelIndexSize) {s : List F} (hs : s.length = w.featureStateSize) :
    (w.putState f m s).weights.length = w.weights.length := by
  have := slot_add_le w h hf hm
  simp only [putState, List.length_append, List.length_take, List.length_drop, hs]
  omega

theorem putState_wf (w : DenseWeights F) (h : w.WF) {f m : Nat} (hf : f < w.featureIndexSize)
    (hm : m < w.modelIndexSize) {s : List F} (hs : s.length = w.featureStateSize) : (w.putState f m s).WF :=
  ⟨h.model_le, h.state_le, by rw [putState_len w h hf hm hs]; exact h.len⟩

/-- Reading a slot after writing one. -/
theorem read_putState (w : DenseWeights F) (h : w.WF) {f m f' m' : Nat} (hf : f < w.featureIndexSize)
    (hm : m < w.modelIndexSize) (hf' : f' < w.featureIndexSize)
    (hm' : m' < w.modelIndexSize) {s : List F} (hs : s.length = w.featureStateSize) :
    ((w.putState f m s).weights.drop (w.slot f' m')).take w.featureStateSize =
      if (f', m') = (f, m) then s else (w.weights.drop (w.slot f' m')).take w.featureStateSize := by
  have hb := slot_add_le w h hf hm
  have hb' := slot_add_le w h hf' hm'
  split
  · rename_i heq
    injection heq with e1 e2
    subst e1 e2
    simp only [putState]
    rw [List.append_assoc, List.drop_append_of_le_length (by simp; omega)]
    rw [List.drop_eq_nil_of_le (by simp)]
    simp [← hs]
  · rename_i hne
    have hd := slot_disjoint w h hm' hm hne
    apply List.ext_getElem?
    intro i
    simp only [List.getElem?_take, List.getElem?_drop, putState]
    split
    · rename_i hi
      rcases hd with hd | hd
      · rw [List.append_assoc, List.getElem?_append_left (by simp; omega), List.getElem?_take, if_pos (by omega)]
      · rw [List.getElem?_append_right (by simp [hs]; omega), List.getElem?_drop]
        congr 1
        simp [hs]
        omega
    · rfl

end DenseWeights
end Rml
