import Verif.Lemmas.Weights
import Verif.Model.Serde
import Mathlib.Tactic.Linarith
set_option linter.unusedSectionVars false

/-! Helper lemmas about the two saved forms of a weight table. -/

namespace Rml
variable {F : Type} [Flt F]
open Serde

/-- A zero of either sign becomes plain zero. -/
def canonZ (x : F) : F := if Flt.eq x Flt.zero then Flt.zero else x

theorem toDense_aux (v : List F) : ∀ (n : Nat) (pre : List F), pre.length = n →
    (((v.zipIdx n).filter (fun p => !Flt.eq p.1 Flt.zero)).map (fun p => (p.2, p.1))).foldlM
      (fun (v : List F) (p : Nat × F) => if p.1 < v.length then some (v.set p.1 p.2) else none)
      (pre ++ List.replicate v.length Flt.zero) =
      some (pre ++ v.map canonZ) := by
  induction v with
  | nil => intro n pre h; simp
  | cons x v ih =>
    intro n pre h
    rw [List.zipIdx_cons, List.filter_cons]
    have key := ih (n + 1) (pre ++ [canonZ x]) (by simp [h])
    have e : pre ++ [canonZ x] ++ v.map canonZ = pre ++ (x :: v).map canonZ := by simp
    rw [e] at key
    cases hz : Flt.eq x Flt.zero
    · simp only [hz, Bool.not_false, if_true, List.map_cons, List.foldlM_cons]
      rw [if_pos (by simp; omega)]
      rw [Option.bind_eq_bind, Option.bind_some]
      refine Eq.trans ?_ (key.trans (by simp))
      congr 1
      simp [canonZ, hz, ← h, List.replicate_succ]
    · simp only [hz, Bool.not_true, Bool.false_eq_true, if_false]
      rw [← key]
      congr 1
      simp [canonZ, hz, List.replicate_succ]

/-- The sparse form restores the vector, zeros made plain. -/
theorem toDense_fromDense (v : List F) : (SparseF32Vec.fromDense v).toDense = some (v.map canonZ) := by
  have := toDense_aux v 0 [] rfl
  simpa [SparseF32Vec.fromDense, SparseF32Vec.toDense] using this

namespace DenseWeights

/-- Tables as the program makes them: dimensions that fit, exact length, zeros outside the slots. -/
structure Good (w : DenseWeights F) : Prop where
  wf : w.WF
  nf : w.featureIndexSize ≠ 0
  len : w.weights.length = 2 ^ numBitsToRepresent (w.featureIndexSize - 1) * 2 ^ w.modelIndexSizeShift * 2 ^ w.featureStateSizeShift
  pad : ∀ k, k < w.weights.length → (∀ f m, f < w.featureIndexSize → m < w.modelIndexSize →
    ¬(w.slot f m ≤ k ∧ k < w.slot f m + w.featureStateSize)) → w.weights[k]? = some Flt.zero

/-- The slice of a slot. -/
def read (w : DenseWeights F) (f m : Nat) : List F := (w.weights.drop (w.slot f m)).take w.featureStateSize

theorem read_length (w : DenseWeights F) (h : w.WF) {f m : Nat} (hf : f < w.featureIndexSize) (hm : m < w.modelIndexSize) :
    (w.read f m).length = w.featureStateSize := by
  have := slot_add_le w h hf hm
  simp [read]; omega

/-- A table of zeros is good. -/
theorem good_zero (fis mis fss misS fssS : Nat) (h1 : mis ≤ 2 ^ misS) (h2 : fss ≤ 2 ^ fssS) (h3 : fis ≠ 0) :
    (DenseWeights.mk (List.replicate (2 ^ numBitsToRepresent (fis - 1) * 2 ^ misS * 2 ^ fssS) (Flt.zero : F)) fis mis fss misS fssS).Good := by
  refine ⟨⟨h1, h2, ?_⟩, h3, by simp, ?_⟩
  · simp only [List.length_replicate]
    rw [Nat.mul_assoc]
    exact Nat.mul_le_mul_right _ (le_two_pow_numBits_pred h3)
  · intro k hk _
    simp only [List.length_replicate] at hk
    simp [List.getElem?_replicate, hk]

theorem new_good {a b c : Nat} {w : DenseWeights F} (h : new a b c = .ok w) : w.Good := by
  unfold new at h
  split at h
  · exact absurd h (by simp)
  · rename_i h0
    simp only [not_or] at h0
    obtain ⟨ha, hb, hc⟩ := h0
    dsimp only at h
    split at h
    · injection h with h
      subst h
      exact good_zero _ _ _ _ _ (le_two_pow_numBits_pred hb) (le_two_pow_numBits_pred hc) ha
    · exact absurd h (by simp)

theorem putState_getElem? (w : DenseWeights F) (h : w.WF) {f m : Nat} (hf : f < w.featureIndexSize) (hm : m < w.modelIndexSize)
    {s : List F} (hs : s.length = w.featureStateSize) (k : Nat) (hk : ¬(w.slot f m ≤ k ∧ k < w.slot f m + w.featureStateSize)) :
    (w.putState f m s).weights[k]? = w.weights[k]? := by
  have hb := slot_add_le w h hf hm
  simp only [putState]
  by_cases h1 : k < w.slot f m
  · rw [List.append_assoc, List.getElem?_append_left (by simp; omega), List.getElem?_take, if_pos h1]
  · rw [List.getElem?_append_right (by simp [hs]; omega), List.getElem?_drop]
    congr 1
    simp [hs]
    omega

theorem putState_good {w : DenseWeights F} (h : w.Good) {f m : Nat} (hf : f < w.featureIndexSize) (hm : m < w.modelIndexSize)
    {s : List F} (hs : s.length = w.featureStateSize) : (w.putState f m s).Good := by
  refine ⟨putState_wf w h.wf hf hm hs, h.nf, ?_, ?_⟩
  · rw [putState_len w h.wf hf hm hs]; exact h.len
  · intro k hk hn
    rw [putState_len w h.wf hf hm hs] at hk
    rw [putState_getElem? w h.wf hf hm hs k (hn f m hf hm)]
    exact h.pad k hk hn

/-- Good tables of the same dimensions with the same slices are equal. -/
theorem good_ext {w v : DenseWeights F} (hw : w.Good) (hv : v.Good) (e1 : w.featureIndexSize = v.featureIndexSize)
    (e2 : w.modelIndexSize = v.modelIndexSize) (e3 : w.featureStateSize = v.featureStateSize)
    (e4 : w.modelIndexSizeShift = v.modelIndexSizeShift) (e5 : w.featureStateSizeShift = v.featureStateSizeShift)
    (hr : ∀ f m, f < w.featureIndexSize → m < w.modelIndexSize → w.read f m = v.read f m) : w = v := by
  have hlen : w.weights.length = v.weights.length := by rw [hw.len, hv.len, e1, e4, e5]
  have hslot : ∀ f m, w.slot f m = v.slot f m := by intro f m; simp [slot, e4, e5]
  have : w.weights = v.weights := by
    apply List.ext_getElem?
    intro k
    by_cases hk : k < w.weights.length
    · by_cases hin : ∃ f m, f < w.featureIndexSize ∧ m < w.modelIndexSize ∧ w.slot f m ≤ k ∧ k < w.slot f m + w.featureStateSize
      · obtain ⟨f, m, hf, hm, h1, h2⟩ := hin
        have := congrArg (fun l => l[k - w.slot f m]?) (hr f m hf hm)
        simp only [read, List.getElem?_take, List.getElem?_drop, ← hslot, ← e3] at this
        rw [if_pos (by omega), if_pos (by omega)] at this
        rwa [show w.slot f m + (k - w.slot f m) = k by omega] at this
      · have hn : ∀ f m, f < w.featureIndexSize → m < w.modelIndexSize →
            ¬(w.slot f m ≤ k ∧ k < w.slot f m + w.featureStateSize) := by
          intro f m hf hm hh; exact hin ⟨f, m, hf, hm, hh⟩
        rw [hw.pad k hk hn, hv.pad k (by omega) (by
          intro f m hf hm; rw [← hslot, ← e3]; exact hn f m (by omega) (by omega))]
    · rw [List.getElem?_eq_none (by omega), List.getElem?_eq_none (by omega)]
  cases w; cases v; simp_all

end DenseWeights

open DenseWeights

theorem statesOf_eq {w : DenseWeights F} (h : w.WF) {i : Nat} (hi : i < w.featureIndexSize) :
    statesOf w i = some ((List.range w.modelIndexSize).map fun j => w.read i j) := by
  unfold statesOf
  have : ∀ l : List Nat, (∀ j ∈ l, j < w.modelIndexSize) → l.mapM (fun j =>
      match w.stateAt true i j with
      | .ok s => some s
      | .error _ => none) = some (l.map fun j => w.read i j) := by
    intro l
    induction l with
    | nil => intro _; rfl
    | cons j l ih =>
      intro hl
      rw [List.mapM_cons, ih (fun j hj => hl j (by simp [hj])), stateAt_eq true w h hi (hl j (by simp))]
      rfl
  exact this _ (fun j hj => by simpa using hj)

/-- One row of the nested form. -/
def rowOf (w : DenseWeights F) (i : Nat) : List (List F) := (List.range w.modelIndexSize).map fun j => w.read i j

/-- Does a row hold anything but zeros? -/
def rowNonzero (r : List (List F)) : Bool := r.any fun s => s.any fun x => !Flt.eq x Flt.zero

theorem ofDense_eq (order : List (Nat × List (List F)) → List (Nat × List (List F))) {w : DenseWeights F} (h : w.WF) :
    NDArray.ofDense order w = some ⟨order (((List.range w.featureIndexSize).map fun i => (i, rowOf w i)).filter fun e => rowNonzero e.2),
      w.featureIndexSize, w.modelIndexSize, w.featureStateSize, w.modelIndexSizeShift, w.featureStateSizeShift⟩ := by
  unfold NDArray.ofDense
  have : ∀ l : List Nat, (∀ i ∈ l, i < w.featureIndexSize) → l.mapM (fun i => do
      let ss ← statesOf w i
      some (i, ss)) = some (l.map fun i => (i, rowOf w i)) := by
    intro l
    induction l with
    | nil => intro _; rfl
    | cons i l ih =>
      intro hl
      rw [List.mapM_cons, ih (fun j hj => hl j (by simp [hj])), statesOf_eq h (hl i (by simp))]
      rfl
  rw [this _ (fun i hi => by simpa using hi)]
  rfl

theorem putStates_spec (i : Nat) (ss : List (List F)) : ∀ (j : Nat) (w : DenseWeights F), w.Good → i < w.featureIndexSize →
    j + ss.length ≤ w.modelIndexSize → w.modelIndexSize ≤ 256 → (∀ s ∈ ss, s.length = w.featureStateSize) →
    ∃ w', putStates w i j ss = some w' ∧ w'.Good ∧ w'.featureIndexSize = w.featureIndexSize ∧ w'.modelIndexSize = w.modelIndexSize ∧
      w'.featureStateSize = w.featureStateSize ∧ w'.modelIndexSizeShift = w.modelIndexSizeShift ∧
      w'.featureStateSizeShift = w.featureStateSizeShift ∧
      ∀ f m, f < w.featureIndexSize → m < w.modelIndexSize →
        w'.read f m = if f = i ∧ j ≤ m ∧ m < j + ss.length then (ss[m - j]?).getD [] else w.read f m := by
  induction ss with
  | nil =>
    intro j w hw hi _ _ _
    exact ⟨w, rfl, hw, rfl, rfl, rfl, rfl, rfl, fun f m _ _ => by rw [if_neg (by simp)]⟩
  | cons s ss ih =>
    intro j w hw hi hj h256 hs
    simp only [List.length_cons] at hj
    have hs0 := hs s (by simp)
    have hjm : j < w.modelIndexSize := by omega
    obtain ⟨w', h1, h2, e1, e2, e3, e4, e5, h3⟩ := ih (j + 1) (w.putState i j s) (putState_good hw hi hjm hs0) hi
      (by show j + 1 + ss.length ≤ w.modelIndexSize; omega) h256 (fun t ht => hs t (by simp [ht]))
    refine ⟨w', ?_, h2, e1, e2, e3, e4, e5, ?_⟩
    · rw [putStates, Nat.mod_eq_of_lt (by omega), setStateAt_eq true w hw.wf hi hjm hs0]
      exact h1
    · intro f m hf hm
      rw [h3 f m hf hm]
      have hrd : (w.putState i j s).read f m = if (f, m) = (i, j) then s else w.read f m :=
        read_putState w hw.wf hi hjm hf hm hs0
      rw [hrd]
      by_cases hfi : f = i
      · subst hfi
        by_cases hmj : m = j
        · subst hmj
          simp
        · by_cases hle : j + 1 ≤ m ∧ m < j + 1 + ss.length
          · rw [if_pos ⟨rfl, hle⟩, if_pos ⟨rfl, by omega, by simp only [List.length_cons]; omega⟩]
            rw [show m - j = (m - (j + 1)) + 1 by omega, List.getElem?_cons_succ]
          · rw [if_neg (by rintro ⟨_, h⟩; exact hle h), if_neg (by simp [hmj]), if_neg (by simp only [List.length_cons]; rintro ⟨_, h1, h2⟩; exact hle ⟨by omega, by omega⟩)]
      · rw [if_neg (by simp [hfi]), if_neg (by simp [hfi]), if_neg (by simp [hfi])]

/-- Writing a list of rows with distinct keys. -/
theorem putRows_spec (rows : List (Nat × List (List F))) : ∀ (w : DenseWeights F), w.Good → w.modelIndexSize ≤ 256 →
    (rows.map Prod.fst).Nodup →
    (∀ e ∈ rows, e.1 < w.featureIndexSize ∧ e.2.length = w.modelIndexSize ∧ ∀ s ∈ e.2, s.length = w.featureStateSize) →
    ∃ w', rows.foldlM (fun w e => putStates w e.1 0 e.2) w = some w' ∧ w'.Good ∧ w'.featureIndexSize = w.featureIndexSize ∧
      w'.modelIndexSize = w.modelIndexSize ∧ w'.featureStateSize = w.featureStateSize ∧
      w'.modelIndexSizeShift = w.modelIndexSizeShift ∧ w'.featureStateSizeShift = w.featureStateSizeShift ∧
      (∀ f m, f < w.featureIndexSize → m < w.modelIndexSize → (∀ e ∈ rows, e.1 ≠ f) → w'.read f m = w.read f m) ∧
      (∀ e ∈ rows, ∀ m, m < w.modelIndexSize → w'.read e.1 m = (e.2[m]?).getD []) := by
  induction rows with
  | nil => intro w hw _ _ _; exact ⟨w, rfl, hw, rfl, rfl, rfl, rfl, rfl, fun _ _ _ _ _ => rfl, fun e he => by simp at he⟩
  | cons e rows ih =>
    intro w hw h256 hnd hrows
    obtain ⟨hi, hl, hs⟩ := hrows e (by simp)
    obtain ⟨w1, a1, a2, a3, a4, a5, a6, a7, a8⟩ := putStates_spec e.1 e.2 0 w hw hi (by omega) h256 hs
    simp only [List.map_cons, List.nodup_cons] at hnd
    obtain ⟨w2, b1, b2, b3, b4, b5, b6, b7, b8, b9⟩ := ih w1 a2 (by omega) hnd.2 (by
      intro x hx; rw [a3, a4, a5]; exact hrows x (by simp [hx]))
    refine ⟨w2, ?_, b2, by omega, by omega, by omega, by omega, by omega, ?_, ?_⟩
    · rw [List.foldlM_cons, a1]; exact b1
    · intro f m hf hm hne
      rw [b8 f m (by omega) (by omega) (fun x hx => hne x (by simp [hx])), a8 f m hf hm, if_neg]
      intro h; exact hne e (by simp) h.1.symm
    · intro x hx m hm
      rcases List.mem_cons.1 hx with rfl | hx
      · rw [b8 x.1 m (by omega) (by omega) (fun y hy h => hnd.1 (List.mem_map.2 ⟨y, hy, h⟩)), a8 x.1 m hi hm,
          if_pos ⟨rfl, by omega, by omega⟩]
        rfl
      · exact b9 x hx m (by omega)

/-- From a good table to the nested form and back, for any order of the map. -/
theorem nd_roundtrip (order : List (Nat × List (List F)) → List (Nat × List (List F))) (horder : ∀ l, (order l).Perm l)
    {w : DenseWeights F} (hw : w.Good) (h256 : w.modelIndexSize ≤ 256) :
    ∃ a w', NDArray.ofDense order w = some a ∧ a.toDense = some w' ∧ w'.Good ∧ w'.featureIndexSize = w.featureIndexSize ∧
      w'.modelIndexSize = w.modelIndexSize ∧ w'.featureStateSize = w.featureStateSize ∧
      w'.modelIndexSizeShift = w.modelIndexSizeShift ∧ w'.featureStateSizeShift = w.featureStateSizeShift ∧
      ∀ f m, f < w.featureIndexSize → m < w.modelIndexSize →
        w'.read f m = if rowNonzero (rowOf w f) then w.read f m else List.replicate w.featureStateSize Flt.zero := by
  rw [ofDense_eq order hw.wf]
  generalize hrows : order (((List.range w.featureIndexSize).map fun i => (i, rowOf w i)).filter fun e => rowNonzero e.2) = rows
  have hperm := horder (((List.range w.featureIndexSize).map fun i => (i, rowOf w i)).filter fun e => rowNonzero e.2)
  rw [hrows] at hperm
  have hmem : ∀ e, e ∈ rows ↔ e.1 < w.featureIndexSize ∧ e.2 = rowOf w e.1 ∧ rowNonzero (rowOf w e.1) = true := by
    intro e
    rw [hperm.mem_iff, List.mem_filter, List.mem_map]
    constructor
    · rintro ⟨⟨i, hi, rfl⟩, h2⟩
      exact ⟨by simpa using hi, rfl, h2⟩
    · rintro ⟨h1, h2, h3⟩
      refine ⟨⟨e.1, by simpa using h1, ?_⟩, by rw [h2]; exact h3⟩
      rw [← h2]
  have hnd : (rows.map Prod.fst).Nodup := by
    rw [(hperm.map Prod.fst).nodup_iff]
    refine List.Nodup.sublist (List.Sublist.map _ List.filter_sublist) ?_
    rw [List.map_map]
    have : (Prod.fst ∘ fun i => (i, rowOf w i)) = id := rfl
    rw [this, List.map_id]
    exact List.nodup_range
  have hg := good_zero (F := F) w.featureIndexSize w.modelIndexSize w.featureStateSize w.modelIndexSizeShift w.featureStateSizeShift
    hw.wf.model_le hw.wf.state_le hw.nf
  obtain ⟨w', b1, b2, b3, b4, b5, b6, b7, b8, b9⟩ := putRows_spec rows _ hg h256 hnd (by
    intro e he
    obtain ⟨h1, h2, _⟩ := (hmem e).1 he
    refine ⟨h1, by rw [h2]; simp [rowOf], ?_⟩
    rw [h2]
    intro s hs
    simp only [rowOf, List.mem_map, List.mem_range] at hs
    obtain ⟨j, hj, rfl⟩ := hs
    exact read_length w hw.wf h1 hj)
  refine ⟨_, w', rfl, ?_, b2, b3, b4, b5, b6, b7, ?_⟩
  · simp only [NDArray.toDense]
    rw [if_neg hw.nf]
    exact b1
  · intro f m hf hm
    cases hr : rowNonzero (rowOf w f)
    · rw [b8 f m hf hm (by
        intro e he h
        have := ((hmem e).1 he).2.2
        rw [h, hr] at this
        cases this)]
      simp only [Bool.false_eq_true, if_false]
      have hb := slot_add_le _ hg.wf (f := f) (m := m) hf hm
      simp only [List.length_replicate] at hb
      simp only [DenseWeights.read, List.drop_replicate, List.take_replicate]
      congr 1
      simp only [slot] at hb ⊢
      omega
    · have := b9 (f, rowOf w f) ((hmem _).2 ⟨hf, rfl, hr⟩) m hm
      rw [this]
      simp [rowOf, hm]

/-- Without negative zeros the table itself comes back. -/
theorem nd_exact (order : List (Nat × List (List F)) → List (Nat × List (List F))) (horder : ∀ l, (order l).Perm l)
    {w : DenseWeights F} (hw : w.Good) (h256 : w.modelIndexSize ≤ 256) (hz : ∀ x ∈ w.weights, Flt.eq x Flt.zero = true → x = Flt.zero) :
    ∃ a, NDArray.ofDense order w = some a ∧ a.toDense = some w := by
  obtain ⟨a, w', h1, h2, h3, e1, e2, e3, e4, e5, h4⟩ := nd_roundtrip order horder hw h256
  refine ⟨a, h1, ?_⟩
  have : w = w' := good_ext hw h3 e1.symm e2.symm e3.symm e4.symm e5.symm (by
    intro f m hf hm
    rw [h4 f m hf hm]
    split
    · rfl
    · rename_i hr
      rw [List.eq_replicate_iff]
      refine ⟨read_length w hw.wf hf hm, ?_⟩
      intro x hx
      have hin : w.read f m ∈ rowOf w f := by
        simp only [rowOf, List.mem_map, List.mem_range]; exact ⟨m, hm, rfl⟩
      have hx0 : Flt.eq x Flt.zero = true := by
        cases hc : Flt.eq x Flt.zero
        · exfalso; apply hr
          simp only [rowNonzero, List.any_eq_true]
          exact ⟨_, hin, x, hx, by simp [hc]⟩
        · rfl
      exact hz x (List.mem_of_mem_drop (List.mem_of_mem_take hx)) hx0)
  rw [h2, ← this]

end Rml
