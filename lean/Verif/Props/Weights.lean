import Verif.Lemmas.Weights
import Verif.Model.Field

/-! C04, C05: the weight table. -/

namespace Rml
variable {F : Type} [Flt F]

/-- One write through the API: `weight_at_mut` or `state_at_mut`. -/
inductive Write (F : Type) where
  | weight (feat model : Nat) (x : F)
  | state (feat model : Nat) (s : List F)

/-- Performing a write. -/
def Write.apply (dbg : Bool) (w : DenseWeights F) : Write F → M (DenseWeights F)
  | .weight f m x => w.setWeightAt dbg f m x
  | .state f m s => w.setStateAt dbg f m s

/-- A write addressed to an existing (feature, model) pair, with a full slice. -/
def Write.Valid (nf nm ns : Nat) : Write F → Prop
  | .weight f m _ => f < nf ∧ m < nm
  | .state f m s => f < nf ∧ m < nm ∧ s.length = ns

/-- Specification: what the pair `(f, m)` holds after a history of writes, given what it held before.
`weight_at_mut` writes the first value of the state. -/
def specRead (f m : Nat) : List F → List (Write F) → List F
  | s, [] => s
  | s, .weight f' m' x :: ws => specRead f m (if (f', m') = (f, m) then s.set 0 x else s) ws
  | s, .state f' m' s' :: ws => specRead f m (if (f', m') = (f, m) then s' else s) ws

omit [Flt F] in
theorem setWeightAt_as_state (dbg : Bool) (w : DenseWeights F) (h : w.WF) (hpos : 0 < w.featureStateSize) {f m : Nat}
    (hf : f < w.featureIndexSize) (hm : m < w.modelIndexSize) (x : F) :
    w.setWeightAt dbg f m x =
      .ok (w.putState f m (((w.weights.drop (w.slot f m)).take w.featureStateSize).set 0 x)) := by
  have hb := DenseWeights.slot_add_le w h hf hm
  have hi : w.slot f m < w.weights.length := by omega
  simp only [DenseWeights.setWeightAt, DenseWeights.convertIndex_ok dbg w hf hm, bind, Except.bind, hi, if_true,
    DenseWeights.putState]
  congr 2
  apply List.ext_getElem?
  intro i
  rw [List.append_assoc]
  by_cases h1 : i < w.slot f m
  · rw [List.getElem?_set_ne (by omega), List.getElem?_append_left (by simp; omega), List.getElem?_take, if_pos h1]
  · rw [List.getElem?_append_right (by simp; omega)]
    have hl : (w.weights.take (w.slot f m)).length = w.slot f m := by simp; omega
    rw [hl]
    by_cases h2 : i < w.slot f m + w.featureStateSize
    · rw [List.getElem?_append_left (by simp; omega)]
      by_cases h3 : i = w.slot f m
      · subst h3
        simp [hi, hpos]
      · rw [List.getElem?_set_ne (by omega), List.getElem?_set_ne (by omega), List.getElem?_take, if_pos (by omega),
          List.getElem?_drop]
        congr 1; omega
    · rw [List.getElem?_append_right (by simp; omega), List.getElem?_set_ne (by omega), List.getElem?_drop]
      congr 1
      simp
      omega

omit [Flt F] in
/-- The reads after a history, for tables satisfying the invariant. -/
theorem history_aux (dbg : Bool) (ws : List (Write F)) : ∀ (w : DenseWeights F), w.WF → 0 < w.featureStateSize →
    (∀ x ∈ ws, x.Valid w.featureIndexSize w.modelIndexSize w.featureStateSize) →
    ∃ w', ws.foldlM (fun w x => x.apply dbg w) w = .ok w' ∧ w'.WF ∧ w'.featureIndexSize = w.featureIndexSize ∧
      w'.modelIndexSize = w.modelIndexSize ∧ w'.featureStateSize = w.featureStateSize ∧
      ∀ f m, f < w.featureIndexSize → m < w.modelIndexSize →
        (w'.weights.drop (w'.slot f m)).take w'.featureStateSize =
          specRead f m ((w.weights.drop (w.slot f m)).take w.featureStateSize) ws := by
  induction ws with
  | nil => intro w h _ _; exact ⟨w, rfl, h, rfl, rfl, rfl, fun _ _ _ _ => rfl⟩
  | cons x ws ih =>
    intro w h hp hv
    have hx := hv x (by simp)
    have step : ∃ f₀ m₀ s₀, f₀ < w.featureIndexSize ∧ m₀ < w.modelIndexSize ∧ s₀.length = w.featureStateSize ∧
        x.apply dbg w = .ok (w.putState f₀ m₀ s₀) ∧
        ∀ f m, specRead f m ((w.weights.drop (w.slot f m)).take w.featureStateSize) (x :: ws) =
          specRead f m (if (f, m) = (f₀, m₀) then s₀ else (w.weights.drop (w.slot f m)).take w.featureStateSize) ws := by
      cases x with
      | weight f₀ m₀ v =>
        refine ⟨f₀, m₀, _, hx.1, hx.2, ?_, setWeightAt_as_state dbg w h hp hx.1 hx.2 v, ?_⟩
        · have := DenseWeights.slot_add_le w h hx.1 hx.2
          simp; omega
        · intro f m
          simp only [specRead]
          by_cases e : (f₀, m₀) = (f, m)
          · injection e with e1 e2; subst e1 e2; simp
          · rw [if_neg e, if_neg (fun h => e h.symm)]
      | state f₀ m₀ s =>
        refine ⟨f₀, m₀, s, hx.1, hx.2.1, hx.2.2, DenseWeights.setStateAt_eq dbg w h hx.1 hx.2.1 hx.2.2, ?_⟩
        intro f m
        simp only [specRead]
        by_cases e : (f₀, m₀) = (f, m)
        · rw [if_pos e, if_pos e.symm]
        · rw [if_neg e, if_neg (fun h => e h.symm)]
    obtain ⟨f₀, m₀, s₀, hf₀, hm₀, hs₀, happ, hspec⟩ := step
    obtain ⟨w', hw', hwf, e1, e2, e3, hr⟩ :=
      ih (w.putState f₀ m₀ s₀) (DenseWeights.putState_wf w h hf₀ hm₀ hs₀) hp (fun y hy => hv y (by simp [hy]))
    refine ⟨w', ?_, hwf, e1, e2, e3, ?_⟩
    · simp only [List.foldlM_cons, happ, bind, Except.bind]; exact hw'
    · intro f m hf hm
      rw [hr f m hf hm, hspec f m]
      congr 1
      exact DenseWeights.read_putState w h hf₀ hm₀ hf hm hs₀

/-- C04. For every table made by `DenseWeights::new`, after any history of writes to existing pairs, every access to an existing
pair succeeds (in both profiles), the state has exactly `featureStateSize` values, `weight_at` is the first of them and
both `weight_at_mut` and `state_at_mut` succeed. -/
theorem C04_weight_access_in_bounds (dbg : Bool) (nf nm ns : Nat) (w₀ w : DenseWeights F)
    (hnew : DenseWeights.new nf nm ns = .ok w₀) (ws : List (Write F)) (hv : ∀ x ∈ ws, x.Valid nf nm ns)
    (hw : ws.foldlM (fun w x => x.apply dbg w) w₀ = .ok w) (f m : Nat) (hf : f < nf) (hm : m < nm) :
    (∃ s, w.stateAt dbg f m = .ok s ∧ s.length = ns ∧ ∃ v, s.head? = some v ∧ w.weightAt dbg f m = .ok v) ∧
      (∀ v, ∃ w', w.setWeightAt dbg f m v = .ok w') ∧
      (∀ s, s.length = ns → ∃ w', w.setStateAt dbg f m s = .ok w') := by
  obtain ⟨h0, ef, em, es, hpos, _⟩ := DenseWeights.new_wf hnew
  subst ef em es
  obtain ⟨w', hw', hwf, e1, e2, e3, _⟩ := history_aux dbg ws w₀ h0 hpos hv
  rw [hw] at hw'
  injection hw' with hw'
  subst hw'
  rw [← e1] at hf
  rw [← e2] at hm
  rw [← e3] at hpos ⊢
  have hb := DenseWeights.slot_add_le w hwf hf hm
  have hi : w.slot f m < w.weights.length := by omega
  refine ⟨⟨_, DenseWeights.stateAt_eq dbg w hwf hf hm, by simp; omega, w.weights[w.slot f m], ?_, ?_⟩, ?_, ?_⟩
  · rw [List.head?_take, if_neg (by omega), List.head?_drop]
    simp [hi]
  · simp [DenseWeights.weightAt, DenseWeights.convertIndex_ok dbg w hf hm, bind, Except.bind, hi]
  · intro v; exact ⟨_, setWeightAt_as_state dbg w hwf hpos hf hm v⟩
  · intro s hs; exact ⟨_, DenseWeights.setStateAt_eq dbg w hwf hf hm hs⟩

/-- A table is actually created for every reasonable size: sizes at least 1 and at most `2^32`, `2^8`, `2^8`. -/
theorem C04_new_succeeds (nf nm ns : Nat) (h1 : 1 ≤ nf ∧ nf ≤ 2 ^ 32) (h2 : 1 ≤ nm ∧ nm ≤ 2 ^ 8) (h3 : 1 ≤ ns ∧ ns ≤ 2 ^ 8) :
    ∃ w : DenseWeights F, DenseWeights.new nf nm ns = .ok w := by
  have key : ∀ v k, v ≤ 2 ^ k → numBitsToRepresent (v - 1) ≤ k := by
    intro v k hv
    unfold numBitsToRepresent
    split
    · omega
    · rename_i hne
      have : Nat.log2 (v - 1) < k := (Nat.log2_lt hne).2 (by omega)
      omega
  have k1 := key nf 32 h1.2
  have k2 := key nm 8 h2.2
  have k3 := key ns 8 h3.2
  unfold DenseWeights.new
  rw [if_neg (by omega)]
  dsimp only
  rw [if_pos (by omega)]
  exact ⟨_, rfl⟩

/-- C05. For every table made by `DenseWeights::new` and every history of writes to existing pairs: the history succeeds, and
the state read for a pair is exactly the last one written to it (initially zeros), whatever was written to other pairs. -/
theorem C05_slots_independent (dbg : Bool) (nf nm ns : Nat) (w₀ : DenseWeights F)
    (hnew : DenseWeights.new nf nm ns = .ok w₀) (ws : List (Write F)) (hv : ∀ x ∈ ws, x.Valid nf nm ns) :
    ∃ w, ws.foldlM (fun w x => x.apply dbg w) w₀ = .ok w ∧
      ∀ f m, f < nf → m < nm → w.stateAt dbg f m = .ok (specRead f m (List.replicate ns Flt.zero) ws) := by
  obtain ⟨h0, ef, em, es, hpos, hz⟩ := DenseWeights.new_wf hnew
  subst ef em es
  obtain ⟨w', hw', hwf, e1, e2, e3, hr⟩ := history_aux dbg ws w₀ h0 hpos hv
  refine ⟨w', hw', fun f m hf hm => ?_⟩
  rw [DenseWeights.stateAt_eq dbg w' hwf (by omega) (by omega), hr f m hf hm]
  congr 2
  have hb := DenseWeights.slot_add_le w₀ h0 hf hm
  rw [List.eq_replicate_iff]
  refine ⟨by simp; omega, fun x hx => hz x ?_⟩
  exact List.mem_of_mem_drop (List.mem_of_mem_take hx)

/-- A concrete history for C04 and C05: 3 features, 2 models, 3 values per slot (slots padded to 4), two writes to one pair and
one to its neighbour. -/
example : ∃ w₀ w : DenseWeights Int,
    @DenseWeights.new Int intFlt 3 2 3 = .ok w₀ ∧
      ([.state 1 1 [4, 5, 6], .state 2 0 [7, 8, 9], .weight 1 1 10] : List (Write Int)).foldlM
        (fun w x => x.apply true w) w₀ = .ok w ∧
      w.stateAt true 1 1 = .ok [10, 5, 6] ∧ w.stateAt true 2 0 = .ok [7, 8, 9] ∧ w.stateAt true 1 0 = .ok [0, 0, 0] := by
  refine ⟨_, _, rfl, rfl, ?_, ?_, ?_⟩ <;> decide

end Rml
