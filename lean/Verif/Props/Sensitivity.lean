import Verif.Model.Sensitivity
import Verif.Props.Coin2

/-! C101: the sensitivity of a model to an example, in exact arithmetic. -/

set_option linter.unusedSectionVars false

namespace Rml
open Coin
variable {K : Type} [Field K] [LinearOrder K] [IsStrictOrderedRing K] [Trans K]

attribute [local instance] fieldFlt

/-- What one feature with value `v` adds, if its weight holds `s`. -/
def sensTerm (cfg : CoinConfig K) (s : WState K) (v : K) : K :=
  1 / ((cfg.beta + Trans.sqrt s.g2) / cfg.alpha + cfg.l2Lambda) * (if 0 ≤ v then 1 else -1)

theorem foldl_sum_eq {α : Type} (h : α → K) (l : List α) : ∀ a : K, l.foldl (fun acc x => acc + h x) a = a + (l.map h).sum := by
  induction l with
  | nil => intro a; simp
  | cons x l ih => intro a; rw [List.foldl_cons, ih]; simp [add_assoc]

theorem sensitivity_eq {dbg : Bool} {c : Coin K} {nb : Nat} (hc : c.Ok nb) {f : SparseFeatures K} (hr : ∀ iv ∈ visited c.pass f, iv.1.toNat < 2 ^ nb) :
    c.sensitivity dbg f = .ok ((visited c.pass f).map (fun iv => sensTerm c.config (c.weights.wst iv.1.toNat) iv.2)).sum := by
  have h := readPass dbg nb (fun acc x s => acc + sensTerm c.config s x) (visited c.pass f) c.weights hc.table hr (0 : K)
  rw [foldl_sum_eq (fun iv : U32 × K => sensTerm c.config (c.weights.wst iv.1.toNat) iv.2), zero_add] at h
  exact h

theorem fits_visited {c : Coin K} {nb : Nat} (hc : c.Ok nb) {f : SparseFeatures K} (hf : f.Fits nb) : ∀ iv ∈ visited c.pass f, iv.1.toNat < 2 ^ nb := by
  have hv := C01_index_in_range c.pass f (by rw [hc.bits]; exact hc.le31) (by rw [hc.bits]; exact hf)
  rw [hc.bits] at hv
  exact hv

/-- C101: the value. The sensitivity of a regressor to an example (without interactions) is the sum over its features, and the constant 1 if it is enabled, of the sign
of the value divided by `(beta + √G) / alpha + l2_lambda`, where `G` is the sum of the absolute gradients of its weight. -/
theorem C101_value (dbg : Bool) (hash : HashFn) (cfg : CoinConfig K) (g : GlobalConfig) (hi : g.interactions = []) (es : List (TrainEx K)) (c : Coin K)
    (hc : Coin.Reached dbg hash cfg g es c) (f : SparseFeatures K) (hf : f.Fits g.numBits) (held : Nat → WState K)
    (hh : ∀ (i : U32), i.toNat < 2 ^ g.numBits → c.Holds i (held i.toNat)) :
    c.sensitivity dbg f = .ok ((f.allFeatures.map (fun iv =>
        (if 0 ≤ iv.2 then 1 else -1) / ((cfg.beta + Trans.sqrt (held iv.1.toNat).g2) / cfg.alpha + cfg.l2Lambda))).sum +
      (if g.constantFeatureEnabled then 1 / ((cfg.beta + Trans.sqrt (held (2 ^ g.numBits / 2)).g2) / cfg.alpha + cfg.l2Lambda) else 0)) := by
  obtain ⟨hok, hcfg, _⟩ := reached_ok hc
  have hv := fits_visited hok hf
  rw [sensitivity_eq hok hv, hcfg]
  have hp := reached_coin_pass hc hi
  have hb : g.numBits < 32 := by have := hok.le31; omega
  have hci : (constantFeatureIndex g.numBits).toNat = 2 ^ g.numBits / 2 := constantFeatureIndex_toNat hb
  have e : ∀ i : U32, i.toNat < 2 ^ g.numBits → c.weights.wst i.toNat = held i.toNat := fun i q => ((holds_iff hok).1 (hh i q)).2.symm
  have e1 : (f.allFeatures.map fun iv => sensTerm cfg (c.weights.wst iv.1.toNat) iv.2) = f.allFeatures.map (fun iv =>
        (if 0 ≤ iv.2 then 1 else -1) / ((cfg.beta + Trans.sqrt (held iv.1.toNat).g2) / cfg.alpha + cfg.l2Lambda)) := by
    refine List.map_congr_left fun iv hiv => ?_
    rw [e _ (hf iv hiv)]
    unfold sensTerm
    ring
  have hvis : visited c.pass f = f.allFeatures ++ constVisit ⟨[], [], g.numBits, g.constantFeatureEnabled⟩ := by
    unfold visited
    rw [hp]
    simp
  rw [hvis, List.map_append, List.sum_append, e1]
  congr 2
  unfold constVisit
  by_cases hk : g.constantFeatureEnabled = true
  · have hlt : (constantFeatureIndex g.numBits).toNat < 2 ^ g.numBits := by
      rw [hci]
      exact Nat.div_lt_self (by positivity) (by omega)
    simp only [hk, if_true, List.map_cons, List.map_nil, List.sum_cons, List.sum_nil, add_zero]
    rw [e _ hlt, hci]
    unfold sensTerm
    simp only [flt_one, zero_le_one, if_true, mul_one]
  · simp [hk]

theorem nsIter_sub (f : SparseFeatures K) (ns : Namespace) (e : U32 × K) (h : e ∈ nsIter f ns) : e ∈ f.allFeatures := by
  unfold nsIter SparseFeatures.getNamespace at h
  cases hl : SparseFeatures.lookup f.entries ns with
  | none => simp [hl] at h
  | some n =>
    simp only [hl] at h
    split at h
    · rename_i n' hn
      split at hn
      · cases hn
        have : ∀ l : List (Namespace × NsFeats K), SparseFeatures.lookup l ns = some n → ∃ k, (k, n) ∈ l := by
          intro l
          induction l with
          | nil => intro h; simp [SparseFeatures.lookup] at h
          | cons a l ih =>
            intro h
            unfold SparseFeatures.lookup at h
            split at h
            · cases h
              exact ⟨a.1, by simp⟩
            · obtain ⟨k, hk⟩ := ih h
              exact ⟨k, by simp [hk]⟩
        obtain ⟨k, hk⟩ := this _ hl
        exact List.mem_flatMap.2 ⟨_, hk, h⟩
      · simp at hn
    · simp at h

/-- Products of values that are not negative are not negative. -/
theorem visited_nonneg (p : PassCfg) (f : SparseFeatures K) (h : ∀ iv ∈ f.allFeatures, 0 ≤ iv.2) : ∀ iv ∈ visited p f, 0 ≤ iv.2 := by
  have hn : ∀ ns, ∀ iv ∈ nsIter f ns, 0 ≤ iv.2 := fun ns iv hiv => h iv (nsIter_sub f ns iv hiv)
  intro iv hiv
  unfold visited at hiv
  rcases List.mem_append.1 hiv with hiv | hiv
  · rcases List.mem_append.1 hiv with hiv | hiv
    · rcases List.mem_append.1 hiv with hiv | hiv
      · exact h iv hiv
      · obtain ⟨q, _, hiv⟩ := List.mem_flatMap.1 hiv
        unfold quadVisit at hiv
        obtain ⟨⟨a, k⟩, ha, hiv⟩ := List.mem_flatMap.1 hiv
        obtain ⟨b, hb, rfl⟩ := List.mem_map.1 hiv
        exact mul_nonneg (hn _ _ (List.fst_mem_of_mem_zipIdx ha)) (hn _ _ (List.mem_of_mem_drop hb))
    · obtain ⟨q, _, hiv⟩ := List.mem_flatMap.1 hiv
      unfold cubicVisit at hiv
      obtain ⟨⟨a, k⟩, ha, hiv⟩ := List.mem_flatMap.1 hiv
      obtain ⟨b, hb, hiv⟩ := List.mem_flatMap.1 hiv
      obtain ⟨d, hd, rfl⟩ := List.mem_map.1 hiv
      exact mul_nonneg (mul_nonneg (hn _ _ (List.fst_mem_of_mem_zipIdx ha)) (hn _ _ (List.mem_of_mem_drop hb))) (hn _ _ (List.mem_of_mem_drop hd))
  · unfold constVisit at hiv
    split at hiv
    · simp only [List.mem_singleton] at hiv
      subst hiv
      exact zero_le_one
    · simp at hiv

theorem reached_g2_nonneg {dbg : Bool} {hash : HashFn} {cfg : CoinConfig K} {g : GlobalConfig} {es : List (TrainEx K)} {c : Coin K}
    (hc : Coin.Reached dbg hash cfg g es c) (i : U32) (hi : i.toNat < 2 ^ g.numBits) : 0 ≤ (c.weights.wst i.toNat).g2 := by
  obtain ⟨nma, c0, hn, h0, h⟩ := hc
  obtain ⟨hok, _, _, _, hz⟩ := Coin.new_ok hn h0
  obtain ⟨tr, _, _, _, _, hst⟩ := train_stats es c0 c hok h
  have := hst i hi [] _ (StatRel.refl _ _)
  rw [List.nil_append, hz _ hi] at this
  rw [this.g2]
  simp only [flt_zero, zero_add]
  refine List.sum_nonneg fun x hx => ?_
  obtain ⟨gv, _, rfl⟩ := List.mem_map.1 hx
  exact abs_nonneg _

/-- C101: for an example whose values are not negative, the sensitivity is a number that is not negative, and further training, on whatever examples, never raises it:
a weight that has seen more gradients reacts less. `alpha` and `beta` are positive and `l2_lambda` not negative; of the square root only order and sign are used. -/
theorem C101_never_grows (dbg : Bool) (hash : HashFn) (cfg : CoinConfig K) (ha : 0 < cfg.alpha) (hb : 0 < cfg.beta) (hl : 0 ≤ cfg.l2Lambda)
    (hs0 : ∀ x : K, 0 ≤ x → 0 ≤ Trans.sqrt x) (hsm : ∀ x y : K, 0 ≤ x → x ≤ y → Trans.sqrt x ≤ Trans.sqrt y)
    (g : GlobalConfig) (es es' : List (TrainEx K)) (c c' : Coin K)
    (hc : Coin.Reached dbg hash cfg g es c) (h : c.trainAll dbg es' = .ok c') (f : SparseFeatures K) (hf : f.Fits g.numBits) (hv : ∀ iv ∈ f.allFeatures, 0 ≤ iv.2) :
    ∃ s s', c.sensitivity dbg f = .ok s ∧ c'.sensitivity dbg f = .ok s' ∧ 0 ≤ s' ∧ s' ≤ s := by
  obtain ⟨hok, hcfg, _⟩ := reached_ok hc
  obtain ⟨tr, _, hok', hp', hcfg', hst⟩ := train_stats es' c c' hok h
  have hr := fits_visited hok hf
  have hr' := fits_visited hok' hf
  have hnn := visited_nonneg c.pass f hv
  refine ⟨_, _, sensitivity_eq hok hr, sensitivity_eq hok' hr', ?_, ?_⟩
  all_goals rw [hp', hcfg', hcfg]
  · refine List.sum_nonneg fun x hx => ?_
    obtain ⟨iv, hiv, rfl⟩ := List.mem_map.1 hx
    have hg := reached_g2_nonneg hc iv.1 (hr iv hiv)
    have hm := C38_monotone dbg hash cfg g es es' c c' hc h iv.1 _ _ ((holds_iff hok).2 ⟨hr iv hiv, rfl⟩) ((holds_iff hok').2 ⟨hr iv hiv, rfl⟩)
    have := hs0 _ (hg.trans hm.1)
    unfold sensTerm
    rw [if_pos (hnn iv hiv), mul_one]
    positivity
  · refine List.sum_le_sum fun iv hiv => ?_
    have hg := reached_g2_nonneg hc iv.1 (hr iv hiv)
    have hm := C38_monotone dbg hash cfg g es es' c c' hc h iv.1 _ _ ((holds_iff hok).2 ⟨hr iv hiv, rfl⟩) ((holds_iff hok').2 ⟨hr iv hiv, rfl⟩)
    have h1 := hs0 _ hg
    have h2 := hsm _ _ hg hm.1
    unfold sensTerm
    rw [if_pos (hnn iv hiv), mul_one, mul_one]
    apply one_div_le_one_div_of_le
    · positivity
    · gcongr

section examples

/-- Exact arithmetic on the rationals, for the example. -/
local instance transRatSens : Trans ℚ where
  exp := id
  ln := id
  powf := fun a _ => a
  sqrt := id

/-- A trained regressor, one more example, and the sensitivity to an example before and after: both are positive, and the second is smaller. -/
example : ∃ c c' : Coin ℚ, ∃ s s' : ℚ, Coin.Reached true tinyHash CoinConfig.dflt tinyGlobal [⟨ratFeat 1#32 1, 3, 1⟩] c ∧
    c.trainAll true [⟨ratFeat 1#32 2, -4, 1⟩] = .ok c' ∧ c.sensitivity true (ratFeat 1#32 5) = .ok s ∧ c'.sensitivity true (ratFeat 1#32 5) = .ok s' ∧
    0 < s' ∧ s' < s ∧ (ratFeat 1#32 5).Fits tinyGlobal.numBits ∧ (∀ iv ∈ (ratFeat 1#32 5).allFeatures, (0 : ℚ) ≤ iv.2) ∧
    (0 : ℚ) < (CoinConfig.dflt : CoinConfig ℚ).alpha ∧ (0 : ℚ) < (CoinConfig.dflt : CoinConfig ℚ).beta ∧ (0 : ℚ) ≤ (CoinConfig.dflt : CoinConfig ℚ).l2Lambda := by
  refine ⟨_, _, _, _, ⟨1, _, by decide, rfl, rfl⟩, rfl, rfl, rfl, by decide +kernel, by decide +kernel, by unfold SparseFeatures.Fits; decide +kernel, by decide +kernel, ?_, ?_, ?_⟩ <;>
    norm_num [CoinConfig.dflt, fl]

end examples

end Rml

namespace Rml
variable {F : Type} [Flt F]

/-- C101: a stack answers with the sensitivity of its regressor to the very features it was given, if they are those of a simple example. -/
theorem C101_stack (dbg : Bool) : ∀ (r : Red F) (s : r.State) (f : SparseFeatures F), r.sensitivity dbg s (.simple f) = (r.coinOf s).sensitivity dbg f
  | .coin _, _, _ => rfl
  | .binary _ r, s, f => C101_stack dbg r s f
  | .cbAdf _ _ r, s, f => C101_stack dbg r s.2 f
  | .greedy _ _ r, s, f => C101_stack dbg r s f
  | .softmax _ _ _ r, s, f => C101_stack dbg r s.2 f
  | .squareCb _ _ _ _ r, s, f => C101_stack dbg r s.2 f
  | .debug _ r, s, f => C101_stack dbg r s f
  | .elementwise _ _ _ _ r, s, f => C101_stack dbg r s f

/-- C101: the features of a contextual bandit have no sensitivity: the call panics in every stack, although bandit stacks accept no other features. -/
theorem C101_bandit_panics (dbg : Bool) (x : CBAdfFeatures F) : ∀ (r : Red F) (s : r.State), r.sensitivity dbg s (.cbAdf x) = .error .typeMismatch
  | .coin _, _ => rfl
  | .binary _ r, s => C101_bandit_panics dbg x r s
  | .cbAdf _ _ r, s => C101_bandit_panics dbg x r s.2
  | .greedy _ _ r, s => C101_bandit_panics dbg x r s
  | .softmax _ _ _ r, s => C101_bandit_panics dbg x r s.2
  | .squareCb _ _ _ _ r, s => C101_bandit_panics dbg x r s.2
  | .debug _ r, s => C101_bandit_panics dbg x r s
  | .elementwise _ _ _ _ r, s => C101_bandit_panics dbg x r s

end Rml
