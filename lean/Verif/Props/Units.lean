import Verif.Lemmas.Units

/-!
C84 to C86: the Coin regressor does not depend on the units and the order of features, and treats labels of both signs alike (exact arithmetic).
-/

set_option linter.unusedSectionVars false

namespace Rml
open Coin
variable {K : Type} [Field K] [LinearOrder K] [IsStrictOrderedRing K] [Trans K]

attribute [local instance] fieldFlt

/-- The second history has the same examples as the first, except that the features are in other units. -/
def OtherUnits (pass : PassCfg) (unit : U32 → K) (es es' : List (TrainEx K)) : Prop :=
  List.Forall₂ (fun e e' => SameUpTo pass unit e.feats e'.feats ∧ e'.label = e.label ∧ e'.weight = e.weight) es es'

theorem wrel_zero {a σ : K} : WRel a σ ⟨0, 0, 0, 0, 0, 0⟩ ⟨0, 0, 0, 0, 0, 0⟩ := ⟨by simp, by simp, by simp, by simp, rfl, rfl⟩

theorem new_rel {hash : HashFn} {cfg : CoinConfig K} {g : GlobalConfig} {nma : Nat} {c : Coin K} (hn : 0 < nma)
    (h : Coin.new hash cfg g nma = .ok c) (a : U32 → K) {σ : K} (hσ : σ = 1 ∨ σ = -1) : CRel a σ g.numBits c c := by
  obtain ⟨hok, _, hsq, hr, hz⟩ := Coin.new_ok hn h
  refine ⟨hok, hok, rfl, rfl, hsq, hsq, rfl, ?_, fun i hi => ?_⟩
  · rcases hσ with rfl | rfl
    · exact .inl ⟨rfl, rfl, rfl⟩
    · refine .inr ⟨rfl, ?_⟩
      revert hr
      cases cfg.lossFunction with
      | squared =>
        intro hr
        simp only [Prod.mk.injEq, flt_zero] at hr
        rw [hr.1, hr.2]; simp
      | logistic _ _ =>
        intro hr
        simp only [Prod.mk.injEq, fl, flt_lit] at hr
        rw [hr.1, hr.2]; simp
  · rw [hz _ hi]; exact wrel_zero

/-- What the three properties have in common. -/
theorem transport (dbg : Bool) (hash : HashFn) (cfg : CoinConfig K) (g : GlobalConfig) (unit : U32 → K) (hu : ∀ i, unit i ≠ 0) {σ : K}
    (hσ : σ = 1 ∨ σ = -1) (es es' : List (TrainEx K)) (c : Coin K) (hc : Coin.Reached dbg hash cfg g es c)
    (he : List.Forall₂ (fun e e' => SameUpTo c.pass unit e.feats e'.feats ∧ e'.label = σ * e.label ∧ e'.weight = e.weight) es es') :
    ∃ c', Coin.Reached dbg hash cfg g es' c' ∧ CRel unit σ g.numBits c c' := by
  obtain ⟨nma, c0, hn, h0, ht⟩ := hc
  have hp : c0.pass = c.pass := (Coin.trainAll_induct (dbg := dbg) (nb := g.numBits) (fun _ c => c0.pass = c.pass) (by
      intro es c c' e hc h1 hl
      obtain ⟨_, _, _, _, _, _, _, _, _, q, _⟩ := Coin.learn_inv hc hl
      rw [q, h1]) es [] c0 c (Coin.new_ok hn h0).1 rfl ht).2
  obtain ⟨c', h1, h2⟩ := trainAll_rel hu he hp (new_rel hn h0 unit hσ) ht
  exact ⟨c', ⟨nma, c0, hn, h0, h1⟩, h2⟩

/-- C84. The units of the features do not matter: if every value in the history and in the example to predict is multiplied with the unit of its weight, then
the prediction is the same. -/
theorem C84_units (dbg : Bool) (hash : HashFn) (cfg : CoinConfig K) (g : GlobalConfig) (unit : U32 → K) (hu : ∀ i, unit i ≠ 0)
    (es es' : List (TrainEx K)) (c : Coin K) (hc : Coin.Reached dbg hash cfg g es c) (he : OtherUnits c.pass unit es es')
    (f f' : SparseFeatures K) (hf : SameUpTo c.pass unit f f') (p raw : K) (hp : c.predict dbg f = .ok (p, raw)) :
    ∃ c', Coin.Reached dbg hash cfg g es' c' ∧ c'.predict dbg f' = .ok (p, raw) := by
  obtain ⟨c', h1, h2⟩ := transport dbg hash cfg g unit hu (.inl rfl) es es' c hc (by simp only [one_mul]; exact he)
  obtain ⟨y, rfl, h3⟩ := predict_rel hu h2 hf hp
  exact ⟨c', h1, by simpa only [one_mul] using h3⟩

/-- The regressor has no interactions, and it adds the constant if configured. -/
theorem reached_pass {dbg : Bool} {hash : HashFn} {cfg : CoinConfig K} {g : GlobalConfig} {es : List (TrainEx K)} {c : Coin K}
    (h : Coin.Reached dbg hash cfg g es c) (hi : g.interactions = []) : c.pass = ⟨[], [], g.numBits, g.constantFeatureEnabled⟩ := by
  obtain ⟨nma, c0, hn, h0, ht⟩ := h
  have hp : c0.pass = c.pass := (Coin.trainAll_induct (dbg := dbg) (nb := g.numBits) (fun _ c => c0.pass = c.pass) (by
      intro es c c' e hc h1 hl
      obtain ⟨_, _, _, _, _, _, _, _, _, q, _⟩ := Coin.learn_inv hc hl
      rw [q, h1]) es [] c0 c (Coin.new_ok hn h0).1 rfl ht).2
  rw [← hp]
  unfold Coin.new at h0
  rw [hi] at h0
  simp only [compileInteractions, List.filter_nil, List.mapM_nil, bind, Except.bind, pure, Except.pure] at h0
  simp only [List.length_nil, Nat.add_zero, ne_eq, not_true_eq_false, if_false] at h0
  split at h0
  · split at h0
    · cases h0
    · cases h0; rfl
  · cases h0

theorem sameUpTo_iff {unit : U32 → K} {nb : Nat} {b : Bool} (hb : b = true → unit (constantFeatureIndex nb) = 1) {f f' : SparseFeatures K}
    (h : ∀ i, (f'.allFeatures.filter fun iv => iv.1 = i).map (·.2) = (f.allFeatures.filter fun iv => iv.1 = i).map (fun iv => unit i * iv.2)) :
    SameUpTo ⟨[], [], nb, b⟩ unit f f' := by
  intro i
  unfold valuesAt visited constVisit
  simp only [List.flatMap_nil, List.append_nil, List.filter_append, List.map_append, List.map_map]
  rw [h i]
  congr 1
  cases b with
  | false => rfl
  | true =>
    simp only [if_true, List.filter_cons, List.filter_nil]
    split
    · rename_i e
      simp only [decide_eq_true_eq] at e
      subst e
      simp [hb rfl]
    · rfl

/-- C84 without interactions: the features of all examples are in other units, except for the constant (it has the index `2 ^ numBits / 2`). -/
theorem C84_features (dbg : Bool) (hash : HashFn) (cfg : CoinConfig K) (g : GlobalConfig) (hg : g.interactions = []) (unit : U32 → K)
    (hu : ∀ i, unit i ≠ 0) (h1 : g.constantFeatureEnabled = true → ∀ i : U32, i.toNat = 2 ^ g.numBits / 2 → unit i = 1)
    (es es' : List (TrainEx K)) (c : Coin K) (hc : Coin.Reached dbg hash cfg g es c)
    (he : List.Forall₂ (fun e e' => e'.feats.allFeatures = e.feats.allFeatures.map (fun iv => (iv.1, unit iv.1 * iv.2)) ∧ e'.label = e.label ∧
      e'.weight = e.weight) es es')
    (f f' : SparseFeatures K) (hf : f'.allFeatures = f.allFeatures.map fun iv => (iv.1, unit iv.1 * iv.2)) (p raw : K)
    (hp : c.predict dbg f = .ok (p, raw)) : ∃ c', Coin.Reached dbg hash cfg g es' c' ∧ c'.predict dbg f' = .ok (p, raw) := by
  have hps := reached_pass hc hg
  have hb : g.numBits ≤ 31 := (reached_ok hc).1.le31
  have key : ∀ f f' : SparseFeatures K, f'.allFeatures = f.allFeatures.map (fun iv => (iv.1, unit iv.1 * iv.2)) → SameUpTo c.pass unit f f' := by
    intro f f' hs
    rw [hps]
    refine sameUpTo_iff (fun hb' => h1 hb' _ (constantFeatureIndex_toNat (by omega))) fun i => ?_
    rw [hs]
    induction f.allFeatures with
    | nil => rfl
    | cons e l ih =>
      rw [List.map_cons, List.filter_cons, List.filter_cons]
      by_cases hj : e.1 = i
      · simp [hj, ih]
      · simp [hj, ih]
  exact C84_units dbg hash cfg g unit hu es es' c hc (he.imp fun _ _ h => ⟨key _ _ h.1, h.2⟩) f f' (key _ _ hf) p raw hp

/-! ### C85 -/

theorem sameUpTo_one {pass : PassCfg} {f f' : SparseFeatures K} (h : ∀ i, valuesAt pass f' i = valuesAt pass f i) : SameUpTo pass (fun _ => 1) f f' := by
  intro i
  rw [h i]
  simp

/-- C85. The order of the features does not matter, in the history and in the example to predict, except that features with the same weight have to stay
in their order. -/
theorem C85_order (dbg : Bool) (hash : HashFn) (cfg : CoinConfig K) (g : GlobalConfig) (es es' : List (TrainEx K)) (c : Coin K)
    (hc : Coin.Reached dbg hash cfg g es c)
    (he : List.Forall₂ (fun e e' => (∀ i, valuesAt c.pass e'.feats i = valuesAt c.pass e.feats i) ∧ e'.label = e.label ∧ e'.weight = e.weight) es es')
    (f f' : SparseFeatures K) (hf : ∀ i, valuesAt c.pass f' i = valuesAt c.pass f i) (p raw : K) (hp : c.predict dbg f = .ok (p, raw)) :
    ∃ c', Coin.Reached dbg hash cfg g es' c' ∧ c'.predict dbg f' = .ok (p, raw) :=
  C84_units dbg hash cfg g (fun _ => 1) (fun _ => one_ne_zero) es es' c hc (he.imp fun _ _ h => ⟨sameUpTo_one h.1, h.2⟩) f f' (sameUpTo_one hf) p raw hp

theorem perm_short {α : Type} {l l' : List α} (h : l.Perm l') (hl : l'.length ≤ 1) : l = l' := by
  match l', hl with
  | [], _ => exact h.eq_nil
  | [a], _ => exact List.perm_singleton.1 h

/-- C85 without interactions: the features of all examples may be listed in any order, if no example has two features with the same weight. -/
theorem C85_features (dbg : Bool) (hash : HashFn) (cfg : CoinConfig K) (g : GlobalConfig) (hg : g.interactions = []) (es es' : List (TrainEx K))
    (c : Coin K) (hc : Coin.Reached dbg hash cfg g es c)
    (he : List.Forall₂ (fun e e' => e'.feats.allFeatures.Perm e.feats.allFeatures ∧ (e.feats.allFeatures.map (·.1)).Nodup ∧ e'.label = e.label ∧
      e'.weight = e.weight) es es')
    (f f' : SparseFeatures K) (hf : f'.allFeatures.Perm f.allFeatures) (hn : (f.allFeatures.map (·.1)).Nodup) (p raw : K)
    (hp : c.predict dbg f = .ok (p, raw)) : ∃ c', Coin.Reached dbg hash cfg g es' c' ∧ c'.predict dbg f' = .ok (p, raw) := by
  have hps := reached_pass hc hg
  have key : ∀ f f' : SparseFeatures K, f'.allFeatures.Perm f.allFeatures → (f.allFeatures.map (·.1)).Nodup →
      ∀ i, valuesAt c.pass f' i = valuesAt c.pass f i := by
    intro f f' hf hn i
    rw [hps]
    unfold valuesAt visited
    simp only [List.flatMap_nil, List.append_nil, List.filter_append, List.map_append]
    congr 2
    refine perm_short (hf.filter _) ?_
    have h1 : ((f.allFeatures.map (·.1)).filter (fun j => j = i)).length ≤ 1 := by
      have := List.nodup_iff_count_le_one.1 hn i
      rw [List.count_eq_countP, List.countP_eq_length_filter] at this
      exact this
    rw [List.filter_map, List.length_map] at h1
    exact h1
  exact C85_order dbg hash cfg g es es' c hc (he.imp fun _ _ h => ⟨key _ _ h.1 h.2.1, h.2.2⟩) f f' (key _ _ hf hn) p raw hp

/-! ### C86 -/

/-- C86. Learning treats labels of both signs alike: with all labels negated, the raw predictions are negated, and so are the predictions with the
identity link function. -/
theorem C86_sign (dbg : Bool) (hash : HashFn) (cfg : CoinConfig K) (g : GlobalConfig) (es : List (TrainEx K)) (c : Coin K)
    (hc : Coin.Reached dbg hash cfg g es c) (f : SparseFeatures K) (p raw : K) (hp : c.predict dbg f = .ok (p, raw)) :
    ∃ c' p', Coin.Reached dbg hash cfg g (es.map fun e => { e with label := -e.label }) c' ∧ c'.predict dbg f = .ok (p', -raw) ∧
      (cfg.linkFunction = .identity → p' = -p) := by
  have key : ∀ f : SparseFeatures K, SameUpTo c.pass (fun _ => 1) f f := fun f => sameUpTo_one fun _ => rfl
  obtain ⟨c', h1, h2⟩ := transport dbg hash cfg g (fun _ => 1) (fun _ => one_ne_zero) (σ := -1) (.inr rfl) es
    (es.map fun e => { e with label := -e.label }) c hc (by
      rw [List.forall₂_map_right_iff]
      exact List.forall₂_same.2 fun e _ => ⟨key _, by simp, rfl⟩)
  obtain ⟨y, hy, h3⟩ := predict_rel (fun _ => one_ne_zero) h2 (key f) hp
  refine ⟨c', _, h1, by rw [h3, neg_one_mul raw], fun hl => ?_⟩
  have hcfg := (reached_ok hc).2.1
  rw [hy, hcfg, hl]
  simp [LinkFunction.link]

/-! ### C87 -/

theorem mg_nonneg {dbg : Bool} {hash : HashFn} {cfg : CoinConfig K} {g : GlobalConfig} {es : List (TrainEx K)} {c : Coin K}
    (hc : Coin.Reached dbg hash cfg g es c) : ∀ i, i < 2 ^ g.numBits → 0 ≤ (c.weights.wst i).mg := by
  obtain ⟨nma, c0, hn, h0, ht⟩ := hc
  obtain ⟨hok, _, _, _, hz⟩ := Coin.new_ok hn h0
  refine (Coin.trainAll_induct (dbg := dbg) (nb := g.numBits) (fun _ c => ∀ i, i < 2 ^ g.numBits → 0 ≤ (c.weights.wst i).mg) (by
      intro es c c' e hc h1 hl i hi
      obtain ⟨p, cb, _, _, _, _, _, _, _, _, _, hw⟩ := Coin.learn_inv hc hl
      rw [hw i hi]
      have : ∀ (l : List (U32 × K)) (s : WState K), 0 ≤ s.mg →
          0 ≤ (l.foldl (fun s iv => innerUpdate c.config.alpha c.config.beta cb.averageSquaredNormX (cb.updateOf p e.label e.weight) iv.2 s) s).mg := by
        intro l
        induction l with
        | nil => intro s hs; exact hs
        | cons x l ih =>
          intro s hs
          refine ih _ ?_
          rw [innerUpdate_mg]
          split
          · exact le_trans (abs_nonneg _) (le_max_left _ _)
          · exact hs
      exact this _ _ (h1 i hi)) es [] c0 c hok (fun i hi => by rw [hz i hi]; exact le_refl _) ht).2

/-- C87. An example with importance weight 0 leaves the sums of gradients, the wealth and the largest gradient of every weight and the sums over all
examples as they were. Missing from the full statement: it changes the label range, the largest value of a feature and the weight that is used in
predictions, see `C87_zero_weight_false`. -/
theorem C87_zero_weight_partial (dbg : Bool) (hash : HashFn) (cfg : CoinConfig K) (g : GlobalConfig) (es : List (TrainEx K)) (c c' : Coin K)
    (hc : Coin.Reached dbg hash cfg g es c) (f : SparseFeatures K) (l : K) (h : c.learn dbg f l 0 = .ok c') :
    c'.modelStates = c.modelStates ∧ ∀ i s s', c.Holds i s → c'.Holds i s' → s'.zt = s.zt ∧ s'.g2 = s.g2 ∧ s'.we = s.we ∧ s'.mg = s.mg := by
  obtain ⟨hok, _, hsq⟩ := reached_ok hc
  obtain ⟨p, cb, hb, hc1, hok1, _, _, _, _, _, hr, hw⟩ := learn_inv hok h
  obtain ⟨ms, rest, hms⟩ : ∃ ms rest, c.modelStates = ms :: rest := by
    cases hm : c.modelStates with
    | nil => exact absurd hm hok.models
    | cons ms rest => exact ⟨ms, rest, rfl⟩
  have hu : cb.updateOf p l 0 = 0 := by unfold updateOf; simp
  rw [bettingPredict_eq (c := c.seen l) ⟨hok.table, hok.bits, hok.le31, hok.models⟩ hr hms] at hb
  obtain ⟨p', hp, hb⟩ := bind_ok.1 hb
  simp only [Except.ok.injEq, Prod.mk.injEq, mul_zero, add_zero] at hb
  refine ⟨by rw [hc1, ← hb.2, hms], fun i s s' hs hs' => ?_⟩
  obtain ⟨hi, rfl⟩ := (holds_iff hok).1 hs
  obtain ⟨_, rfl⟩ := (holds_iff hok1).1 hs'
  rw [hw _ hi, hu]
  have : ∀ (vs : List (U32 × K)) (s : WState K), 0 ≤ s.mg →
      let s' := vs.foldl (fun s iv => innerUpdate c.config.alpha c.config.beta cb.averageSquaredNormX 0 iv.2 s) s
      s'.zt = s.zt ∧ s'.g2 = s.g2 ∧ s'.we = s.we ∧ s'.mg = s.mg := by
    intro vs
    induction vs with
    | nil => intro s _; exact ⟨rfl, rfl, rfl, rfl⟩
    | cons iv vs ih =>
      intro s hs
      have hmg : (innerUpdate c.config.alpha c.config.beta cb.averageSquaredNormX 0 iv.2 s).mg = s.mg := by
        rw [innerUpdate_mg, abs_zero, if_neg (not_lt.2 hs)]
      obtain ⟨h1, h2, h3, h4⟩ := ih _ (hmg.symm ▸ hs)
      refine ⟨h1.trans ?_, h2.trans ?_, h3.trans ?_, h4.trans hmg⟩ <;> simp [innerUpdate]
  exact this _ _ (mg_nonneg hc _ hi)

section examples

/-- Exact arithmetic on the rationals, for the examples. -/
local instance transRatUnits : Trans ℚ where
  exp := id
  ln := id
  powf := fun a _ => a
  sqrt := id

/-- Two features of the default namespace. -/
def twoFeats (i j : U32) (v w : ℚ) : SparseFeatures ℚ :=
  SparseFeatures.modifyOrCreate SparseFeatures.new .default (fun n => (n.addFeature i v).addFeature j w)

/-- C85 needs the condition on features with the same weight: if an example has the same feature twice, with different values, then their order changes
later predictions. -/
theorem C85_repeated_false : ∃ (c c' : Coin ℚ) (p p' : ℚ × ℚ),
    Coin.Reached true tinyHash CoinConfig.dflt tinyGlobal [⟨twoFeats 1#32 1#32 1 2, 3, 1⟩] c ∧
    Coin.Reached true tinyHash CoinConfig.dflt tinyGlobal [⟨twoFeats 1#32 1#32 2 1, 3, 1⟩] c' ∧
    c.predict true (twoFeats 0#32 1#32 1 1) = .ok p ∧ c'.predict true (twoFeats 0#32 1#32 1 1) = .ok p' ∧ p ≠ p' :=
  ⟨_, _, _, _, ⟨1, _, by decide, rfl, rfl⟩, ⟨1, _, by decide, rfl, rfl⟩, rfl, rfl, by decide +kernel⟩

/-- C87 fails: an example with importance weight 0 changes later predictions, because learning computes the weight from the gradients of the examples
before. -/
theorem C87_zero_weight_false : ∃ (c c' : Coin ℚ) (p p' : ℚ × ℚ),
    Coin.Reached true tinyHash CoinConfig.dflt tinyGlobal [⟨ratFeat 1#32 1, 3, 1⟩] c ∧ c.learn true (ratFeat 1#32 1) 3 0 = .ok c' ∧
    c.predict true (ratFeat 1#32 1) = .ok p ∧ c'.predict true (ratFeat 1#32 1) = .ok p' ∧ p ≠ p' :=
  ⟨_, _, _, _, ⟨1, _, by decide, rfl, rfl⟩, rfl, rfl, rfl, by decide +kernel⟩

/-- Feature 1 in other units: the history, the example to predict and the result of learning. -/
example : ∃ c : Coin ℚ, ∃ p : ℚ × ℚ, Coin.Reached true tinyHash CoinConfig.dflt tinyGlobal [⟨twoFeats 1#32 3#32 1 5, 3, 1⟩, ⟨ratFeat 1#32 2, -4, 2⟩] c ∧
    List.Forall₂ (fun (e e' : TrainEx ℚ) => e'.feats.allFeatures = e.feats.allFeatures.map (fun iv => (iv.1, (if iv.1 = 1#32 then -1000 else 1) * iv.2)) ∧
      e'.label = e.label ∧ e'.weight = e.weight)
      [⟨twoFeats 1#32 3#32 1 5, 3, 1⟩, ⟨ratFeat 1#32 2, -4, 2⟩] [(⟨twoFeats 1#32 3#32 (-1000) 5, 3, 1⟩ : TrainEx ℚ), ⟨ratFeat 1#32 (-2000), -4, 2⟩] ∧
    c.predict true (ratFeat 1#32 1) = .ok p ∧ tinyGlobal.interactions = [] :=
  ⟨_, _, ⟨1, _, by decide, rfl, rfl⟩, .cons ⟨by decide +kernel, rfl, rfl⟩ (.cons ⟨by decide +kernel, rfl, rfl⟩ .nil), rfl, rfl⟩

/-- Two features in the other order. -/
example : ∃ c : Coin ℚ, ∃ p : ℚ × ℚ, Coin.Reached true tinyHash CoinConfig.dflt tinyGlobal [⟨twoFeats 1#32 3#32 1 5, 3, 1⟩] c ∧
    List.Forall₂ (fun (e e' : TrainEx ℚ) => e'.feats.allFeatures.Perm e.feats.allFeatures ∧ (e.feats.allFeatures.map (·.1)).Nodup ∧ e'.label = e.label ∧
      e'.weight = e.weight) [⟨twoFeats 1#32 3#32 1 5, 3, 1⟩] [(⟨twoFeats 3#32 1#32 5 1, 3, 1⟩ : TrainEx ℚ)] ∧
    c.predict true (twoFeats 1#32 3#32 1 1) = .ok p :=
  ⟨_, _, ⟨1, _, by decide, rfl, rfl⟩, .cons ⟨by decide +kernel, by decide +kernel, rfl, rfl⟩ .nil, rfl⟩

end examples

end Rml
