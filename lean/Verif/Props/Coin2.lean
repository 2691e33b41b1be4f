import Verif.Props.Coin
import Verif.Props.CbAdf2
import Verif.Props.ExplorePolicies

/-! C38, C39, C61: the Coin regressor in exact arithmetic. -/

set_option linter.unusedSectionVars false

namespace Rml
open Coin
variable {K : Type} [Field K] [LinearOrder K] [IsStrictOrderedRing K] [Trans K]

attribute [local instance] fieldFlt

/-! ### C38 -/

/-- How the statistics of a weight have changed from `s0` to `s` if the (gradient factor, value) pairs `L` were applied to it. -/
structure StatRel (beta : K) (L : List (K × K)) (s0 s : WState K) : Prop where
  zt : s.zt = s0.zt - (L.map (fun gv => gv.1 * gv.2)).sum
  g2 : s.g2 = s0.g2 + (L.map (fun gv => |gv.1 * gv.2|)).sum
  mx_mono : s0.mx ≤ s.mx
  mg_mono : s0.mg ≤ s.mg
  mx_ge : ∀ gv ∈ L, |gv.2| ≤ s.mx
  mg_ge : ∀ gv ∈ L, |gv.1| ≤ s.mg
  mx_eq : s.mx = s0.mx ∨ ∃ gv ∈ L, s.mx = |gv.2|
  mg_eq : s.mg = s0.mg ∨ s.mg = beta ∨ ∃ gv ∈ L, s.mg = |gv.1|

theorem StatRel.refl (beta : K) (s : WState K) : StatRel beta [] s s :=
  ⟨by simp, by simp, le_refl _, le_refl _, by simp, by simp, .inl rfl, .inl rfl⟩

theorem innerUpdate_mx (alpha beta avg g v : K) (s : WState K) :
    (innerUpdate alpha beta avg g v s).mx = max s.mx |v| := by
  simp only [innerUpdate, flt_lt, flt_abs]
  split
  · rename_i h; simp at h; exact (max_eq_right h.le).symm
  · rename_i h; simp at h; exact (max_eq_left h).symm

theorem innerUpdate_mg (alpha beta avg g v : K) (s : WState K) :
    (innerUpdate alpha beta avg g v s).mg = if s.mg < |g| then max |g| beta else s.mg := by
  simp only [innerUpdate, flt_lt, flt_abs, decide_eq_true_eq]
  split
  · split
    · rename_i h; exact (max_eq_left h.le).symm
    · rename_i h; exact (max_eq_right (not_lt.1 h)).symm
  · rfl

theorem StatRel.step {beta : K} {L : List (K × K)} {s0 s : WState K} (h : StatRel beta L s0 s) (alpha avg g v : K) :
    StatRel beta (L ++ [(g, v)]) s0 (innerUpdate alpha beta avg g v s) := by
  have hmx := innerUpdate_mx alpha beta avg g v s
  have hmg := innerUpdate_mg alpha beta avg g v s
  have hmx1 : s.mx ≤ (innerUpdate alpha beta avg g v s).mx := by rw [hmx]; exact le_max_left _ _
  have hmx2 : |v| ≤ (innerUpdate alpha beta avg g v s).mx := by rw [hmx]; exact le_max_right _ _
  have hmg1 : s.mg ≤ (innerUpdate alpha beta avg g v s).mg := by
    rw [hmg]; split
    · rename_i hl; exact hl.le.trans (le_max_left _ _)
    · exact le_refl _
  have hmg2 : |g| ≤ (innerUpdate alpha beta avg g v s).mg := by
    rw [hmg]; split
    · exact le_max_left _ _
    · rename_i hl; exact not_lt.1 hl
  refine ⟨?_, ?_, h.mx_mono.trans hmx1, h.mg_mono.trans hmg1, ?_, ?_, ?_, ?_⟩
  · simp only [innerUpdate, flt_add, flt_neg, flt_mul, List.map_append, List.map_cons, List.map_nil, List.sum_append, List.sum_cons,
      List.sum_nil, h.zt]
    ring
  · simp only [innerUpdate, flt_add, flt_abs, flt_mul, List.map_append, List.map_cons, List.map_nil, List.sum_append, List.sum_cons,
      List.sum_nil, h.g2]
    ring
  · intro gv hgv
    rcases List.mem_append.1 hgv with q | q
    · exact (h.mx_ge gv q).trans hmx1
    · simp only [List.mem_singleton] at q; subst q; exact hmx2
  · intro gv hgv
    rcases List.mem_append.1 hgv with q | q
    · exact (h.mg_ge gv q).trans hmg1
    · simp only [List.mem_singleton] at q; subst q; exact hmg2
  · rw [hmx]
    rcases max_choice s.mx |v| with q | q
    · rw [q]
      rcases h.mx_eq with e | ⟨gv, hgv, e⟩
      · exact .inl e
      · exact .inr ⟨gv, by simp [hgv], e⟩
    · rw [q]; exact .inr ⟨(g, v), by simp, rfl⟩
  · rw [hmg]
    split
    · rcases max_choice |g| beta with q | q
      · rw [q]; exact .inr (.inr ⟨(g, v), by simp, rfl⟩)
      · rw [q]; exact .inr (.inl rfl)
    · rcases h.mg_eq with e | e | ⟨gv, hgv, e⟩
      · exact .inl e
      · exact .inr (.inl e)
      · exact .inr (.inr ⟨gv, by simp [hgv], e⟩)

theorem StatRel.fold {alpha beta avg g : K} (vs : List (U32 × K)) : ∀ {L : List (K × K)} {s0 s : WState K}, StatRel beta L s0 s →
    StatRel beta (L ++ vs.map (fun iv => (g, iv.2))) s0 (vs.foldl (fun s iv => innerUpdate alpha beta avg g iv.2 s) s) := by
  induction vs with
  | nil => intro L s0 s h; simpa using h
  | cons iv vs ih =>
    intro L s0 s h
    have := ih (h.step alpha avg g iv.2)
    simpa using this

theorem valuesAt_visits (c : Coin K) (f : SparseFeatures K) (i : U32) :
    (c.visitsAt f i.toNat).map (·.2) = valuesAt c.pass f i := by
  unfold visitsAt valuesAt
  congr 1
  apply List.filter_congr
  intro x _
  simp only [decide_eq_decide]
  exact ⟨fun h => BitVec.eq_of_toNat_eq h, fun h => by rw [h]⟩

/-- Histories leave a trace, and each weight's statistics follow it. -/
theorem train_stats {dbg : Bool} {nb : Nat} (es : List (TrainEx K)) : ∀ (c c' : Coin K), c.Ok nb → c.trainAll dbg es = .ok c' →
    ∃ tr, c.trace dbg es = .ok tr ∧ c'.Ok nb ∧ c'.pass = c.pass ∧ c'.config = c.config ∧
      ∀ i : U32, i.toNat < 2 ^ nb → ∀ L s0, StatRel c.config.beta L s0 (c.weights.wst i.toNat) →
        StatRel c.config.beta (L ++ appliedAt c.pass tr i) s0 (c'.weights.wst i.toNat) := by
  induction es with
  | nil =>
    intro c c' hc h
    simp only [trainAll, Except.ok.injEq] at h
    subst h
    exact ⟨[], rfl, hc, rfl, rfl, fun i _ L s0 h => by simpa [appliedAt] using h⟩
  | cons e es ih =>
    intro c c' hc h
    unfold trainAll at h
    obtain ⟨c1, h1, h⟩ := bind_ok.1 h
    obtain ⟨p, c2, hb, _, hc1, hcfg, _, _, _, hpass, _, hw⟩ := learn_inv hc h1
    obtain ⟨tr, htr, hc', hp', hcfg', hst⟩ := ih c1 c' hc1 h
    refine ⟨(c2.updateOf p e.label e.weight, e) :: tr, ?_, hc', by rw [hp', hpass], by rw [hcfg', hcfg], ?_⟩
    · unfold trace gradient
      have hb' : bettingPredict dbg { c with minLabel := Flt.fmin e.label c.minLabel, maxLabel := Flt.fmax e.label c.maxLabel }
        e.feats e.weight = .ok (p, c2) := hb
      rw [hb']
      simp only [bind, Except.bind]
      rw [h1]
      simp only [htr]
    · intro i hi L s0 hs
      have h2 := hst i hi (L ++ (c.visitsAt e.feats i.toNat).map (fun iv => (c2.updateOf p e.label e.weight, iv.2))) s0 (by
        rw [hw _ hi, hcfg]
        exact hs.fold _)
      rw [hcfg] at h2
      have e1 : (c.visitsAt e.feats i.toNat).map (fun iv => (c2.updateOf p e.label e.weight, iv.2)) =
          (valuesAt c.pass e.feats i).map (fun v => (c2.updateOf p e.label e.weight, v)) := by
        rw [← valuesAt_visits, List.map_map]
        rfl
      rw [e1, List.append_assoc, hpass] at h2
      exact h2

/-- C38: after any training history, every weight holds exactly the statistics of what was applied to it: the negated sum and the absolute
sum of the gradients, the largest feature magnitude, and a bound of the gradient factors (the largest one seen, or the configured `beta`). -/
theorem C38_statistics (dbg : Bool) (hash : HashFn) (cfg : CoinConfig K) (g : GlobalConfig) (es : List (TrainEx K)) (c0 c : Coin K)
    (h0 : Coin.new hash cfg g 1 = .ok c0) (h : c0.trainAll dbg es = .ok c) :
    ∃ tr, c0.trace dbg es = .ok tr ∧ ∀ (i : U32) (s : WState K), c.Holds i s →
      s.zt = -((appliedAt c.pass tr i).map (fun gv => gv.1 * gv.2)).sum ∧
      s.g2 = ((appliedAt c.pass tr i).map (fun gv => |gv.1 * gv.2|)).sum ∧
      |s.zt| ≤ s.g2 ∧
      (∀ gv ∈ appliedAt c.pass tr i, |gv.2| ≤ s.mx ∧ |gv.1| ≤ s.mg ∧ |gv.1 * gv.2| ≤ s.mg * s.mx) ∧
      (s.mx = 0 ∨ ∃ gv ∈ appliedAt c.pass tr i, s.mx = |gv.2|) ∧
      (s.mg = 0 ∨ s.mg = cfg.beta ∨ ∃ gv ∈ appliedAt c.pass tr i, s.mg = |gv.1|) := by
  obtain ⟨hok, hcfg, _, _, hz⟩ := Coin.new_ok (by omega) h0
  obtain ⟨tr, htr, hok', hp, _, hst⟩ := train_stats es c0 c hok h
  refine ⟨tr, htr, ?_⟩
  intro i s hs
  obtain ⟨hi, rfl⟩ := (holds_iff hok').1 hs
  have := hst i hi [] _ (StatRel.refl _ _)
  rw [List.nil_append, hz _ hi, hcfg, ← hp] at this
  obtain ⟨a1, a2, a3, a4, a5, a6, a7, a8⟩ := this
  simp only [flt_zero] at a1 a2 a3 a4 a7 a8
  refine ⟨by rw [a1]; ring, by rw [a2]; ring, ?_, ?_, a7, a8⟩
  · rw [a1, a2, zero_sub, abs_neg, zero_add]
    generalize appliedAt c.pass tr i = L
    induction L with
    | nil => simp
    | cons x L ih =>
      simp only [List.map_cons, List.sum_cons]
      exact (abs_add_le _ _).trans (by gcongr)
  · intro gv hgv
    refine ⟨a5 gv hgv, a6 gv hgv, ?_⟩
    rw [abs_mul]
    exact mul_le_mul (a6 gv hgv) (a5 gv hgv) (abs_nonneg _) ((abs_nonneg _).trans (a6 gv hgv))

/-- C38: the absolute gradient sum, the tracked maximum and the gradient bound never decrease, whatever is learned afterwards. -/
theorem C38_monotone (dbg : Bool) (hash : HashFn) (cfg : CoinConfig K) (g : GlobalConfig) (es es' : List (TrainEx K)) (c c' : Coin K)
    (hc : Coin.Reached dbg hash cfg g es c) (h : c.trainAll dbg es' = .ok c') (i : U32) (s s' : WState K) (hs : c.Holds i s)
    (hs' : c'.Holds i s') : s.g2 ≤ s'.g2 ∧ s.mx ≤ s'.mx ∧ s.mg ≤ s'.mg := by
  obtain ⟨hok, _, _⟩ := reached_ok hc
  obtain ⟨tr, _, hok', _, _, hst⟩ := train_stats es' c c' hok h
  obtain ⟨hi, rfl⟩ := (holds_iff hok).1 hs
  obtain ⟨_, rfl⟩ := (holds_iff hok').1 hs'
  have := hst i hi [] _ (StatRel.refl _ _)
  refine ⟨?_, this.mx_mono, this.mg_mono⟩
  rw [this.g2]
  have : 0 ≤ (([] ++ appliedAt c.pass tr i).map (fun gv : K × K => |gv.1 * gv.2|)).sum := by
    apply List.sum_nonneg
    intro x hx
    obtain ⟨y, _, rfl⟩ := List.mem_map.1 hx
    exact abs_nonneg _
  linarith

/-! ### C39 -/

/-- The invariant of the bettor. -/
structure WealthInv (alpha : K) (s : WState K) : Prop where
  zt : |s.zt| ≤ s.g2
  mx : 0 ≤ s.mx
  mg : 0 ≤ s.mg
  wealth : 0 < alpha + s.we

theorem WealthInv.step {alpha : K} {s : WState K} (h : WealthInv alpha s) (beta avg g v : K) :
    WealthInv alpha (innerUpdate alpha beta avg g v s) := by
  have hs := (StatRel.refl beta s).step alpha avg g v
  have hmx := hs.mx_ge (g, v) (by simp)
  have hmg := hs.mg_ge (g, v) (by simp)
  simp only at hmx hmg
  refine ⟨?_, h.mx.trans hs.mx_mono, h.mg.trans hs.mg_mono, ?_⟩
  · have h1 := hs.zt
    have h2 := hs.g2
    simp at h1 h2
    rw [h1, h2, ← abs_mul]
    calc |s.zt - g * v| ≤ |s.zt| + |g * v| := abs_sub _ _
      _ ≤ s.g2 + |g * v| := by have := h.zt; linarith
  · have hwe : (innerUpdate alpha beta avg g v s).we = s.we + -(g * v) *
        betWeight alpha { s with mg := (innerUpdate alpha beta avg g v s).mg } (innerUpdate alpha beta avg g v s).mx := rfl
    rw [hwe]
    generalize (innerUpdate alpha beta avg g v s).mg = mg at hmg
    generalize (innerUpdate alpha beta avg g v s).mx = mx at hmx
    unfold betWeight
    simp only [flt_lt, flt_zero, flt_mul, flt_add, flt_div, decide_eq_true_eq]
    split
    · rename_i hL
      have hA := h.wealth
      have hz := h.zt
      have hg2 : 0 ≤ s.g2 := (abs_nonneg _).trans hz
      set L := mg * mx with hLd
      have hgv : |g * v| ≤ L := by
        rw [abs_mul]
        exact mul_le_mul hmg hmx (abs_nonneg _) ((abs_nonneg _).trans hmg)
      have hkey : g * v * s.zt < L * (L + s.g2) := by
        calc g * v * s.zt ≤ |g * v * s.zt| := le_abs_self _
          _ = |g * v| * |s.zt| := abs_mul _ _
          _ ≤ L * s.g2 := mul_le_mul hgv hz (abs_nonneg _) hL.le
          _ < L * (L + s.g2) := by apply mul_lt_mul_of_pos_left _ hL; linarith
      have hD : 0 < L * (L + s.g2) := mul_pos hL (by linarith)
      have : alpha + (s.we + -(g * v) * ((alpha + s.we) / (L * (L + s.g2)) * s.zt)) =
          (alpha + s.we) * ((L * (L + s.g2) - g * v * s.zt) / (L * (L + s.g2))) := by
        field_simp
        ring
      rw [this]
      exact mul_pos hA (div_pos (by linarith) hD)
    · simp only [mul_zero, add_zero]
      exact h.wealth

theorem WealthInv.fold {alpha beta avg g : K} (vs : List (U32 × K)) : ∀ {s : WState K}, WealthInv alpha s →
    WealthInv alpha (vs.foldl (fun s iv => innerUpdate alpha beta avg g iv.2 s) s) := by
  induction vs with
  | nil => intro s h; exact h
  | cons iv vs ih => intro s h; exact ih (h.step beta avg g iv.2)

/-- C39: the wealth of the bettor of every weight, its initial endowment `alpha` plus its accumulated reward, stays positive, for every
training history with any labels and weights. -/
theorem C39_wealth_positive (dbg : Bool) (hash : HashFn) (cfg : CoinConfig K) (g : GlobalConfig) (ha : 0 < cfg.alpha)
    (es : List (TrainEx K)) (c : Coin K) (hc : Coin.Reached dbg hash cfg g es c) (i : U32) (s : WState K) (hs : c.Holds i s) :
    0 < cfg.alpha + s.we := by
  obtain ⟨hok, _, _⟩ := reached_ok hc
  obtain ⟨hi, rfl⟩ := (holds_iff hok).1 hs
  obtain ⟨nma, c0, hn, h0, h⟩ := hc
  obtain ⟨hok0, hcfg, _, _, hz⟩ := Coin.new_ok hn h0
  have key := Coin.trainAll_induct (dbg := dbg) (nb := g.numBits)
    (fun _ c => c.config = cfg ∧ ∀ i, i < 2 ^ g.numBits → WealthInv cfg.alpha (c.weights.wst i)) (by
      intro es c c' e hc ⟨h1, h2⟩ hl
      obtain ⟨p, c1, _, _, _, q, _, _, _, _, _, hw⟩ := Coin.learn_inv hc hl
      refine ⟨by rw [q, h1], ?_⟩
      intro i hi
      rw [hw i hi, h1]
      exact (h2 i hi).fold _) es [] c0 c hok0 ⟨hcfg, by
        intro i hi
        rw [hz i hi]
        exact ⟨by simp, by simp, by simp, by simpa using ha⟩⟩ h
  exact (key.2.2 _ hi).wealth

/-- C39 for every stack: the regressor at the bottom, after any history of calls. -/
theorem C39_wealth_positive_stack (dbg : Bool) (hash : HashFn) (g : GlobalConfig) (rc : RedConfig K) (w : Workspace K)
    (hw : Workspace.new hash g rc = .ok w) (ex : Nat → Features K) (calls : List (Call K))
    (r : Session K × List (Call K × Option (Prediction K))) (hr : Session.run dbg ⟨w, ex⟩ calls = .ok r)
    (ha : 0 < r.1.w.coin.config.alpha) (i : U32) (s : WState K) (hs : r.1.w.coin.Holds i s) : 0 < r.1.w.coin.config.alpha + s.we := by
  obtain ⟨cfg, es, h⟩ := run_reached hw hr
  have hcfg := (reached_ok h).2.1
  rw [hcfg] at ha ⊢
  exact C39_wealth_positive dbg hash cfg g ha es _ h i s hs

/-! ### C61 -/

theorem rawSum_field {dbg : Bool} {c : Coin K} {nb : Nat} (hc : c.Ok nb) {f : SparseFeatures K} {x : K} (h : c.rawSum dbg f = .ok x) :
    (∀ iv ∈ visited c.pass f, c.weights.weightAt true iv.1.toNat 0 = .ok (c.weights.wst iv.1.toNat).xt) ∧
      x = ((visited c.pass f).map (fun iv => iv.2 * (c.weights.wst iv.1.toNat).xt)).sum := by
  obtain ⟨hr, e⟩ := rawSum_inv hc h
  refine ⟨fun iv hiv => DenseWeights.weightAt_wst hc.table true (hr iv hiv), ?_⟩
  rw [e]
  have : ∀ (vs : List (U32 × K)) (a : K), vs.foldl (fun acc iv => Flt.add acc (Flt.mul iv.2 (c.weights.wst iv.1.toNat).xt)) a =
      a + (vs.map (fun iv => iv.2 * (c.weights.wst iv.1.toNat).xt)).sum := by
    intro vs
    induction vs with
    | nil => intro a; simp
    | cons iv vs ih => intro a; rw [List.foldl_cons, ih]; simp; ring
  rw [this]
  simp

/-- C61: a raw prediction is linear: the sum over the visited features of value times the weight stored for the feature; and if it is in
the label range and the link is the identity, it is the prediction. -/
theorem C61_linear (dbg : Bool) (hash : HashFn) (cfg : CoinConfig K) (g : GlobalConfig) (es : List (TrainEx K)) (c : Coin K)
    (hc : Coin.Reached dbg hash cfg g es c) (f : SparseFeatures K) (p raw : K) (hp : c.predict dbg f = .ok (p, raw)) :
    ∃ wt : U32 → K, (∀ iv ∈ visited c.pass f, c.weights.weightAt true iv.1.toNat 0 = .ok (wt iv.1)) ∧
      raw = ((visited c.pass f).map (fun iv => iv.2 * wt iv.1)).sum ∧
      (cfg.linkFunction = .identity → c.minLabel ≤ raw → raw ≤ c.maxLabel → p = raw) := by
  obtain ⟨hok, hcfg, _⟩ := reached_ok hc
  unfold predict at hp
  obtain ⟨x, h1, hp⟩ := bind_ok.1 hp
  obtain ⟨y, h2, hp⟩ := bind_ok.1 hp
  simp only [Except.ok.injEq, Prod.mk.injEq, flt_isNaN, Bool.false_eq_true, if_false] at hp h2
  obtain ⟨hp1, hp2⟩ := hp
  subst hp2
  obtain ⟨q1, q2⟩ := rawSum_field hok h1
  refine ⟨fun i => (c.weights.wst i.toNat).xt, q1, q2, ?_⟩
  intro hk hlo hhi
  rw [← hp1, hcfg, hk]
  unfold Flt.clamp at h2
  split at h2
  · simp only [Except.ok.injEq, flt_lt, decide_eq_true_eq, not_lt.2 hlo, not_lt.2 hhi, if_false] at h2
    exact h2.symm
  · simp at h2

/-- What the passes of a reached regressor go over, if the configuration has no interactions. -/
theorem reached_coin_pass {dbg : Bool} {hash : HashFn} {cfg : CoinConfig K} {g : GlobalConfig} {es : List (TrainEx K)} {c : Coin K}
    (h : Coin.Reached dbg hash cfg g es c) (hi : g.interactions = []) : c.pass = ⟨[], [], g.numBits, g.constantFeatureEnabled⟩ := by
  obtain ⟨nma, c0, hn, h0, h⟩ := h
  have hp : c0.pass = ⟨[], [], g.numBits, g.constantFeatureEnabled⟩ := by
    unfold Coin.new at h0
    rw [hi] at h0
    obtain ⟨⟨pairs, triples⟩, h1, h0⟩ := bind_ok.1 h0
    have h2 : (.ok ([], []) : M (List (Namespace × Namespace) × List (Namespace × Namespace × Namespace))) = .ok (pairs, triples) := h1
    simp only [Except.ok.injEq, Prod.mk.injEq] at h2
    obtain ⟨rfl, rfl⟩ := h2
    simp only at h0
    split at h0
    · obtain ⟨w, _, h0⟩ := bind_ok.1 h0
      simp only [Except.ok.injEq] at h0
      subst h0
      rfl
    · simp at h0
  exact (Coin.trainAll_induct (dbg := dbg) (nb := g.numBits) (fun _ c => c.pass = ⟨[], [], g.numBits, g.constantFeatureEnabled⟩) (by
      intro es c c' e hc h1 hl
      obtain ⟨_, _, _, _, _, _, _, _, _, q, _⟩ := Coin.learn_inv hc hl
      rw [q, h1]) es [] c0 c (Coin.new_ok hn h0).1 hp h).2

/-- C61: without interactions, the raw prediction is additive over namespaces, plus the weight of the constant feature, whose index is in the middle
of the index space. -/
theorem C61_additive (dbg : Bool) (hash : HashFn) (cfg : CoinConfig K) (g : GlobalConfig) (es : List (TrainEx K)) (c : Coin K)
    (hc : Coin.Reached dbg hash cfg g es c) (hi : g.interactions = []) (f : SparseFeatures K) (p raw : K)
    (hp : c.predict dbg f = .ok (p, raw)) :
    ∃ wt : Nat → K, (∀ e ∈ f.entries, ∀ iv ∈ e.2.iter, c.weights.weightAt true iv.1.toNat 0 = .ok (wt iv.1.toNat)) ∧
      (g.constantFeatureEnabled = true → c.weights.weightAt true (2 ^ g.numBits / 2) 0 = .ok (wt (2 ^ g.numBits / 2))) ∧
      raw = (f.entries.map (fun e => (e.2.iter.map (fun iv => iv.2 * wt iv.1.toNat)).sum)).sum +
        (if g.constantFeatureEnabled then wt (2 ^ g.numBits / 2) else 0) := by
  obtain ⟨wt, q1, q2, _⟩ := C61_linear dbg hash cfg g es c hc f p raw hp
  have hpass := reached_coin_pass hc hi
  have hb : g.numBits < 32 := by have := (reached_ok hc).1.le31; omega
  have hci : (constantFeatureIndex g.numBits).toNat = 2 ^ g.numBits / 2 := constantFeatureIndex_toNat hb
  have hv : visited c.pass f = f.allFeatures ++ constVisit ⟨[], [], g.numBits, g.constantFeatureEnabled⟩ := by
    unfold visited
    rw [hpass]
    simp
  rw [hv] at q1 q2
  refine ⟨fun n => wt (BitVec.ofNat 32 n), ?_, ?_, ?_⟩
  · intro e he iv hiv
    simp only [BitVec.ofNat_toNat, BitVec.setWidth_eq]
    exact q1 iv (List.mem_append_left _ (List.mem_flatMap.2 ⟨e, he, hiv⟩))
  · intro hk
    rw [← hci]
    simp only [BitVec.ofNat_toNat, BitVec.setWidth_eq]
    exact q1 (constantFeatureIndex g.numBits, Flt.one) (List.mem_append_right _ (by simp [constVisit, hk]))
  · rw [q2, List.map_append, List.sum_append, ← hci]
    simp only [BitVec.ofNat_toNat, BitVec.setWidth_eq]
    congr 1
    · unfold SparseFeatures.allFeatures
      induction f.entries with
      | nil => rfl
      | cons e l ih => simp only [List.flatMap_cons, List.map_append, List.sum_append, List.map_cons, List.sum_cons, ih]
    · unfold constVisit
      split
      · simp
      · simp

/-- C61: without interactions, the order of features does not matter: two examples with the same features get the same raw prediction. -/
theorem C61_order_irrelevant (dbg : Bool) (hash : HashFn) (cfg : CoinConfig K) (g : GlobalConfig) (es : List (TrainEx K)) (c : Coin K)
    (hc : Coin.Reached dbg hash cfg g es c) (hi : g.interactions = []) (f f' : SparseFeatures K)
    (hf : f.allFeatures.Perm f'.allFeatures) (p raw p' raw' : K) (hp : c.predict dbg f = .ok (p, raw))
    (hp' : c.predict dbg f' = .ok (p', raw')) : raw = raw' ∧ p = p' := by
  obtain ⟨hok, hcfg, _⟩ := reached_ok hc
  unfold predict at hp hp'
  obtain ⟨x, h1, hp⟩ := bind_ok.1 hp
  obtain ⟨y, h4, hp⟩ := bind_ok.1 hp
  obtain ⟨x', h1', hp'⟩ := bind_ok.1 hp'
  obtain ⟨y', h4', hp'⟩ := bind_ok.1 hp'
  simp only [Except.ok.injEq, Prod.mk.injEq, flt_isNaN, Bool.false_eq_true, if_false] at hp hp' h4 h4'
  have hx : x = x' := by
    rw [(rawSum_field hok h1).2, (rawSum_field hok h1').2]
    apply List.Perm.sum_eq
    apply List.Perm.map
    unfold visited
    rw [reached_coin_pass hc hi]
    simp only [List.flatMap_nil, List.append_nil]
    exact hf.append_right _
  subst hx
  rw [h4] at h4'
  simp only [Except.ok.injEq] at h4'
  subst h4'
  exact ⟨by rw [← hp.2, ← hp'.2], by rw [← hp.1, ← hp'.1]⟩

/-! ### C41 -/

/-- Whatever loss is configured, every learn call uses the gradient of the squared loss. -/
theorem C41_always_squared (dbg : Bool) (hash : HashFn) (cfg : CoinConfig K) (g : GlobalConfig) (es : List (TrainEx K)) (c : Coin K)
    (hc : Coin.Reached dbg hash cfg g es c) (e : TrainEx K) (c' : Coin K) (h : c.learn dbg e.feats e.label e.weight = .ok c') :
    Coin.LearnsWith .squared c e c' := by
  obtain ⟨hok, _, hlf⟩ := reached_ok hc
  obtain ⟨p, c1, hb, hc1, hok', _, hmin, hmax, _, hpass, _, hw⟩ := learn_inv hok h
  obtain ⟨_, _, f1, f2, f3, _, _, x, hx⟩ := bettingPredict_inv hb
  simp only at f1 f2 f3 hx
  have hm1 : c1.minLabel = c'.minLabel := by rw [f1, hmin]; rfl
  have hm2 : c1.maxLabel = c'.maxLabel := by rw [f2, hmax]; rfl
  have hl1 : c1.lossFunction = .squared := by rw [f3]; exact hlf
  have hrange : Flt.le c'.minLabel p = true ∧ Flt.le p c'.maxLabel = true := by
    rw [← f1, ← f2, hm1, hm2] at hx
    unfold Flt.clamp at hx
    split at hx
    · rename_i hle
      simp only [Except.ok.injEq, flt_lt, flt_le, decide_eq_true_eq] at hx hle ⊢
      subst hx
      split
      · rename_i hl; exact ⟨le_refl _, hle⟩
      · split
        · exact ⟨hle, le_refl _⟩
        · rename_i a b; exact ⟨not_lt.1 a, not_lt.1 b⟩
    · simp at hx
  refine ⟨p, hrange.1, hrange.2, ?_⟩
  intro i s s' hs hs'
  obtain ⟨hi, rfl⟩ := (holds_iff hok).1 hs
  obtain ⟨_, rfl⟩ := (holds_iff hok').1 hs'
  rw [hw _ hi]
  have hst := ((StatRel.refl c.config.beta (c.weights.wst i.toNat)).fold (alpha := c.config.alpha) (avg := c1.averageSquaredNormX)
    (g := c1.updateOf p e.label e.weight) (c.visitsAt e.feats i.toNat)).zt
  rw [hst, ← valuesAt_visits]
  simp only [List.nil_append, List.map_map]
  congr 2
  apply List.map_congr_left
  intro iv _
  simp only [Function.comp, updateOf, hl1, hm1, hm2]
  rfl

/-- C41 for the squared loss, which is the part of the property that holds: a regressor configured with the squared loss learns with its
gradient. Missing: the logistic loss, for which the property is false (`C41_false`). -/
theorem C41_configured_loss_partial (dbg : Bool) (hash : HashFn) (cfg : CoinConfig K) (hl : cfg.lossFunction = .squared)
    (g : GlobalConfig) (es : List (TrainEx K)) (c : Coin K) (hc : Coin.Reached dbg hash cfg g es c) (e : TrainEx K) (c' : Coin K)
    (h : c.learn dbg e.feats e.label e.weight = .ok c') : Coin.LearnsWith cfg.lossFunction c e c' := by
  rw [hl]
  exact C41_always_squared dbg hash cfg g es c hc e c' h

theorem fresh_pred (alpha : K) (vs : List (U32 × K)) (w : DenseWeights K)
    (hz : ∀ iv ∈ vs, w.wst iv.1.toNat = ⟨Flt.zero, Flt.zero, Flt.zero, Flt.zero, Flt.zero, Flt.zero⟩) : ∀ acc : K × K, acc.1 = 0 →
    (vs.foldl (fun s iv => innerPredict alpha s iv.2 (w.wst iv.1.toNat)) acc).1 = 0 := by
  induction vs with
  | nil => intro acc h; exact h
  | cons iv vs ih =>
    intro acc h
    apply ih (fun x hx => hz x (by simp [hx]))
    show (innerPredict alpha acc iv.2 (w.wst iv.1.toNat)).1 = 0
    rw [hz iv (by simp)]
    unfold innerPredict betWeight
    simp only [flt_mul, flt_zero, zero_mul, flt_lt, lt_irrefl, decide_false, Bool.false_eq_true, if_false, flt_add, h, zero_add]
    split <;> rfl

/-- The first learn call of a fresh regressor: its prediction is 0 (0 is in every label range), so a weight visited once with value 1 gets
the gradient sum `2 * label * weight`. -/
theorem first_learn {dbg : Bool} {hash : HashFn} {cfg : CoinConfig K} {g : GlobalConfig} {nma : Nat} {c c' : Coin K} (hn : 0 < nma)
    (h0 : Coin.new hash cfg g nma = .ok c) (h00 : c.minLabel ≤ 0) (h01 : 0 ≤ c.maxLabel) {e : TrainEx K}
    (h : c.learn dbg e.feats e.label e.weight = .ok c') {i : U32} {s' : WState K} (hs' : c'.Holds i s') :
    s'.zt = ((valuesAt c.pass e.feats i).map (fun v => 2 * e.label * e.weight * v)).sum := by
  obtain ⟨hok, _, hlf, _, hz⟩ := Coin.new_ok hn h0
  obtain ⟨p, c1, hb, hc1, hok', _, hmin, hmax, _, hpass, hr, hw⟩ := learn_inv hok h
  obtain ⟨_, _, f1, f2, f3, _, _, _⟩ := bettingPredict_inv hb
  have hp : p = 0 := by
    unfold bettingPredict foreachFeatureWithState at hb
    have hrp := readPass dbg g.numBits (innerPredict (c.seen e.label).config.alpha) (visited (c.seen e.label).pass e.feats)
      (c.seen e.label).weights hok.table hr (Flt.zero, Flt.zero)
    rw [hrp] at hb
    simp only [bind, Except.bind] at hb
    have hne : (c.seen e.label).modelStates ≠ [] := hok.models
    cases hms : (c.seen e.label).modelStates with
    | nil => exact absurd hms hne
    | cons ms rest =>
      rw [hms] at hb
      simp only at hb
      have hz' : ((visited (c.seen e.label).pass e.feats).foldl (fun s iv => innerPredict (c.seen e.label).config.alpha s iv.2
        ((c.seen e.label).weights.wst iv.1.toNat)) ((Flt.zero : K), (Flt.zero : K))).1 = 0 :=
        fresh_pred _ _ _ (fun iv hiv => hz _ (hr iv hiv)) _ rfl
      rw [hz'] at hb
      have q1 : (c.seen e.label).minLabel ≤ 0 := by
        show min e.label c.minLabel ≤ 0
        exact (min_le_right _ _).trans h00
      have q2 : 0 ≤ (c.seen e.label).maxLabel := by
        show 0 ≤ max e.label c.maxLabel
        exact h01.trans (le_max_right _ _)
      simp only [flt_div, zero_div, Flt.clamp, flt_le, q1.trans q2, decide_true, if_true, flt_lt, not_lt.2 q1, not_lt.2 q2, decide_false,
        Bool.false_eq_true, if_false, Except.ok.injEq, Prod.mk.injEq] at hb
      exact hb.1.symm
  subst hp
  obtain ⟨hi, rfl⟩ := (holds_iff hok').1 hs'
  rw [hw _ hi]
  have hst := ((StatRel.refl c.config.beta (c.weights.wst i.toNat)).fold (alpha := c.config.alpha) (avg := c1.averageSquaredNormX)
    (g := c1.updateOf 0 e.label e.weight) (c.visitsAt e.feats i.toNat)).zt
  rw [hst, ← valuesAt_visits, hz _ hi]
  have hl1 : c1.lossFunction = .squared := by rw [f3]; exact hlf
  have g1 : ¬ (0 : K) < c1.minLabel := by
    rw [f1]; show ¬ 0 < min e.label c.minLabel
    exact not_lt.2 ((min_le_right _ _).trans h00)
  have g2 : ¬ c1.maxLabel < (0 : K) := by
    rw [f2]; show ¬ max e.label c.maxLabel < 0
    exact not_lt.2 (h01.trans (le_max_right _ _))
  simp only [List.nil_append, List.map_map, flt_zero, zero_sub]
  generalize c.visitsAt e.feats i.toNat = vs
  have hu : c1.updateOf 0 e.label e.weight = -(2 * e.label * e.weight) := by
    simp only [updateOf, hl1, LossFunction.firstDerivative, SquaredLoss.firstDerivative, flt_lt, g1, g2, decide_false,
      Bool.false_eq_true, if_false, flt_mul, flt_sub, fl, flt_lit]
    push_cast
    ring
  induction vs with
  | nil => simp
  | cons iv vs ih =>
    rw [List.map_cons, List.sum_cons, List.map_cons, List.sum_cons, neg_add, ih]
    simp only [Function.comp, hu]
    ring

/-- C41 is false of the code: a regressor configured with the logistic loss does not learn with its gradient. (`CoinRegressor::new` always
installs the squared loss; the configured one only chooses the initial label range.) Witness: the empty example, whose only feature is
the constant, with label 1. -/
theorem C41_false : ¬ ∀ (dbg : Bool) (hash : HashFn) (cfg : CoinConfig ℝ) (g : GlobalConfig) (es : List (TrainEx ℝ)) (c : Coin ℝ)
    (_ : Coin.Reached dbg hash cfg g es c) (e : TrainEx ℝ) (c' : Coin ℝ) (_ : c.learn dbg e.feats e.label e.weight = .ok c'),
    Coin.LearnsWith cfg.lossFunction c e c' := by
  intro hall
  let cfg : CoinConfig ℝ := ⟨4, 1, 0, 0, .logistic 0 1, .logistic⟩
  obtain ⟨c, h0, hpass⟩ : ∃ c, Coin.new tinyHash cfg tinyGlobal 1 = .ok c ∧ c.pass = ⟨[], [], 2, true⟩ := ⟨_, rfl, rfl⟩
  obtain ⟨hok, hcfg, hlf, hmm, hz⟩ := Coin.new_ok (by decide) h0
  have hr : Coin.Reached true tinyHash cfg tinyGlobal [] c := ⟨1, c, by decide, h0, rfl⟩
  simp only [cfg, Prod.mk.injEq, fl, flt_lit] at hmm
  let e : TrainEx ℝ := ⟨SparseFeatures.new, 1, 1⟩
  have hvis : visited c.pass e.feats = [(constantFeatureIndex 2, 1)] := by rw [hpass]; rfl
  obtain ⟨c', hl⟩ := Coin.learn_succeeds (dbg := true) hok (f := e.feats) (l := e.label) (w := e.weight) (by
    rw [hvis]
    intro iv hiv
    simp only [List.mem_singleton] at hiv
    subst hiv
    decide) (by
      rw [hmm.1, hmm.2]
      norm_num [e])
  obtain ⟨p, _, _, hp⟩ := hall true tinyHash cfg tinyGlobal [] c hr e c' hl
  obtain ⟨_, _, _, _, hok', _⟩ := learn_inv hok hl
  have hi : (constantFeatureIndex 2).toNat < 2 ^ tinyGlobal.numBits := by decide
  have hs := (holds_iff hok).2 (⟨hi, rfl⟩ : _ ∧ _ = c.weights.wst _)
  have hs' := (holds_iff hok').2 (⟨hi, rfl⟩ : _ ∧ _ = c'.weights.wst _)
  have q1 := first_learn (by decide) h0 (by rw [hmm.1]; norm_num) (by rw [hmm.2]; norm_num) hl hs'
  have q2 := hp _ _ _ hs hs'
  have hv : valuesAt c.pass e.feats (constantFeatureIndex 2) = [1] := by
    unfold valuesAt
    rw [hvis]
    simp
  rw [hv] at q1 q2
  rw [q1, hz _ hi] at q2
  simp only [e, cfg, LossFunction.firstDerivative, LogisticLoss.firstDerivative, LogisticLoss.mix, LogisticLoss.stdLabel,
    LogisticLoss.firstDerivativeSub, flt_zero, flt_one, flt_add, flt_mul, flt_sub, flt_div, flt_neg, List.map_cons, List.map_nil,
    List.sum_cons, List.sum_nil] at q2
  have hexp : 0 < Real.exp p := Real.exp_pos p
  have hexp' : (Flt.exp (1 * p) : ℝ) = Real.exp p := by rw [one_mul]; rfl
  rw [hexp'] at q2
  have : (1 : ℝ) / (1 + Real.exp p) < 1 := by
    rw [div_lt_one (by linarith)]
    linarith
  have h3 : (-1 : ℝ) / (1 + Real.exp p) = -(1 / (1 + Real.exp p)) := by ring
  norm_num at q2
  rw [h3] at q2
  linarith

section examples

/-- Exact arithmetic on the rationals, for the example. -/
local instance transRatCoin : Trans ℚ where
  exp := id
  ln := id
  powf := fun a _ => a
  sqrt := id

/-- A feature of the rationals. -/
def ratFeat (i : U32) (v : ℚ) : SparseFeatures ℚ :=
  SparseFeatures.modifyOrCreate SparseFeatures.new .default (fun n => n.addFeature i v)

/-- A history of two examples that reaches a regressor, whose weight 1 was applied to twice, that then predicts; its namespaces have no
interactions. -/
example : ∃ c : Coin ℚ, ∃ p : ℚ × ℚ, Coin.Reached true tinyHash CoinConfig.dflt tinyGlobal [⟨ratFeat 1#32 1, 3, 1⟩, ⟨ratFeat 1#32 2, -4, 1⟩] c ∧
    c.predict true (ratFeat 1#32 1) = .ok p ∧ tinyGlobal.interactions = [] ∧ (0 : ℚ) < (CoinConfig.dflt : CoinConfig ℚ).alpha ∧
    ∃ s, c.Holds 1#32 s :=
  ⟨_, _, ⟨1, _, by decide, rfl, rfl⟩, rfl, rfl, by norm_num [CoinConfig.dflt, fl], _, rfl⟩

end examples

end Rml
