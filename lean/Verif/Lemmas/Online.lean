import Verif.Lemmas.BetInv
import Verif.SpecOnline

/-
The rounds of a training history (C104).
-/

set_option linter.unusedSectionVars false

namespace Rml
open Coin
variable [Trans ℝ]

attribute [local instance] fieldFlt

/-- Every example has each weight at most once. -/
def OnceEach (pass : PassCfg) (f : SparseFeatures ℝ) : Prop := ((visited pass f).map fun iv => iv.1).Nodup

theorem valuesAt_once {pass : PassCfg} {f : SparseFeatures ℝ} (h : OnceEach pass f) (i : U32) :
    (valuesAt pass f i = [] ∧ ∀ v, (i, v) ∉ visited pass f) ∨ ∃ v, (i, v) ∈ visited pass f ∧ valuesAt pass f i = [v] := by
  unfold OnceEach at h
  unfold valuesAt
  generalize visited pass f = l at h ⊢
  induction l with
  | nil => left; simp
  | cons a l ih =>
    obtain ⟨j, w⟩ := a
    simp only [List.map_cons, List.nodup_cons] at h
    by_cases hj : j = i
    · subst hj
      right
      refine ⟨w, by simp, ?_⟩
      have : l.filter (fun iv => decide (iv.1 = j)) = [] := by
        rw [List.filter_eq_nil_iff]
        rintro ⟨k, x⟩ hk
        simp only [decide_eq_true_eq]
        rintro rfl
        exact h.1 (List.mem_map.2 ⟨(k, x), hk, rfl⟩)
      simp [this]
    · rcases ih h.2 with ⟨h1, h2⟩ | ⟨v, h1, h2⟩
      · left
        refine ⟨by simp only [List.filter_cons, hj, decide_false, Bool.false_eq_true, if_false]; exact h1, ?_⟩
        intro v hv
        rcases List.mem_cons.1 hv with e | e
        · simp only [Prod.mk.injEq] at e; exact hj e.1.symm
        · exact h2 v e
      · right
        exact ⟨v, by simp [h1], by simp only [List.filter_cons, hj, decide_false, Bool.false_eq_true, if_false]; exact h2⟩

theorem valuesAt_mem {pass : PassCfg} {f : SparseFeatures ℝ} (h : OnceEach pass f) {i : U32} {v : ℝ} (hv : (i, v) ∈ visited pass f) :
    valuesAt pass f i = [v] := by
  rcases valuesAt_once h i with ⟨_, h2⟩ | ⟨w, h1, h2⟩
  · exact absurd hv (h2 v)
  · have : v ∈ valuesAt pass f i := by
      unfold valuesAt
      exact List.mem_map.2 ⟨(i, v), List.mem_filter.2 ⟨hv, by simp⟩, rfl⟩
    rw [h2] at this ⊢
    simp only [List.mem_singleton] at this
    rw [this]

/-- Sums over the weights of an example. -/
theorem sum_weights {pass : PassCfg} {f : SparseFeatures ℝ} (h : OnceEach pass f) (I : Finset U32)
    (hI : ∀ iv ∈ visited pass f, iv.1 ∈ I) (d : U32 → ℝ) (t : U32 → ℝ → ℝ) (h0 : ∀ i ∈ I, valuesAt pass f i = [] → d i = 0)
    (h1 : ∀ i v, valuesAt pass f i = [v] → d i = t i v) : ∑ i ∈ I, d i = ((visited pass f).map fun iv => t iv.1 iv.2).sum := by
  have e1 : ((visited pass f).map fun iv => t iv.1 iv.2) = (visited pass f).map (fun iv => d iv.1) := by
    refine List.map_congr_left fun iv hiv => ?_
    exact (h1 iv.1 iv.2 (valuesAt_mem h hiv)).symm
  rw [e1]
  have e2 : (visited pass f).map (fun iv => d iv.1) = ((visited pass f).map fun iv => iv.1).map d := by simp [List.map_map]
  rw [e2, ← List.sum_toFinset _ h]
  symm
  refine Finset.sum_subset ?_ ?_
  · intro i hi
    rw [List.mem_toFinset, List.mem_map] at hi
    obtain ⟨iv, hiv, rfl⟩ := hi
    exact hI iv hiv
  · intro i hiI hi
    apply h0 i hiI
    rcases valuesAt_once h i with ⟨q, _⟩ | ⟨v, q, _⟩
    · exact q
    · exact absurd (List.mem_toFinset.2 (List.mem_map.2 ⟨(i, v), q, rfl⟩)) hi

theorem largestAt_snoc {pass : PassCfg} (past : List (TrainEx ℝ)) {e : TrainEx ℝ} (i : U32) {v : ℝ} (hv : valuesAt pass e.feats i = [v]) :
    largestAt pass (past ++ [e]) i = max (largestAt pass past i) |v| := by
  unfold largestAt
  rw [List.flatMap_append, List.map_append, List.foldr_append]
  simp only [List.flatMap_cons, List.flatMap_nil, List.append_nil, hv, List.map_cons, List.map_nil, List.foldr_cons, List.foldr_nil]
  generalize (past.flatMap fun e => valuesAt pass e.feats i).map (fun v => |v|) = l
  induction l with
  | nil => simp [max_comm]
  | cons a l ih => simp only [List.foldr_cons, ih, max_assoc]

theorem largestAt_snoc_nil {pass : PassCfg} (past : List (TrainEx ℝ)) {e : TrainEx ℝ} (i : U32) (hv : valuesAt pass e.feats i = []) :
    largestAt pass (past ++ [e]) i = largestAt pass past i := by
  unfold largestAt
  simp [List.flatMap_append, hv]

theorem visitsOf_snoc {pass : PassCfg} (past : List (TrainEx ℝ)) (e : TrainEx ℝ) (i : U32) :
    visitsOf pass (past ++ [e]) i = visitsOf pass past i + (valuesAt pass e.feats i).length := by
  unfold visitsOf
  simp [List.flatMap_append]

theorem visitsOf_append {pass : PassCfg} (past es : List (TrainEx ℝ)) (i : U32) :
    visitsOf pass (past ++ es) i = visitsOf pass past i + visitsOf pass es i := by
  unfold visitsOf
  simp [List.flatMap_append]

theorem totalNorm_append (pass : PassCfg) (es es' : List (TrainEx ℝ)) : ∀ past,
    totalNorm pass past (es ++ es') = totalNorm pass past es + totalNorm pass (past ++ es) es' := by
  induction es with
  | nil => intro past; simp [totalNorm]
  | cons e es ih =>
    intro past
    simp only [List.cons_append, totalNorm, ih, List.append_assoc, List.nil_append]
    ring

theorem unitNorm_nonneg (pass : PassCfg) (past : List (TrainEx ℝ)) (e : TrainEx ℝ) : 0 ≤ unitNorm pass past e := by
  unfold unitNorm
  apply List.sum_nonneg
  intro x hx
  obtain ⟨iv, _, rfl⟩ := List.mem_map.1 hx
  positivity

theorem totalNorm_nonneg (pass : PassCfg) (es : List (TrainEx ℝ)) (hw : ∀ e ∈ es, 0 < e.weight) : ∀ past, 0 ≤ totalNorm pass past es := by
  induction es with
  | nil => intro past; simp [totalNorm]
  | cons e es ih =>
    intro past
    have h1 := ih (fun x hx => hw x (by simp [hx])) (past ++ [e])
    have h2 := mul_nonneg (hw e (by simp)).le (unitNorm_nonneg pass past e)
    simp only [totalNorm]
    linarith

/-- The state of a regressor after the examples `past`, in a history whose weights have `N i` visits. -/
structure OnlineInv (cfg : CoinConfig ℝ) (nb : ℕ) (pass : PassCfg) (m : U32 → ℝ) (N : U32 → ℕ) (lo hi : ℝ) (past : List (TrainEx ℝ)) (c : Coin ℝ) : Prop where
  ok : c.Ok nb
  cfg_eq : c.config = cfg
  pass_eq : c.pass = pass
  loss : c.lossFunction = .squared
  min_lo : lo ≤ c.minLabel
  le : c.minLabel ≤ c.maxLabel
  max_hi : c.maxLabel ≤ hi
  weights : ∀ i : U32, i.toNat < 2 ^ nb → BInv cfg.alpha cfg.beta (m i) (5 * (N i + 2)) (visitsOf pass past i) (c.weights.wst i.toNat) ∧
    (c.weights.wst i.toNat).mx = largestAt pass past i
  states : ∃ rest, c.modelStates = ⟨totalNorm pass [] past, (past.map (·.weight)).sum⟩ :: rest

/-- The part of a weight in the potential. -/
noncomputable def gain (u : U32 → ℝ) (c : Coin ℝ) (i : U32) : ℝ := u i * (c.weights.wst i.toNat).zt - (c.weights.wst i.toNat).we

theorem clamp_eq_ok {x lo hi : ℝ} (h : lo ≤ hi) : Flt.clamp x lo hi = .ok (max lo (min x hi)) := by
  unfold Flt.clamp
  simp only [flt_le, flt_lt, decide_eq_true_eq]
  rw [if_pos h]
  congr 1
  split
  · rename_i a; rw [max_eq_left]; exact (min_le_left _ _).trans a.le
  · rename_i a
    split
    · rename_i b; rw [min_eq_right b.le, max_eq_right h]
    · rename_i b; rw [min_eq_left (not_lt.1 b), max_eq_right (not_lt.1 a)]

theorem square_convex {p y r x w A : ℝ} (hw : 0 < w) (hA : 0 < A) (h : 0 ≤ (p - y) * (x - p)) :
    w * A * (p - y) ^ 2 ≤ w * A * (r - y) ^ 2 + 2 * (p - y) * w * (A * x - A * r) := by
  have h1 : (p - y) ^ 2 ≤ (r - y) ^ 2 + 2 * (p - y) * (x - r) := by nlinarith [sq_nonneg (p - r)]
  have h2 := mul_le_mul_of_nonneg_left h1 (mul_pos hw hA).le
  refine h2.trans (le_of_eq ?_)
  ring

theorem online_step {cfg : CoinConfig ℝ} {nb : ℕ} {pass : PassCfg} {m : U32 → ℝ} {N : U32 → ℕ} {lo hi : ℝ} {past : List (TrainEx ℝ)}
    {c c' : Coin ℝ} (h : OnlineInv cfg nb pass m N lo hi past c) {dbg : Bool} {e : TrainEx ℝ}
    (ha : 0 < cfg.alpha) (hb : 0 < cfg.beta) (hm : ∀ i, 0 < m i) (hlink : cfg.linkFunction = .identity)
    (hpast : ∀ e ∈ past, 0 < e.weight) (hw : 0 < e.weight) (hlo : lo ≤ e.label) (hhi : e.label ≤ hi) (hbeta : 2 * (hi - lo) * e.weight ≤ cfg.beta)
    (honce : OnceEach pass e.feats) (hval : ∀ iv ∈ visited pass e.feats, iv.2 = 0 ∨ m iv.1 ≤ |iv.2|)
    (hN : ∀ i, visitsOf pass (past ++ [e]) i ≤ N i) (hl : c.learn dbg e.feats e.label e.weight = .ok c') {q : ℝ × ℝ}
    (hq : c'.predict dbg e.feats = .ok q) (u : U32 → ℝ) (I : Finset U32) (hI : ∀ iv ∈ visited pass e.feats, iv.1 ∈ I)
    (hIr : ∀ i ∈ I, i.toNat < 2 ^ nb) :
    OnlineInv cfg nb pass m N lo hi (past ++ [e]) c' ∧ 0 < averageNorm pass (past ++ [e]) ∧
      e.weight * averageNorm pass (past ++ [e]) * (q.1 - e.label) ^ 2 ≤
        e.weight * averageNorm pass (past ++ [e]) * (linear pass u e.feats / averageNorm pass (past ++ [e]) - e.label) ^ 2 +
          (∑ i ∈ I, gain u c' i - ∑ i ∈ I, gain u c i) := by
  obtain ⟨p, c1, hbp, hc', hok', hcfg', hmin, hmax, hloss, hpass, hr, hwst⟩ := learn_inv h.ok hl
  obtain ⟨rest, hms⟩ := h.states
  have hokS : (c.seen e.label).Ok nb := ⟨h.ok.table, h.ok.bits, h.ok.le31, h.ok.models⟩
  have hmin' : c'.minLabel = min e.label c.minLabel := hmin
  have hmax' : c'.maxLabel = max e.label c.maxLabel := hmax
  have hle' : c'.minLabel ≤ c'.maxLabel := by
    rw [hmin', hmax']; exact (min_le_right _ _).trans (h.le.trans (le_max_right _ _))
  rw [bettingPredict_eq hokS (c := c.seen e.label) hr (by exact hms)] at hbp
  simp only [Coin.seen, h.pass_eq, h.cfg_eq] at hbp
  obtain ⟨p', hp, hbp⟩ := bind_ok.1 hbp
  simp only [Except.ok.injEq, Prod.mk.injEq] at hbp
  obtain ⟨rfl, hc1⟩ := hbp
  rw [h.pass_eq] at hpass hr
  -- the values of the spec
  have hnorm : normSum c.weights.wst (visited pass e.feats) = unitNorm pass past e := by
    unfold normSum unitNorm
    congr 1
    refine List.map_congr_left fun iv hiv => ?_
    have hv := valuesAt_mem honce (i := iv.1) (v := iv.2) hiv
    rw [largestAt_snoc past iv.1 hv, (h.weights iv.1 (hr iv hiv)).2]
    split
    · rw [sq]
    · rename_i hn
      have : max (largestAt pass past iv.1) |iv.2| = 0 := le_antisymm (not_lt.1 hn) ((abs_nonneg _).trans (le_max_right _ _))
      rw [this]; simp
  set A := averageNorm pass (past ++ [e]) with hA
  have hAdef : A = (totalNorm pass [] past + normSum c.weights.wst (visited pass e.feats) * e.weight + Flt.lit 1 1000000) /
      ((past.map (·.weight)).sum + e.weight) := by
    rw [hA, averageNorm, totalNorm_append, hnorm]
    simp [totalNorm, mul_comm]
  have hsumw : 0 < (past.map (·.weight)).sum + e.weight := by
    have : 0 ≤ (past.map (·.weight)).sum := List.sum_nonneg (by
      intro x hx
      obtain ⟨y, hy, rfl⟩ := List.mem_map.1 hx
      exact (hpast y hy).le)
    linarith
  have hApos : 0 < A := by
    rw [hA, averageNorm]
    apply div_pos
    · have := totalNorm_nonneg pass (past ++ [e]) (by
        intro x hx
        rcases List.mem_append.1 hx with h1 | h1
        · exact hpast x h1
        · simp only [List.mem_singleton] at h1; rw [h1]; exact hw) []
      linarith
    · simpa using hsumw
  rw [← hAdef] at hp hc1
  have hc1avg : c1.averageSquaredNormX = A := by rw [← hc1]
  have hc1min : c1.minLabel = c'.minLabel := by rw [← hc1, hmin']; rfl
  have hc1max : c1.maxLabel = c'.maxLabel := by rw [← hc1, hmax']; rfl
  have hpe : p' = max c'.minLabel (min (predSum cfg.alpha c.weights.wst (visited pass e.feats) / A) c'.maxLabel) := by
    have hp2 : Flt.clamp (predSum cfg.alpha c.weights.wst (visited pass e.feats) / A) c'.minLabel c'.maxLabel = .ok p' := by
      rw [hmin', hmax']; exact hp
    rw [clamp_eq_ok hle'] at hp2
    simp only [Except.ok.injEq] at hp2
    exact hp2.symm
  have hp1 : c'.minLabel ≤ p' := by rw [hpe]; exact le_max_left _ _
  have hp2 : p' ≤ c'.maxLabel := by rw [hpe]; exact max_le hle' (min_le_right _ _)
  have hgrad : c1.updateOf p' e.label e.weight = 2 * (p' - e.label) * e.weight := by
    unfold updateOf
    have : c1.lossFunction = .squared := by rw [← hc1]; exact h.loss
    rw [this, hc1min, hc1max]
    simp only [LossFunction.firstDerivative, SquaredLoss.firstDerivative, flt_lt, flt_mul, flt_sub, decide_eq_true_eq]
    rw [if_neg (not_lt.2 hp1), if_neg (not_lt.2 hp2)]
    simp [fl]
  set g := 2 * (p' - e.label) * e.weight with hg
  have hlo' : lo ≤ c'.minLabel := by rw [hmin']; exact le_min hlo h.min_lo
  have hhi' : c'.maxLabel ≤ hi := by rw [hmax']; exact max_le hhi h.max_hi
  have hgb : |g| ≤ cfg.beta := by
    refine le_trans ?_ hbeta
    rw [hg, abs_mul, abs_mul, abs_of_pos hw, abs_of_pos (show (0 : ℝ) < 2 by norm_num)]
    apply mul_le_mul_of_nonneg_right _ hw.le
    apply mul_le_mul_of_nonneg_left _ (by norm_num)
    rw [abs_le]
    constructor <;> linarith
  have hstep0 : ∀ i : U32, i.toNat < 2 ^ nb → valuesAt pass e.feats i = [] → c'.weights.wst i.toNat = c.weights.wst i.toNat := by
    intro i hi hv
    rw [hwst i.toNat hi, foldl_valuesAt c e.feats i
      (fun s v => innerUpdate c.config.alpha c.config.beta c1.averageSquaredNormX (c1.updateOf p' e.label e.weight) v s), h.pass_eq, hv]
    rfl
  have hstep1 : ∀ (i : U32) (v : ℝ), i.toNat < 2 ^ nb → valuesAt pass e.feats i = [v] →
      c'.weights.wst i.toNat = innerUpdate cfg.alpha cfg.beta A g v (c.weights.wst i.toNat) := by
    intro i v hi hv
    rw [hwst i.toNat hi, foldl_valuesAt c e.feats i
      (fun s v => innerUpdate c.config.alpha c.config.beta c1.averageSquaredNormX (c1.updateOf p' e.label e.weight) v s), h.pass_eq, hv,
      hgrad, hc1avg, h.cfg_eq]
    rfl
  have hrange : ∀ (i : U32) (v : ℝ), valuesAt pass e.feats i = [v] → (i, v) ∈ visited pass e.feats := by
    intro i v hv
    rcases valuesAt_once honce i with ⟨q, _⟩ | ⟨w, q1, q2⟩
    · rw [q] at hv; simp at hv
    · rw [q2] at hv
      simp only [List.cons.injEq, and_true] at hv
      rw [← hv]; exact q1
  refine ⟨⟨hok', hcfg'.trans h.cfg_eq, hpass, hloss.trans h.loss, hlo', hle', hhi', ?_, ?_⟩, hApos, ?_⟩
  · intro i hi
    obtain ⟨hB, hmx⟩ := h.weights i hi
    have hNi := hN i
    rw [visitsOf_snoc] at hNi ⊢
    rcases valuesAt_once honce i with ⟨q, _⟩ | ⟨v, q1, q2⟩
    · rw [hstep0 i hi q, q, largestAt_snoc_nil past i q]
      exact ⟨hB, hmx⟩
    · rw [q2] at hNi ⊢
      rw [hstep1 i v hi q2, largestAt_snoc past i q2, innerUpdate_mx, hmx]
      exact ⟨hB.step ha hb (hm i) rfl hNi A hgb (hval (i, v) q1), rfl⟩
  · refine ⟨rest, ?_⟩
    rw [hc', ← hc1]
    simp only
    rw [totalNorm_append, hnorm]
    simp [totalNorm, mul_comm]
  · -- the potential
    have hgain : ∑ i ∈ I, gain u c' i - ∑ i ∈ I, gain u c i =
        ((visited pass e.feats).map fun iv => g * (iv.2 * betWeight cfg.alpha (c.weights.wst iv.1.toNat) (max (c.weights.wst iv.1.toNat).mx |iv.2|)) -
          g * (u iv.1 * iv.2)).sum := by
      rw [← Finset.sum_sub_distrib]
      refine sum_weights honce I hI (fun i => gain u c' i - gain u c i)
        (fun i v => g * (v * betWeight cfg.alpha (c.weights.wst i.toNat) (max (c.weights.wst i.toNat).mx |v|)) - g * (u i * v)) ?_ ?_
      · intro i hi hv
        unfold gain; rw [hstep0 i (hIr i hi) hv]; ring
      · intro i v hv
        have hi := hr _ (hrange i v hv)
        unfold gain
        rw [hstep1 i v hi hv, update_zt, update_we, (h.weights i hi).1.settled_eq hgb]
        ring
    have hlin : ((visited pass e.feats).map fun iv => g * (iv.2 * betWeight cfg.alpha (c.weights.wst iv.1.toNat) (max (c.weights.wst iv.1.toNat).mx |iv.2|)) -
          g * (u iv.1 * iv.2)).sum = g * (predSum cfg.alpha c.weights.wst (visited pass e.feats) - linear pass u e.feats) := by
      unfold predSum linear
      generalize visited pass e.feats = l
      induction l with
      | nil => simp
      | cons a l ih => simp only [List.map_cons, List.sum_cons, ih]; ring
    rw [hgain, hlin]
    set S := predSum cfg.alpha c.weights.wst (visited pass e.feats) with hS
    -- the answer is the prediction of the update
    have hans : q.1 = p' := by
      unfold Coin.predict at hq
      obtain ⟨x, hx, hq⟩ := bind_ok.1 hq
      obtain ⟨y, hy, hq⟩ := bind_ok.1 hq
      simp only [Except.ok.injEq] at hq
      rw [← hq]
      simp only
      rw [hcfg', h.cfg_eq, hlink]
      obtain ⟨_, hx2⟩ := rawSum_field hok' hx
      have : x = S / A := by
        rw [hx2, hS, hpass]
        unfold predSum
        rw [div_eq_mul_inv, ← List.sum_map_mul_right]
        congr 1
        refine List.map_congr_left fun iv hiv => ?_
        rw [hstep1 iv.1 iv.2 (hr iv hiv) (valuesAt_mem honce hiv), update_xt, (h.weights iv.1 (hr iv hiv)).1.settled_eq hgb]
        ring
      simp only [flt_isNaN, Bool.false_eq_true, if_false] at hy
      rw [this, clamp_eq_ok hle'] at hy
      simp only [Except.ok.injEq] at hy
      rw [hpe, ← hy]
      rfl
    rw [hans]
    set r := linear pass u e.feats / A with hr'
    have e1 : linear pass u e.feats = A * r := by rw [hr']; field_simp
    have e2 : S = A * (S / A) := by field_simp
    rw [e1, e2]
    have hyl : c'.minLabel ≤ e.label := by rw [hmin']; exact min_le_left _ _
    have hyu : e.label ≤ c'.maxLabel := by rw [hmax']; exact le_max_left _ _
    have hclip : 0 ≤ (p' - e.label) * (S / A - p') := by
      rw [hpe]
      rcases le_total (S / A) c'.maxLabel with k | k
      · rw [min_eq_left k]
        rcases le_total c'.minLabel (S / A) with k2 | k2
        · rw [max_eq_right k2]; simp
        · rw [max_eq_left k2]; nlinarith
      · rw [min_eq_right k, max_eq_right hle']; nlinarith
    rw [hg]
    exact square_convex hw hApos hclip

theorem BInv.regret_own {alpha beta m C : ℝ} {n : ℕ} {s : WState ℝ} (h : BInv alpha beta m C n s) (ha : 0 < alpha) (hb : 0 < beta) (hm : 0 < m)
    (hC : C = 5 * (n + 2)) (u : ℝ) : u * s.zt - s.we ≤ bettingRegret alpha (beta * s.mx) n (s.mx / m) u := by
  rcases h.mx_min with e | e
  · obtain ⟨q1, _, q3⟩ := h.zero (by rw [e]; simp)
    rw [q1, q3, e, bettingRegret]
    simp only [mul_zero, zero_mul, add_zero, sub_zero]
    exact ha.le
  · exact h.regret ha hb hm hC u s.mx (le_refl _) e

theorem online_rounds {cfg : CoinConfig ℝ} {nb : ℕ} {pass : PassCfg} {m : U32 → ℝ} {N : U32 → ℕ} {lo hi : ℝ} {dbg : Bool}
    (ha : 0 < cfg.alpha) (hb : 0 < cfg.beta) (hm : ∀ i, 0 < m i) (hlink : cfg.linkFunction = .identity) (u : U32 → ℝ) (I : Finset U32)
    (hIr : ∀ i ∈ I, i.toNat < 2 ^ nb) : ∀ (es past : List (TrainEx ℝ)) (c : Coin ℝ) (rs : List (Round ℝ)),
    OnlineInv cfg nb pass m N lo hi past c → c.rounds dbg past es = .ok rs → (∀ e ∈ past, 0 < e.weight) →
    (∀ e ∈ es, 0 < e.weight ∧ lo ≤ e.label ∧ e.label ≤ hi ∧ 2 * (hi - lo) * e.weight ≤ cfg.beta ∧ OnceEach pass e.feats ∧
      (∀ iv ∈ visited pass e.feats, iv.2 = 0 ∨ m iv.1 ≤ |iv.2|) ∧ ∀ iv ∈ visited pass e.feats, iv.1 ∈ I) →
    (∀ i, visitsOf pass (past ++ es) i ≤ N i) →
    ∃ c', OnlineInv cfg nb pass m N lo hi (past ++ es) c' ∧
      (rs.map fun r => r.ex.weight * averageNorm pass (r.past ++ [r.ex]) * (r.answer - r.ex.label) ^ 2).sum ≤
        (rs.map fun r => r.ex.weight * averageNorm pass (r.past ++ [r.ex]) *
          (linear pass u r.ex.feats / averageNorm pass (r.past ++ [r.ex]) - r.ex.label) ^ 2).sum +
        (∑ i ∈ I, gain u c' i - ∑ i ∈ I, gain u c i) := by
  intro es
  induction es with
  | nil =>
    intro past c rs h hr _ _ _
    simp only [Coin.rounds, Except.ok.injEq] at hr
    subst hr
    exact ⟨c, by simpa using h, by simp⟩
  | cons e es ih =>
    intro past c rs h hr hp he hN
    unfold Coin.rounds at hr
    obtain ⟨c1, h1, hr⟩ := bind_ok.1 hr
    obtain ⟨a, h2, hr⟩ := bind_ok.1 hr
    obtain ⟨rs', h3, hr⟩ := bind_ok.1 hr
    simp only [Except.ok.injEq] at hr
    subst hr
    obtain ⟨k1, k2, k3, k4, k5, k6, k7⟩ := he e (by simp)
    have hN1 : ∀ i, visitsOf pass (past ++ [e]) i ≤ N i := by
      intro i
      refine le_trans ?_ (hN i)
      have : past ++ e :: es = (past ++ [e]) ++ es := by simp
      rw [this, visitsOf_append (past ++ [e]) es]
      exact Nat.le_add_right _ _
    obtain ⟨i1, _, i3⟩ := online_step h ha hb hm hlink hp k1 k2 k3 k4 k5 k6 hN1 h1 h2 u I k7 hIr
    obtain ⟨c', i4, i5⟩ := ih (past ++ [e]) c1 rs' i1 h3 (by
        intro x hx
        rcases List.mem_append.1 hx with q | q
        · exact hp x q
        · simp only [List.mem_singleton] at q; rw [q]; exact k1)
      (fun x hx => he x (by simp [hx])) (by simpa using hN)
    refine ⟨c', by simpa using i4, ?_⟩
    simp only [List.map_cons, List.sum_cons]
    linarith

end Rml
