import Verif.Lemmas.Online
import Mathlib.NumberTheory.Harmonic.Bounds

/-!
C104: the regressor competes with every linear predictor, in exact real arithmetic.
-/

set_option linter.unusedSectionVars false

namespace Rml
open Coin
variable [Trans ℝ]

attribute [local instance] fieldFlt

theorem online_new {hash : HashFn} {cfg : CoinConfig ℝ} {g : GlobalConfig} {nma : ℕ} {c : Coin ℝ} (hn : 0 < nma)
    (hsq : cfg.lossFunction = .squared) (h : Coin.new hash cfg g nma = .ok c) (m : U32 → ℝ) (N : U32 → ℕ) {lo hi : ℝ} (hlo : lo ≤ 0) (hhi : 0 ≤ hi) :
    OnlineInv cfg g.numBits c.pass m N lo hi [] c := by
  obtain ⟨hok, hcfg, hloss, hr, hz⟩ := Coin.new_ok hn h
  rw [hsq] at hr
  simp only [Prod.mk.injEq] at hr
  have h1 : c.minLabel = 0 := hr.1
  have h2 : c.maxLabel = 0 := hr.2
  refine ⟨hok, hcfg, rfl, hloss, by rw [h1]; exact hlo, by rw [h1, h2], by rw [h2]; exact hhi, ?_, ?_⟩
  · intro i hi
    rw [hz _ hi]
    refine ⟨?_, ?_⟩
    · simpa [visitsOf] using BInv.init
    · simp [largestAt]
  · unfold Coin.new at h
    obtain ⟨⟨pairs, triples⟩, _, h⟩ := bind_ok.1 h
    simp only at h
    split at h
    · obtain ⟨w, hw, h⟩ := bind_ok.1 h
      simp only [Except.ok.injEq] at h
      subst h
      cases nma with
      | zero => omega
      | succ k => exact ⟨List.replicate k ⟨0, 0⟩, by simp [totalNorm, List.replicate_succ]⟩
    · simp at h

/-- The rounds of a history are always defined: nothing panics. -/
theorem C104_rounds_exist (dbg : Bool) (hash : HashFn) (cfg : CoinConfig ℝ) (g : GlobalConfig) (nma : ℕ) (hn : 0 < nma) (c0 : Coin ℝ)
    (h0 : Coin.new hash cfg g nma = .ok c0) (es : List (TrainEx ℝ)) (hf : ∀ e ∈ es, e.feats.Fits g.numBits) :
    ∃ rs, c0.rounds dbg [] es = .ok rs ∧ rs.map (·.ex) = es := by
  have _ : LawfulCmp ℝ := lawfulCmp_field ℝ
  have key : ∀ (es past : List (TrainEx ℝ)) (c : Coin ℝ), c0.trainAll dbg past = .ok c → (∀ e ∈ es, e.feats.Fits g.numBits) →
      ∃ rs, c.rounds dbg past es = .ok rs ∧ rs.map (·.ex) = es := by
    intro es
    induction es with
    | nil => intro past c _ _; exact ⟨[], rfl, rfl⟩
    | cons e es ih =>
      intro past c hc hf
      have hre : Coin.Reached dbg hash cfg g past c := ⟨nma, c0, hn, h0, hc⟩
      obtain ⟨hok, _, hr, _⟩ := reached_inv hre
      have hv := C01_index_in_range c.pass e.feats (by rw [hok.bits]; exact hok.le31) (by rw [hok.bits]; exact hf e (by simp))
      rw [hok.bits] at hv
      obtain ⟨c1, h1⟩ := Coin.learn_succeeds (dbg := dbg) (w := e.weight) hok hv (rangeOk_seen hr e.label)
      have hc1 : c0.trainAll dbg (past ++ [e]) = .ok c1 := by
        rw [Coin.trainAll_append, hc]
        simp [bind, Except.bind, Coin.trainAll, h1]
      obtain ⟨p, raw, h2⟩ := C36_predict_never_panics dbg hash cfg g (past ++ [e]) c1 ⟨nma, c0, hn, h0, hc1⟩ e.feats (hf e (by simp))
      obtain ⟨rs, h3, h4⟩ := ih (past ++ [e]) c1 hc1 (fun x hx => hf x (by simp [hx]))
      exact ⟨⟨past, e, p⟩ :: rs, by simp [Coin.rounds, h1, h2, h3, bind, Except.bind], by simp [h4]⟩
  exact key es [] c0 rfl hf

/-- C104: whatever the examples, the squared errors of the answers, weighted by the average squared length of the examples so far, add up to at most those of any linear predictor
(normalized in the same way), plus for each feature a term that grows like `√n log n` in the number `n` of its examples. The examples may be chosen by an adversary. Conditions: labels in
a range for which `beta` bounds the gradients, every example has a feature at most once. -/
theorem C104_regret (dbg : Bool) (hash : HashFn) (cfg : CoinConfig ℝ) (g : GlobalConfig) (ha : 0 < cfg.alpha) (hb : 0 < cfg.beta)
    (hsq : cfg.lossFunction = .squared) (hlink : cfg.linkFunction = .identity) (nma : ℕ) (hn : 0 < nma) (c0 : Coin ℝ)
    (h0 : Coin.new hash cfg g nma = .ok c0) (es : List (TrainEx ℝ)) (rs : List (Round ℝ)) (hrs : c0.rounds dbg [] es = .ok rs)
    (lo hi : ℝ) (hlo : lo ≤ 0) (hhi : 0 ≤ hi)
    (hex : ∀ e ∈ es, 0 < e.weight ∧ lo ≤ e.label ∧ e.label ≤ hi ∧ 2 * (hi - lo) * e.weight ≤ cfg.beta ∧ e.feats.Fits g.numBits ∧
      ((visited c0.pass e.feats).map fun iv => iv.1).Nodup)
    (small : U32 → ℝ) (hs : ∀ i, 0 < small i) (hsm : ∀ e ∈ es, ∀ iv ∈ visited c0.pass e.feats, iv.2 = 0 ∨ small iv.1 ≤ |iv.2|) (u : U32 → ℝ) :
    (rs.map fun r => r.ex.weight * averageNorm c0.pass (r.past ++ [r.ex]) * (r.answer - r.ex.label) ^ 2).sum ≤
      (rs.map fun r => r.ex.weight * averageNorm c0.pass (r.past ++ [r.ex]) *
        (linear c0.pass u r.ex.feats / averageNorm c0.pass (r.past ++ [r.ex]) - r.ex.label) ^ 2).sum +
      ∑ i ∈ visitedBy c0.pass es, bettingRegret cfg.alpha (cfg.beta * largestAt c0.pass es i) (visitsOf c0.pass es i) (largestAt c0.pass es i / small i) (u i) := by
  have hinv := online_new hn hsq h0 small (visitsOf c0.pass es) hlo hhi
  have hok := hinv.ok
  have hIr : ∀ i ∈ visitedBy c0.pass es, i.toNat < 2 ^ g.numBits := by
    intro i hi
    unfold visitedBy at hi
    rw [List.mem_toFinset, List.mem_flatMap] at hi
    obtain ⟨e, he, hi⟩ := hi
    obtain ⟨iv, hiv, rfl⟩ := List.mem_map.1 hi
    have hv := C01_index_in_range c0.pass e.feats (by rw [hok.bits]; exact hok.le31) (by rw [hok.bits]; exact (hex e he).2.2.2.2.1)
    rw [hok.bits] at hv
    exact hv iv hiv
  obtain ⟨c', h1, h2⟩ := online_rounds (lo := lo) (hi := hi) ha hb hs hlink u (visitedBy c0.pass es) hIr es [] c0 rs hinv hrs (by simp)
    (by
      intro e he
      obtain ⟨q1, q2, q3, q4, _, q6⟩ := hex e he
      refine ⟨q1, q2, q3, q4, q6, hsm e he, ?_⟩
      intro iv hiv
      unfold visitedBy
      rw [List.mem_toFinset, List.mem_flatMap]
      exact ⟨e, he, List.mem_map.2 ⟨iv, hiv, rfl⟩⟩) (by intro i; simp)
  refine h2.trans (add_le_add (le_refl _) ?_)
  rw [← Finset.sum_sub_distrib]
  refine Finset.sum_le_sum fun i hi => ?_
  have hz : gain u c0 i = 0 := by
    obtain ⟨_, _, _, _, hz⟩ := Coin.new_ok hn h0
    unfold gain
    rw [hz _ (hIr i hi)]
    simp
  rw [hz, sub_zero]
  obtain ⟨hB, hmx⟩ := h1.weights i (hIr i hi)
  have := hB.regret_own ha hb (hs i) rfl (u i)
  rw [hmx] at this
  simpa [gain] using this

/-! ### Examples of the same length -/

theorem rounds_past {dbg : Bool} : ∀ (es past : List (TrainEx ℝ)) (c : Coin ℝ) (rs : List (Round ℝ)), c.rounds dbg past es = .ok rs →
    ∀ r ∈ rs, r.ex ∈ es ∧ ∀ e ∈ r.past ++ [r.ex], e ∈ past ++ es := by
  intro es
  induction es with
  | nil =>
    intro past c rs h r hr
    simp only [Coin.rounds, Except.ok.injEq] at h
    rw [← h] at hr
    simp at hr
  | cons e es ih =>
    intro past c rs h r hr
    unfold Coin.rounds at h
    obtain ⟨c1, _, h⟩ := bind_ok.1 h
    obtain ⟨a, _, h⟩ := bind_ok.1 h
    obtain ⟨rs', h3, h⟩ := bind_ok.1 h
    simp only [Except.ok.injEq] at h
    subst h
    rcases List.mem_cons.1 hr with q | q
    · subst q
      refine ⟨by simp, ?_⟩
      intro x hx
      simp only [List.mem_append, List.mem_cons] at hx ⊢
      tauto
    · obtain ⟨k1, k2⟩ := ih (past ++ [e]) c1 rs' h3 r q
      refine ⟨by simp [k1], ?_⟩
      intro x hx
      have := k2 x hx
      simpa using this

theorem largestAt_const {pass : PassCfg} {i : U32} {a : ℝ} (ha : 0 < a) : ∀ (es : List (TrainEx ℝ)), (∀ e ∈ es, ∀ v ∈ valuesAt pass e.feats i, |v| = a) →
    (∃ e ∈ es, ∃ v, v ∈ valuesAt pass e.feats i) → largestAt pass es i = a := by
  intro es h1 h2
  unfold largestAt
  have h3 : ∀ v ∈ es.flatMap (fun e => valuesAt pass e.feats i), |v| = a := by
    intro v hv
    obtain ⟨e, he, hv⟩ := List.mem_flatMap.1 hv
    exact h1 e he v hv
  have h4 : es.flatMap (fun e => valuesAt pass e.feats i) ≠ [] := by
    obtain ⟨e, he, v, hv⟩ := h2
    exact List.ne_nil_of_mem (List.mem_flatMap.2 ⟨e, he, hv⟩)
  generalize es.flatMap (fun e => valuesAt pass e.feats i) = l at h3 h4
  induction l with
  | nil => simp at h4
  | cons v l ih =>
    simp only [List.map_cons, List.foldr_cons]
    rw [h3 v (by simp)]
    by_cases hl : l = []
    · subst hl; simp [ha.le]
    · rw [ih (fun x hx => h3 x (by simp [hx])) hl, max_self]

theorem mem_valuesAt {pass : PassCfg} {f : SparseFeatures ℝ} {i : U32} {v : ℝ} : v ∈ valuesAt pass f i ↔ (i, v) ∈ visited pass f := by
  unfold valuesAt
  constructor
  · intro h
    obtain ⟨iv, h1, rfl⟩ := List.mem_map.1 h
    obtain ⟨h2, h3⟩ := List.mem_filter.1 h1
    simp only [decide_eq_true_eq] at h3
    rw [← h3]; exact h2
  · intro h
    exact List.mem_map.2 ⟨(i, v), List.mem_filter.2 ⟨h, by simp⟩, rfl⟩

theorem totalNorm_const {pass : PassCfg} {n : ℕ} {size : U32 → ℝ} (hsize : ∀ i, 0 < size i) : ∀ (es past : List (TrainEx ℝ)),
    (∀ e ∈ past ++ es, (visited pass e.feats).length = n ∧ ∀ iv ∈ visited pass e.feats, |iv.2| = size iv.1) →
    totalNorm pass past es = n * (es.map (·.weight)).sum := by
  intro es
  induction es with
  | nil => intro past _; simp [totalNorm]
  | cons e es ih =>
    intro past h
    have h1 : unitNorm pass past e = n := by
      unfold unitNorm
      have : ((visited pass e.feats).map fun iv => (iv.2 / largestAt pass (past ++ [e]) iv.1) ^ 2) = (visited pass e.feats).map fun _ => (1 : ℝ) := by
        refine List.map_congr_left fun iv hiv => ?_
        have hl : largestAt pass (past ++ [e]) iv.1 = size iv.1 := by
          refine largestAt_const (hsize _) _ ?_ ⟨e, by simp, iv.2, mem_valuesAt.2 hiv⟩
          intro x hx v hv
          have hx' : x ∈ past ++ e :: es := by
            simp only [List.mem_append, List.mem_cons] at hx ⊢; tauto
          exact (h x hx').2 (iv.1, v) (mem_valuesAt.1 hv)
        rw [hl, ← sq_abs, abs_div, (h e (by simp)).2 iv hiv, abs_of_pos (hsize _), div_self (hsize _).ne']
        norm_num
      rw [this]
      simp [(h e (by simp)).1]
    simp only [totalNorm, List.map_cons, List.sum_cons]
    rw [h1, ih (past ++ [e]) (by simpa using h)]
    ring

theorem linear_scale (pass : PassCfg) (a : ℝ) (u : U32 → ℝ) (f : SparseFeatures ℝ) : linear pass (fun i => a * u i) f = a * linear pass u f := by
  unfold linear
  rw [← List.sum_map_mul_left]
  congr 1
  refine List.map_congr_left fun iv _ => ?_
  ring

theorem scaled_convex {n A w q r y : ℝ} (hn : 0 < n) (hA : n ≤ A) (hw : 0 < w) :
    w * A * (n * r / A - y) ^ 2 ≤ n * (w * (r - y) ^ 2) + w * ((A - n) * y ^ 2) ∧ n * (w * (q - y) ^ 2) ≤ w * A * (q - y) ^ 2 := by
  have hA0 : 0 < A := by linarith
  constructor
  · have e : A * (n * r / A - y) ^ 2 = n * (r - y) ^ 2 + (A - n) * y ^ 2 - n * (1 - n / A) * r ^ 2 := by
      field_simp; ring
    have h1 : 0 ≤ n * (1 - n / A) * r ^ 2 := by
      have : n / A ≤ 1 := (div_le_one hA0).2 hA
      have : 0 ≤ 1 - n / A := by linarith
      positivity
    have h2 : A * (n * r / A - y) ^ 2 ≤ n * (r - y) ^ 2 + (A - n) * y ^ 2 := by rw [e]; linarith
    have := mul_le_mul_of_nonneg_left h2 hw.le
    nlinarith
  · have := mul_le_mul_of_nonneg_right hA (mul_nonneg hw.le (sq_nonneg (q - y)))
    nlinarith

/-- C104 for examples that have `n` features each (with interactions and the constant), where a feature has the same size whenever it is present: categorical data. The sum of the squared
errors of the answers is at most that of any linear predictor, plus the terms of the features and a small one from the regularization of the average. -/
theorem C104_same_length (dbg : Bool) (hash : HashFn) (cfg : CoinConfig ℝ) (g : GlobalConfig) (ha : 0 < cfg.alpha) (hb : 0 < cfg.beta)
    (hsq : cfg.lossFunction = .squared) (hlink : cfg.linkFunction = .identity) (nma : ℕ) (hn : 0 < nma) (c0 : Coin ℝ)
    (h0 : Coin.new hash cfg g nma = .ok c0) (es : List (TrainEx ℝ)) (rs : List (Round ℝ)) (hrs : c0.rounds dbg [] es = .ok rs)
    (lo hi : ℝ) (hlo : lo ≤ 0) (hhi : 0 ≤ hi)
    (hex : ∀ e ∈ es, 0 < e.weight ∧ lo ≤ e.label ∧ e.label ≤ hi ∧ 2 * (hi - lo) * e.weight ≤ cfg.beta ∧ e.feats.Fits g.numBits ∧
      ((visited c0.pass e.feats).map fun iv => iv.1).Nodup)
    (n : ℕ) (hn1 : 0 < n) (size : U32 → ℝ) (hs : ∀ i, 0 < size i)
    (hsize : ∀ e ∈ es, (visited c0.pass e.feats).length = n ∧ ∀ iv ∈ visited c0.pass e.feats, |iv.2| = size iv.1) (u : U32 → ℝ) :
    (rs.map fun r => r.ex.weight * (r.answer - r.ex.label) ^ 2).sum ≤
      (rs.map fun r => r.ex.weight * (linear c0.pass u r.ex.feats - r.ex.label) ^ 2).sum +
      (∑ i ∈ visitedBy c0.pass es, bettingRegret cfg.alpha (cfg.beta * size i) (visitsOf c0.pass es i) 1 (n * u i) +
        1 / 1000000 * (rs.map fun r => r.ex.weight * r.ex.label ^ 2 / ((r.past ++ [r.ex]).map (·.weight)).sum).sum) / n := by
  have hmain := C104_regret dbg hash cfg g ha hb hsq hlink nma hn c0 h0 es rs hrs lo hi hlo hhi hex size hs
    (fun e he iv hiv => .inr ((hsize e he).2 iv hiv).ge) (fun i => n * u i)
  have hnr : (0 : ℝ) < n := by exact_mod_cast hn1
  have hreg : ∀ i ∈ visitedBy c0.pass es,
      bettingRegret cfg.alpha (cfg.beta * largestAt c0.pass es i) (visitsOf c0.pass es i) (largestAt c0.pass es i / size i) (n * u i) =
        bettingRegret cfg.alpha (cfg.beta * size i) (visitsOf c0.pass es i) 1 (n * u i) := by
    intro i hi
    have : largestAt c0.pass es i = size i := by
      refine largestAt_const (hs i) es (fun e he v hv => (hsize e he).2 (i, v) (mem_valuesAt.1 hv)) ?_
      unfold visitedBy at hi
      rw [List.mem_toFinset, List.mem_flatMap] at hi
      obtain ⟨e, he, hi⟩ := hi
      obtain ⟨iv, hiv, rfl⟩ := List.mem_map.1 hi
      exact ⟨e, he, iv.2, mem_valuesAt.2 hiv⟩
    rw [this, div_self (hs i).ne']
  rw [Finset.sum_congr rfl hreg] at hmain
  simp only [linear_scale] at hmain
  set R := ∑ i ∈ visitedBy c0.pass es, bettingRegret cfg.alpha (cfg.beta * size i) (visitsOf c0.pass es i) 1 (n * u i)
  have hpast := rounds_past es [] c0 rs hrs
  have hA : ∀ r ∈ rs, averageNorm c0.pass (r.past ++ [r.ex]) = n + 1 / 1000000 / ((r.past ++ [r.ex]).map (·.weight)).sum ∧
      0 < ((r.past ++ [r.ex]).map (·.weight)).sum := by
    intro r hr
    obtain ⟨_, k2⟩ := hpast r hr
    have hpos : 0 < ((r.past ++ [r.ex]).map (·.weight)).sum := by
      apply List.sum_pos
      · intro x hx
        obtain ⟨e, he, rfl⟩ := List.mem_map.1 hx
        exact (hex e (by simpa using k2 e he)).1
      · simp
    refine ⟨?_, hpos⟩
    unfold averageNorm
    rw [totalNorm_const hs (r.past ++ [r.ex]) [] (fun e he => hsize e (by simpa using k2 e (by simpa using he)))]
    field_simp
  have hsum : ∀ (l : List (Round ℝ)), (∀ r ∈ l, r ∈ rs) →
      (n : ℝ) * (l.map fun r => r.ex.weight * (r.answer - r.ex.label) ^ 2).sum +
        (l.map fun r => r.ex.weight * averageNorm c0.pass (r.past ++ [r.ex]) *
          (n * linear c0.pass u r.ex.feats / averageNorm c0.pass (r.past ++ [r.ex]) - r.ex.label) ^ 2).sum ≤
      (l.map fun r => r.ex.weight * averageNorm c0.pass (r.past ++ [r.ex]) * (r.answer - r.ex.label) ^ 2).sum +
      (n * (l.map fun r => r.ex.weight * (linear c0.pass u r.ex.feats - r.ex.label) ^ 2).sum +
        1 / 1000000 * (l.map fun r => r.ex.weight * r.ex.label ^ 2 / ((r.past ++ [r.ex]).map (·.weight)).sum).sum) := by
    intro l
    induction l with
    | nil => intro _; simp
    | cons r l ih =>
      intro hl
      have hi := ih (fun x hx => hl x (by simp [hx]))
      obtain ⟨hAr, hpos⟩ := hA r (hl r (by simp))
      have hw : 0 < r.ex.weight := (hex r.ex (hpast r (hl r (by simp))).1).1
      obtain ⟨s1, s2⟩ := scaled_convex (A := averageNorm c0.pass (r.past ++ [r.ex])) (w := r.ex.weight) (q := r.answer)
        (r := linear c0.pass u r.ex.feats) (y := r.ex.label) hnr (by
          rw [hAr]
          have : 0 < 1 / 1000000 / ((r.past ++ [r.ex]).map (·.weight)).sum := by positivity
          linarith) hw
      have e3 : r.ex.weight * ((averageNorm c0.pass (r.past ++ [r.ex]) - n) * r.ex.label ^ 2) =
          1 / 1000000 * (r.ex.weight * r.ex.label ^ 2 / ((r.past ++ [r.ex]).map (·.weight)).sum) := by
        rw [hAr]; ring
      rw [e3] at s1
      simp only [List.map_cons, List.sum_cons]
      nlinarith
  have := hsum rs (fun _ h => h)
  rw [← sub_le_iff_le_add', le_div_iff₀ hnr]
  nlinarith

/-! ### In the long run -/

theorem bettingRegret_mono {alpha a b u v : ℝ} {n k : ℕ} (ha : 0 < alpha) (h0 : 0 ≤ a) (hab : a ≤ b) (huv : |u| ≤ v) (hnk : n ≤ k) :
    bettingRegret alpha a n 1 u ≤ bettingRegret alpha b k 1 v := by
  unfold bettingRegret
  have hv : 0 ≤ v := (abs_nonneg u).trans huv
  have hnk' : (n : ℝ) ≤ k := by exact_mod_cast hnk
  have hn0 : (0 : ℝ) ≤ n := Nat.cast_nonneg n
  have h1 : 2 * |u| * a * √n ≤ 2 * |v| * b * √k := by
    rw [abs_of_nonneg hv]
    refine mul_le_mul ?_ (Real.sqrt_le_sqrt hnk') (Real.sqrt_nonneg _) (mul_nonneg (by positivity) (h0.trans hab))
    exact mul_le_mul (by linarith) hab h0 (by positivity)
  have h2 : 0 ≤ 2 * |u| * a * √n := by positivity
  simp only [Real.log_one, add_zero, one_mul]
  have h3 : Real.log (1 + 2 * |u| * a * √n / alpha) ≤ Real.log (1 + 2 * |v| * b * √k / alpha) := by
    apply Real.log_le_log
    · have := div_nonneg h2 ha.le; linarith
    · have := div_le_div_of_nonneg_right h1 ha.le; linarith
  have h4 : Real.log (5 * ((n : ℝ) + 2)) ≤ Real.log (5 * ((k : ℝ) + 2)) := Real.log_le_log (by linarith) (by linarith)
  have h5 : 0 ≤ Real.log (1 + 2 * |u| * a * √n / alpha) := Real.log_nonneg (by have := div_nonneg h2 ha.le; linarith)
  have h6 : 0 ≤ Real.log (5 * ((n : ℝ) + 2)) := Real.log_nonneg (by linarith)
  have := mul_le_mul h1 (add_le_add h3 h4) (by linarith) (h2.trans h1)
  linarith

open Filter Topology in
theorem bettingRegret_small {alpha a u : ℝ} (ha : 0 < alpha) (h0 : 0 ≤ a) :
    Tendsto (fun T : ℕ => bettingRegret alpha a T 1 u / T) atTop (𝓝 0) := by
  set k := 2 * |u| * a with hk
  have hk0 : 0 ≤ k := by positivity
  set D := 4 * (1 + k / alpha) ^ ((1 : ℝ) / 4) + 4 * 5 ^ ((1 : ℝ) / 4) with hD
  have hka : 0 ≤ k / alpha := div_nonneg hk0 ha.le
  have hD0 : 0 ≤ D := by positivity
  have hub : ∀ T : ℕ, 2 ≤ T → bettingRegret alpha a T 1 u / T ≤ alpha * (T : ℝ)⁻¹ + k * D * 2 * (T : ℝ) ^ (-((1 : ℝ) / 4)) := by
    intro T hT
    have hT2 : (2 : ℝ) ≤ T := by exact_mod_cast hT
    have hT0 : (0 : ℝ) < T := by linarith
    set x := (T : ℝ) + 2 with hx
    have hx1 : 1 ≤ x := by linarith
    have hs : √(T : ℝ) ≤ x := by
      rw [Real.sqrt_le_left (by linarith)]
      nlinarith
    have e1 : Real.log (1 + k * √T / alpha) ≤ 4 * (1 + k / alpha) ^ ((1 : ℝ) / 4) * x ^ ((1 : ℝ) / 4) := by
      have hle : 1 + k * √T / alpha ≤ (1 + k / alpha) * x := by
        have : k * √T / alpha = k / alpha * √T := by ring
        rw [this]
        nlinarith [mul_le_mul_of_nonneg_left hs hka]
      have hpos : 0 < 1 + k * √T / alpha := by
        have : 0 ≤ k * √T / alpha := by positivity
        linarith
      have := (Real.log_le_log hpos hle).trans (Real.log_le_rpow_div (by positivity) (ε := 1 / 4) (by norm_num))
      rw [Real.mul_rpow (by positivity) (by linarith)] at this
      refine this.trans (le_of_eq ?_)
      ring
    have e2 : Real.log (5 * x) ≤ 4 * 5 ^ ((1 : ℝ) / 4) * x ^ ((1 : ℝ) / 4) := by
      have := Real.log_le_rpow_div (x := 5 * x) (by linarith) (ε := 1 / 4) (by norm_num)
      rw [Real.mul_rpow (by norm_num) (by linarith)] at this
      refine this.trans (le_of_eq ?_)
      ring
    have e3 : √(T : ℝ) ≤ x ^ ((1 : ℝ) / 2) := by
      rw [← Real.sqrt_eq_rpow]; exact Real.sqrt_le_sqrt (by linarith)
    have e4 : bettingRegret alpha a T 1 u ≤ alpha + k * D * x ^ ((3 : ℝ) / 4) := by
      unfold bettingRegret
      simp only [Real.log_one, add_zero, one_mul]
      rw [← hk, ← hx]
      have hsum : Real.log (1 + k * √T / alpha) + Real.log (5 * x) ≤ D * x ^ ((1 : ℝ) / 4) := by
        rw [hD]; linarith
      have hDx : 0 ≤ D * x ^ ((1 : ℝ) / 4) := by positivity
      have : k * √T * (Real.log (1 + k * √T / alpha) + Real.log (5 * x)) ≤ k * x ^ ((1 : ℝ) / 2) * (D * x ^ ((1 : ℝ) / 4)) :=
        (mul_le_mul_of_nonneg_left hsum (by positivity)).trans (mul_le_mul_of_nonneg_right (mul_le_mul_of_nonneg_left e3 hk0) hDx)
      have hx34 : x ^ ((1 : ℝ) / 2) * x ^ ((1 : ℝ) / 4) = x ^ ((3 : ℝ) / 4) := by
        rw [← Real.rpow_add (by linarith)]; norm_num
      calc alpha + k * √T * (Real.log (1 + k * √T / alpha) + Real.log (5 * x)) ≤ alpha + k * x ^ ((1 : ℝ) / 2) * (D * x ^ ((1 : ℝ) / 4)) := by linarith
        _ = alpha + k * D * (x ^ ((1 : ℝ) / 2) * x ^ ((1 : ℝ) / 4)) := by ring
        _ = _ := by rw [hx34]
    have e5 : x ^ ((3 : ℝ) / 4) ≤ 2 * (T : ℝ) ^ ((3 : ℝ) / 4) := by
      have h2T : x ≤ 2 * T := by linarith
      have := Real.rpow_le_rpow (by linarith) h2T (show (0 : ℝ) ≤ 3 / 4 by norm_num)
      rw [Real.mul_rpow (by norm_num) hT0.le] at this
      refine this.trans (mul_le_mul_of_nonneg_right ?_ (by positivity))
      have := Real.rpow_le_rpow_of_exponent_le (show (1 : ℝ) ≤ 2 by norm_num) (show (3 : ℝ) / 4 ≤ 1 by norm_num)
      rwa [Real.rpow_one] at this
    have e6 : (T : ℝ) ^ ((3 : ℝ) / 4) / T = (T : ℝ) ^ (-((1 : ℝ) / 4)) := by
      rw [← Real.rpow_sub_one hT0.ne']; norm_num
    calc bettingRegret alpha a T 1 u / T ≤ (alpha + k * D * (2 * (T : ℝ) ^ ((3 : ℝ) / 4))) / T := by
          apply div_le_div_of_nonneg_right _ hT0.le
          have := mul_le_mul_of_nonneg_left e5 (mul_nonneg hk0 hD0)
          linarith
      _ = alpha * (T : ℝ)⁻¹ + k * D * 2 * ((T : ℝ) ^ ((3 : ℝ) / 4) / T) := by ring
      _ = _ := by rw [e6]
  have hlb : ∀ T : ℕ, 0 ≤ bettingRegret alpha a T 1 u / T := by
    intro T
    apply div_nonneg _ (Nat.cast_nonneg T)
    have hT0 : (0 : ℝ) ≤ T := Nat.cast_nonneg T
    unfold bettingRegret
    simp only [Real.log_one, add_zero, one_mul]
    rw [← hk]
    have h1 : 0 ≤ Real.log (1 + k * √T / alpha) := Real.log_nonneg (by have : 0 ≤ k * √T / alpha := by positivity
                                                                       linarith)
    have h2 : 0 ≤ Real.log (5 * ((T : ℝ) + 2)) := Real.log_nonneg (by linarith)
    positivity
  have hlim : Tendsto (fun T : ℕ => alpha * (T : ℝ)⁻¹ + k * D * 2 * (T : ℝ) ^ (-((1 : ℝ) / 4))) atTop (𝓝 0) := by
    have t1 : Tendsto (fun T : ℕ => (T : ℝ)⁻¹) atTop (𝓝 0) := tendsto_inv_atTop_zero.comp tendsto_natCast_atTop_atTop
    have t2 : Tendsto (fun T : ℕ => (T : ℝ) ^ (-((1 : ℝ) / 4))) atTop (𝓝 0) :=
      (tendsto_rpow_neg_atTop (by norm_num)).comp tendsto_natCast_atTop_atTop
    simpa using (t1.const_mul alpha).add (t2.const_mul (k * D * 2))
  refine tendsto_of_tendsto_of_tendsto_of_le_of_le' tendsto_const_nhds hlim (Eventually.of_forall hlb) ?_
  filter_upwards [eventually_ge_atTop 2] with T hT using hub T hT

theorem rounds_harmonic {dbg : Bool} (Y : ℝ) : ∀ (es past : List (TrainEx ℝ)) (c : Coin ℝ) (rs : List (Round ℝ)),
    c.rounds dbg past es = .ok rs → (∀ e ∈ past ++ es, e.weight = 1 ∧ |e.label| ≤ Y) →
    (rs.map fun r => r.ex.weight * r.ex.label ^ 2 / ((r.past ++ [r.ex]).map (·.weight)).sum).sum ≤
      Y ^ 2 * ∑ t ∈ Finset.range es.length, (((past.length + t + 1 : ℕ) : ℝ))⁻¹ := by
  intro es
  induction es with
  | nil =>
    intro past c rs h _
    simp only [Coin.rounds, Except.ok.injEq] at h
    subst h
    simp
  | cons e es ih =>
    intro past c rs h he
    unfold Coin.rounds at h
    obtain ⟨c1, _, h⟩ := bind_ok.1 h
    obtain ⟨a, _, h⟩ := bind_ok.1 h
    obtain ⟨rs', h3, h⟩ := bind_ok.1 h
    simp only [Except.ok.injEq] at h
    subst h
    have hi := ih (past ++ [e]) c1 rs' h3 (by simpa using he)
    have hw : ((past ++ [e]).map (·.weight)).sum = ((past.length + 1 : ℕ) : ℝ) := by
      have : (past ++ [e]).map (·.weight) = List.replicate (past.length + 1) (1 : ℝ) := by
        rw [List.eq_replicate_iff]
        refine ⟨by simp, ?_⟩
        intro b hb
        obtain ⟨x, hx, rfl⟩ := List.mem_map.1 hb
        refine (he x ?_).1
        simp only [List.mem_append, List.mem_cons] at hx ⊢
        tauto
      rw [this]
      simp
    obtain ⟨k1, k2⟩ := he e (by simp)
    simp only [List.map_cons, List.sum_cons, List.length_cons]
    rw [Finset.sum_range_succ', mul_add, hw, k1]
    have hsq : e.label ^ 2 ≤ Y ^ 2 := by rw [← sq_abs]; exact pow_le_pow_left₀ (abs_nonneg _) k2 2
    have h1 : 1 * e.label ^ 2 / ((past.length + 1 : ℕ) : ℝ) ≤ Y ^ 2 * (((past.length + 0 + 1 : ℕ) : ℝ))⁻¹ := by
      rw [one_mul, div_eq_mul_inv, add_zero]
      exact mul_le_mul_of_nonneg_right hsq (by positivity)
    have h2 : ∑ t ∈ Finset.range es.length, ((((past ++ [e]).length + t + 1 : ℕ) : ℝ))⁻¹ =
        ∑ t ∈ Finset.range es.length, (((past.length + (t + 1) + 1 : ℕ) : ℝ))⁻¹ := by
      refine Finset.sum_congr rfl fun t _ => ?_
      have : (past ++ [e]).length + t + 1 = past.length + (t + 1) + 1 := by simp; omega
      rw [this]
    rw [h2] at hi
    linarith

open Filter Topology in
/-- C104 in the long run: for every `ε` there is a number of rounds after which the average squared error of the answers is at most `ε` above the average squared error of any linear
predictor with weights of size at most `U`, whatever the examples were: at most `d` different features of size at most `X`, `n` of them in each example and each always of the same size,
labels between `-Y` and `Y`. -/
theorem C104_average (cfg : CoinConfig ℝ) (ha : 0 < cfg.alpha) (hsq : cfg.lossFunction = .squared) (hlink : cfg.linkFunction = .identity)
    (n : ℕ) (hn1 : 0 < n) (d : ℕ) (U X Y : ℝ) (hX : 0 ≤ X) (hY : 0 < Y) (hb : 4 * Y ≤ cfg.beta) (ε : ℝ) (hε : 0 < ε) :
    ∃ T0 : ℕ, ∀ (dbg : Bool) (hash : HashFn) (g : GlobalConfig) (c0 : Coin ℝ) (es : List (TrainEx ℝ)) (rs : List (Round ℝ)) (size u : U32 → ℝ),
      Coin.new hash cfg g 1 = .ok c0 → c0.rounds dbg [] es = .ok rs → T0 ≤ es.length →
      (∀ e ∈ es, e.weight = 1 ∧ |e.label| ≤ Y ∧ e.feats.Fits g.numBits ∧ ((visited c0.pass e.feats).map fun iv => iv.1).Nodup ∧
        (visited c0.pass e.feats).length = n ∧ ∀ iv ∈ visited c0.pass e.feats, |iv.2| = size iv.1) →
      (∀ i, 0 < size i ∧ size i ≤ X) → (visitedBy c0.pass es).card ≤ d → (∀ i, |u i| ≤ U) →
      (rs.map fun r => (r.answer - r.ex.label) ^ 2).sum / es.length ≤
        (rs.map fun r => (linear c0.pass u r.ex.feats - r.ex.label) ^ 2).sum / es.length + ε := by
  have hbeta : 0 < cfg.beta := by linarith
  have hnr : (0 : ℝ) < n := by exact_mod_cast hn1
  have hlim : Tendsto (fun T : ℕ => (d * (bettingRegret cfg.alpha (cfg.beta * X) T 1 (n * U) / T) +
      1 / 1000000 * (Y ^ 2 * ((T : ℝ)⁻¹ + Real.log T / T))) / n) atTop (𝓝 0) := by
    have t1 := bettingRegret_small (u := n * U) ha (mul_nonneg hbeta.le hX)
    have t2 : Tendsto (fun T : ℕ => (T : ℝ)⁻¹) atTop (𝓝 0) := tendsto_inv_atTop_zero.comp tendsto_natCast_atTop_atTop
    have t3 : Tendsto (fun T : ℕ => Real.log T / T) atTop (𝓝 0) :=
      (Real.isLittleO_log_id_atTop.tendsto_div_nhds_zero).comp tendsto_natCast_atTop_atTop
    have := ((t1.const_mul (d : ℝ)).add (((t2.add t3).const_mul (Y ^ 2)).const_mul (1 / 1000000))).div_const (n : ℝ)
    simpa using this
  obtain ⟨T1, hT1⟩ := (hlim.eventually (ge_mem_nhds hε)).exists_forall_of_atTop
  refine ⟨max T1 1, ?_⟩
  intro dbg hash g c0 es rs size u h0 hrs hT hex hsize hcard hu
  have hT1' := hT1 es.length ((le_max_left _ _).trans hT)
  have hTpos : (0 : ℝ) < es.length := by
    have : 1 ≤ es.length := (le_max_right _ _).trans hT
    exact_mod_cast this
  have hmain := C104_same_length dbg hash cfg g ha hbeta hsq hlink 1 (by norm_num) c0 h0 es rs hrs (-Y) Y (by linarith) hY.le
    (by
      intro e he
      obtain ⟨q1, q2, q3, q4, _⟩ := hex e he
      obtain ⟨q5, q6⟩ := abs_le.1 q2
      exact ⟨by rw [q1]; norm_num, q5, q6, by rw [q1]; linarith, q3, q4⟩) n hn1 size (fun i => (hsize i).1)
    (fun e he => (hex e he).2.2.2.2) u
  have hpast := rounds_past es [] c0 rs hrs
  have hw1 : ∀ (f : Round ℝ → ℝ), (rs.map fun r => r.ex.weight * f r).sum = (rs.map f).sum := by
    intro f
    congr 1
    refine List.map_congr_left fun r hr => ?_
    rw [(hex r.ex (hpast r hr).1).1, one_mul]
  rw [hw1 (fun r => (r.answer - r.ex.label) ^ 2), hw1 (fun r => (linear c0.pass u r.ex.feats - r.ex.label) ^ 2)] at hmain
  have hharm := rounds_harmonic Y es [] c0 rs hrs (fun e he => ⟨(hex e (by simpa using he)).1, (hex e (by simpa using he)).2.1⟩)
  have hH : ∑ t ∈ Finset.range es.length, (((([] : List (TrainEx ℝ)).length + t + 1 : ℕ) : ℝ))⁻¹ ≤ 1 + Real.log es.length := by
    have := harmonic_le_one_add_log es.length
    rw [harmonic] at this
    push_cast at this
    refine le_trans (le_of_eq ?_) this
    refine Finset.sum_congr rfl fun t _ => ?_
    simp
  have hR : ∑ i ∈ visitedBy c0.pass es, bettingRegret cfg.alpha (cfg.beta * size i) (visitsOf c0.pass es i) 1 (n * u i) ≤
      d * bettingRegret cfg.alpha (cfg.beta * X) es.length 1 (n * U) := by
    have hone : ∀ i ∈ visitedBy c0.pass es, bettingRegret cfg.alpha (cfg.beta * size i) (visitsOf c0.pass es i) 1 (n * u i) ≤
        bettingRegret cfg.alpha (cfg.beta * X) es.length 1 (n * U) := by
      intro i _
      refine bettingRegret_mono ha (mul_nonneg hbeta.le (hsize i).1.le) (mul_le_mul_of_nonneg_left (hsize i).2 hbeta.le) ?_ ?_
      · rw [abs_mul, abs_of_pos hnr]; exact mul_le_mul_of_nonneg_left (hu i) hnr.le
      · have : ∀ (l : List (TrainEx ℝ)), (∀ e ∈ l, e ∈ es) → visitsOf c0.pass l i ≤ l.length := by
          intro l
          induction l with
          | nil => intro _; simp [visitsOf]
          | cons e l ih =>
            intro hl
            have h1 := ih (fun x hx => hl x (by simp [hx]))
            have h2 : (valuesAt c0.pass e.feats i).length ≤ 1 := by
              rcases valuesAt_once (hex e (hl e (by simp))).2.2.2.1 i with ⟨q, _⟩ | ⟨v, _, q⟩ <;> rw [q] <;> simp
            simp only [visitsOf, List.flatMap_cons, List.length_append, List.length_cons] at h1 ⊢
            omega
        exact this es (fun _ h => h)
    have hpos : 0 ≤ bettingRegret cfg.alpha (cfg.beta * X) es.length 1 (n * U) := by
      unfold bettingRegret
      simp only [Real.log_one, add_zero, one_mul]
      have hk : 0 ≤ 2 * |(n : ℝ) * U| * (cfg.beta * X) * √(es.length : ℝ) := by positivity
      have h1 : 0 ≤ Real.log (1 + 2 * |(n : ℝ) * U| * (cfg.beta * X) * √(es.length : ℝ) / cfg.alpha) :=
        Real.log_nonneg (by have := div_nonneg hk ha.le; linarith)
      have h2 : 0 ≤ Real.log (5 * ((es.length : ℝ) + 2)) := Real.log_nonneg (by linarith)
      have := mul_nonneg hk (add_nonneg h1 h2)
      linarith
    refine (Finset.sum_le_card_nsmul _ _ _ hone).trans ?_
    rw [nsmul_eq_mul]
    exact mul_le_mul_of_nonneg_right (by exact_mod_cast hcard) hpos
  rw [← sub_le_iff_le_add', ← sub_div]
  refine le_trans ?_ hT1'
  rw [div_le_iff₀ hTpos]
  have hfin : ((d * (bettingRegret cfg.alpha (cfg.beta * X) es.length 1 (n * U) / es.length) +
      1 / 1000000 * (Y ^ 2 * ((es.length : ℝ)⁻¹ + Real.log es.length / es.length))) / n) * es.length =
      (d * bettingRegret cfg.alpha (cfg.beta * X) es.length 1 (n * U) + 1 / 1000000 * (Y ^ 2 * (1 + Real.log es.length))) / n := by
    field_simp
  rw [hfin, sub_le_iff_le_add']
  refine hmain.trans (add_le_add (le_refl _) ?_)
  apply div_le_div_of_nonneg_right _ hnr.le
  have := mul_le_mul_of_nonneg_left hH (sq_nonneg Y)
  linarith

/-! ### The hypotheses are met -/

/-- One feature in the default namespace. -/
noncomputable def onlineFeat (i : U32) (v : ℝ) : SparseFeatures ℝ :=
  SparseFeatures.modifyOrCreate SparseFeatures.new .default (fun n => n.addFeature i v)

/-- A configuration for labels between -1 and 1. -/
noncomputable def onlineConfig : CoinConfig ℝ := { CoinConfig.dflt with alpha := 4, beta := 4, lossFunction := .squared, linkFunction := .identity }

/-- Two kinds of examples with one feature each besides the constant, as often as wished, and labels that no linear predictor fits: all hypotheses of the three theorems hold. -/
example (T : ℕ) : ∃ (c0 : Coin ℝ) (rs : List (Round ℝ)),
    let es : List (TrainEx ℝ) := (List.replicate T [⟨onlineFeat 1#32 1, 1, 1⟩, ⟨onlineFeat 3#32 (-1), -1, 1⟩, ⟨onlineFeat 1#32 1, 0, 1⟩]).flatten
    Coin.new tinyHash onlineConfig tinyGlobal 1 = .ok c0 ∧ c0.rounds true [] es = .ok rs ∧ rs.length = 3 * T ∧
    (∀ e ∈ es, e.weight = 1 ∧ |e.label| ≤ 1 ∧ e.feats.Fits tinyGlobal.numBits ∧ ((visited c0.pass e.feats).map fun iv => iv.1).Nodup ∧
      (visited c0.pass e.feats).length = 2 ∧ ∀ iv ∈ visited c0.pass e.feats, |iv.2| = (fun _ => (1 : ℝ)) iv.1) ∧
    (visitedBy c0.pass es).card ≤ 3 ∧ 0 < onlineConfig.alpha ∧ 4 * 1 ≤ onlineConfig.beta := by
  obtain ⟨c0, h0, hpass⟩ : ∃ c0 : Coin ℝ, Coin.new tinyHash onlineConfig tinyGlobal 1 = .ok c0 ∧ c0.pass = ⟨[], [], 2, true⟩ := ⟨_, rfl, rfl⟩
  set es : List (TrainEx ℝ) := (List.replicate T [⟨onlineFeat 1#32 1, 1, 1⟩, ⟨onlineFeat 3#32 (-1), -1, 1⟩, ⟨onlineFeat 1#32 1, 0, 1⟩]).flatten with hes
  have hmem : ∀ e ∈ es, e = ⟨onlineFeat 1#32 1, 1, 1⟩ ∨ e = ⟨onlineFeat 3#32 (-1), -1, 1⟩ ∨ e = ⟨onlineFeat 1#32 1, 0, 1⟩ := by
    intro e he
    rw [hes, List.mem_flatten] at he
    obtain ⟨l, hl, he⟩ := he
    rw [List.eq_of_mem_replicate hl] at he
    simpa using he
  have v2 : visited c0.pass (onlineFeat 1#32 1) = [(1#32, 1), (2#32, 1)] := by rw [hpass]; rfl
  have v3 : visited c0.pass (onlineFeat 3#32 (-1)) = [(3#32, -1), (2#32, 1)] := by rw [hpass]; rfl
  have hfit : ∀ (i : U32) (v : ℝ), i.toNat < 4 → (onlineFeat i v).Fits tinyGlobal.numBits := by
    intro i v hi iv hiv
    have : (onlineFeat i v).allFeatures = [(i, v)] := rfl
    rw [this] at hiv
    simp only [List.mem_singleton] at hiv
    subst hiv
    exact hi
  have hall : ∀ e ∈ es, e.weight = 1 ∧ |e.label| ≤ 1 ∧ e.feats.Fits tinyGlobal.numBits ∧ ((visited c0.pass e.feats).map fun iv => iv.1).Nodup ∧
      (visited c0.pass e.feats).length = 2 ∧ ∀ iv ∈ visited c0.pass e.feats, |iv.2| = (fun _ => (1 : ℝ)) iv.1 := by
    intro e he
    rcases hmem e he with rfl | rfl | rfl
    · rw [v2]; exact ⟨rfl, by norm_num, hfit _ _ (by decide), by decide, rfl, by simp⟩
    · rw [v3]; exact ⟨rfl, by norm_num, hfit _ _ (by decide), by decide, rfl, by simp⟩
    · rw [v2]; exact ⟨rfl, by norm_num, hfit _ _ (by decide), by decide, rfl, by simp⟩
  obtain ⟨rs, hrs, hex⟩ := C104_rounds_exist true tinyHash onlineConfig tinyGlobal 1 (by norm_num) c0 h0 es (fun e he => (hall e he).2.2.1)
  refine ⟨c0, rs, h0, hrs, ?_, hall, ?_, by norm_num [onlineConfig], by norm_num [onlineConfig]⟩
  · have := congrArg List.length hex
    rw [List.length_map] at this
    rw [this, hes]
    simp [Nat.mul_comm]
  · refine (Finset.card_le_card (t := {1#32, 2#32, 3#32}) ?_).trans (by decide)
    intro i hi
    unfold visitedBy at hi
    rw [List.mem_toFinset, List.mem_flatMap] at hi
    obtain ⟨e, he, hi⟩ := hi
    rcases hmem e he with rfl | rfl | rfl
    · rw [v2] at hi; simp at hi ⊢; tauto
    · rw [v3] at hi; simp at hi ⊢; tauto
    · rw [v2] at hi; simp at hi ⊢; tauto

end Rml
