import Verif.Lemmas.Growth
import Verif.Props.Reference

/-!
C111: the wealth of the bettors and the scores grow at most linearly with the number of examples, in exact arithmetic.
-/

set_option linter.unusedSectionVars false

namespace Rml
open Coin
variable {K : Type} [Field K] [LinearOrder K] [IsStrictOrderedRing K] [Trans K]

attribute [local instance] fieldFlt

theorem growth_range {cfg : CoinConfig K} {lo hi : K} (hrange : (cfg.lossFunction = .squared ∧ lo ≤ 0 ∧ 0 ≤ hi) ∨ ((∃ a b, cfg.lossFunction = .logistic a b) ∧ lo ≤ -50 ∧ 50 ≤ hi)) :
    ∃ lo0 hi0 : K, lo ≤ lo0 ∧ lo0 ≤ 0 ∧ 0 ≤ hi0 ∧ hi0 ≤ hi ∧
      ((cfg.lossFunction = .squared ∧ lo0 = 0 ∧ hi0 = 0) ∨ ((∃ a b, cfg.lossFunction = .logistic a b) ∧ lo0 = -50 ∧ hi0 = 50)) := by
  rcases hrange with ⟨h, h1, h2⟩ | ⟨h, h1, h2⟩
  · exact ⟨0, 0, h1, le_rfl, le_rfl, h2, .inl ⟨h, rfl, rfl⟩⟩
  · exact ⟨-50, 50, h1, by norm_num, by norm_num, h2, .inr ⟨h, rfl, rfl⟩⟩

theorem growth_constant {hash : HashFn} {cfg : CoinConfig K} {g : GlobalConfig} {nma : Nat} {c : Coin K}
    (h : Coin.new hash cfg g nma = .ok c) : c.pass.addConstant = g.constantFeatureEnabled := by
  unfold Coin.new at h
  obtain ⟨⟨ps, ts⟩, _, h⟩ := bind_ok.1 h
  simp only at h
  split at h
  · obtain ⟨w, _, h⟩ := bind_ok.1 h
    simp only [Except.ok.injEq] at h
    rw [← h]
  · cases h

theorem growth_good {pass : PassCfg} {es : List (TrainEx K)} {beta lo hi : K} {k : ℕ}
    (hex : ∀ e ∈ es, 0 < e.weight ∧ lo ≤ e.label ∧ e.label ≤ hi ∧ 2 * (hi - lo) * e.weight ≤ beta ∧ ((visited pass e.feats).map fun iv => iv.1).Nodup ∧
      (visited pass e.feats).length ≤ k) : ∀ e ∈ es.map (Reference.exOf pass), Reference.Good beta lo hi k e := by
  intro x hx
  obtain ⟨e, he, rfl⟩ := List.mem_map.1 hx
  obtain ⟨h1, h2, h3, h4, h5, h6⟩ := hex e he
  exact ⟨h1, ⟨h2, h3⟩, h4, h5, h6⟩

theorem train_mem {alpha beta lo hi : K} (es : List (Reference.Example K)) : ∀ r ∈ Reference.train alpha beta lo hi es, r.ex ∈ es := by
  induction es using List.reverseRecOn with
  | nil => simp [Reference.train]
  | append_singleton es e ih =>
    intro r hr
    rw [Reference.snoc] at hr
    rcases List.mem_cons.1 hr with rfl | hr
    · simp [Reference.step]
    · exact List.mem_append_left _ (ih r hr)

theorem mem_train {alpha beta lo hi : K} (es : List (Reference.Example K)) : ∀ e ∈ es, ∃ r ∈ Reference.train alpha beta lo hi es, r.ex = e := by
  induction es using List.reverseRecOn with
  | nil => simp
  | append_singleton es e ih =>
    intro x hx
    rw [Reference.snoc]
    rcases List.mem_append.1 hx with hx | hx
    · obtain ⟨r, hr, h⟩ := ih x hx
      exact ⟨r, by simp [hr], h⟩
    · rw [List.mem_singleton] at hx
      exact ⟨_, List.mem_cons_self, by rw [hx]; rfl⟩

/-- C111: training with `n` examples of at most `k` values each multiplies nothing. Take any weights `S` that include all those visited. Their bettors start with the wealth `alpha` each, and
together they gain at most a fixed amount per example. The conditions are those of the regret guarantee C104: `beta` bounds the gradients of labels between `lo` and `hi`, and no example
visits a weight twice. -/
theorem C111_wealth (dbg : Bool) (hash : HashFn) (cfg : CoinConfig K) (g : GlobalConfig) (es : List (TrainEx K)) (c : Coin K)
    (hc : Coin.Reached dbg hash cfg g es c) (lo hi : K)
    (hrange : (cfg.lossFunction = .squared ∧ lo ≤ 0 ∧ 0 ≤ hi) ∨ ((∃ a b, cfg.lossFunction = .logistic a b) ∧ lo ≤ -50 ∧ 50 ≤ hi)) (k : ℕ)
    (hex : ∀ e ∈ es, 0 < e.weight ∧ lo ≤ e.label ∧ e.label ≤ hi ∧ 2 * (hi - lo) * e.weight ≤ cfg.beta ∧ ((visited c.pass e.feats).map fun iv => iv.1).Nodup ∧
      (visited c.pass e.feats).length ≤ k)
    (S : Finset U32) (hS : ∀ e ∈ es, ∀ iv ∈ visited c.pass e.feats, iv.1 ∈ S) (s : U32 → WState K) (hs : ∀ i ∈ S, c.Holds i (s i)) :
    ∑ i ∈ S, (cfg.alpha + (s i).we) ≤ S.card * cfg.alpha + es.length * ((k * cfg.beta + 2 * (hi - lo) / 1000000) * (hi - lo)) := by
  obtain ⟨lo0, hi0, h1, h2, h3, h4, hr⟩ := growth_range hrange
  have hG := Reference.GInv.train (alpha := cfg.alpha) h1 h2 h3 h4 _ (growth_good hex)
  have := hG.total S (by
    intro r hr iv hiv
    obtain ⟨e, he, hre⟩ := List.mem_map.1 (train_mem _ r hr)
    rw [← hre] at hiv
    exact hS e he iv hiv)
  rw [List.length_map] at this
  refine le_trans (le_of_eq (Finset.sum_congr rfl fun i hi => ?_)) this
  exact (C105_table dbg hash cfg g es c hc lo0 hi0 hr _ rfl i (s i) (hs i hi) _ rfl).2.2.2.2.2

/-- C111: and so the raw score of features that were not larger in prediction than `M` times what they were in training is at most a linear function of the number of examples.
The constant feature has to be on. -/
theorem C111_score (dbg : Bool) (hash : HashFn) (cfg : CoinConfig K) (g : GlobalConfig) (ha : 0 < cfg.alpha) (hb : 0 < cfg.beta) (hconst : g.constantFeatureEnabled = true)
    (es : List (TrainEx K)) (c : Coin K) (hc : Coin.Reached dbg hash cfg g es c) (lo hi : K)
    (hrange : (cfg.lossFunction = .squared ∧ lo ≤ 0 ∧ 0 ≤ hi) ∨ ((∃ a b, cfg.lossFunction = .logistic a b) ∧ lo ≤ -50 ∧ 50 ≤ hi)) (k : ℕ)
    (hex : ∀ e ∈ es, 0 < e.weight ∧ lo ≤ e.label ∧ e.label ≤ hi ∧ 2 * (hi - lo) * e.weight ≤ cfg.beta ∧ ((visited c.pass e.feats).map fun iv => iv.1).Nodup ∧
      (visited c.pass e.feats).length ≤ k)
    (S : Finset U32) (hS : ∀ e ∈ es, ∀ iv ∈ visited c.pass e.feats, iv.1 ∈ S)
    (f : SparseFeatures K) (M : K) (hM : 0 ≤ M)
    (hf : ∀ iv ∈ visited c.pass f, (∃ e ∈ es, ∃ jv ∈ visited c.pass e.feats, jv.1 = iv.1 ∧ |iv.2| ≤ M * |jv.2|) ∨ ∀ e ∈ es, ∀ jv ∈ visited c.pass e.feats, jv.1 ≠ iv.1)
    (p raw : K) (hp : c.predict dbg f = .ok (p, raw)) :
    |raw| ≤ (visited c.pass f).length * (M * ((S.card * cfg.alpha + es.length * ((k * cfg.beta + 2 * (hi - lo) / 1000000) * (hi - lo))) / cfg.beta)) := by
  obtain ⟨lo0, hi0, h1, h2, h3, h4, hr⟩ := growth_range hrange
  have hinv := reference_reached hc lo0 hi0 hr
  have hk : c.pass.addConstant = true := by
    obtain ⟨nma, c0, hn, h0, h⟩ := hc
    rw [(Coin.trainAll_induct (dbg := dbg) (nb := g.numBits) (fun _ c => c.pass = c0.pass) (fun _ c c' e hok hi hl => by
      obtain ⟨_, _, _, _, _, _, _, _, _, hp, _⟩ := Coin.learn_inv hok hl
      exact hp.trans hi) es [] c0 c
      (Coin.new_ok hn h0).1 rfl h).2, growth_constant h0, hconst]
  have hgood := growth_good hex
  obtain ⟨-, -, hW⟩ := Reference.weightOf_bound ha hb h1 h2 h3 h4 (constantFeatureIndex c.pass.numBits) S (es.map (Reference.exOf c.pass)) (by
    intro x hx
    refine ⟨hgood x hx, ?_, ?_⟩
    · obtain ⟨e, _, rfl⟩ := List.mem_map.1 hx
      simp [Reference.exOf, visited, constVisit, hk]
    · obtain ⟨e, he, rfl⟩ := List.mem_map.1 hx
      exact hS e he)
  rw [List.length_map] at hW
  generalize hB : (S.card * cfg.alpha + es.length * ((k * cfg.beta + 2 * (hi - lo) / 1000000) * (hi - lo))) / cfg.beta = B at hW ⊢
  have hB0 : 0 ≤ B := by
    rw [← hB]
    have : 0 ≤ hi - lo := by linarith
    positivity
  have hraw : raw = Reference.score cfg.alpha cfg.beta (Reference.train cfg.alpha cfg.beta lo0 hi0 (es.map (Reference.exOf c.pass))) (visited c.pass f) := by
    unfold Coin.predict at hp
    obtain ⟨x, hx, hp⟩ := bind_ok.1 hp
    obtain ⟨y, hy, hp⟩ := bind_ok.1 hp
    simp only [Except.ok.injEq, Prod.mk.injEq, flt_isNaN, Bool.false_eq_true, if_false] at hp
    obtain ⟨_, hx2⟩ := rawSum_field hinv.ok hx
    obtain ⟨hr, _⟩ := rawSum_inv hinv.ok hx
    rw [← hp.2, hx2, Reference.score]
    congr 1
    refine List.map_congr_left fun iv hiv => ?_
    rw [hinv.weights iv.1 (hr iv hiv)]
    rfl
  rw [hraw, Reference.score]
  have hone : ∀ iv ∈ visited c.pass f, |iv.2 * Reference.weightOf cfg.alpha cfg.beta (Reference.train cfg.alpha cfg.beta lo0 hi0 (es.map (Reference.exOf c.pass))) iv.1| ≤ M * B := by
    intro iv hiv
    rw [abs_mul]
    rcases hf iv hiv with ⟨e, he, jv, hjv, hji, hle⟩ | hnone
    · have hval : |jv.2| ≤ Reference.largestValue (Reference.outcomes (Reference.train cfg.alpha cfg.beta lo0 hi0 (es.map (Reference.exOf c.pass))) iv.1) := by
        obtain ⟨r, hr, hre⟩ := mem_train (alpha := cfg.alpha) (beta := cfg.beta) (lo := lo0) (hi := hi0) (es.map (Reference.exOf c.pass)) _ (List.mem_map.2 ⟨e, he, rfl⟩)
        refine Reference.le_largestValue (gx := (r.gradient, jv.2)) (List.mem_flatMap.2 ⟨r, hr, ?_⟩)
        unfold Reference.outcomesOf
        rw [List.mem_reverse]
        exact List.mem_map.2 ⟨jv, List.mem_filter.2 ⟨by rw [hre]; exact hjv, by simpa using hji⟩, rfl⟩
      calc |iv.2| * |Reference.weightOf cfg.alpha cfg.beta (Reference.train cfg.alpha cfg.beta lo0 hi0 (es.map (Reference.exOf c.pass))) iv.1|
          ≤ M * Reference.largestValue (Reference.outcomes (Reference.train cfg.alpha cfg.beta lo0 hi0 (es.map (Reference.exOf c.pass))) iv.1) *
            |Reference.weightOf cfg.alpha cfg.beta (Reference.train cfg.alpha cfg.beta lo0 hi0 (es.map (Reference.exOf c.pass))) iv.1| :=
            mul_le_mul_of_nonneg_right (hle.trans (mul_le_mul_of_nonneg_left hval hM)) (abs_nonneg _)
        _ = M * (|Reference.weightOf cfg.alpha cfg.beta (Reference.train cfg.alpha cfg.beta lo0 hi0 (es.map (Reference.exOf c.pass))) iv.1| *
            Reference.largestValue (Reference.outcomes (Reference.train cfg.alpha cfg.beta lo0 hi0 (es.map (Reference.exOf c.pass))) iv.1)) := by ring
        _ ≤ M * B := mul_le_mul_of_nonneg_left (hW iv.1) hM
    · have : Reference.weightOf cfg.alpha cfg.beta (Reference.train cfg.alpha cfg.beta lo0 hi0 (es.map (Reference.exOf c.pass))) iv.1 = 0 := by
        have hall : ∀ r ∈ Reference.train cfg.alpha cfg.beta lo0 hi0 (es.map (Reference.exOf c.pass)), Reference.outcomesOf r iv.1 = [] := by
          intro r hr
          obtain ⟨e, he, hre⟩ := List.mem_map.1 (train_mem _ r hr)
          refine Reference.outcomesOf_nil ?_
          rw [← hre]
          intro hm
          obtain ⟨jv, hjv, hj⟩ := List.mem_map.1 hm
          exact hnone e he jv hjv hj
        generalize Reference.train cfg.alpha cfg.beta lo0 hi0 (es.map (Reference.exOf c.pass)) = h at hall
        induction h with
        | nil => rfl
        | cons s h ih => rw [Reference.weightOf, if_pos (hall s (by simp))]; exact ih fun r hr => hall r (by simp [hr])
      rw [this, abs_zero, mul_zero]
      exact mul_nonneg hM hB0
  generalize visited c.pass f = vs at hone
  induction vs with
  | nil => simp
  | cons a l ih =>
    simp only [List.map_cons, List.sum_cons, List.length_cons]
    push_cast
    refine (abs_add_le _ _).trans ?_
    linarith [hone a (by simp), ih fun x hx => hone x (by simp [hx])]

section examples

/-- Exact arithmetic on the rationals, for the example. -/
local instance transRatGrowth : Trans ℚ where
  exp := id
  ln := id
  powf := fun a _ => a
  sqrt := id

/-- A regressor trained on two examples. -/
def growthCoin : M (Coin ℚ) := do
  let c ← Coin.new tinyHash CoinConfig.dflt tinyGlobal 1
  c.trainAll true [⟨referenceFeat 1#32 1, 1 / 4, 1⟩, ⟨referenceFeat 1#32 1, 1 / 8, 1⟩]

/-- The hypotheses of C111 hold for it, the wealth has changed and the score is not zero. -/
example : ∃ c : Coin ℚ, Coin.Reached true tinyHash CoinConfig.dflt tinyGlobal [⟨referenceFeat 1#32 1, 1 / 4, 1⟩, ⟨referenceFeat 1#32 1, 1 / 8, 1⟩] c ∧
    (CoinConfig.dflt : CoinConfig ℚ).lossFunction = .squared ∧ (CoinConfig.dflt : CoinConfig ℚ).beta = 1 ∧ tinyGlobal.constantFeatureEnabled = true ∧
    visited c.pass (referenceFeat 1#32 1 : SparseFeatures ℚ) = [(1#32, 1), (2#32, 1)] ∧
    ([(1#32, (1 : ℚ)), (2#32, 1)].map fun iv => iv.1).Nodup ∧ 2 * (1 / 4 - 0) * 1 ≤ (1 : ℚ) ∧
    (∃ s, c.Holds 1#32 s ∧ s.we ≠ 0) ∧ (∃ p raw, c.predict true (referenceFeat 1#32 1) = .ok (p, raw) ∧ 0 < raw) := by
  have key : (match growthCoin with
    | .ok c => decide (visited c.pass (referenceFeat 1#32 1 : SparseFeatures ℚ) = [(1#32, 1), (2#32, 1)] ∧ (c.weights.wst 1).we ≠ 0) && (match c.predict true (referenceFeat 1#32 1) with
      | .ok (_, raw) => decide (0 < raw)
      | _ => false)
    | _ => false) = true := by decide +kernel
  cases hc : growthCoin with
  | error e => rw [hc] at key; cases key
  | ok c =>
    rw [hc] at key
    simp only [Bool.and_eq_true, decide_eq_true_eq] at key
    obtain ⟨⟨k1, k2⟩, k3⟩ := key
    unfold growthCoin at hc
    obtain ⟨c0, h0, h1⟩ := bind_ok.1 hc
    have hr : Coin.Reached true tinyHash CoinConfig.dflt tinyGlobal [⟨referenceFeat 1#32 1, 1 / 4, 1⟩, ⟨referenceFeat 1#32 1, 1 / 8, 1⟩] c := ⟨1, c0, by decide, h0, h1⟩
    have _ : LawfulCmp ℚ := lawfulCmp_field ℚ
    refine ⟨c, hr, rfl, by decide +kernel, rfl, k1, by decide, by norm_num, ⟨_, (holds_iff (reached_inv hr).1).2 ⟨by decide, rfl⟩, k2⟩, ?_⟩
    cases hp : c.predict true (referenceFeat 1#32 1) with
    | error e => rw [hp] at k3; cases k3
    | ok pr => rw [hp] at k3; exact ⟨pr.1, pr.2, rfl, by simpa using k3⟩

end examples

end Rml
