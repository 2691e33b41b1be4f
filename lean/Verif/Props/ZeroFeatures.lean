import Verif.Props.Units

/-!
C117: features with value 0, in the Coin regressor (exact arithmetic).
-/

set_option linter.unusedSectionVars false

namespace Rml
open Coin
variable {K : Type} [Field K] [LinearOrder K] [IsStrictOrderedRing K] [Trans K]

attribute [local instance] fieldFlt

/-- The second example lists the features of the first whose value is not 0, in the same order. -/
def WithoutZeros (f f' : SparseFeatures K) : Prop := f'.allFeatures = f.allFeatures.filter fun iv => iv.2 ≠ 0

namespace Coin

theorem visited_zeros {nb : Nat} {b : Bool} {f f' : SparseFeatures K} (h : WithoutZeros f f') :
    visited ⟨[], [], nb, b⟩ f' = (visited ⟨[], [], nb, b⟩ f).filter fun iv => iv.2 ≠ 0 := by
  unfold visited constVisit
  simp only [List.flatMap_nil, List.append_nil, List.filter_append]
  rw [h]
  congr 1
  cases b with
  | false => rfl
  | true => simp

theorem sum_filter_zero {α : Type} (l : List α) (p : α → Bool) (g : α → K) (h : ∀ a ∈ l, p a = false → g a = 0) :
    ((l.filter p).map g).sum = (l.map g).sum := by
  induction l with
  | nil => rfl
  | cons a l ih =>
    have ih := ih fun b hb => h b (List.mem_cons_of_mem _ hb)
    rw [List.filter_cons]
    cases hp : p a with
    | true => simp [ih]
    | false => simp [ih, h a (by simp) hp]

theorem mx_nonneg {dbg : Bool} {hash : HashFn} {cfg : CoinConfig K} {g : GlobalConfig} {es : List (TrainEx K)} {c : Coin K}
    (hc : Coin.Reached dbg hash cfg g es c) : ∀ i, i < 2 ^ g.numBits → 0 ≤ (c.weights.wst i).mx := by
  obtain ⟨nma, c0, hn, h0, ht⟩ := hc
  obtain ⟨hok, _, _, _, hz⟩ := Coin.new_ok hn h0
  refine (Coin.trainAll_induct (dbg := dbg) (nb := g.numBits) (fun _ c => ∀ i, i < 2 ^ g.numBits → 0 ≤ (c.weights.wst i).mx) (by
      intro es c c' e hc h1 hl i hi
      obtain ⟨p, cb, _, _, _, _, _, _, _, _, _, hw⟩ := Coin.learn_inv hc hl
      rw [hw i hi]
      have : ∀ (l : List (U32 × K)) (s : WState K), 0 ≤ s.mx →
          0 ≤ (l.foldl (fun s iv => innerUpdate c.config.alpha c.config.beta cb.averageSquaredNormX (cb.updateOf p e.label e.weight) iv.2 s) s).mx := by
        intro l
        induction l with
        | nil => intro s hs; exact hs
        | cons x l ih =>
          intro s hs
          refine ih _ ?_
          rw [innerUpdate_mx]
          exact le_trans hs (le_max_left _ _)
      exact this _ _ (h1 i hi)) es [] c0 c hok (fun i hi => by rw [hz i hi]; exact le_refl _) ht).2

/-- Two learn calls whose read passes add up the same. -/
theorem learn_core {dbg : Bool} {nb : Nat} {c c' : Coin K} (ok : c.Ok nb) (ok' : c'.Ok nb) (config : c'.config = c.config)
    (loss : c'.lossFunction = c.lossFunction) (states : c'.modelStates = c.modelStates) (lo : c'.minLabel = c.minLabel)
    (hi : c'.maxLabel = c.maxLabel) {f f' : SparseFeatures K} (hr' : ∀ iv ∈ visited c'.pass f', iv.1.toNat < 2 ^ nb)
    (hS : predSum c.config.alpha c'.weights.wst (visited c'.pass f') = predSum c.config.alpha c.weights.wst (visited c.pass f))
    (hN : normSum c'.weights.wst (visited c'.pass f') = normSum c.weights.wst (visited c.pass f)) {l w : K} {c1 : Coin K}
    (hl : c.learn dbg f l w = .ok c1) :
    ∃ c1' avg u, c'.learn dbg f' l w = .ok c1' ∧ c1.Ok nb ∧ c1'.Ok nb ∧ c1.config = c.config ∧ c1'.config = c.config ∧ c1.pass = c.pass ∧ c1'.pass = c'.pass ∧
      c1'.lossFunction = c1.lossFunction ∧ c1'.modelStates = c1.modelStates ∧ c1'.minLabel = c1.minLabel ∧ c1'.maxLabel = c1.maxLabel ∧
      c1'.averageSquaredNormX = c1.averageSquaredNormX ∧
      (∀ i, i < 2 ^ nb → c1.weights.wst i =
        (c.visitsAt f i).foldl (fun s iv => innerUpdate c.config.alpha c.config.beta avg u iv.2 s) (c.weights.wst i)) ∧
      ∀ i, i < 2 ^ nb → c1'.weights.wst i =
        (c'.visitsAt f' i).foldl (fun s iv => innerUpdate c.config.alpha c.config.beta avg u iv.2 s) (c'.weights.wst i) := by
  obtain ⟨p, cb, hb, hc1, hok1, hcfg, hmin, hmax, hloss, hpass, hr, hw⟩ := learn_inv ok hl
  have hok : (c.seen l).Ok nb := ⟨ok.table, ok.bits, ok.le31, ok.models⟩
  have hok' : (c'.seen l).Ok nb := ⟨ok'.table, ok'.bits, ok'.le31, ok'.models⟩
  obtain ⟨ms, rest, hms⟩ : ∃ ms rest, c.modelStates = ms :: rest := by
    cases hm : c.modelStates with
    | nil => exact absurd hm ok.models
    | cons ms rest => exact ⟨ms, rest, rfl⟩
  rw [bettingPredict_eq hok (c := c.seen l) hr hms] at hb
  obtain ⟨p', hp, hb⟩ := bind_ok.1 hb
  simp only [Except.ok.injEq, Prod.mk.injEq] at hb
  obtain ⟨rfl, hcb⟩ := hb
  obtain ⟨hle, -, -⟩ := clamp_range hp
  obtain ⟨c1', hl'⟩ := learn_succeeds (dbg := dbg) (w := w) (l := l) ok' hr' (by
    simp only [flt_le, decide_eq_true_eq]
    rw [lo, hi]; exact hle)
  obtain ⟨q, cb', hb', hc1', hok1', hcfg', hmin', hmax', hloss', hpass', _, hw'⟩ := learn_inv ok' hl'
  rw [bettingPredict_eq hok' (c := c'.seen l) hr' (states.trans hms)] at hb'
  obtain ⟨q', hq, hb'⟩ := bind_ok.1 hb'
  simp only [Except.ok.injEq, Prod.mk.injEq] at hb'
  obtain ⟨rfl, hcb'⟩ := hb'
  simp only [seen, lo, hi] at hp hq hcb hcb'
  rw [config, hS, hN] at hq
  rw [hN] at hcb'
  have hqp : q' = p' := Except.ok.inj (hq.symm.trans hp)
  subst hqp
  have havg : cb'.averageSquaredNormX = cb.averageSquaredNormX := by rw [← hcb, ← hcb']
  have hupd : cb'.updateOf q' l w = cb.updateOf q' l w := by
    rw [← hcb, ← hcb']
    unfold updateOf
    simp only [loss]
  refine ⟨c1', cb.averageSquaredNormX, cb.updateOf q' l w, hl', hok1, hok1', hcfg, hcfg'.trans config, hpass, hpass', by rw [hloss, hloss', loss],
    by rw [hc1, hc1', ← hcb, ← hcb'], by rw [hmin, hmin', lo], by rw [hmax, hmax', hi], by rw [hc1, hc1']; exact havg, fun i hi => hw i hi, fun i hi => ?_⟩
  rw [hw' i hi, config, havg, hupd]

theorem innerUpdate_zero (alpha beta avg u : K) {s : WState K} (h : 0 ≤ s.mx) :
    (innerUpdate alpha beta avg u 0 s).zt = s.zt ∧ (innerUpdate alpha beta avg u 0 s).g2 = s.g2 ∧ (innerUpdate alpha beta avg u 0 s).mx = s.mx ∧
      (innerUpdate alpha beta avg u 0 s).we = s.we := by
  refine ⟨by simp [innerUpdate], by simp [innerUpdate], ?_, by simp [innerUpdate]⟩
  rw [innerUpdate_mx, abs_zero, max_eq_left h]

/-- The largest gradient after one more. -/
def grown (beta u m : K) : K := if m < |u| then max |u| beta else m

theorem grown_grown (beta u m : K) : grown beta u (grown beta u m) = grown beta u m := by
  unfold grown
  by_cases h : m < |u|
  · rw [if_pos h, if_neg (not_lt.2 (le_max_left _ _))]
  · rw [if_neg h, if_neg h]

/-- The parts of a weight on which zeros have no effect. -/
structure ZRel (beta u : K) (s s' : WState K) : Prop where
  zt : s'.zt = s.zt
  g2 : s'.g2 = s.g2
  mx : s'.mx = s.mx
  we : s'.we = s.we
  mg : grown beta u s'.mg = grown beta u s.mg
  nn : 0 ≤ s.mx

theorem ZRel.zero {alpha beta avg u : K} {s s' : WState K} (h : ZRel beta u s s') : ZRel beta u (innerUpdate alpha beta avg u 0 s) s' := by
  obtain ⟨h1, h2, h3, h4⟩ := innerUpdate_zero alpha beta avg u h.nn
  refine ⟨h.zt.trans h1.symm, h.g2.trans h2.symm, h.mx.trans h3.symm, h.we.trans h4.symm, ?_, h3 ▸ h.nn⟩
  rw [innerUpdate_mg, h.mg]
  exact (grown_grown beta u s.mg).symm

theorem ZRel.step {alpha beta avg u : K} (x : K) {s s' : WState K} (h : ZRel beta u s s') :
    ZRel beta u (innerUpdate alpha beta avg u x s) (innerUpdate alpha beta avg u x s') := by
  have hmg : (innerUpdate alpha beta avg u x s').mg = (innerUpdate alpha beta avg u x s).mg := by
    rw [innerUpdate_mg, innerUpdate_mg]; exact h.mg
  have hmx : (innerUpdate alpha beta avg u x s').mx = (innerUpdate alpha beta avg u x s).mx := by
    rw [innerUpdate_mx, innerUpdate_mx, h.mx]
  have hwe : ∀ (s : WState K), (innerUpdate alpha beta avg u x s).we = s.we + (-(u * x)) *
      betWeight alpha { s with mg := (innerUpdate alpha beta avg u x s).mg } (innerUpdate alpha beta avg u x s).mx := fun _ => rfl
  have hzt : ∀ (s : WState K), (innerUpdate alpha beta avg u x s).zt = s.zt + -(u * x) := fun _ => rfl
  have hg2 : ∀ (s : WState K), (innerUpdate alpha beta avg u x s).g2 = s.g2 + |u * x| := fun _ => rfl
  refine ⟨by rw [hzt, hzt, h.zt], by rw [hg2, hg2, h.g2], hmx, ?_, by rw [hmg], ?_⟩
  · rw [hwe, hwe, hmg, hmx, h.we]
    unfold betWeight
    simp only [h.zt, h.g2]
  · rw [innerUpdate_mx]; exact le_trans h.nn (le_max_left _ _)

theorem ZRel.fold {alpha beta avg u : K} (l : List (U32 × K)) : ∀ {s s' : WState K}, ZRel beta u s s' →
    ZRel beta u (l.foldl (fun s iv => innerUpdate alpha beta avg u iv.2 s) s)
      ((l.filter fun iv => iv.2 ≠ 0).foldl (fun s iv => innerUpdate alpha beta avg u iv.2 s) s') := by
  induction l with
  | nil => intro s s' h; exact h
  | cons iv l ih =>
    intro s s' h
    rw [List.filter_cons]
    by_cases h0 : iv.2 = 0
    · simp only [h0, ne_eq, not_true_eq_false, decide_false, Bool.false_eq_true, if_false, List.foldl_cons]
      exact ih h.zero
    · simp only [ne_eq, h0, not_false_eq_true, decide_true, if_true, List.foldl_cons]
      exact ih (h.step _)

theorem predSum_zeros (alpha : K) (st : Nat → WState K) (vs : List (U32 × K)) :
    predSum alpha st (vs.filter fun iv => iv.2 ≠ 0) = predSum alpha st vs :=
  sum_filter_zero _ _ _ fun iv _ h => by
    have : iv.2 = 0 := by simpa using h
    rw [this, mul_zero]

theorem normSum_zeros (st : Nat → WState K) (vs : List (U32 × K)) : normSum st (vs.filter fun iv => iv.2 ≠ 0) = normSum st vs :=
  sum_filter_zero _ _ _ fun iv _ h => by
    have : iv.2 = 0 := by simpa using h
    rw [this, zero_div, zero_mul, ite_self]

theorem visitsAt_zeros {c c' : Coin K} {f f' : SparseFeatures K} (h : visited c'.pass f' = (visited c.pass f).filter fun iv => iv.2 ≠ 0) (i : Nat) :
    c'.visitsAt f' i = (c.visitsAt f i).filter fun iv => iv.2 ≠ 0 := by
  unfold visitsAt
  rw [h, List.filter_filter, List.filter_filter]
  exact List.filter_congr fun _ _ => Bool.and_comm _ _

end Coin

theorem predict_zeros {dbg : Bool} {c : Coin K} {nb : Nat} (hok : c.Ok nb) {f f' : SparseFeatures K}
    (hV : visited c.pass f' = (visited c.pass f).filter fun iv => iv.2 ≠ 0) {p raw : K} (hp : c.predict dbg f = .ok (p, raw)) :
    c.predict dbg f' = .ok (p, raw) := by
  unfold predict at hp ⊢
  obtain ⟨x, h1, hp⟩ := bind_ok.1 hp
  obtain ⟨hr, -⟩ := rawSum_inv hok h1
  have h1' := rawSum_eq (dbg := dbg) (f := f') hok (by rw [hV]; exact fun iv hiv => hr iv (List.mem_filter.1 hiv).1)
  have e : _ = _ := (rawSum_field hok h1').2
  have : ((visited c.pass f').map (fun iv => iv.2 * (c.weights.wst iv.1.toNat).xt)).sum = x := by
    rw [(rawSum_field hok h1).2, hV]
    refine sum_filter_zero _ _ _ fun iv _ h => ?_
    have : iv.2 = 0 := by simpa using h
    rw [this, zero_mul]
  rw [h1', e, this]
  exact hp

theorem learn_zeros {dbg : Bool} {hash : HashFn} {cfg : CoinConfig K} {g : GlobalConfig} {es : List (TrainEx K)} {c c1 : Coin K}
    (hc : Coin.Reached dbg hash cfg g es c) {f f' : SparseFeatures K} (hV : visited c.pass f' = (visited c.pass f).filter fun iv => iv.2 ≠ 0) {l w : K}
    (h : c.learn dbg f l w = .ok c1) :
    ∃ c2, c.learn dbg f' l w = .ok c2 ∧ c2.modelStates = c1.modelStates ∧ c2.averageSquaredNormX = c1.averageSquaredNormX ∧
      c2.minLabel = c1.minLabel ∧ c2.maxLabel = c1.maxLabel ∧
      ∀ i s s', c1.Holds i s → c2.Holds i s' → s'.zt = s.zt ∧ s'.g2 = s.g2 ∧ s'.mx = s.mx ∧ s'.we = s.we ∧
        ((∀ iv ∈ visited c.pass f, iv.1 = i → iv.2 ≠ 0) → s' = s) := by
  obtain ⟨hok, _, _⟩ := reached_ok hc
  obtain ⟨_, _, _, _, _, _, _, _, _, _, hr, _⟩ := learn_inv hok h
  obtain ⟨c2, avg, u, h2, k1, k2, _, _, _, _, _, e1, e2, e3, e4, w1, w2⟩ := learn_core hok hok rfl rfl rfl rfl rfl
    (f' := f') (by rw [hV]; exact fun iv hiv => hr iv (List.mem_filter.1 hiv).1) (by rw [hV, predSum_zeros]) (by rw [hV, normSum_zeros]) h
  refine ⟨c2, h2, e1, e4, e2, e3, fun i s s' hs hs' => ?_⟩
  obtain ⟨hi, rfl⟩ := (holds_iff k1).1 hs
  obtain ⟨_, rfl⟩ := (holds_iff k2).1 hs'
  have hfold := ZRel.fold (alpha := c.config.alpha) (beta := c.config.beta) (avg := avg) (u := u) (c.visitsAt f i.toNat)
    (s := c.weights.wst i.toNat) (s' := c.weights.wst i.toNat) ⟨rfl, rfl, rfl, rfl, rfl, mx_nonneg hc _ hi⟩
  rw [w1 _ hi, w2 _ hi, visitsAt_zeros hV]
  refine ⟨hfold.zt, hfold.g2, hfold.mx, hfold.we, fun hz => ?_⟩
  congr 1
  refine List.filter_eq_self.2 fun iv hiv => ?_
  unfold visitsAt at hiv
  obtain ⟨hm, hj⟩ := List.mem_filter.1 hiv
  have hj : iv.1 = i := BitVec.eq_of_toNat_eq (by simpa using hj)
  simpa using hz iv hm hj

/-- C117 for predictions. An example with features of value 0 has the prediction of the example without them. -/
theorem C117_predict (dbg : Bool) (hash : HashFn) (cfg : CoinConfig K) (g : GlobalConfig) (hg : g.interactions = []) (es : List (TrainEx K)) (c : Coin K)
    (hc : Coin.Reached dbg hash cfg g es c) (f f' : SparseFeatures K) (hf : WithoutZeros f f') (p raw : K) (hp : c.predict dbg f = .ok (p, raw)) :
    c.predict dbg f' = .ok (p, raw) :=
  predict_zeros (reached_ok hc).1 (by rw [reached_pass hc hg]; exact visited_zeros hf) hp

/-- C117 for one learn call. Learning from an example with features of value 0 and from the example without them leads to the same label range, the same
sums over all examples, and, in every weight, the same sums of gradients, the same largest value and the same wealth. Missing from the full statement: the
largest gradient of the weights of these features and the weight that is used in predictions, see `C117_learn_false`. -/
theorem C117_learn_partial (dbg : Bool) (hash : HashFn) (cfg : CoinConfig K) (g : GlobalConfig) (hg : g.interactions = []) (es : List (TrainEx K))
    (c c1 : Coin K) (hc : Coin.Reached dbg hash cfg g es c) (f f' : SparseFeatures K) (hf : WithoutZeros f f') (l w : K)
    (h : c.learn dbg f l w = .ok c1) :
    ∃ c2, c.learn dbg f' l w = .ok c2 ∧ c2.modelStates = c1.modelStates ∧ c2.averageSquaredNormX = c1.averageSquaredNormX ∧
      c2.minLabel = c1.minLabel ∧ c2.maxLabel = c1.maxLabel ∧
      ∀ i s s', c1.Holds i s → c2.Holds i s' → s'.zt = s.zt ∧ s'.g2 = s.g2 ∧ s'.mx = s.mx ∧ s'.we = s.we ∧
        ((∀ iv ∈ f.allFeatures, iv.1 = i → iv.2 ≠ 0) → s' = s) := by
  have hps := reached_pass hc hg
  obtain ⟨c2, h1, h2, h3, h4, h5, h6⟩ := learn_zeros (dbg := dbg) hc (f := f) (f' := f') (by rw [hps]; exact visited_zeros hf) h
  refine ⟨c2, h1, h2, h3, h4, h5, fun i s s' hs hs' => ?_⟩
  obtain ⟨k1, k2, k3, k4, k5⟩ := h6 i s s' hs hs'
  refine ⟨k1, k2, k3, k4, fun hz => k5 fun iv hm hj => ?_⟩
  rw [hps] at hm
  unfold visited constVisit at hm
  simp only [List.flatMap_nil, List.append_nil, List.mem_append] at hm
  rcases hm with hm | hm
  · exact hz iv hm hj
  · split at hm
    · simp only [List.mem_singleton] at hm
      rw [hm]; simp
    · simp at hm

/-! ### Features that are always 0 -/

namespace Coin

/-- A weight that only features of value 0 have touched. -/
structure Blank (s : WState K) : Prop where
  xt : s.xt = 0
  zt : s.zt = 0
  g2 : s.g2 = 0
  mx : s.mx = 0
  we : s.we = 0

theorem Blank.step {s : WState K} (h : Blank s) (alpha beta avg u : K) : Blank (innerUpdate alpha beta avg u 0 s) := by
  obtain ⟨h1, h2, h3, h4⟩ := innerUpdate_zero alpha beta avg u (le_of_eq h.mx.symm)
  refine ⟨?_, h1.trans h.zt, h2.trans h.g2, h3.trans h.mx, h4.trans h.we⟩
  have : ∀ (m : K), betWeight alpha { s with mg := m } (innerUpdate alpha beta avg u 0 s).mx = 0 := by
    intro m
    unfold betWeight
    simp only [h.zt, flt_mul, mul_zero, flt_zero, ite_self]
  have hxt : (innerUpdate alpha beta avg u 0 s).xt =
      betWeight alpha { s with mg := (innerUpdate alpha beta avg u 0 s).mg } (innerUpdate alpha beta avg u 0 s).mx / avg := rfl
  rw [hxt, this, zero_div]

theorem Blank.fold {alpha beta avg u : K} (l : List (U32 × K)) (hl : ∀ iv ∈ l, iv.2 = 0) : ∀ {s : WState K}, Blank s →
    Blank (l.foldl (fun s iv => innerUpdate alpha beta avg u iv.2 s) s) := by
  induction l with
  | nil => intro s h; exact h
  | cons iv l ih =>
    intro s h
    rw [List.foldl_cons, hl iv (by simp)]
    exact ih (fun jv hj => hl jv (List.mem_cons_of_mem _ hj)) (h.step _ _ _ _)

/-- Two regressors that differ only in the weights of features that are always 0. -/
structure DRel (dead : U32 → Prop) (nb : Nat) (c c' : Coin K) : Prop where
  ok : c.Ok nb
  ok' : c'.Ok nb
  config : c'.config = c.config
  pass : c'.pass = c.pass
  loss : c'.lossFunction = c.lossFunction
  states : c'.modelStates = c.modelStates
  lo : c'.minLabel = c.minLabel
  hi : c'.maxLabel = c.maxLabel
  alive : ∀ i : U32, i.toNat < 2 ^ nb → ¬dead i → c'.weights.wst i.toNat = c.weights.wst i.toNat
  blank : ∀ i : U32, i.toNat < 2 ^ nb → dead i → Blank (c.weights.wst i.toNat) ∧ Blank (c'.weights.wst i.toNat)

theorem DRel.symm {dead : U32 → Prop} {nb : Nat} {c c' : Coin K} (h : DRel dead nb c c') : DRel dead nb c' c :=
  ⟨h.ok', h.ok, h.config.symm, h.pass.symm, h.loss.symm, h.states.symm, h.lo.symm, h.hi.symm, fun i hi hd => (h.alive i hi hd).symm,
    fun i hi hd => (h.blank i hi hd).symm⟩

theorem DRel.learn {dbg : Bool} {dead : U32 → Prop} {nb : Nat} {c c' : Coin K} (h : DRel dead nb c c') {f f' : SparseFeatures K}
    (hV : visited c.pass f' = (visited c.pass f).filter fun iv => iv.2 ≠ 0) (hz : ∀ iv ∈ visited c.pass f, dead iv.1 ↔ iv.2 = 0) {l w : K} {c1 : Coin K}
    (hl : c.learn dbg f l w = .ok c1) : ∃ c1', c'.learn dbg f' l w = .ok c1' ∧ DRel dead nb c1 c1' ∧ c1.pass = c.pass := by
  obtain ⟨_, _, _, _, _, _, _, _, _, _, hr, _⟩ := learn_inv h.ok hl
  have hV' : visited c'.pass f' = (visited c.pass f).filter fun iv => iv.2 ≠ 0 := by rw [h.pass]; exact hV
  have hal : ∀ iv ∈ (visited c.pass f).filter (fun iv => iv.2 ≠ 0), c'.weights.wst iv.1.toNat = c.weights.wst iv.1.toNat := by
    intro iv hiv
    obtain ⟨hm, h0⟩ := List.mem_filter.1 hiv
    exact h.alive _ (hr iv hm) fun hd => (by simpa using h0 : iv.2 ≠ 0) ((hz iv hm).1 hd)
  obtain ⟨c2, avg, u, h2, k1, k2, g1, g2, p1, p2, e0, e1, e2, e3, e4, w1, w2⟩ := learn_core h.ok h.ok' h.config h.loss h.states h.lo h.hi
    (f' := f') (by rw [hV']; exact fun iv hiv => hr iv (List.mem_filter.1 hiv).1)
    (by
      rw [hV', ← predSum_zeros _ _ (visited c.pass f)]
      unfold predSum
      congr 1
      exact List.map_congr_left fun iv hiv => by rw [hal iv hiv])
    (by
      rw [hV', ← normSum_zeros _ (visited c.pass f)]
      unfold normSum
      congr 1
      exact List.map_congr_left fun iv hiv => by rw [hal iv hiv]) hl
  have hva : ∀ (i : U32), ∀ iv ∈ c.visitsAt f i.toNat, (dead i ↔ iv.2 = 0) := by
    intro i iv hiv
    obtain ⟨hm, hj⟩ := List.mem_filter.1 hiv
    have hj : iv.1 = i := BitVec.eq_of_toNat_eq (by simpa using hj)
    exact hj ▸ hz iv hm
  refine ⟨c2, h2, ⟨k1, k2, g2.trans g1.symm, by rw [p1, p2, h.pass], e0, e1, e2, e3, fun i hi hd => ?_, fun i hi hd => ?_⟩, p1⟩
  · rw [w1 _ hi, w2 _ hi, visitsAt_zeros hV', h.alive i hi hd]
    congr 1
    exact List.filter_eq_self.2 fun iv hiv => by simpa using fun h0 => hd ((hva i iv hiv).2 h0)
  · rw [w1 _ hi, w2 _ hi, visitsAt_zeros hV']
    refine ⟨Blank.fold _ (fun iv hiv => (hva i iv hiv).1 hd) (h.blank i hi hd).1,
      Blank.fold _ (fun iv hiv => (hva i iv (List.mem_filter.1 hiv).1).1 hd) (h.blank i hi hd).2⟩

theorem DRel.trainAll {dbg : Bool} {dead : U32 → Prop} {nb : Nat} {pass : PassCfg} {es es' : List (TrainEx K)}
    (hes : List.Forall₂ (fun e e' => (visited pass e'.feats = (visited pass e.feats).filter fun iv => iv.2 ≠ 0) ∧ e'.label = e.label ∧
      e'.weight = e.weight) es es') :
    ∀ {c c' c1 : Coin K}, c.pass = pass → (∀ e ∈ es, ∀ iv ∈ visited pass e.feats, dead iv.1 ↔ iv.2 = 0) → DRel dead nb c c' →
      c.trainAll dbg es = .ok c1 → ∃ c1', c'.trainAll dbg es' = .ok c1' ∧ DRel dead nb c1 c1' := by
  induction hes with
  | nil =>
    intro c c' c1 _ _ h ht
    simp only [Coin.trainAll, Except.ok.injEq] at ht
    subst ht
    exact ⟨c', rfl, h⟩
  | cons he _ ih =>
    intro c c' c1 hp hz h ht
    obtain ⟨h1, h2, h3⟩ := he
    rw [Coin.trainAll] at ht
    obtain ⟨c2, hc2, ht⟩ := bind_ok.1 ht
    obtain ⟨c2', hl, hrel, hp2⟩ := h.learn (by rw [hp]; exact h1) (by rw [hp]; exact hz _ (by simp)) hc2
    obtain ⟨c1', h4, h5⟩ := ih (hp2.trans hp) (fun e he => hz e (List.mem_cons_of_mem _ he)) hrel ht
    refine ⟨c1', ?_, h5⟩
    rw [Coin.trainAll, h2, h3, hl]
    exact h4

theorem DRel.predict {dbg : Bool} {dead : U32 → Prop} {nb : Nat} {c c' : Coin K} (h : DRel dead nb c c') {f : SparseFeatures K} {r : K × K}
    (hp : c.predict dbg f = .ok r) : c'.predict dbg f = .ok r := by
  unfold Coin.predict at hp ⊢
  obtain ⟨x, h1, hp⟩ := bind_ok.1 hp
  obtain ⟨hr, -⟩ := rawSum_inv h.ok h1
  have h1' := rawSum_eq (dbg := dbg) (f := f) h.ok' (by rw [h.pass]; exact hr)
  have e : _ = _ := (rawSum_field h.ok' h1').2
  have : ((visited c'.pass f).map (fun iv => iv.2 * (c'.weights.wst iv.1.toNat).xt)).sum = x := by
    rw [(rawSum_field h.ok h1).2, h.pass]
    congr 1
    refine List.map_congr_left fun iv hiv => ?_
    by_cases hd : dead iv.1
    · rw [(h.blank _ (hr iv hiv) hd).1.xt, (h.blank _ (hr iv hiv) hd).2.xt]
    · rw [h.alive _ (hr iv hiv) hd]
  rw [h1', e, this, h.lo, h.hi, h.config]
  exact hp

end Coin

/-- C117 for a history. If the features that are listed with value 0 are 0 in all examples of the history that list them, then leaving them out changes
no prediction. Missing from the full statement: features that are 0 in some examples and not in others, see `C117_zero_false`. -/
theorem C117_history_partial (dbg : Bool) (hash : HashFn) (cfg : CoinConfig K) (g : GlobalConfig) (hg : g.interactions = []) (es es' : List (TrainEx K))
    (c : Coin K) (hc : Coin.Reached dbg hash cfg g es c)
    (he : List.Forall₂ (fun e e' => WithoutZeros e.feats e'.feats ∧ e'.label = e.label ∧ e'.weight = e.weight) es es')
    (hz : ∀ e ∈ es, ∀ e2 ∈ es, ∀ iv ∈ e.feats.allFeatures, ∀ jv ∈ e2.feats.allFeatures, iv.1 = jv.1 → iv.2 = 0 → jv.2 = 0)
    (h1 : g.constantFeatureEnabled = true → ∀ e ∈ es, ∀ iv ∈ e.feats.allFeatures, iv.1.toNat = 2 ^ g.numBits / 2 → iv.2 ≠ 0) :
    ∃ c', Coin.Reached dbg hash cfg g es' c' ∧ ∀ f r, c'.predict dbg f = .ok r ↔ c.predict dbg f = .ok r := by
  have hps := reached_pass hc hg
  have hb : g.numBits ≤ 31 := (reached_ok hc).1.le31
  obtain ⟨nma, c0, hn, h0, ht⟩ := hc
  have hps0 := reached_pass (⟨nma, c0, hn, h0, rfl⟩ : Coin.Reached dbg hash cfg g [] c0) hg
  obtain ⟨hok, _, _, _, hw⟩ := Coin.new_ok hn h0
  let dead : U32 → Prop := fun i => ∃ e ∈ es, ∃ iv ∈ e.feats.allFeatures, iv.1 = i ∧ iv.2 = 0
  obtain ⟨c', k1, k2⟩ := DRel.trainAll (dbg := dbg) (dead := dead) (nb := g.numBits) (pass := c0.pass) (c := c0) (c' := c0) (c1 := c)
    (he.imp fun _ _ h => ⟨by rw [hps0]; exact visited_zeros h.1, h.2⟩) rfl (by
      intro e hm iv hiv
      rw [hps0] at hiv
      unfold visited constVisit at hiv
      simp only [List.flatMap_nil, List.append_nil, List.mem_append] at hiv
      rcases hiv with hiv | hiv
      · exact ⟨fun ⟨e2, h2, jv, hj, hij, h0⟩ => hz e2 h2 e hm jv hj iv hiv hij h0, fun h0 => ⟨e, hm, iv, hiv, rfl, h0⟩⟩
      · split at hiv
        · rename_i hcst
          simp only [List.mem_singleton] at hiv
          subst hiv
          refine ⟨fun ⟨e2, h2, jv, hj, hij, h0⟩ => absurd h0 (h1 hcst e2 h2 jv hj ?_), fun h0 => absurd h0 (by simp)⟩
          rw [hij]
          exact constantFeatureIndex_toNat (by omega)
        · simp at hiv)
    ⟨hok, hok, rfl, rfl, rfl, rfl, rfl, rfl, fun _ _ _ => rfl, fun i hi _ => by rw [hw _ hi]; exact ⟨⟨rfl, rfl, rfl, rfl, rfl⟩, ⟨rfl, rfl, rfl, rfl, rfl⟩⟩⟩ ht
  exact ⟨c', ⟨nma, c0, hn, h0, k1⟩, fun f r => ⟨k2.symm.predict, k2.predict⟩⟩

section examples

/-- Exact arithmetic on the rationals, for the examples. -/
local instance transRatZeros : Trans ℚ where
  exp := id
  ln := id
  powf := fun a _ => a
  sqrt := id

/-- C117 fails for learning: feature 3 is 0 in the first example, and whether the example lists it changes what is learned about it from the second. -/
theorem C117_zero_false : ∃ (c c' : Coin ℚ) (p p' : ℚ × ℚ),
    WithoutZeros (twoFeats 1#32 3#32 1 0) (ratFeat 1#32 1) ∧
    Coin.Reached true tinyHash CoinConfig.dflt tinyGlobal [⟨twoFeats 1#32 3#32 1 0, 10, 1⟩, ⟨ratFeat 3#32 1, 1, 1⟩, ⟨ratFeat 3#32 1, 1, 1⟩] c ∧
    Coin.Reached true tinyHash CoinConfig.dflt tinyGlobal [⟨ratFeat 1#32 1, 10, 1⟩, ⟨ratFeat 3#32 1, 1, 1⟩, ⟨ratFeat 3#32 1, 1, 1⟩] c' ∧
    c.predict true (ratFeat 3#32 1) = .ok p ∧ c'.predict true (ratFeat 3#32 1) = .ok p' ∧ p ≠ p' :=
  ⟨_, _, _, _, by unfold WithoutZeros; decide +kernel, ⟨1, _, by decide, rfl, rfl⟩, ⟨1, _, by decide, rfl, rfl⟩, rfl, rfl, by decide +kernel⟩

/-- One learn call is enough: a feature of value 0 changes the largest gradient of its weight, and the weight that is used in predictions. -/
theorem C117_learn_false : ∃ (c c1 c2 : Coin ℚ) (s s' : WState ℚ),
    WithoutZeros (twoFeats 1#32 3#32 1 0) (ratFeat 1#32 1) ∧
    Coin.Reached true tinyHash CoinConfig.dflt tinyGlobal [⟨ratFeat 3#32 1, 3, 1⟩] c ∧
    c.learn true (twoFeats 1#32 3#32 1 0) 10 1 = .ok c1 ∧ c.learn true (ratFeat 1#32 1) 10 1 = .ok c2 ∧
    c1.Holds 3#32 s ∧ c2.Holds 3#32 s' ∧ s'.mg ≠ s.mg ∧ s'.xt ≠ s.xt :=
  ⟨_, _, _, _, _, by unfold WithoutZeros; decide +kernel, ⟨1, _, by decide, rfl, rfl⟩, rfl, rfl, rfl, rfl, by decide +kernel, by decide +kernel⟩

/-- A history in which feature 3 is listed twice, with value 0, and an example to predict that lists it with another value. -/
example : ∃ c : Coin ℚ, ∃ p : ℚ × ℚ,
    Coin.Reached true tinyHash CoinConfig.dflt tinyGlobal [⟨twoFeats 1#32 3#32 1 0, 10, 1⟩, ⟨twoFeats 3#32 0#32 0 2, -1, 1⟩] c ∧
    List.Forall₂ (fun (e e' : TrainEx ℚ) => WithoutZeros e.feats e'.feats ∧ e'.label = e.label ∧ e'.weight = e.weight)
      [⟨twoFeats 1#32 3#32 1 0, 10, 1⟩, ⟨twoFeats 3#32 0#32 0 2, -1, 1⟩] [⟨ratFeat 1#32 1, 10, 1⟩, ⟨ratFeat 0#32 2, -1, 1⟩] ∧
    c.predict true (twoFeats 1#32 3#32 1 5) = .ok p ∧ p.2 ≠ 0 ∧ tinyGlobal.interactions = [] ∧ tinyGlobal.constantFeatureEnabled = true ∧
    (∀ f ∈ [twoFeats 1#32 3#32 1 0, twoFeats 3#32 0#32 0 2], ∀ f2 ∈ [twoFeats 1#32 3#32 1 0, twoFeats 3#32 0#32 0 2],
      ∀ iv ∈ f.allFeatures, ∀ jv ∈ f2.allFeatures, iv.1 = jv.1 → iv.2 = 0 → jv.2 = 0) ∧
    ∀ f ∈ [twoFeats 1#32 3#32 1 0, twoFeats 3#32 0#32 0 2], ∀ iv ∈ f.allFeatures, iv.1.toNat = 2 ^ tinyGlobal.numBits / 2 → iv.2 ≠ 0 :=
  ⟨_, _, ⟨1, _, by decide, rfl, rfl⟩, .cons ⟨by unfold WithoutZeros; decide +kernel, rfl, rfl⟩ (.cons ⟨by unfold WithoutZeros; decide +kernel, rfl, rfl⟩ .nil),
    rfl, by decide +kernel, rfl, rfl, by decide +kernel, by decide +kernel⟩

/-- A regressor, an example with a feature of value 0 and the example without it, for predictions and for learning. -/
example : ∃ c c1 : Coin ℚ, ∃ p : ℚ × ℚ,
    WithoutZeros (twoFeats 1#32 3#32 1 0) (ratFeat 1#32 1) ∧
    Coin.Reached true tinyHash CoinConfig.dflt tinyGlobal [⟨twoFeats 1#32 3#32 1 4, 3, 1⟩] c ∧ tinyGlobal.interactions = [] ∧
    c.predict true (twoFeats 1#32 3#32 1 0) = .ok p ∧ c.learn true (twoFeats 1#32 3#32 1 0) 10 1 = .ok c1 ∧ ∃ s, c1.Holds 3#32 s :=
  ⟨_, _, _, by unfold WithoutZeros; decide +kernel, ⟨1, _, by decide, rfl, rfl⟩, rfl, rfl, rfl, _, rfl⟩

end examples

end Rml
