import Verif.Props.Coin2
import Mathlib.Tactic.FieldSimp
import Mathlib.Tactic.Ring
import Mathlib.Data.List.Perm.Basic

/-! The Coin regressor under changes of the units of features, of the order of features and of the sign of labels. -/

set_option linter.unusedSectionVars false

namespace Rml
namespace Coin
variable {K : Type} [Field K] [LinearOrder K] [IsStrictOrderedRing K] [Trans K]

attribute [local instance] fieldFlt

/-- One weight in the other units, with the sign of the labels changed by `σ`. -/
structure WRel (a σ : K) (s s' : WState K) : Prop where
  xt : s'.xt = σ * s.xt / a
  zt : s'.zt = σ * a * s.zt
  g2 : s'.g2 = |a| * s.g2
  mx : s'.mx = |a| * s.mx
  we : s'.we = s.we
  mg : s'.mg = s.mg

/-- A range and the range with the sign changed. -/
def RRel (σ lo hi lo' hi' : K) : Prop := (σ = 1 ∧ lo' = lo ∧ hi' = hi) ∨ (σ = -1 ∧ lo' = -hi ∧ hi' = -lo)

theorem RRel.sq {σ lo hi lo' hi' : K} (h : RRel σ lo hi lo' hi') : σ * σ = 1 := by
  rcases h with ⟨rfl, _⟩ | ⟨rfl, _⟩ <;> simp

theorem betWeight_rel {a σ alpha : K} (ha : a ≠ 0) {s s' : WState K} (zt : s'.zt = σ * a * s.zt) (g2 : s'.g2 = |a| * s.g2)
    (we : s'.we = s.we) (mg : s'.mg = s.mg) (mx : K) : betWeight alpha s' (|a| * mx) = σ * betWeight alpha s mx / a := by
  have hpos : 0 < |a| := abs_pos.2 ha
  have hsq : |a| * |a| = a * a := abs_mul_abs_self a
  have e : s.mg * (|a| * mx) = |a| * (s.mg * mx) := by ring
  unfold betWeight
  simp only [flt_lt, flt_mul, flt_zero, flt_div, flt_add, decide_eq_true_eq, zt, g2, we, mg, e]
  by_cases h : 0 < s.mg * mx
  · rw [if_pos h, if_pos (mul_pos hpos h)]
    have : |a| * (s.mg * mx) * (|a| * (s.mg * mx) + |a| * s.g2) = (a * a) * (s.mg * mx * (s.mg * mx + s.g2)) := by rw [← hsq]; ring
    rw [this]
    by_cases hD : s.mg * mx * (s.mg * mx + s.g2) = 0
    · rw [hD]; simp
    · field_simp
  · rw [if_neg h, if_neg (fun h' => h (pos_of_mul_pos_right h' hpos.le))]
    simp

theorem innerUpdate_rel {a σ alpha beta avg u x : K} (ha : a ≠ 0) (hσ : σ * σ = 1) {s s' : WState K} (h : WRel a σ s s') :
    WRel a σ (innerUpdate alpha beta avg u x s) (innerUpdate alpha beta avg (σ * u) (a * x) s') := by
  have hσ0 : σ ≠ 0 := by rintro rfl; simp at hσ
  have habs : |σ| = 1 := by
    have : |σ| * |σ| = 1 := by rw [abs_mul_abs_self, hσ]
    nlinarith [abs_nonneg σ]
  have hmx : (innerUpdate alpha beta avg (σ * u) (a * x) s').mx = |a| * (innerUpdate alpha beta avg u x s).mx := by
    rw [innerUpdate_mx, innerUpdate_mx, h.mx, abs_mul, mul_max_of_nonneg _ _ (abs_nonneg a)]
  have hmg : (innerUpdate alpha beta avg (σ * u) (a * x) s').mg = (innerUpdate alpha beta avg u x s).mg := by
    rw [innerUpdate_mg, innerUpdate_mg, h.mg, abs_mul, habs, one_mul]
  have hbet : betWeight alpha { s' with mg := (innerUpdate alpha beta avg (σ * u) (a * x) s').mg } (innerUpdate alpha beta avg (σ * u) (a * x) s').mx =
      σ * betWeight alpha { s with mg := (innerUpdate alpha beta avg u x s).mg } (innerUpdate alpha beta avg u x s).mx / a := by
    rw [hmx]
    exact betWeight_rel (s := { s with mg := (innerUpdate alpha beta avg u x s).mg })
      (s' := { s' with mg := (innerUpdate alpha beta avg (σ * u) (a * x) s').mg }) ha h.zt h.g2 h.we hmg _
  have hxt : ∀ (u x : K) (s : WState K), (innerUpdate alpha beta avg u x s).xt =
      betWeight alpha { s with mg := (innerUpdate alpha beta avg u x s).mg } (innerUpdate alpha beta avg u x s).mx / avg := fun _ _ _ => rfl
  have hwe : ∀ (u x : K) (s : WState K), (innerUpdate alpha beta avg u x s).we = s.we + (-(u * x)) *
      betWeight alpha { s with mg := (innerUpdate alpha beta avg u x s).mg } (innerUpdate alpha beta avg u x s).mx := fun _ _ _ => rfl
  have hzt : ∀ (u x : K) (s : WState K), (innerUpdate alpha beta avg u x s).zt = s.zt + -(u * x) := fun _ _ _ => rfl
  have hg2 : ∀ (u x : K) (s : WState K), (innerUpdate alpha beta avg u x s).g2 = s.g2 + |u * x| := fun _ _ _ => rfl
  refine ⟨?_, ?_, ?_, hmx, ?_, hmg⟩
  · rw [hxt, hxt, hbet]
    by_cases h0 : avg = 0
    · simp [h0]
    · field_simp
  · rw [hzt, hzt, h.zt]; ring
  · rw [hg2, hg2, h.g2, abs_mul, abs_mul, abs_mul, abs_mul, habs]; ring
  · rw [hwe, hwe, hbet, h.we]
    have : -(σ * u * (a * x)) * (σ * betWeight alpha { s with mg := (innerUpdate alpha beta avg u x s).mg } (innerUpdate alpha beta avg u x s).mx / a) =
        (σ * σ) * (-(u * x) * betWeight alpha { s with mg := (innerUpdate alpha beta avg u x s).mg } (innerUpdate alpha beta avg u x s).mx) := by
      field_simp
    rw [this, hσ, one_mul]

theorem fold_rel {a σ alpha beta avg u : K} (ha : a ≠ 0) (hσ : σ * σ = 1) (l : List K) : ∀ {s s' : WState K}, WRel a σ s s' →
    WRel a σ (l.foldl (fun s x => innerUpdate alpha beta avg u x s) s)
      ((l.map (a * ·)).foldl (fun s x => innerUpdate alpha beta avg (σ * u) x s) s') := by
  induction l with
  | nil => intro s s' h; exact h
  | cons x l ih => intro s s' h; exact ih (innerUpdate_rel ha hσ h)

theorem clamp_rel {σ lo hi lo' hi' : K} (h : RRel σ lo hi lo' hi') {x y : K} (hy : Flt.clamp x lo hi = .ok y) :
    Flt.clamp (σ * x) lo' hi' = .ok (σ * y) := by
  unfold Flt.clamp at hy ⊢
  simp only [flt_lt, flt_le, decide_eq_true_eq] at hy ⊢
  rcases h with ⟨rfl, rfl, rfl⟩ | ⟨rfl, rfl, rfl⟩
  · simpa using hy
  · split at hy
    · rename_i hle
      rw [if_pos (neg_le_neg hle)]
      simp only [Except.ok.injEq] at hy ⊢
      rw [← hy]
      simp only [neg_mul, one_mul, neg_lt_neg_iff]
      by_cases h1 : x < lo
      · rw [if_pos h1, if_neg (by exact not_lt.2 (h1.le.trans hle)), if_pos h1]
      · rw [if_neg h1, if_neg h1]
        split <;> rfl
    · simp at hy

/-- Two lists of visits with the same values at every index, up to units, are permutations of each other, up to units. -/
theorem perm_of_values {a : U32 → K} {L L' : List (U32 × K)}
    (h : ∀ i, ((L'.filter (fun iv => iv.1 = i)).map (·.2)) = ((L.filter (fun iv => iv.1 = i)).map (·.2)).map (a i * ·)) :
    L'.Perm (L.map fun iv => (iv.1, a iv.1 * iv.2)) := by
  classical
  have key : ∀ (M : List (U32 × K)) i v, M.count (i, v) = ((M.filter (fun iv => iv.1 = i)).map (·.2)).count v := by
    intro M i v
    induction M with
    | nil => rfl
    | cons e M ih =>
      obtain ⟨j, w⟩ := e
      rw [List.count_cons, ih, List.filter_cons]
      by_cases hj : j = i
      · simp [hj, List.count_cons]
      · simp [hj]
  rw [List.perm_iff_count]
  rintro ⟨i, v⟩
  rw [key, key, h i]
  congr 1
  clear h key
  induction L with
  | nil => rfl
  | cons e L ih =>
    rw [List.map_cons, List.filter_cons, List.filter_cons]
    by_cases hj : e.1 = i
    · simp [hj, ih]
    · simp [hj, ih]

/-- The two regressors behave the same, up to units and signs. -/
structure CRel (a : U32 → K) (σ : K) (nb : Nat) (c c' : Coin K) : Prop where
  ok : c.Ok nb
  ok' : c'.Ok nb
  config : c'.config = c.config
  pass : c'.pass = c.pass
  loss : c.lossFunction = .squared
  loss' : c'.lossFunction = .squared
  states : c'.modelStates = c.modelStates
  range : RRel σ c.minLabel c.maxLabel c'.minLabel c'.maxLabel
  weights : ∀ i : U32, i.toNat < 2 ^ nb → WRel (a i) σ (c.weights.wst i.toNat) (c'.weights.wst i.toNat)

theorem _root_.Rml.SameUpTo.perm {a : U32 → K} {pass : PassCfg} {f f' : SparseFeatures K} (h : SameUpTo pass a f f') :
    (visited pass f').Perm ((visited pass f).map fun iv => (iv.1, a iv.1 * iv.2)) := perm_of_values h

theorem _root_.Rml.SameUpTo.range {a : U32 → K} {pass : PassCfg} {f f' : SparseFeatures K} (h : SameUpTo pass a f f') {nb : Nat}
    (hr : ∀ iv ∈ visited pass f, iv.1.toNat < 2 ^ nb) : ∀ iv ∈ visited pass f', iv.1.toNat < 2 ^ nb := by
  intro iv hiv
  obtain ⟨jv, hj, rfl⟩ := List.mem_map.1 (h.perm.mem_iff.1 hiv)
  exact hr jv hj

/-- The sum of the predictions of the weights. -/
def predSum (alpha : K) (st : Nat → WState K) (vs : List (U32 × K)) : K :=
  (vs.map fun iv => betWeight alpha (st iv.1.toNat) (max (st iv.1.toNat).mx |iv.2|) * iv.2).sum

/-- The squared norm of the normalized values. -/
def normSum (st : Nat → WState K) (vs : List (U32 × K)) : K :=
  (vs.map fun iv => if 0 < max (st iv.1.toNat).mx |iv.2| then
    iv.2 / max (st iv.1.toNat).mx |iv.2| * (iv.2 / max (st iv.1.toNat).mx |iv.2|) else 0).sum

/-- What the read pass of a learn call adds up. -/
theorem innerPredict_sum (alpha : K) (st : Nat → WState K) (vs : List (U32 × K)) : ∀ acc : K × K,
    vs.foldl (fun acc iv => innerPredict alpha acc iv.2 (st iv.1.toNat)) acc =
      (acc.1 + predSum alpha st vs, acc.2 + normSum st vs) := by
  unfold predSum normSum
  induction vs with
  | nil => intro acc; simp
  | cons iv vs ih =>
    intro acc
    rw [List.foldl_cons, ih]
    simp only [List.map_cons, List.sum_cons]
    unfold innerPredict
    simp only [flt_fmax, flt_abs, flt_add, flt_mul, flt_lt, flt_zero, flt_div, decide_eq_true_eq]
    split
    · ext <;> simp <;> ring
    · ext <;> simp; ring

theorem bettingPredict_eq {dbg : Bool} {c : Coin K} {nb : Nat} (hc : c.Ok nb) {f : SparseFeatures K} {w : K}
    (hr : ∀ iv ∈ visited c.pass f, iv.1.toNat < 2 ^ nb) {ms : CoinModelState K} {rest : List (CoinModelState K)} (hm : c.modelStates = ms :: rest) :
    c.bettingPredict dbg f w = (do
      let N := normSum c.weights.wst (visited c.pass f)
      let avg := (ms.normalizedSumNormX + N * w + Flt.lit 1 1000000) / (ms.totalWeight + w)
      let p ← Flt.clamp (predSum c.config.alpha c.weights.wst (visited c.pass f) / avg) c.minLabel c.maxLabel
      .ok (p, { c with modelStates := ⟨ms.normalizedSumNormX + N * w, ms.totalWeight + w⟩ :: rest, averageSquaredNormX := avg })) := by
  unfold bettingPredict foreachFeatureWithState
  have := readPass dbg nb (innerPredict c.config.alpha) (visited c.pass f) c.weights hc.table hr (Flt.zero, Flt.zero)
  rw [this, innerPredict_sum, hm]
  simp only [flt_zero, zero_add]
  rfl

theorem range_seen {σ lo hi lo' hi' : K} (h : RRel σ lo hi lo' hi') (l : K) :
    RRel σ (min l lo) (max l hi) (min (σ * l) lo') (max (σ * l) hi') := by
  rcases h with ⟨rfl, rfl, rfl⟩ | ⟨rfl, rfl, rfl⟩
  · exact .inl ⟨rfl, by simp, by simp⟩
  · refine .inr ⟨rfl, ?_, ?_⟩
    · rw [neg_one_mul, min_neg_neg]
    · rw [neg_one_mul, max_neg_neg]

theorem sums_rel {a : U32 → K} (ha : ∀ i, a i ≠ 0) {σ : K} {nb : Nat} {st st' : Nat → WState K}
    (h : ∀ i : U32, i.toNat < 2 ^ nb → WRel (a i) σ (st i.toNat) (st' i.toNat)) (alpha : K) {L L' : List (U32 × K)}
    (hL : L'.Perm (L.map fun iv => (iv.1, a iv.1 * iv.2))) (hr : ∀ iv ∈ L, iv.1.toNat < 2 ^ nb) :
    predSum alpha st' L' = σ * predSum alpha st L ∧ normSum st' L' = normSum st L := by
  unfold predSum normSum
  have hmx : ∀ iv ∈ L, max (st' iv.1.toNat).mx |a iv.1 * iv.2| = |a iv.1| * max (st iv.1.toNat).mx |iv.2| := by
    intro iv hiv
    rw [(h iv.1 (hr iv hiv)).mx, abs_mul, mul_max_of_nonneg _ _ (abs_nonneg _)]
  constructor
  · rw [(hL.map _).sum_eq, ← List.sum_map_mul_left, List.map_map]
    congr 1
    refine List.map_congr_left fun iv hiv => ?_
    simp only [Function.comp]
    have hw := h iv.1 (hr iv hiv)
    rw [hmx iv hiv, betWeight_rel (ha iv.1) hw.zt hw.g2 hw.we hw.mg]
    have := ha iv.1
    field_simp
  · rw [(hL.map _).sum_eq, List.map_map]
    congr 1
    refine List.map_congr_left fun iv hiv => ?_
    simp only [Function.comp]
    rw [hmx iv hiv]
    have hpos : 0 < |a iv.1| := abs_pos.2 (ha iv.1)
    have hsq : |a iv.1| * |a iv.1| = a iv.1 * a iv.1 := abs_mul_abs_self _
    by_cases h0 : 0 < max (st iv.1.toNat).mx |iv.2|
    · rw [if_pos h0, if_pos (mul_pos hpos h0), div_mul_div_comm, div_mul_div_comm]
      have e1 : a iv.1 * iv.2 * (a iv.1 * iv.2) = (a iv.1 * a iv.1) * (iv.2 * iv.2) := by ring
      have e2 : |a iv.1| * max (st iv.1.toNat).mx |iv.2| * (|a iv.1| * max (st iv.1.toNat).mx |iv.2|) =
          (a iv.1 * a iv.1) * (max (st iv.1.toNat).mx |iv.2| * max (st iv.1.toNat).mx |iv.2|) := by rw [← hsq]; ring
      rw [e1, e2, mul_div_mul_left _ _ (mul_ne_zero (ha _) (ha _))]
    · rw [if_neg h0, if_neg (fun h' => h0 (pos_of_mul_pos_right h' hpos.le))]

theorem clamp_range {x lo hi y : K} (h : Flt.clamp x lo hi = .ok y) : lo ≤ hi ∧ lo ≤ y ∧ y ≤ hi := by
  unfold Flt.clamp at h
  simp only [flt_lt, flt_le, decide_eq_true_eq] at h
  split at h
  · rename_i hle
    simp only [Except.ok.injEq] at h
    rw [← h]
    refine ⟨hle, ?_⟩
    split
    · exact ⟨le_refl _, hle⟩
    · split
      · exact ⟨hle, le_refl _⟩
      · rename_i a b; exact ⟨not_lt.1 a, not_lt.1 b⟩
  · simp at h

theorem foldl_valuesAt (c : Coin K) (f : SparseFeatures K) (i : U32) (g : WState K → K → WState K) (s : WState K) :
    (c.visitsAt f i.toNat).foldl (fun s iv => g s iv.2) s = (valuesAt c.pass f i).foldl g s := by
  rw [← valuesAt_visits, List.foldl_map]

theorem learn_rel {dbg : Bool} {a : U32 → K} (ha : ∀ i, a i ≠ 0) {σ : K} {nb : Nat} {c c' : Coin K} (h : CRel a σ nb c c') {f f' : SparseFeatures K}
    (hf : SameUpTo c.pass a f f') {l w : K} {c1 : Coin K} (hl : c.learn dbg f l w = .ok c1) :
    ∃ c1', c'.learn dbg f' (σ * l) w = .ok c1' ∧ CRel a σ nb c1 c1' ∧ c1.pass = c.pass := by
  obtain ⟨p, cb, hb, hc1, hok1, hcfg, hmin, hmax, hloss, hpass, hr, hw⟩ := learn_inv h.ok hl
  have hσ := h.range.sq
  have hr' : ∀ iv ∈ visited c'.pass f', iv.1.toNat < 2 ^ nb := by rw [h.pass]; exact hf.range hr
  have hrange := range_seen h.range l
  have hok : (c.seen l).Ok nb := ⟨h.ok.table, h.ok.bits, h.ok.le31, h.ok.models⟩
  have hok' : (c'.seen (σ * l)).Ok nb := ⟨h.ok'.table, h.ok'.bits, h.ok'.le31, h.ok'.models⟩
  obtain ⟨ms, rest, hms⟩ : ∃ ms rest, c.modelStates = ms :: rest := by
    cases hm : c.modelStates with
    | nil => exact absurd hm h.ok.models
    | cons ms rest => exact ⟨ms, rest, rfl⟩
  obtain ⟨hS, hN⟩ := sums_rel ha h.weights c.config.alpha hf.perm hr
  rw [bettingPredict_eq hok (c := c.seen l) hr hms] at hb
  obtain ⟨p', hp, hb⟩ := bind_ok.1 hb
  simp only [Except.ok.injEq, Prod.mk.injEq] at hb
  obtain ⟨rfl, hcb⟩ := hb
  obtain ⟨hle, hp1, hp2⟩ := clamp_range hp
  obtain ⟨c1', hl'⟩ := learn_succeeds (dbg := dbg) (w := w) (l := σ * l) h.ok' hr' (by
    simp only [flt_fmin, flt_fmax, flt_le, decide_eq_true_eq]
    rcases hrange with ⟨_, e1, e2⟩ | ⟨_, e1, e2⟩
    · rw [e1, e2]; exact hle
    · rw [e1, e2]; exact neg_le_neg hle)
  refine ⟨c1', hl', ?_, hpass⟩
  obtain ⟨q, cb', hb', hc1', hok1', hcfg', hmin', hmax', hloss', hpass', _, hw'⟩ := learn_inv h.ok' hl'
  rw [bettingPredict_eq hok' (c := c'.seen (σ * l)) hr' (h.states.trans hms)] at hb'
  obtain ⟨q', hq, hb'⟩ := bind_ok.1 hb'
  simp only [Except.ok.injEq, Prod.mk.injEq] at hb'
  obtain ⟨rfl, hcb'⟩ := hb'
  simp only [seen, flt_fmin, flt_fmax] at hp hq hcb hcb' hp1 hp2
  rw [h.pass, h.config, hS, hN, mul_div_assoc] at hq
  rw [h.pass, hN] at hcb'
  have hqp : q' = σ * p' := Except.ok.inj (hq.symm.trans (clamp_rel hrange hp))
  subst hqp
  have havg : cb'.averageSquaredNormX = cb.averageSquaredNormX := by rw [← hcb, ← hcb']
  have hupd : cb'.updateOf (σ * p') (σ * l) w = σ * cb.updateOf p' l w := by
    have e1 : cb.lossFunction = .squared := by rw [← hcb]; exact h.loss
    have e1' : cb'.lossFunction = .squared := by rw [← hcb']; exact h.loss'
    have e2 : cb.minLabel = min l c.minLabel := by rw [← hcb]
    have e3 : cb.maxLabel = max l c.maxLabel := by rw [← hcb]
    have e2' : cb'.minLabel = min (σ * l) c'.minLabel := by rw [← hcb']
    have e3' : cb'.maxLabel = max (σ * l) c'.maxLabel := by rw [← hcb']
    have hq2 := clamp_range (clamp_rel hrange hp)
    unfold updateOf
    rw [e1, e1']
    simp only [LossFunction.firstDerivative, SquaredLoss.firstDerivative, e2, e3, e2', e3', flt_lt, decide_eq_true_eq, not_lt.2 hp1, not_lt.2 hp2,
      not_lt.2 hq2.2.1, not_lt.2 hq2.2.2, if_false, flt_mul, flt_sub]
    ring
  refine ⟨hok1, hok1', by rw [hcfg, hcfg', h.config], by rw [hpass, hpass', h.pass], by rw [hloss, h.loss], by rw [hloss', h.loss'], ?_, ?_, ?_⟩
  · rw [hc1, hc1', ← hcb, ← hcb']
  · rw [hmin, hmax, hmin', hmax']; exact hrange
  · intro i hi
    rw [hw _ hi, hw' _ hi, foldl_valuesAt c f i (fun s x => innerUpdate c.config.alpha c.config.beta cb.averageSquaredNormX (cb.updateOf p' l w) x s),
      foldl_valuesAt c' f' i (fun s x => innerUpdate c'.config.alpha c'.config.beta cb'.averageSquaredNormX (cb'.updateOf (σ * p') (σ * l) w) x s),
      h.config, h.pass, havg, hupd, hf i]
    exact fold_rel (ha i) hσ _ (h.weights i hi)

theorem trainAll_rel {dbg : Bool} {a : U32 → K} (ha : ∀ i, a i ≠ 0) {σ : K} {nb : Nat} {pass : PassCfg} {es es' : List (TrainEx K)}
    (hes : List.Forall₂ (fun e e' => SameUpTo pass a e.feats e'.feats ∧ e'.label = σ * e.label ∧ e'.weight = e.weight) es es') :
    ∀ {c c' c1 : Coin K}, c.pass = pass → CRel a σ nb c c' → c.trainAll dbg es = .ok c1 → ∃ c1', c'.trainAll dbg es' = .ok c1' ∧ CRel a σ nb c1 c1' := by
  induction hes with
  | nil =>
    intro c c' c1 _ h ht
    simp only [trainAll, Except.ok.injEq] at ht
    subst ht
    exact ⟨c', rfl, h⟩
  | cons he _ ih =>
    intro c c' c1 hp h ht
    obtain ⟨h1, h2, h3⟩ := he
    rw [trainAll] at ht
    obtain ⟨c2, hc2, ht⟩ := bind_ok.1 ht
    obtain ⟨c2', hl, hrel, hp2⟩ := learn_rel ha h (by rw [hp]; exact h1) hc2
    obtain ⟨c1', h4, h5⟩ := ih (hp2.trans hp) hrel ht
    refine ⟨c1', ?_, h5⟩
    rw [trainAll, h2, h3, hl]
    exact h4

theorem predict_rel {dbg : Bool} {a : U32 → K} (ha : ∀ i, a i ≠ 0) {σ : K} {nb : Nat} {c c' : Coin K} (h : CRel a σ nb c c') {f f' : SparseFeatures K}
    (hf : SameUpTo c.pass a f f') {p raw : K} (hp : c.predict dbg f = .ok (p, raw)) :
    ∃ y, p = c.config.linkFunction.link y ∧ c'.predict dbg f' = .ok (c.config.linkFunction.link (σ * y), σ * raw) := by
  unfold predict at hp
  obtain ⟨x, h1, hp⟩ := bind_ok.1 hp
  obtain ⟨y, h2, hp⟩ := bind_ok.1 hp
  simp only [flt_isNaN, Bool.false_eq_true, if_false, Except.ok.injEq, Prod.mk.injEq] at hp h2
  obtain ⟨rfl, rfl⟩ := hp
  obtain ⟨hr, -⟩ := rawSum_inv h.ok h1
  have hr' : ∀ iv ∈ visited c'.pass f', iv.1.toNat < 2 ^ nb := by rw [h.pass]; exact hf.range hr
  have h1' := rawSum_eq (dbg := dbg) h.ok' hr'
  have e : _ = _ := (rawSum_field h.ok' h1').2
  rw [e, h.pass] at h1'
  have hx : ((visited c.pass f').map (fun iv => iv.2 * (c'.weights.wst iv.1.toNat).xt)).sum = σ * x := by
    rw [(rawSum_field h.ok h1).2, (hf.perm.map _).sum_eq, ← List.sum_map_mul_left, List.map_map]
    congr 1
    refine List.map_congr_left fun iv hiv => ?_
    simp only [Function.comp]
    rw [(h.weights iv.1 (hr iv hiv)).xt]
    have := ha iv.1
    field_simp
  rw [hx] at h1'
  refine ⟨y, rfl, ?_⟩
  unfold predict
  rw [h1', h.config]
  simp only [bind, Except.bind, flt_isNaN, Bool.false_eq_true, if_false]
  rw [clamp_rel h.range h2]


end Coin
end Rml
