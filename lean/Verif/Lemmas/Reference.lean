import Verif.SpecReference
import Verif.Lemmas.Units

/-! Lemmas for C105: the regressor refines the reference. -/

set_option linter.unusedSectionVars false

namespace Rml
open Coin
namespace Reference
variable {K : Type} [Field K] [LinearOrder K] [IsStrictOrderedRing K] [Trans K]

attribute [local instance] fieldFlt

theorem largestValue_cons (gx : K × K) (l : List (K × K)) : largestValue (gx :: l) = max (largestValue l) |gx.2| := by
  simp [largestValue, max_comm]

theorem foldr_max_nonneg (l : List K) : 0 ≤ l.foldr max 0 := by
  induction l with
  | nil => simp
  | cons a l ih => exact ih.trans (le_max_right _ _)

theorem largestGradient_cons (beta : K) (gx : K × K) (l : List (K × K)) :
    largestGradient beta (gx :: l) = if largestGradient beta l < |gx.1| then max |gx.1| beta else largestGradient beta l := by
  unfold largestGradient
  by_cases h : ∀ gx ∈ l, gx.1 = 0
  · rw [if_pos h]
    by_cases h1 : gx.1 = 0
    · rw [if_pos (by simpa [h1] using h), h1]; simp
    · rw [if_neg (by simp [h1]), if_pos (abs_pos.2 h1)]
      have : (l.map fun gx => |gx.1|).foldr max 0 = 0 := by
        clear h1
        induction l with
        | nil => rfl
        | cons a l ih => simp [h a (by simp), ih (fun x hx => h x (by simp [hx]))]
      simp only [List.map_cons, List.foldr_cons]
      rw [this, max_eq_left (abs_nonneg gx.1), max_comm]
  · rw [if_neg h, if_neg (by intro h2; exact h (fun x hx => h2 x (by simp [hx])))]
    simp only [List.map_cons, List.foldr_cons]
    split
    · rename_i k
      have := (le_max_right beta ((l.map fun gx => |gx.1|).foldr max 0)).trans k.le
      rw [max_eq_left this, max_comm]
    · rename_i k
      rw [max_left_comm, max_eq_right (not_lt.1 k)]

/-- The six numbers that the table holds. -/
def stateOf (alpha beta w : K) (l : List (K × K)) : WState K :=
  ⟨w, -(l.map fun gx => gx.1 * gx.2).sum, (l.map fun gx => |gx.1 * gx.2|).sum, largestValue l, wealth alpha beta l - alpha, largestGradient beta l⟩

theorem betWeight_stateOf (alpha beta w : K) (l : List (K × K)) (mg mx : K) :
    betWeight alpha { stateOf alpha beta w l with mg := mg } mx = bet (wealth alpha beta l) (mg * mx) l := by
  simp [betWeight, bet, stateOf]

theorem update_stateOf (alpha beta avg w : K) (l : List (K × K)) (g x : K) :
    innerUpdate alpha beta avg g x (stateOf alpha beta w l) = stateOf alpha beta (lastBet alpha beta ((g, x) :: l) / avg) ((g, x) :: l) := by
  have h1 : (if Flt.lt (stateOf alpha beta w l).mx (Flt.abs x) then Flt.abs x else (stateOf alpha beta w l).mx) = largestValue ((g, x) :: l) := by
    rw [largestValue_cons]
    simp only [stateOf, flt_lt, flt_abs, decide_eq_true_eq]
    split
    · rename_i h; exact (max_eq_right h.le).symm
    · rename_i h; exact (max_eq_left (not_lt.1 h)).symm
  have h2 : (if Flt.lt (stateOf alpha beta w l).mg (Flt.abs g) then (if Flt.lt beta (Flt.abs g) then Flt.abs g else beta) else (stateOf alpha beta w l).mg) =
      largestGradient beta ((g, x) :: l) := by
    rw [largestGradient_cons]
    simp only [stateOf, flt_lt, flt_abs, decide_eq_true_eq]
    split
    · split
      · rename_i h; exact (max_eq_left h.le).symm
      · rename_i h; exact (max_eq_right (not_lt.1 h)).symm
    · rfl
  unfold innerUpdate
  simp only
  rw [h1, h2, betWeight_stateOf]
  simp only [stateOf, lastBet, wealth, flt_add, flt_mul, flt_neg, flt_abs, flt_div, List.map_cons, List.sum_cons, WState.mk.injEq]
  refine ⟨trivial, by ring, by ring, trivial, by ring, trivial⟩

theorem fold_stateOf (alpha beta avg g : K) : ∀ (vs : List K) (w : K) (l : List (K × K)),
    vs.foldl (fun s x => innerUpdate alpha beta avg g x s) (stateOf alpha beta w l) =
      stateOf alpha beta (if vs = [] then w else lastBet alpha beta ((vs.map fun x => (g, x)).reverse ++ l) / avg) ((vs.map fun x => (g, x)).reverse ++ l) := by
  intro vs
  induction vs with
  | nil => intro w l; simp
  | cons x vs ih =>
    intro w l
    rw [List.foldl_cons, update_stateOf, ih]
    by_cases hv : vs = []
    · subst hv; simp
    · simp [hv]

/-- The example as the reference sees it. -/
def exOf (pass : PassCfg) (e : TrainEx K) : Example K := ⟨visited pass e.feats, e.label, e.weight⟩

theorem outcomesOf_values (pass : PassCfg) (e : TrainEx K) (g a : K) (i : U32) :
    outcomesOf ⟨exOf pass e, g, a⟩ i = ((valuesAt pass e.feats i).map fun x => (g, x)).reverse := by
  unfold outcomesOf exOf valuesAt
  rw [List.map_map]
  rfl

/-- The regressor holds what the reference says. -/
structure Inv (cfg : CoinConfig K) (nb : ℕ) (pass : PassCfg) (lo hi : K) (es : List (TrainEx K)) (c : Coin K) : Prop where
  ok : c.Ok nb
  cfg_eq : c.config = cfg
  pass_eq : c.pass = pass
  loss : c.lossFunction = .squared
  min_eq : c.minLabel = lowest lo (train cfg.alpha cfg.beta lo hi (es.map (exOf pass)))
  max_eq : c.maxLabel = highest hi (train cfg.alpha cfg.beta lo hi (es.map (exOf pass)))
  states : ∃ rest, c.modelStates = ⟨totalNorm (train cfg.alpha cfg.beta lo hi (es.map (exOf pass))),
    ((train cfg.alpha cfg.beta lo hi (es.map (exOf pass))).map fun s => s.ex.weight).sum⟩ :: rest
  weights : ∀ i : U32, i.toNat < 2 ^ nb → c.weights.wst i.toNat =
    stateOf cfg.alpha cfg.beta (weightOf cfg.alpha cfg.beta (train cfg.alpha cfg.beta lo hi (es.map (exOf pass))) i)
      (outcomes (train cfg.alpha cfg.beta lo hi (es.map (exOf pass))) i)

theorem train_snoc (alpha beta lo hi : K) (es : List (Example K)) (e : Example K) :
    train alpha beta lo hi (es ++ [e]) = step alpha beta lo hi (train alpha beta lo hi es) e :: train alpha beta lo hi es := by
  simp [train]

theorem clamp_clip {x lo hi p : K} (h : Flt.clamp x lo hi = .ok p) : lo ≤ hi ∧ p = clip lo hi x := by
  unfold Flt.clamp at h
  simp only [flt_le, flt_lt, decide_eq_true_eq] at h
  split at h
  · rename_i hle
    refine ⟨hle, ?_⟩
    simp only [Except.ok.injEq] at h
    rw [← h, clip]
    split
    · rename_i a; rw [max_eq_left]; exact (min_le_left _ _).trans a.le
    · rename_i a
      split
      · rename_i b; rw [min_eq_right b.le, max_eq_right hle]
      · rename_i b; rw [min_eq_left (not_lt.1 b), max_eq_right (not_lt.1 a)]
  · simp at h

theorem inv_step {cfg : CoinConfig K} {nb : ℕ} {pass : PassCfg} {lo hi : K} {es : List (TrainEx K)} {c c' : Coin K} (h : Inv cfg nb pass lo hi es c)
    {dbg : Bool} {e : TrainEx K} (hl : c.learn dbg e.feats e.label e.weight = .ok c') : Inv cfg nb pass lo hi (es ++ [e]) c' := by
  obtain ⟨p, c1, hbp, hc', hok', hcfg', hmin, hmax, hloss, hpass, hr, hwst⟩ := learn_inv h.ok hl
  obtain ⟨rest, hms⟩ := h.states
  have hokS : (c.seen e.label).Ok nb := ⟨h.ok.table, h.ok.bits, h.ok.le31, h.ok.models⟩
  have hmin' : c'.minLabel = min e.label c.minLabel := hmin
  have hmax' : c'.maxLabel = max e.label c.maxLabel := hmax
  rw [bettingPredict_eq hokS (c := c.seen e.label) hr (by exact hms)] at hbp
  simp only [Coin.seen, h.pass_eq, h.cfg_eq] at hbp
  obtain ⟨p', hp, hbp⟩ := bind_ok.1 hbp
  simp only [Except.ok.injEq, Prod.mk.injEq] at hbp
  obtain ⟨rfl, hc1⟩ := hbp
  rw [h.pass_eq] at hpass hr
  set H := train cfg.alpha cfg.beta lo hi (es.map (exOf pass)) with hH
  have hnorm : normSum c.weights.wst (visited pass e.feats) = normOf H (exOf pass e) := by
    unfold normSum normOf exOf
    congr 1
    refine List.map_congr_left fun iv hiv => ?_
    rw [h.weights iv.1 (hr iv hiv)]
    show (if 0 < max (largestValue (outcomes H iv.1)) |iv.2| then _ else _) = _
    split
    · rw [sq]; rfl
    · rename_i hn
      have : max (largestValue (outcomes H iv.1)) |iv.2| = 0 := le_antisymm (not_lt.1 hn) ((abs_nonneg _).trans (le_max_right _ _))
      rw [this]; simp
  have hpred : predSum cfg.alpha c.weights.wst (visited pass e.feats) =
      ((exOf pass e).values.map fun iv => newBet cfg.alpha cfg.beta (outcomes H iv.1) iv.2 * iv.2).sum := by
    unfold predSum exOf
    congr 1
    refine List.map_congr_left fun iv hiv => ?_
    rw [h.weights iv.1 (hr iv hiv)]
    have := betWeight_stateOf cfg.alpha cfg.beta (weightOf cfg.alpha cfg.beta H iv.1) (outcomes H iv.1) (largestGradient cfg.beta (outcomes H iv.1))
      (max (largestValue (outcomes H iv.1)) |iv.2|)
    unfold newBet
    rw [← this]
    rfl
  have havg : (totalNorm H + normSum c.weights.wst (visited pass e.feats) * e.weight + Flt.lit 1 1000000) / ((H.map fun s => s.ex.weight).sum + e.weight) =
      average H (exOf pass e) := by
    rw [hnorm, average]
    simp [exOf]
  rw [havg] at hp hc1
  obtain ⟨hle, hp'⟩ := clamp_clip hp
  rw [hpred] at hp'
  set s := step cfg.alpha cfg.beta lo hi H (exOf pass e) with hs
  have hsp : s.gradient = 2 * (p' - e.label) * e.weight := by
    rw [hs, step, hp', h.min_eq, h.max_eq]
    rfl
  have hgrad : c1.updateOf p' e.label e.weight = s.gradient := by
    rw [hsp]
    unfold updateOf
    have h1 : c1.lossFunction = .squared := by rw [← hc1]; exact h.loss
    have h2 : c1.minLabel ≤ p' := by rw [hp', ← hc1]; exact le_max_left _ _
    have h3 : p' ≤ c1.maxLabel := by rw [hp', ← hc1]; exact max_le hle (min_le_right _ _)
    rw [h1]
    simp only [LossFunction.firstDerivative, SquaredLoss.firstDerivative, flt_lt, flt_mul, flt_sub, decide_eq_true_eq]
    rw [if_neg (not_lt.2 h2), if_neg (not_lt.2 h3)]
    simp [fl]
  have hc1avg : c1.averageSquaredNormX = s.average := by rw [← hc1]; rfl
  have hT : train cfg.alpha cfg.beta lo hi ((es ++ [e]).map (exOf pass)) = s :: H := by
    rw [List.map_append, List.map_singleton, train_snoc]
  refine ⟨hok', hcfg'.trans h.cfg_eq, hpass, hloss.trans h.loss, ?_, ?_, ?_, ?_⟩
  · rw [hT, hmin', h.min_eq]; rfl
  · rw [hT, hmax', h.max_eq]; rfl
  · rw [hT]
    refine ⟨rest, ?_⟩
    rw [hc', ← hc1]
    simp only
    rw [hnorm]
    simp only [totalNorm, List.map_cons, List.sum_cons, hs, step, exOf]
    rw [add_comm e.weight]
  · intro i hi
    rw [hT, hwst i.toNat hi, foldl_valuesAt c e.feats i
      (fun st v => innerUpdate c.config.alpha c.config.beta c1.averageSquaredNormX (c1.updateOf p' e.label e.weight) v st), h.pass_eq, h.cfg_eq, hgrad, hc1avg,
      h.weights i hi, fold_stateOf]
    have ho : outcomesOf s i = ((valuesAt pass e.feats i).map fun x => (s.gradient, x)).reverse := outcomesOf_values pass e s.gradient s.average i
    have ho2 : outcomes (s :: H) i = ((valuesAt pass e.feats i).map fun x => (s.gradient, x)).reverse ++ outcomes H i := by
      rw [← ho]; simp [outcomes]
    rw [ho2]
    congr 1
    rw [weightOf, ho2, ho]
    by_cases hv : valuesAt pass e.feats i = []
    · rw [if_pos hv, if_pos (by simp [hv])]
    · rw [if_neg hv, if_neg (by simpa using hv)]

end Reference
end Rml
