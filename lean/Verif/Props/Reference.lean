import Verif.Lemmas.Reference
import Verif.Props.Stack

/-!
C105: the regressor computes coin betting, in exact arithmetic.
-/

set_option linter.unusedSectionVars false

namespace Rml
open Coin
variable {K : Type} [Field K] [LinearOrder K] [IsStrictOrderedRing K] [Trans K]

attribute [local instance] fieldFlt

theorem reference_new {hash : HashFn} {cfg : CoinConfig K} {g : GlobalConfig} {nma : ℕ} {c : Coin K} (hn : 0 < nma) (h : Coin.new hash cfg g nma = .ok c)
    {lo hi : K} (hlo : c.minLabel = lo) (hhi : c.maxLabel = hi) : Reference.Inv cfg g.numBits c.pass lo hi [] c := by
  obtain ⟨hok, hcfg, hloss, _, hz⟩ := Coin.new_ok hn h
  refine ⟨hok, hcfg, rfl, hloss, hlo, hhi, ?_, ?_⟩
  · unfold Coin.new at h
    obtain ⟨⟨pairs, triples⟩, _, h⟩ := bind_ok.1 h
    simp only at h
    split at h
    · obtain ⟨w, hw, h⟩ := bind_ok.1 h
      simp only [Except.ok.injEq] at h
      subst h
      cases nma with
      | zero => omega
      | succ k => exact ⟨List.replicate k ⟨0, 0⟩, by simp [Reference.totalNorm, Reference.train, List.replicate_succ]⟩
    · simp at h
  · intro i hi
    rw [hz _ hi]
    simp [Reference.stateOf, Reference.outcomes, Reference.train, Reference.largestValue, Reference.largestGradient, Reference.wealth, Reference.weightOf]

theorem reference_reached {dbg : Bool} {hash : HashFn} {cfg : CoinConfig K} {g : GlobalConfig} {es : List (TrainEx K)} {c : Coin K}
    (hc : Coin.Reached dbg hash cfg g es c) (lo hi : K)
    (hrange : (cfg.lossFunction = .squared ∧ lo = 0 ∧ hi = 0) ∨ ((∃ a b, cfg.lossFunction = .logistic a b) ∧ lo = -50 ∧ hi = 50)) :
    Reference.Inv cfg g.numBits c.pass lo hi es c := by
  obtain ⟨nma, c0, hn, h0, h⟩ := hc
  obtain ⟨hok, _, _, hr, _⟩ := Coin.new_ok hn h0
  have h1 : c0.minLabel = lo ∧ c0.maxLabel = hi := by
    rcases hrange with ⟨a, rfl, rfl⟩ | ⟨⟨x, y, a⟩, rfl, rfl⟩
    · rw [a] at hr
      simpa using hr
    · rw [a] at hr
      simpa using hr
  have key := Coin.trainAll_induct (dbg := dbg) (nb := g.numBits) (fun es c => Reference.Inv cfg g.numBits c0.pass lo hi es c)
    (fun es c c' e _ hi hl => Reference.inv_step hi hl) es [] c0 c hok (reference_new hn h0 h1.1 h1.2) h
  have := key.2
  rw [List.nil_append] at this
  rwa [this.pass_eq]

/-- C105: after any training history, the prediction for any features is the one of coin betting on that history. `visited` lists the values of an example (C12 says that these are its
features, the configured interactions and the constant). Labels start with the range `0..0`, or `-50..50` if the logistic loss is configured. -/
theorem C105_predict (dbg : Bool) (hash : HashFn) (cfg : CoinConfig K) (g : GlobalConfig) (es : List (TrainEx K)) (c : Coin K)
    (hc : Coin.Reached dbg hash cfg g es c) (lo hi : K)
    (hrange : (cfg.lossFunction = .squared ∧ lo = 0 ∧ hi = 0) ∨ ((∃ a b, cfg.lossFunction = .logistic a b) ∧ lo = -50 ∧ hi = 50))
    (f : SparseFeatures K) (hf : f.Fits g.numBits) (h : List (Reference.Step K))
    (hh : h = Reference.train cfg.alpha cfg.beta lo hi (es.map fun e => ⟨visited c.pass e.feats, e.label, e.weight⟩))
    (raw p : K) (hraw : raw = Reference.score cfg.alpha cfg.beta h (visited c.pass f)) (hp : p = Reference.clip (Reference.lowest lo h) (Reference.highest hi h) raw) :
    (cfg.linkFunction = .identity → c.predict dbg f = .ok (p, raw)) ∧
    (cfg.linkFunction = .logistic → c.predict dbg f = .ok (1 / (1 + Trans.exp (-p)), raw)) := by
  have _ : LawfulCmp K := lawfulCmp_field K
  have hinv := reference_reached hc lo hi hrange
  have hT : h = Reference.train cfg.alpha cfg.beta lo hi (es.map (Reference.exOf c.pass)) := hh
  obtain ⟨q, r, hq⟩ := C36_predict_never_panics dbg hash cfg g es c hc f hf
  have hmain : r = raw ∧ q = cfg.linkFunction.link p := by
    unfold Coin.predict at hq
    obtain ⟨x, hx, hq⟩ := bind_ok.1 hq
    obtain ⟨y, hy, hq⟩ := bind_ok.1 hq
    simp only [Except.ok.injEq, Prod.mk.injEq, flt_isNaN, Bool.false_eq_true, if_false] at hq hy
    obtain ⟨hq1, hq2⟩ := hq
    obtain ⟨_, hx2⟩ := rawSum_field hinv.ok hx
    obtain ⟨hr, _⟩ := rawSum_inv hinv.ok hx
    have hxr : x = raw := by
      rw [hx2, hraw, Reference.score]
      congr 1
      refine List.map_congr_left fun iv hiv => ?_
      rw [hinv.weights iv.1 (hr iv hiv), hT]
      rfl
    refine ⟨hq2.symm.trans hxr, ?_⟩
    rw [← hq1, hinv.cfg_eq, (Reference.clamp_clip hy).2, hp, hxr, hinv.min_eq, hinv.max_eq, hT]
  rw [hq, hmain.1, hmain.2]
  constructor
  · intro hl; rw [hl]; rfl
  · intro hl; rw [hl]; simp [LinkFunction.link]

/-- C105: what the table holds for a weight is what coin betting says about its outcomes. -/
theorem C105_table (dbg : Bool) (hash : HashFn) (cfg : CoinConfig K) (g : GlobalConfig) (es : List (TrainEx K)) (c : Coin K)
    (hc : Coin.Reached dbg hash cfg g es c) (lo hi : K)
    (hrange : (cfg.lossFunction = .squared ∧ lo = 0 ∧ hi = 0) ∨ ((∃ a b, cfg.lossFunction = .logistic a b) ∧ lo = -50 ∧ hi = 50))
    (h : List (Reference.Step K)) (hh : h = Reference.train cfg.alpha cfg.beta lo hi (es.map fun e => ⟨visited c.pass e.feats, e.label, e.weight⟩))
    (i : U32) (s : WState K) (hs : c.Holds i s) (l : List (K × K)) (hl : l = Reference.outcomes h i) :
    s.xt = Reference.weightOf cfg.alpha cfg.beta h i ∧ s.zt = -(l.map fun gx => gx.1 * gx.2).sum ∧ s.g2 = (l.map fun gx => |gx.1 * gx.2|).sum ∧
    s.mx = Reference.largestValue l ∧ s.mg = Reference.largestGradient cfg.beta l ∧ cfg.alpha + s.we = Reference.wealth cfg.alpha cfg.beta l := by
  have hinv := reference_reached hc lo hi hrange
  obtain ⟨hi', rfl⟩ := (holds_iff hinv.ok).1 hs
  rw [hinv.weights i hi', hl, hh]
  refine ⟨rfl, rfl, rfl, rfl, rfl, ?_⟩
  simp only [Reference.stateOf]
  rw [add_sub_cancel]
  rfl

section examples

/-- Exact arithmetic on the rationals, for the example. -/
local instance transRatReference : Trans ℚ where
  exp := id
  ln := id
  powf := fun a _ => a
  sqrt := id

/-- One feature in the default namespace. -/
def referenceFeat (i : U32) (v : ℚ) : SparseFeatures ℚ :=
  SparseFeatures.modifyOrCreate SparseFeatures.new .default (fun n => n.addFeature i v)

/-- Training on the same example twice: the hypotheses of C105 hold, and the prediction of coin betting is not trivial. -/
example : ∃ c : Coin ℚ, Coin.Reached true tinyHash CoinConfig.dflt tinyGlobal [⟨referenceFeat 1#32 1, 3, 1⟩, ⟨referenceFeat 1#32 1, 3, 1⟩] c ∧
    (CoinConfig.dflt : CoinConfig ℚ).lossFunction = .squared ∧ (CoinConfig.dflt : CoinConfig ℚ).linkFunction = .identity ∧
    (referenceFeat 1#32 1).Fits tinyGlobal.numBits ∧ c.predict true (referenceFeat 1#32 1) = .ok (4000000 / 12000003, 4000000 / 12000003) ∧
    Reference.score 4 1 (Reference.train 4 1 0 0 [⟨[(1#32, 1), (2#32, 1)], 3, 1⟩, ⟨[(1#32, 1), (2#32, 1)], 3, 1⟩]) [(1#32, 1), (2#32, 1)] = (4000000 / 12000003 : ℚ) := by
  refine ⟨_, ⟨1, _, by decide, rfl, rfl⟩, rfl, rfl, by unfold SparseFeatures.Fits; decide +kernel, by decide +kernel, by decide +kernel⟩

end examples

end Rml
