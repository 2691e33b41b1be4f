import Verif.Lemmas.Explore32
import Verif.Props.Nan

/-! C110: exploration in single precision. -/

set_option linter.unusedSectionVars false

namespace Rml

section ids
variable {F : Type} [Flt F]

theorem squareCb_ids {gamma eps : F} {sc out : List (Nat × F)} (h : squareCbProbs gamma eps sc = .ok out) : out.map (·.1) = sc.map (·.1) := by
  unfold squareCbProbs at h
  obtain ⟨_, _, h⟩ := bind_ok.1 h
  obtain ⟨b, _, h⟩ := bind_ok.1 h
  split at h
  · cases h
  · rename_i be hb
    simp only [List.getElem?_map, hb, Option.map_some] at h
    rw [enforce_ids h, List.map_set, List.map_map]
    obtain ⟨hlt, hbe⟩ := List.getElem?_eq_some_iff.1 hb
    refine List.ext_getElem? fun k => ?_
    rw [List.getElem?_set]
    split
    · rename_i hk
      subst hk
      simp [hlt, hbe]
    · rw [List.getElem?_map, List.getElem?_map]
      cases sc[k]? with
      | none => rfl
      | some e =>
        simp only [Option.map_some, Function.comp, Option.some.injEq]
        split <;> rfl

end ids

section
variable [t : F32Trans]

/-- Numbers are `f32`. -/
@[reducible] local instance policyNumbers : Flt (BitVec 32) := ieeeFlt t

theorem explore_call {dbg : Bool} {child : Red (BitVec 32)} {s : child.State} {ft ft1 : Features (BitVec 32)} {scores : List (Nat × BitVec 32)}
    (h : Workspace.predict dbg ⟨child, s⟩ ft = .ok (.actionScores scores, ft1)) (red : Red (BitVec 32)) (st : red.State) {out : List (Nat × BitVec 32)}
    (hr : ∀ d, wrapCall dbg child.meta ft 0 0 (child.predictImpl dbg s) = .ok (.actionScores scores, ft1, d) →
      red.predictImpl dbg st ft 0 = .ok (.actionProbs out, ft1, d)) :
    Workspace.predict dbg ⟨red, st⟩ ft = .ok (.actionProbs out, ft1) := by
  unfold Workspace.predict Red.predict at h
  obtain ⟨⟨p, f, d⟩, h1, h⟩ := bind_ok.1 h
  simp only [Except.ok.injEq, Prod.mk.injEq] at h
  obtain ⟨rfl, rfl⟩ := h
  have h2 := hr d h1
  obtain ⟨c1, c2⟩ := C27_no_overflow dbg child 0 (by decide)
  obtain ⟨r1, r2⟩ := C27_no_overflow dbg red 0 (by decide)
  unfold wrapCall at h1
  rw [show Depth.increment dbg (0 : Depth) child.meta.numModelsBelow 0 = .ok 0 from c1, ok_bind] at h1
  obtain ⟨⟨a, f', d2⟩, h3, h1⟩ := bind_ok.1 h1
  obtain ⟨d3, h4, h1⟩ := bind_ok.1 h1
  obtain ⟨u, h5, h1⟩ := bind_ok.1 h1
  simp only [Except.ok.injEq, Prod.mk.injEq] at h1
  obtain ⟨rfl, rfl, rfl⟩ := h1
  have hd : d2 = 0 := predictImpl_depth dbg child s _ _ _ _ _ (by decide) h3
  subst hd
  rw [show Depth.decrement dbg (0 : Depth) child.meta.numModelsBelow 0 = .ok 0 from c2] at h4
  simp only [Except.ok.injEq] at h4
  subst h4
  unfold Workspace.predict Red.predict wrapCall
  simp only
  rw [show Depth.increment dbg (0 : Depth) red.meta.numModelsBelow 0 = .ok 0 from r1, ok_bind, h2]
  simp only [ok_bind]
  rw [show Depth.decrement dbg (0 : Depth) red.meta.numModelsBelow 0 = .ok 0 from r2, ok_bind, h5]
  rfl

/-- C110 for epsilon-greedy: whatever moderate scores the model below gives, the answer is made of numbers between 0 and 1, one for each action. -/
theorem C110_greedy (dbg : Bool) (m : Meta) (eps : BitVec 32) (he : BetweenZeroOne eps) (child : Red (BitVec 32)) (s : child.State)
    (ft ft1 : Features (BitVec 32)) (scores : List (Nat × BitVec 32)) (h : Workspace.predict dbg ⟨child, s⟩ ft = .ok (.actionScores scores, ft1))
    (hne : scores ≠ []) (hs : ∀ e ∈ scores, Moderate e.2) :
    ∃ out, Workspace.predict dbg ⟨.greedy m eps child, s⟩ ft = .ok (.actionProbs out, ft1) ∧ out.map (·.1) = scores.map (·.1) ∧
      ∀ e ∈ out, BetweenZeroOne e.2 := by
  obtain ⟨out, h1, h2, h3⟩ := greedy32 he hne hs
  refine ⟨out, explore_call h (.greedy m eps child) s (fun d hd => ?_), h3, h2⟩
  unfold Red.predictImpl
  rw [hd, ok_bind]
  simp only [Prediction.asScores, ok_bind, h1]

/-- C110 for softmax: the answer is made of numbers that are not negative (in particular not NaN), one for each action. -/
theorem C110_softmax (hexp : SaneExp t) (dbg : Bool) (m : Meta) (eps lam : BitVec 32) (he : BetweenZeroOne eps) (hl : NotNegative lam) (child : Red (BitVec 32))
    (n : Nat) (s : child.State) (ft ft1 : Features (BitVec 32)) (scores : List (Nat × BitVec 32))
    (h : Workspace.predict dbg ⟨child, s⟩ ft = .ok (.actionScores scores, ft1)) (hne : scores ≠ []) (hs : ∀ e ∈ scores, Moderate e.2) :
    ∃ out, Workspace.predict dbg ⟨.softmax m eps lam child, (n, s)⟩ ft = .ok (.actionProbs out, ft1) ∧ out.map (·.1) = scores.map (·.1) ∧
      ∀ e ∈ out, ¬ IeeeNaN e.2 ∧ (ieeeFlt t).le 0#32 e.2 = true := by
  obtain ⟨out, h1, h2, h3⟩ := softmax32 hexp hl he hne hs
  refine ⟨out, explore_call h (.softmax m eps lam child) (n, s) (fun d hd => ?_), h3, fun e he => ⟨?_, h2 e he⟩⟩
  · unfold Red.predictImpl
    rw [hd, ok_bind]
    simp only [Prediction.asScores, ok_bind, h1]
  · rw [ieeeNaN_iff, up_nan (h2 e he)]
    decide

/-- C110 for SquareCB after `n` examples: no probability is NaN, one for each action. -/
theorem C110_squarecb (dbg : Bool) (m : Meta) (eps gs ge : BitVec 32) (n : Nat) (he : BetweenZeroOne eps) (hg : NotNegative (f32Mul gs (t.powf (f32OfNat n) ge)))
    (child : Red (BitVec 32)) (s : child.State) (ft ft1 : Features (BitVec 32)) (scores : List (Nat × BitVec 32))
    (h : Workspace.predict dbg ⟨child, s⟩ ft = .ok (.actionScores scores, ft1)) (hne : scores ≠ []) (hs : ∀ e ∈ scores, Moderate e.2) :
    ∃ out, Workspace.predict dbg ⟨.squareCb m eps gs ge child, (n, s)⟩ ft = .ok (.actionProbs out, ft1) ∧ out.map (·.1) = scores.map (·.1) ∧
      ∀ e ∈ out, ¬ IeeeNaN e.2 := by
  obtain ⟨out, h1, h2⟩ := square32 hg he hne hs
  refine ⟨out, explore_call h (.squareCb m eps gs ge child) (n, s) (fun d hd => ?_), squareCb_ids h1, fun e he => ?_⟩
  · unfold Red.predictImpl
    rw [hd, ok_bind]
    simp only [Prediction.asScores, ok_bind]
    change (squareCbProbs (f32Mul gs (t.powf (f32OfNat n) ge)) eps scores >>= fun probs => _) = _
    rw [h1, ok_bind]
  · rw [ieeeNaN_iff, h2 e he]
    decide

end

/-! ### Moderate scores are needed -/

section witness
open SparseFeatures

/-- A crude `exp` that meets the assumptions: 1, and NaN for NaN. -/
@[instance_reducible] def crudeTrans : F32Trans := ⟨fun x => if f32IsNaN x then x else one32, id, fun a _ => a, id⟩

theorem crude_sane : SaneExp crudeTrans := by
  constructor
  · intro x hx
    have hn : f32IsNaN x = false := by
      rcases hx with h | h
      · exact fin_nan h.1
      · exact not_nan_of_inf h.1
    show BetweenZeroOne (if f32IsNaN x then x else one32)
    rw [hn]
    exact unit_one
  · intro x hx _
    show ieeeValue (if f32IsNaN x then x else one32) = 1
    rw [fin_nan hx]
    exact V_one

/-- Arithmetic in `f32` with this `exp`. -/
@[instance_reducible] def crudeFlt : Flt (BitVec 32) := ieeeFlt crudeTrans

attribute [local instance] crudeFlt

/-- One feature. -/
def single32 (i : U32) (v : BitVec 32) : SparseFeatures (BitVec 32) := modifyOrCreate SparseFeatures.new .default (fun n => n.addFeature i v)

theorem single32_wf (i : U32) (v : BitVec 32) : (single32 i v).WF ∧ (single32 i v).NoComposite ∧ (single32 i v).NoEmpty := by
  refine ⟨⟨⟨by simp [single32, modifyOrCreate, setNamespace, SparseFeatures.insert, SparseFeatures.new, Sorted], ?_, ?_⟩, ?_⟩, ?_, ?_⟩
  · simp [single32, modifyOrCreate, setNamespace, SparseFeatures.insert, SparseFeatures.new, getOrCreate, lookup, NsFeats.addFeature, RVec.push, NsFeats.new,
      RVec.new]
  · simp [single32, modifyOrCreate, setNamespace, SparseFeatures.insert, SparseFeatures.new, getOrCreate, lookup, NsFeats.addFeature, NsFeats.new]
  · intro ns
    by_cases h : Namespace.default = ns <;>
      simp [single32, modifyOrCreate, setNamespace, SparseFeatures.insert, SparseFeatures.new, getOrCreate, lookup, NsFeats.addFeature, vw, h]
  · intro h; rfl
  · intro ns n hn
    by_cases h : Namespace.default = ns
    · simp [single32, modifyOrCreate, setNamespace, SparseFeatures.insert, SparseFeatures.new, getOrCreate, lookup, NsFeats.addFeature, getNamespace, h] at hn
      subst hn
      simp [NsFeats.size, RVec.push]
    · simp [single32, modifyOrCreate, setNamespace, SparseFeatures.insert, SparseFeatures.new, getOrCreate, lookup, NsFeats.addFeature, getNamespace, h] at hn

/-- A shared feature and two actions with one feature each, all of the same value. -/
def bandit32 (i j : U32) (v : BitVec 32) : Features (BitVec 32) := .cbAdf ⟨some (single32 1#32 v), [single32 i v, single32 j v]⟩

theorem bandit32_valid (i j : U32) (v : BitVec 32) : (bandit32 i j v).Valid := by
  refine ⟨?_, ?_⟩
  · intro s hs
    simp at hs
    subst hs
    exact single32_wf _ _
  · intro a ha
    simp at ha
    rcases ha with rfl | rfl <;> exact single32_wf _ _

/-- Example 0 has values of 1, the others have values of 3e38. -/
def largeEx (i : Nat) : Features (BitVec 32) :=
  if i = 0 then bandit32 2#32 3#32 one32 else bandit32 2#32 2#32 (f32Lit (3 * 10 ^ 38) 1)

/-- Softmax over CbAdf (mtr) over Coin. -/
def largeConfig (eps : BitVec 32) : RedConfig (BitVec 32) :=
  .softmax eps one32 (.cbAdf .mtr (.coin CoinConfig.dflt))

/-- Six times: action 0 of example 0 cost 100. -/
def largeCalls : List (Call (BitVec 32)) := List.replicate 6 (.learn 0 (.cb ⟨0, f32Lit 100 1, f32Lit 1 2⟩))

/-- What a new model answers to `predict` of example 1 after these calls. -/
def largeAnswer (eps : BitVec 32) : Option (M (Prediction (BitVec 32) × Features (BitVec 32))) :=
  match Workspace.new (fun _ s => s) nanGlobal (largeConfig eps) with
  | .error _ => none
  | .ok w =>
    match Session.run true ⟨w, largeEx⟩ largeCalls with
    | .error _ => none
    | .ok (S, _) => some (Workspace.predict true S.w (S.ex 1))

def isPanic : Option (M (Prediction (BitVec 32) × Features (BitVec 32))) → Bool
  | some (.error .unwrap) => true
  | _ => false

def allNaN : Option (M (Prediction (BitVec 32) × Features (BitVec 32))) → Bool
  | some (.ok (.actionProbs ps, _)) => decide (ps.length = 2) && ps.all (fun e => f32IsNaN e.2)
  | _ => false

theorem large_split {eps : BitVec 32} {a : M (Prediction (BitVec 32) × Features (BitVec 32))} (h : largeAnswer eps = some a) :
    ∃ w S os, Workspace.new (fun _ s => s) nanGlobal (largeConfig eps) = .ok w ∧ Session.run true ⟨w, largeEx⟩ largeCalls = .ok (S, os) ∧
      Workspace.predict true S.w (S.ex 1) = a := by
  unfold largeAnswer at h
  cases hw : Workspace.new (fun _ s => s) nanGlobal (largeConfig eps) with
  | error e => rw [hw] at h; cases h
  | ok w =>
    cases hr : Session.run true ⟨w, largeEx⟩ largeCalls with
    | error e => simp only [hw, hr] at h; cases h
    | ok r =>
      simp only [hw, hr, Option.some.injEq] at h
      exact ⟨w, r.1, r.2, rfl, hr, h⟩

theorem large_panics : isPanic (largeAnswer (f32Lit 1 10)) = true := by decide +kernel
theorem large_nan : allNaN (largeAnswer 0#32) = true := by decide +kernel

theorem large_fits : ∀ i ∈ [0, 1], ∀ f ∈ (largeEx i).objects, ∀ iv ∈ f.allFeatures, iv.1.toNat < 2 ^ 2 ∧ f32Mag iv.2 < 0x7f800000 ∧
    (Flt.le (Flt.abs (Flt.sub iv.2 iv.2)) Flt.epsilon) = true := by decide +kernel

/-- Finite values are not enough: a softmax model with uniform epsilon 0.1 and valid settings panics after six well-formed examples with values of 1,
a cost of 100 and a probability of 0.5, when it predicts a well-formed example with values of 3e38, because both scores are infinite. With uniform
epsilon 0 it answers with NaN for both actions. -/
theorem C110_infinite_false :
    SaneExp crudeTrans ∧ Sane32 crudeTrans (largeConfig (f32Lit 1 10)) ∧ (largeConfig (f32Lit 1 10)).typeOf = some ⟨.cb, .sparseCBAdf, .actionProbs⟩ ∧
    (∀ call ∈ largeCalls ++ [.predict 1], SafeCall true nanGlobal.numBits (largeConfig (f32Lit 1 10)) ⟨.cb, .sparseCBAdf, .actionProbs⟩ largeEx call) ∧
    (∀ i ∈ [0, 1], ∀ f ∈ (largeEx i).objects, ∀ iv ∈ f.allFeatures, IeeeFinite iv.2) ∧
    (∃ w S os, Workspace.new (fun _ s => s) nanGlobal (largeConfig (f32Lit 1 10)) = .ok w ∧ Session.run true ⟨w, largeEx⟩ largeCalls = .ok (S, os) ∧
      Workspace.predict true S.w (S.ex 1) = .error .unwrap) ∧
    (∃ w S os ps ft, Workspace.new (fun _ s => s) nanGlobal (largeConfig 0#32) = .ok w ∧ Session.run true ⟨w, largeEx⟩ largeCalls = .ok (S, os) ∧
      Workspace.predict true S.w (S.ex 1) = .ok (.actionProbs ps, ft) ∧ ps.length = 2 ∧ ∀ e ∈ ps, IeeeNaN e.2) := by
  have hunit : BetweenZeroOne (f32Lit 1 10) := by
    have hc := C97_literal crudeTrans 1 10 (by norm_num)
    have h1 := cr_ge hc zero_fin (by rw [V_zero]; norm_num) (by norm_num)
    have h2 := cr_le hc one_fin (by rw [V_one]; norm_num) (.inr (by norm_num))
    have h3 : IeeeFinite (f32Lit 1 10) := (hc.1 (by norm_num)).1
    refine ⟨h3, ?_, ?_⟩
    · rcases h1 with h | h
      · rw [V_zero] at h; exact h.2
      · exact absurd h.1.1 h3
    · rcases h2 with h | h
      · rw [V_one] at h; exact h.2
      · exact absurd h.1.1 h3
  have hex : ∀ i ∈ [0, 1], SafeExample true 2 ⟨.cb, .sparseCBAdf, .actionProbs⟩ (largeEx i) := by
    intro i hi
    have hv : (largeEx i).Valid := by unfold largeEx; split <;> exact bandit32_valid _ _ _
    refine ⟨hv.formed, fun _ => hv, ?_, fun f hf iv hiv => (large_fits i hi f hf iv hiv).1, fun _ f hf iv hiv => (large_fits i hi f hf iv hiv).2.2⟩
    unfold largeEx
    split <;> rfl
  refine ⟨crude_sane, ⟨hunit, ⟨one_fin, unit_one.2.1⟩, trivial⟩, rfl, ?_, ?_, ?_, ?_⟩
  · intro call hcall
    rcases List.mem_append.1 hcall with h | h
    · obtain ⟨_, rfl⟩ := List.mem_replicate.1 h
      refine ⟨hex 0 (by simp), rfl, ?_, ?_⟩
      · rintro _ cl hc
        simp only [Label.cb.injEq] at hc
        subst hc
        decide +kernel
      · rintro _ f cl h1 h2
        simp only [Label.cb.injEq] at h2
        simp only [largeEx, if_true, bandit32, Features.cbAdf.injEq] at h1
        subst h1 h2
        exact ⟨rfl, by simp⟩
    · simp only [List.mem_singleton] at h
      subst h
      exact ⟨hex 1 (by simp), fun _ => by simp [largeEx, bandit32, Features.actionList]⟩
  · intro i hi f hf iv hiv
    rw [ieeeFinite_iff]
    exact (large_fits i hi f hf iv hiv).2.1
  · have h := large_panics
    generalize ha : largeAnswer (f32Lit 1 10) = a at h
    unfold isPanic at h
    split at h
    · exact large_split ha
    · cases h
  · have h := large_nan
    generalize ha : largeAnswer 0#32 = a at h
    unfold allNaN at h
    split at h
    · obtain ⟨w, S, os, h1, h2, h3⟩ := large_split ha
      rw [Bool.and_eq_true, decide_eq_true_eq, List.all_eq_true] at h
      exact ⟨w, S, os, _, _, h1, h2, h3, h.1, fun e he => (ieeeNaN_iff _).2 (h.2 e he)⟩
    · cases h

/-- The scores of the model without exploration, after the same calls, for example 0. -/
def largeScores : Option (List (Nat × BitVec 32)) :=
  match Workspace.new (fun _ s => s) nanGlobal (.cbAdf .mtr (.coin CoinConfig.dflt)) with
  | .error _ => none
  | .ok w =>
    match Session.run true ⟨w, largeEx⟩ largeCalls with
    | .error _ => none
    | .ok (S, _) =>
      match Workspace.predict true S.w (S.ex 0) with
      | .ok (.actionScores sc, _) => some sc
      | _ => none

/-- The hypotheses of C110 are met after training: the scores for example 0 are two different moderate numbers. -/
theorem moderate_witness : ∃ (w : Workspace (BitVec 32)) (S : Session (BitVec 32)) (os : List (Call (BitVec 32) × Option (Prediction (BitVec 32))))
    (sc : List (Nat × BitVec 32)) (ft : Features (BitVec 32)),
    Workspace.new (fun _ s => s) nanGlobal (.cbAdf .mtr (.coin CoinConfig.dflt)) = .ok w ∧ Session.run true ⟨w, largeEx⟩ largeCalls = .ok (S, os) ∧
    Workspace.predict true S.w (S.ex 0) = .ok (.actionScores sc, ft) ∧ sc ≠ [] ∧ (sc.map (·.2)).Nodup ∧ ∀ e ∈ sc, Moderate e.2 := by
  have h : ∃ sc, largeScores = some sc ∧ sc ≠ [] ∧ (sc.map (·.2)).Nodup ∧ ∀ e ∈ sc, f32Mag e.2 < 0x7f800000 ∧ f32Le e.2 0x7e800000#32 = true ∧
      f32Le 0xfe800000#32 e.2 = true := by
    have h : (match largeScores with
      | some sc => decide (sc ≠ [] ∧ (sc.map (·.2)).Nodup ∧ ∀ e ∈ sc, f32Mag e.2 < 0x7f800000 ∧ f32Le e.2 0x7e800000#32 = true ∧ f32Le 0xfe800000#32 e.2 = true)
      | none => false) = true := by decide +kernel
    split at h
    · rename_i sc hsc
      exact ⟨sc, hsc, of_decide_eq_true h⟩
    · cases h
  obtain ⟨sc, hsc, hne, hnd, hm⟩ := h
  unfold largeScores at hsc
  cases hw : Workspace.new (fun _ s => s) nanGlobal (.cbAdf .mtr (.coin (CoinConfig.dflt (F := BitVec 32)))) with
  | error e => rw [hw] at hsc; cases hsc
  | ok w =>
    cases hr : Session.run true ⟨w, largeEx⟩ largeCalls with
    | error e => simp only [hw, hr] at hsc; cases hsc
    | ok r =>
      obtain ⟨S, os⟩ := r
      simp only [hw, hr] at hsc
      split at hsc
      · rename_i sc' ft hp
        cases hsc
        refine ⟨w, S, os, sc, ft, rfl, hr, hp, hne, hnd, fun e he => ?_⟩
        obtain ⟨h1, h2, h3⟩ := hm e he
        have hf := (ieeeFinite_iff e.2).2 h1
        have hb1 : IeeeFinite (0x7e800000#32) := (ieeeFinite_iff _).2 (by decide)
        have hb2 : IeeeFinite (0xfe800000#32) := (ieeeFinite_iff _).2 (by decide)
        have v1 : ieeeValue (0x7e800000#32) = 2 ^ 126 := by
          have h1 : ieeeSign (0x7e800000#32) = false := by decide
          have h2 : ieeeExponent (0x7e800000#32) = 253 := by decide
          have h3 : ieeeFraction (0x7e800000#32) = 0 := by decide
          unfold ieeeValue
          rw [h1, h2, h3]
          norm_num
        have v2 : ieeeValue (0xfe800000#32) = -(2 ^ 126) := by
          have := (C97_neg_abs crudeTrans (0x7e800000#32)).1
          rwa [show (ieeeFlt crudeTrans).neg (0x7e800000#32) = 0xfe800000#32 from by decide +kernel, v1] at this
        have g1 := (C97_compare crudeTrans _ _ hf hb1).2.1.1 h2
        have g2 := (C97_compare crudeTrans _ _ hb2 hf).2.1.1 h3
        rw [v1] at g1
        rw [v2] at g2
        exact ⟨hf, abs_le.2 ⟨g2, g1⟩⟩
      · cases hsc

/-- So C110 applies to each exploration reduction on top of this model (here with the settings 0.1, 1 and 1, and 7 examples). -/
example : ∃ (w : Workspace (BitVec 32)) (S : Session (BitVec 32)) (os : List (Call (BitVec 32) × Option (Prediction (BitVec 32)))),
    Workspace.new (fun _ s => s) nanGlobal (.cbAdf .mtr (.coin CoinConfig.dflt)) = .ok w ∧ Session.run true ⟨w, largeEx⟩ largeCalls = .ok (S, os) ∧
    (∀ m, ∃ out ft, Workspace.predict true ⟨.greedy m one32 S.w.red, S.w.st⟩ (S.ex 0) = .ok (.actionProbs out, ft) ∧ ∀ e ∈ out, BetweenZeroOne e.2) ∧
    (∀ m, ∃ out ft, Workspace.predict true ⟨.softmax m one32 one32 S.w.red, (7, S.w.st)⟩ (S.ex 0) = .ok (.actionProbs out, ft) ∧
      ∀ e ∈ out, ¬ IeeeNaN e.2 ∧ (ieeeFlt crudeTrans).le 0#32 e.2 = true) ∧
    (∀ m, ∃ out ft, Workspace.predict true ⟨.squareCb m one32 one32 one32 S.w.red, (7, S.w.st)⟩ (S.ex 0) = .ok (.actionProbs out, ft) ∧
      ∀ e ∈ out, ¬ IeeeNaN e.2) := by
  obtain ⟨w, S, os, sc, ft, h1, h2, h3, h4, _, h5⟩ := moderate_witness
  refine ⟨w, S, os, h1, h2, fun m => ?_, fun m => ?_, fun m => ?_⟩
  · obtain ⟨out, a, _, b⟩ := C110_greedy (t := crudeTrans) true m one32 unit_one S.w.red S.w.st (S.ex 0) ft sc h3 h4 h5
    exact ⟨out, ft, a, b⟩
  · obtain ⟨out, a, _, b⟩ := C110_softmax (t := crudeTrans) crude_sane true m one32 one32 unit_one ⟨one_fin, unit_one.2.1⟩ S.w.red 7 S.w.st (S.ex 0) ft sc h3 h4 h5
    exact ⟨out, ft, a, b⟩
  · have hg : NotNegative (f32Mul one32 (crudeTrans.powf (f32OfNat 7) one32)) := by
      rw [show f32Mul one32 (crudeTrans.powf (f32OfNat 7) one32) = f32OfNat 7 from by decide +kernel]
      have hf : IeeeFinite (f32OfNat 7) := (ieeeFinite_iff _).2 (by decide +kernel)
      refine ⟨hf, ?_⟩
      have := (C97_compare crudeTrans 0#32 (f32OfNat 7) zero_fin hf).2.1.1 (by decide +kernel)
      rwa [show ieeeValue (0#32) = 0 from V_zero] at this
    obtain ⟨out, a, _, b⟩ := C110_squarecb (t := crudeTrans) true m one32 one32 one32 7 unit_one hg S.w.red S.w.st (S.ex 0) ft sc h3 h4 h5
    exact ⟨out, ft, a, b⟩

end witness
end Rml
