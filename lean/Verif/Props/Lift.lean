import Verif.Lemmas.Reorder
import Verif.Props.Renaming
import Verif.Props.Units
import Verif.Props.Coin2
import Mathlib.Tactic.Linarith

/-!
C84, C85 and C89 for whole stacks: any reductions except ElementwiseInteraction, any number of calls, bandit examples included. The release profile is
shown; by C106 a debug build that does not panic returns the same.
-/

set_option linter.unusedSectionVars false

namespace Rml
open Coin

section
variable {F : Type} [Flt F]

theorem in_occurs {ex : Nat → Features F} (hp : ∀ k, (ex k).Paired) (k : Nat) (f : SparseFeatures F) (hf : f ∈ (ex k).objects) (P : U32 → Prop) :
    f.In fun i => Occurs ex i ∨ P i :=
  fun e he => ⟨hp k f hf e he, fun _ hi => .inl ⟨k, f, hf, e, he, hi⟩⟩

theorem pass_plain {hash : HashFn} {cfg : CoinConfig F} {g : GlobalConfig} (hg : g.interactions = []) {n : Nat} {c : Coin F}
    (h : Coin.new hash cfg g n = .ok c) : c.pass = ⟨[], [], g.numBits, g.constantFeatureEnabled⟩ := by
  obtain ⟨ps, ts, h1, h2⟩ := new_pass h
  rw [hg] at h1
  cases h1
  exact h2

theorem visited_plain (nb : Nat) (k : Bool) (f : SparseFeatures F) : visited ⟨[], [], nb, k⟩ f = f.allFeatures ++ constVisit ⟨[], [], nb, k⟩ := by
  unfold visited
  simp

/-- C89 for stacks. Two models with the same configuration of all reductions, but possibly another hash function, hash seed and number of bits, and no
interactions. All examples of the second session are those of the first, except that every feature index `i` is `σ i`. If no two different
features become equal, no feature becomes or stops being the constant, and all new indices fit, then the second session returns the same predictions,
call by call, and its examples stay those of the first. -/
theorem C89_stack (hash hash' : HashFn) (cfg : RedConfig F) (hcfg : cfg.NoElementwise) (g g' : GlobalConfig) (hg : g.interactions = [])
    (hg' : g'.interactions = []) (hk : g'.constantFeatureEnabled = g.constantFeatureEnabled) (w w' : Workspace F)
    (hw : Workspace.new hash g cfg = .ok w) (hw' : Workspace.new hash' g' cfg = .ok w') (σ : U32 → U32) (ex : Nat → Features F)
    (hpair : ∀ k, (ex k).Paired)
    (hσ : ∀ i j, (Occurs ex i ∨ g.constantFeatureEnabled = true ∧ i.toNat = 2 ^ g.numBits / 2) →
      (Occurs ex j ∨ g.constantFeatureEnabled = true ∧ j.toNat = 2 ^ g.numBits / 2) → σ i = σ j → i = j)
    (hconst : g.constantFeatureEnabled = true → ∀ i : U32, i.toNat = 2 ^ g.numBits / 2 → (σ i).toNat = 2 ^ g'.numBits / 2)
    (hfit : ∀ i, Occurs ex i → (σ i).toNat < 2 ^ g'.numBits)
    (calls : List (Call F)) (S1 : Session F) (outs : List (Call F × Option (Prediction F)))
    (h : (⟨w, ex⟩ : Session F).run false calls = .ok (S1, outs)) :
    ∃ w1', (⟨w', fun k => (ex k).relabel σ fun _ v => v⟩ : Session F).run false calls =
      .ok (⟨w1', fun k => (S1.ex k).relabel σ fun _ v => v⟩, outs) := by
  let U : U32 → Prop := fun i => Occurs ex i ∨ g.constantFeatureEnabled = true ∧ i.toNat = 2 ^ g.numBits / 2
  let RC : Coin F → Coin F → Prop := fun c c' => NRel σ U g.numBits g'.numBits c c' ∧ c.pass = ⟨[], [], g.numBits, g.constantFeatureEnabled⟩ ∧
    c'.pass = ⟨[], [], g'.numBits, g.constantFeatureEnabled⟩
  have hvis : ∀ {c c' : Coin F} {f : SparseFeatures F}, RC c c' → f.In U →
      (∀ iv ∈ visited c.pass f, U iv.1) ∧ visited c'.pass (f.relabel σ fun _ v => v) = (visited c.pass f).map (fun iv => (σ iv.1, iv.2)) ∧
      ∀ iv ∈ visited c'.pass (f.relabel σ fun _ v => v), iv.1.toNat < 2 ^ g'.numBits := by
    intro c c' f ⟨hr, h1, h2⟩ hi
    have hb : g.numBits < 32 := by have := hr.ok.le31; omega
    have hb' : g'.numBits < 32 := by have := hr.ok'.le31; omega
    rw [h1, h2, visited_plain, visited_plain, allFeatures_relabel]
    have hcu : ∀ iv ∈ (constVisit ⟨[], [], g.numBits, g.constantFeatureEnabled⟩ : List (U32 × F)), U iv.1 := by
      intro iv hm
      unfold constVisit at hm
      split at hm
      · rename_i he
        rw [List.mem_singleton.1 hm]
        exact .inr ⟨he, constantFeatureIndex_toNat hb⟩
      · exact absurd hm (List.not_mem_nil)
    have hU : ∀ iv ∈ f.allFeatures ++ constVisit ⟨[], [], g.numBits, g.constantFeatureEnabled⟩, U iv.1 := by
      intro iv hm
      rcases List.mem_append.1 hm with hm | hm
      · exact in_allFeatures hi hm
      · exact hcu iv hm
    have hV : (f.allFeatures.map fun iv => (σ iv.1, iv.2)) ++ constVisit ⟨[], [], g'.numBits, g.constantFeatureEnabled⟩ =
        (f.allFeatures ++ constVisit ⟨[], [], g.numBits, g.constantFeatureEnabled⟩).map (fun (iv : U32 × F) => (σ iv.1, iv.2)) := by
      rw [List.map_append]
      congr 1
      unfold constVisit
      cases he : g.constantFeatureEnabled with
      | false => rfl
      | true =>
        simp only [if_true, List.map_cons, List.map_nil]
        congr 2
        apply BitVec.eq_of_toNat_eq
        rw [constantFeatureIndex_toNat hb', hconst he _ (constantFeatureIndex_toNat hb)]
    refine ⟨hU, hV, fun iv hm => ?_⟩
    rw [hV] at hm
    obtain ⟨jv, hj, rfl⟩ := List.mem_map.1 hm
    rcases hU jv hj with ho | ⟨he, hc⟩
    · exact hfit _ ho
    · show (σ jv.1).toNat < _
      rw [hconst he _ hc]
      have := Nat.two_pow_pos g'.numBits
      omega
  have L : Lift RC (Relabelled σ (fun _ v => v) U) := by
    refine lift_relabel ?_ ?_
    · intro c c' f hc hi r hr
      obtain ⟨h1, h2, h3⟩ := hvis hc hi
      exact ⟨r, predict_rename hc.1 h1 h2 h3 hr, rfl⟩
    · intro c c' f l wt hc hi c1 hl
      obtain ⟨h1, h2, h3⟩ := hvis hc hi
      obtain ⟨c1', h4, h5, h6, h7⟩ := learn_rename hσ hc.1 h1 h2 h3 hl
      exact ⟨c1', h4, h5, h6.trans hc.2.1, h7.trans hc.2.2⟩
  obtain ⟨hn, hsim⟩ := new_lift (RC := RC) (fun k c c' h h' => ⟨new_rename (by omega) (by omega) h h' σ U, pass_plain hg h, by
    rw [← hk]; exact pass_plain hg' h'⟩) hcfg hw hw'
  exact run_relabel L hn hsim (fun k f hf => in_occurs hpair k f hf _) h

end

section
variable {K : Type} [Field K] [LinearOrder K] [IsStrictOrderedRing K] [Trans K]

attribute [local instance] fieldFlt

/-- C84 for stacks, in exact arithmetic and without interactions. All examples of the second session are those of the first, except that every value of a
feature with index `i` is multiplied with `unit i`, which is not zero (and 1 for the constant). Then the same model returns the same predictions, call by
call. -/
theorem C84_stack (hash : HashFn) (cfg : RedConfig K) (hcfg : cfg.NoElementwise) (g : GlobalConfig) (hg : g.interactions = []) (w : Workspace K)
    (hw : Workspace.new hash g cfg = .ok w) (unit : U32 → K) (hu : ∀ i, unit i ≠ 0)
    (hconst : g.constantFeatureEnabled = true → ∀ i : U32, i.toNat = 2 ^ g.numBits / 2 → unit i = 1) (ex : Nat → Features K)
    (hpair : ∀ k, (ex k).Paired) (calls : List (Call K)) (S1 : Session K) (outs : List (Call K × Option (Prediction K)))
    (h : (⟨w, ex⟩ : Session K).run false calls = .ok (S1, outs)) :
    ∃ w1', (⟨w, fun k => (ex k).relabel id fun i v => unit i * v⟩ : Session K).run false calls =
      .ok (⟨w1', fun k => (S1.ex k).relabel id fun i v => unit i * v⟩, outs) := by
  let RC : Coin K → Coin K → Prop := fun c c' => CRel unit 1 g.numBits c c' ∧ c.pass = ⟨[], [], g.numBits, g.constantFeatureEnabled⟩
  have hsame : ∀ {c c' : Coin K} {f : SparseFeatures K}, RC c c' → SameUpTo c.pass unit f (f.relabel id fun i v => unit i * v) := by
    intro c c' f ⟨hr, hps⟩
    have hb := hr.ok.le31
    rw [hps]
    refine sameUpTo_iff (fun hb' => hconst hb' _ (constantFeatureIndex_toNat (by omega))) fun i => ?_
    rw [allFeatures_relabel]
    induction f.allFeatures with
    | nil => rfl
    | cons e l ih =>
      rw [List.map_cons, List.filter_cons, List.filter_cons]
      by_cases hj : e.1 = i
      · simp only [id_eq, hj, decide_true, if_true, List.map_cons]
        rw [← ih]
        rfl
      · simp only [id_eq, hj, decide_false, Bool.false_eq_true, if_false]
        exact ih
  have L : Lift RC (Relabelled id (fun i v => unit i * v) fun i => Occurs ex i ∨ False) := by
    refine lift_relabel ?_ ?_
    · intro c c' f hc hi r hr
      obtain ⟨y, h1, h2⟩ := predict_rel hu hc.1 (hsame hc) (p := r.1) (raw := r.2) hr
      refine ⟨r, ?_, rfl⟩
      rw [h2, one_mul, one_mul, ← h1]
    · intro c c' f l wt hc hi c1 hl
      obtain ⟨c1', h1, h2, h3⟩ := learn_rel hu hc.1 (hsame hc) hl
      rw [one_mul] at h1
      exact ⟨c1', h1, h2, h3.trans hc.2⟩
  obtain ⟨hn, hsim⟩ := new_lift (RC := RC) (fun k c c' h h' => by
    rw [h] at h'
    cases h'
    exact ⟨new_rel (by omega) h unit (.inl rfl), pass_plain hg h⟩) hcfg hw hw
  exact run_relabel L hn hsim (fun k f hf => in_occurs hpair k f hf _) h

/-- C85 for stacks, in exact arithmetic and without interactions. All examples of the second session are those of the first, except that the features of
each namespace are in another order; those with the same index stay in their order. Then the same model returns the same predictions, call by call. -/
theorem C85_stack (hash : HashFn) (cfg : RedConfig K) (hcfg : cfg.NoElementwise) (g : GlobalConfig) (hg : g.interactions = []) (w : Workspace K)
    (hw : Workspace.new hash g cfg = .ok w) (ex ex' : Nat → Features K) (hex : ∀ k, (ex k).Reordered (ex' k)) (calls : List (Call K)) (S1 : Session K)
    (outs : List (Call K × Option (Prediction K))) (h : (⟨w, ex⟩ : Session K).run false calls = .ok (S1, outs)) :
    ∃ S1', (⟨w, ex'⟩ : Session K).run false calls = .ok (S1', outs) ∧ ∀ k, (S1.ex k).Reordered (S1'.ex k) := by
  let RC : Coin K → Coin K → Prop := fun c c' => CRel (fun _ => 1) 1 g.numBits c c' ∧ c.pass = ⟨[], [], g.numBits, g.constantFeatureEnabled⟩
  have hsame : ∀ {c c' : Coin K} {f f' : SparseFeatures K}, RC c c' → f.Reordered f' → SameUpTo c.pass (fun _ => 1) f f' := by
    intro c c' f f' ⟨_, hps⟩ hf
    rw [hps]
    refine sameUpTo_iff (fun _ => rfl) fun i => ?_
    rw [values_reorder hf i]
    simp only [one_mul]
  have hu : ∀ i : U32, (fun _ => (1 : K)) i ≠ 0 := fun _ => one_ne_zero
  have L : Lift RC SparseFeatures.Reordered := by
    refine lift_reorder ?_ ?_
    · intro c c' f f' hc hf r hr
      obtain ⟨y, h1, h2⟩ := predict_rel hu hc.1 (hsame hc hf) (p := r.1) (raw := r.2) hr
      refine ⟨r, ?_, rfl⟩
      rw [h2, one_mul, one_mul, ← h1]
    · intro c c' f f' l wt hc hf c1 hl
      obtain ⟨c1', h1, h2, h3⟩ := learn_rel hu hc.1 (hsame hc hf) hl
      rw [one_mul] at h1
      exact ⟨c1', h1, h2, h3.trans hc.2⟩
  obtain ⟨hn, hsim⟩ := new_lift (RC := RC) (fun k c c' h h' => by
    rw [h] at h'
    cases h'
    exact ⟨new_rel (by omega) h _ (.inl rfl), pass_plain hg h⟩) hcfg hw hw
  obtain ⟨⟨S1', outs'⟩, h1, ⟨_, h2⟩, h3⟩ := run_lift L calls hn (S' := ⟨w, ex'⟩) ⟨hsim, fun k => relFt_reorder.2 (hex k)⟩ _ h
  simp only at h2 h3
  subst h3
  exact ⟨S1', h1, fun k => relFt_reorder.1 (h2 k)⟩

end

section
attribute [local instance] fieldFlt

/-- Exact arithmetic on the rationals, for the examples. -/
local instance transRatLift : Trans ℚ where
  exp := id
  ln := id
  powf := fun a _ => a
  sqrt := id

/-- A bandit example with shared features and two actions. -/
def liftEx : Nat → Features ℚ := fun _ => .cbAdf ⟨some (ratFeat 1#32 1), [ratFeat 0#32 1, ratFeat 3#32 2]⟩

/-- A renaming for 2 bits to 3 bits. -/
def liftName (i : U32) : U32 := if i = 0#32 then 7#32 else if i = 1#32 then 5#32 else if i = 2#32 then 4#32 else 0#32

/-- A stack for bandits. -/
def liftConfig : RedConfig ℚ := .cbAdf .mtr (.coin CoinConfig.dflt)

/-- Three calls. -/
def liftCalls : List (Call ℚ) := [.learn 0 (.cb ⟨0, -2, 1 / 2⟩), .learn 0 (.cb ⟨0, -2, 1 / 2⟩), .predict 0]

/-- What the three calls return. -/
def liftOuts : Option (List (Option (Prediction ℚ))) :=
  match Workspace.new tinyHash tinyGlobal liftConfig with
  | .ok w => match (⟨w, liftEx⟩ : Session ℚ).run false liftCalls with
    | .ok r => some (r.2.map (·.2))
    | .error _ => none
  | .error _ => none

theorem lift_runs : ∃ w r, Workspace.new tinyHash tinyGlobal liftConfig = .ok w ∧ (⟨w, liftEx⟩ : Session ℚ).run false liftCalls = .ok r ∧
    r.2.map (·.2) = [none, none, some (.actionScores [(0, -3000000 / 6000001), (1, -2000000 / 6000001)])] := by
  have h : liftOuts = some [none, none, some (.actionScores [(0, -3000000 / 6000001), (1, -2000000 / 6000001)])] := by decide +kernel
  unfold liftOuts at h
  split at h
  · rename_i w hw
    split at h
    · rename_i r hr
      exact ⟨w, r, hw, hr, Option.some.inj h⟩
    · cases h
  · cases h

theorem lift_features {k : Nat} {f : SparseFeatures ℚ} (hf : f ∈ (liftEx k).objects) {e : Namespace × NsFeats ℚ} (he : e ∈ f.entries) :
    e.2.idx.data.length = e.2.vals.data.length ∧ ∀ i ∈ e.2.idx.data, i = 0#32 ∨ i = 1#32 ∨ i = 3#32 := by
  simp only [liftEx, Features.objects, Option.toList_some, List.mem_append, List.mem_cons, List.not_mem_nil, or_false] at hf
  rcases hf with rfl | rfl | rfl <;>
  · simp only [ratFeat, SparseFeatures.modifyOrCreate, SparseFeatures.new, SparseFeatures.setNamespace, SparseFeatures.insert, SparseFeatures.getOrCreate,
      SparseFeatures.lookup, NsFeats.addFeature, NsFeats.new, RVec.push, RVec.new, List.mem_cons, List.not_mem_nil, or_false, List.nil_append] at he
    subst he
    refine ⟨rfl, fun i hi => ?_⟩
    rw [List.mem_singleton.1 hi]
    decide

theorem occurs_lift {i : U32} (h : Occurs liftEx i) : i = 0#32 ∨ i = 1#32 ∨ i = 3#32 := by
  obtain ⟨k, f, hf, e, he, hi⟩ := h
  exact (lift_features hf he).2 i hi

/-- The hypotheses of `C89_stack` are met: three features of a bandit example get other names, in a model with more bits. -/
example : ∃ w w' S1 outs, liftConfig.NoElementwise ∧ Workspace.new tinyHash tinyGlobal liftConfig = .ok w ∧
    Workspace.new tinyHash { tinyGlobal with numBits := 3 } liftConfig = .ok w' ∧ (∀ k, (liftEx k).Paired) ∧
    (∀ i j, (Occurs liftEx i ∨ tinyGlobal.constantFeatureEnabled = true ∧ i.toNat = 2 ^ tinyGlobal.numBits / 2) →
      (Occurs liftEx j ∨ tinyGlobal.constantFeatureEnabled = true ∧ j.toNat = 2 ^ tinyGlobal.numBits / 2) → liftName i = liftName j → i = j) ∧
    (∀ i : U32, i.toNat = 2 ^ tinyGlobal.numBits / 2 → (liftName i).toNat = 2 ^ 3 / 2) ∧ (∀ i, Occurs liftEx i → (liftName i).toNat < 2 ^ 3) ∧
    (⟨w, liftEx⟩ : Session ℚ).run false liftCalls = .ok (S1, outs) ∧ outs.map (·.2) = [none, none, some (.actionScores [(0, -3000000 / 6000001), (1, -2000000 / 6000001)])] := by
  have h2 : ∀ i : U32, i.toNat = 2 ^ tinyGlobal.numBits / 2 → i = 2#32 := fun i h => BitVec.eq_of_toNat_eq h
  have hu : ∀ i : U32, (Occurs liftEx i ∨ tinyGlobal.constantFeatureEnabled = true ∧ i.toNat = 2 ^ tinyGlobal.numBits / 2) →
      i = 0#32 ∨ i = 1#32 ∨ i = 2#32 ∨ i = 3#32 := by
    rintro i (h | ⟨_, h⟩)
    · rcases occurs_lift h with h | h | h
      · exact .inl h
      · exact .inr (.inl h)
      · exact .inr (.inr (.inr h))
    · exact .inr (.inr (.inl (h2 i h)))
  obtain ⟨w, r, hw, hr, ho⟩ := lift_runs
  obtain ⟨w', hw'⟩ : ∃ w', Workspace.new tinyHash { tinyGlobal with numBits := 3 } liftConfig = .ok w' := by
    cases h : Workspace.new tinyHash { tinyGlobal with numBits := 3 } liftConfig with
    | ok w' => exact ⟨w', rfl⟩
    | error e =>
      have : (Workspace.new tinyHash { tinyGlobal with numBits := 3 } liftConfig).isOk = true := by decide +kernel
      rw [h] at this
      cases this
  refine ⟨w, w', r.1, r.2, trivial, hw, hw', ?_, ?_, ?_, ?_, hr, ho⟩
  · exact fun k f hf e he => (lift_features hf he).1
  · intro i j hi hj
    rcases hu i hi with rfl | rfl | rfl | rfl <;> rcases hu j hj with rfl | rfl | rfl | rfl <;> decide
  · intro i h
    rw [h2 i h]
    rfl
  · intro i h
    rcases occurs_lift h with rfl | rfl | rfl <;> decide

/-- The hypotheses of `C84_stack` are met: every feature of the bandit example is in another unit, one of them negative. -/
example : ∃ w S1 outs, Workspace.new tinyHash tinyGlobal liftConfig = .ok w ∧
    (∀ i : U32, (if i = 2#32 then (1 : ℚ) else -(i.toNat + 2)) ≠ 0) ∧ (∀ k, (liftEx k).Paired) ∧
    (∀ i : U32, i.toNat = 2 ^ tinyGlobal.numBits / 2 → (if i = 2#32 then (1 : ℚ) else -(i.toNat + 2)) = 1) ∧
    (⟨w, liftEx⟩ : Session ℚ).run false liftCalls = .ok (S1, outs) ∧ outs.map (·.2) = [none, none, some (.actionScores [(0, -3000000 / 6000001), (1, -2000000 / 6000001)])] := by
  obtain ⟨w, r, hw, hr, ho⟩ := lift_runs
  refine ⟨w, r.1, r.2, hw, ?_, ?_, ?_, hr, ho⟩
  · intro i
    split
    · exact one_ne_zero
    · have : (0 : ℚ) ≤ i.toNat := Nat.cast_nonneg _
      intro h
      linarith
  · exact fun k f hf e he => (lift_features hf he).1
  · intro i h
    rw [if_pos (BitVec.eq_of_toNat_eq h)]

/-- Two features in one namespace. -/
def pairFeats (i j : U32) (v w : ℚ) : SparseFeatures ℚ := ⟨[(.default, ⟨.default, ⟨[i, j], 2⟩, ⟨[v, w], 2⟩, true⟩)]⟩

/-- A bandit example in two orders. -/
def orderEx (b : Bool) : Nat → Features ℚ := fun _ =>
  .cbAdf ⟨some (if b then pairFeats 0#32 1#32 1 3 else pairFeats 1#32 0#32 3 1), [pairFeats 0#32 3#32 1 2]⟩

/-- The hypotheses of `C85_stack` are met: the shared features are listed in another order. -/
example : (∀ k, (orderEx true k).Reordered (orderEx false k)) ∧ orderEx true 0 ≠ orderEx false 0 ∧
    ∃ w r, Workspace.new tinyHash tinyGlobal liftConfig = .ok w ∧ (⟨w, orderEx true⟩ : Session ℚ).run false liftCalls = .ok r := by
  refine ⟨fun k => .cbAdf (.some ⟨List.pairwise_singleton .., .cons ⟨rfl, rfl, rfl, rfl, rfl, fun i => ?_⟩ .nil⟩)
    (.cons ⟨List.pairwise_singleton .., .cons ⟨rfl, rfl, rfl, rfl, rfl, fun _ => rfl⟩ .nil⟩ .nil), ?_, ?_⟩
  · by_cases h0 : (0#32 : U32) = i
    · subst h0; decide +kernel
    · by_cases h1 : (1#32 : U32) = i
      · subst h1; decide +kernel
      · simp [h0, h1]
  · decide +kernel
  · have h : (match Workspace.new tinyHash tinyGlobal liftConfig with
      | .ok w => ((⟨w, orderEx true⟩ : Session ℚ).run false liftCalls).isOk
      | .error _ => false) = true := by decide +kernel
    split at h
    · rename_i w hw
      cases hr : (⟨w, orderEx true⟩ : Session ℚ).run false liftCalls with
      | ok r => exact ⟨w, r, hw, hr⟩
      | error e => rw [hr] at h; cases h
    · cases h

end

end Rml
