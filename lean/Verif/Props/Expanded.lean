import Verif.Props.Listing
import Verif.Props.Units

/-!
C118: the constant and the configured interactions are ordinary features. The results hold for any numbers, so also bit for bit on `f32`.
-/

set_option linter.unusedSectionVars false

namespace Rml
open Coin
variable {F : Type} [Flt F]

/-- The configuration without the constant and without interactions. -/
def GlobalConfig.plain (g : GlobalConfig) : GlobalConfig := { g with constantFeatureEnabled := false, interactions := [] }

namespace Coin

/-- The regressor with another configuration of the features it visits. -/
def withPass (p : PassCfg) (c : Coin F) : Coin F := { c with pass := p }

theorem bettingPredict_withPass {dbg : Bool} {c : Coin F} {p : PassCfg} {f f' : SparseFeatures F} (hv : visited p f' = visited c.pass f) (w : F) :
    (c.withPass p).bettingPredict dbg f' w = (c.bettingPredict dbg f w).map fun r => (r.1, r.2.withPass p) := by
  obtain ⟨W, cfg, ms, avg, lo, hi, lf, pass⟩ := c
  unfold bettingPredict foreachFeatureWithState withPass
  simp only at hv ⊢
  rw [hv]
  generalize List.foldlM (m := M) (fun (s : F × F) (iv : U32 × F) => do
    let st ← DenseWeights.stateAt dbg W (BitVec.toNat iv.1) 0
    let s' ← WState.ofList st
    Except.ok (innerPredict cfg.alpha s iv.2 s')) (Flt.zero, Flt.zero) (visited pass f) = r
  cases r with
  | error e => rfl
  | ok r =>
    cases ms with
    | nil => rfl
    | cons m ms =>
      simp only [bind, Except.bind]
      cases Flt.clamp (Flt.div r.1 (Flt.div (Flt.add (Flt.add m.normalizedSumNormX (Flt.mul r.2 w)) (Flt.lit 1 1000000)) (Flt.add m.totalWeight w))) lo hi <;> rfl

theorem updateAfterPredict_withPass {dbg : Bool} {c : Coin F} {p : PassCfg} {f f' : SparseFeatures F} (hv : visited p f' = visited c.pass f) (q l w : F) :
    (c.withPass p).updateAfterPredict dbg f' q l w = (c.updateAfterPredict dbg f q l w).map (withPass p) := by
  obtain ⟨W, cfg, ms, avg, lo, hi, lf, pass⟩ := c
  unfold updateAfterPredict foreachFeatureWithStateMut withPass
  simp only at hv ⊢
  rw [hv]
  simp only [updateOf]
  simp only [bind, Except.bind]
  split <;> rfl

theorem learn_withPass {dbg : Bool} {c c1 : Coin F} {p : PassCfg} {f f' : SparseFeatures F} (hv : visited p f' = visited c.pass f) {l w : F}
    (h : c.learn dbg f l w = .ok c1) : (c.withPass p).learn dbg f' l w = .ok (c1.withPass p) := by
  rw [learn_def] at h ⊢
  obtain ⟨⟨q, c2⟩, h1, h⟩ := bind_ok.1 h
  have hp := (bettingPredict_inv h1).2.2.2.2.2.1
  have h2 := bettingPredict_withPass (dbg := dbg) (c := c.seen l) (p := p) (f := f) (f' := f') hv w
  rw [h1] at h2
  refine bind_ok.2 ⟨_, h2, ?_⟩
  refine (updateAfterPredict_withPass (c := c2) (f := f) (f' := f') (by rw [show c2.pass = c.pass from hp]; exact hv) q l w).trans ?_
  rw [show c2.updateAfterPredict dbg f q l w = .ok c1 from h]
  rfl

theorem learn_pass {dbg : Bool} {c c1 : Coin F} {f : SparseFeatures F} {l w : F} (h : c.learn dbg f l w = .ok c1) : c1.pass = c.pass := by
  rw [learn_def] at h
  obtain ⟨⟨q, c2⟩, h1, h⟩ := bind_ok.1 h
  have hp := (bettingPredict_inv h1).2.2.2.2.2.1
  unfold updateAfterPredict at h
  obtain ⟨⟨_, W⟩, _, h⟩ := bind_ok.1 h
  cases h
  exact hp

theorem trainAll_withPass {dbg : Bool} {pass p : PassCfg} {es es' : List (TrainEx F)}
    (he : List.Forall₂ (fun e e' => visited p e'.feats = visited pass e.feats ∧ e'.label = e.label ∧ e'.weight = e.weight) es es') :
    ∀ {c c1 : Coin F}, c.pass = pass → c.trainAll dbg es = .ok c1 → (c.withPass p).trainAll dbg es' = .ok (c1.withPass p) ∧ c1.pass = pass := by
  induction he with
  | nil => intro c c1 hp h; simp only [Coin.trainAll, Except.ok.injEq] at h; subst h; exact ⟨rfl, hp⟩
  | cons he _ ih =>
    intro c c1 hp h
    obtain ⟨h1, h2, h3⟩ := he
    rw [Coin.trainAll] at h
    obtain ⟨c2, hc2, h⟩ := bind_ok.1 h
    obtain ⟨h4, h5⟩ := ih ((learn_pass hc2).trans hp) h
    refine ⟨?_, h5⟩
    rw [Coin.trainAll, h2, h3]
    exact bind_ok.2 ⟨_, learn_withPass (by rw [hp]; exact h1) hc2, h4⟩

theorem predict_withPass {dbg : Bool} {c : Coin F} {p : PassCfg} {f f' : SparseFeatures F} (hv : visited p f' = visited c.pass f) :
    (c.withPass p).predict dbg f' = c.predict dbg f := by
  obtain ⟨W, cfg, ms, avg, lo, hi, lf, pass⟩ := c
  unfold predict rawSum foreachFeature withPass
  simp only at hv ⊢
  rw [hv]

theorem new_plain {hash : HashFn} {cfg : CoinConfig F} {g : GlobalConfig} {nma : Nat} {c : Coin F} (h : Coin.new hash cfg g nma = .ok c) :
    Coin.new hash cfg g.plain nma = .ok (c.withPass ⟨[], [], g.numBits, false⟩) := by
  unfold Coin.new at h
  obtain ⟨⟨pairs, triples⟩, _, h⟩ := bind_ok.1 h
  simp only at h
  split at h
  · rename_i hb
    obtain ⟨W, hW, h⟩ := bind_ok.1 h
    cases h
    unfold Coin.new
    refine bind_ok.2 ⟨([], []), rfl, ?_⟩
    refine (if_pos (show g.plain.numBits < 32 from hb)).trans ?_
    exact bind_ok.2 ⟨W, hW, rfl⟩
  · cases h

end Coin

/-- All pairs of a list, each once, in one order. -/
def unorderedPairs {α : Type} : List α → List (α × α)
  | [] => []
  | a :: l => (a :: l).map (Prod.mk a) ++ unorderedPairs l

/-- The pairs of features of two namespaces: all of them, and if the namespaces are the same, each pair in one order only. -/
def featurePairs (f : SparseFeatures F) (A B : Namespace) : List ((U32 × F) × (U32 × F)) :=
  if A = B then unorderedPairs (activeFeats f A) else (activeFeats f A) ×ˢ (activeFeats f B)

/-- The second example lists the features that the regressor uses of the first: its own, the products of the configured interactions, and the constant. -/
def Expanded (g : GlobalConfig) (pairs : List (Namespace × Namespace)) (triples : List (Namespace × Namespace × Namespace)) (f f' : SparseFeatures F) : Prop :=
  f'.allFeatures = f.allFeatures ++
    pairs.flatMap (fun p => (featurePairs f p.1 p.2).map fun q => pairFeature g.numBits q.1 q.2) ++
    triples.flatMap (fun t => ((featurePairs f t.1 t.2.1) ×ˢ (activeFeats f t.2.2)).map fun q => tripleFeature g.numBits q.1.1 q.1.2 q.2) ++
    if g.constantFeatureEnabled then [(BitVec.ofNat 32 (2 ^ g.numBits / 2), Flt.one)] else []

theorem zip_pairs {α β : Type} (g : α → α → List β) (L : List α) : ∀ (l : List α) (k : Nat), L.drop k = l →
    (l.zipIdx k).flatMap (fun p => (L.drop p.2).flatMap (g p.1)) = (unorderedPairs l).flatMap fun q => g q.1 q.2 := by
  intro l
  induction l with
  | nil => intro k _; rfl
  | cons a l ih =>
    intro k h
    rw [List.zipIdx_cons, List.flatMap_cons, ih (k + 1) (by rw [← List.drop_drop, h]; rfl), h, unorderedPairs, List.flatMap_append, List.flatMap_map]

theorem zip_featurePairs {β : Type} (f : SparseFeatures F) (A B : Namespace) (g : U32 × F → U32 × F → List β) :
    (activeFeats f A).zipIdx.flatMap (fun p => ((activeFeats f B).drop (if A = B then p.2 else 0)).flatMap (g p.1)) =
      (featurePairs f A B).flatMap fun q => g q.1 q.2 := by
  unfold featurePairs
  by_cases h : A = B
  · subst h
    simp only [if_true]
    exact zip_pairs g _ _ 0 rfl
  · simp only [if_neg h, List.drop_zero]
    rw [zipIdx_flatMap_fst (activeFeats f A) (fun a => (activeFeats f B).flatMap (g a))]
    change _ = ((activeFeats f A).flatMap fun a => (activeFeats f B).map (Prod.mk a)).flatMap _
    rw [List.flatMap_assoc]
    simp only [List.flatMap_map]

theorem quad_pairs (nb : Nat) (f : SparseFeatures F) (p : Namespace × Namespace) :
    quadVisit nb f p = (featurePairs f p.1 p.2).map fun q => pairFeature nb q.1 q.2 := by
  have := zip_featurePairs f p.1 p.2 (fun a b => [pairFeature nb a b])
  unfold quadVisit
  simp only [nsIter_eq]
  rw [List.map_eq_flatMap]
  rw [← this]
  refine List.flatMap_congr fun q _ => ?_
  rw [List.map_eq_flatMap]
  unfold pairFeature pairIndex
  simp only [fnvMul_eq, lowBits_eq, FNV_PRIME]

theorem cubic_pairs (nb : Nat) (f : SparseFeatures F) (t : Namespace × Namespace × Namespace) (h : t.2.1 ≠ t.2.2) :
    cubicVisit nb f t = ((featurePairs f t.1 t.2.1) ×ˢ (activeFeats f t.2.2)).map fun q => tripleFeature nb q.1.1 q.1.2 q.2 := by
  have := zip_featurePairs f t.1 t.2.1 (fun a b => (activeFeats f t.2.2).map fun c => tripleFeature nb a b c)
  unfold cubicVisit
  simp only [nsIter_eq, if_neg h, List.drop_zero]
  change _ = List.map _ ((featurePairs f t.1 t.2.1).flatMap fun a => (activeFeats f t.2.2).map (Prod.mk a))
  rw [List.map_flatMap]
  simp only [List.map_map]
  refine Eq.trans ?_ this
  refine List.flatMap_congr fun q _ => ?_
  unfold tripleFeature tripleIndex pairIndex
  simp only [fnvMul_eq, lowBits_eq, FNV_PRIME]

theorem visited_expanded {g : GlobalConfig} {pairs : List (Namespace × Namespace)} {triples : List (Namespace × Namespace × Namespace)} (hb : g.numBits < 32)
    (ht : ∀ t ∈ triples, t.2.1 ≠ t.2.2) {f f' : SparseFeatures F} (h : Expanded g pairs triples f f') :
    visited ⟨[], [], g.numBits, false⟩ f' = visited ⟨pairs, triples, g.numBits, g.constantFeatureEnabled⟩ f := by
  unfold visited constVisit
  simp only [List.flatMap_nil, List.append_nil, Bool.false_eq_true, if_false]
  rw [h]
  have e1 : pairs.flatMap (quadVisit g.numBits f) = pairs.flatMap (fun p => (featurePairs f p.1 p.2).map fun q => pairFeature g.numBits q.1 q.2) :=
    List.flatMap_congr fun p _ => quad_pairs g.numBits f p
  have e2 : triples.flatMap (cubicVisit g.numBits f) =
      triples.flatMap (fun t => ((featurePairs f t.1 t.2.1) ×ˢ (activeFeats f t.2.2)).map fun q => tripleFeature g.numBits q.1.1 q.1.2 q.2) :=
    List.flatMap_congr fun t hm => cubic_pairs g.numBits f t (ht t hm)
  have e3 : constantFeatureIndex g.numBits = BitVec.ofNat 32 (2 ^ g.numBits / 2) := by
    apply BitVec.eq_of_toNat_eq
    rw [constantFeatureIndex_toNat hb, BitVec.toNat_ofNat, Nat.mod_eq_of_lt]
    have : 2 ^ g.numBits < 2 ^ 32 := Nat.pow_lt_pow_right (by norm_num) hb
    omega
  rw [e1, e2, e3]

theorem pass_reached {dbg : Bool} {hash : HashFn} {cfg : CoinConfig F} {g : GlobalConfig} {es : List (TrainEx F)} {c : Coin F} (hc : Coin.Reached dbg hash cfg g es c) :
    c.pass.numBits = g.numBits ∧ c.pass.addConstant = g.constantFeatureEnabled := by
  obtain ⟨nma, c0, hn, h0, ht⟩ := hc
  have hp : c.pass = c0.pass := (Coin.trainAll_induct (dbg := dbg) (nb := g.numBits) (fun _ c => c.pass = c0.pass) (by
      intro es c c' e hc h1 hl
      rw [Coin.learn_pass hl, h1]) es [] c0 c (Coin.new_ok hn h0).1 rfl ht).2
  rw [hp]
  unfold Coin.new at h0
  obtain ⟨⟨pairs, triples⟩, _, h0⟩ := bind_ok.1 h0
  simp only at h0
  split at h0
  · obtain ⟨W, hW, h0⟩ := bind_ok.1 h0
    cases h0
    exact ⟨rfl, rfl⟩
  · cases h0

/-- C118. A regressor with interactions and the constant predicts, after any training, exactly what a regressor without interactions and constant predicts if the
products and the constant are listed in all examples. Missing from the full statement: interactions of three namespaces, of which the last two are the same; there the
code does not use all products (C14). -/
theorem C118_interactions_partial (dbg : Bool) (hash : HashFn) (cfg : CoinConfig F) (g : GlobalConfig) (es es' : List (TrainEx F)) (c : Coin F)
    (hc : Coin.Reached dbg hash cfg g es c) (ht : ∀ t ∈ c.pass.triples, t.2.1 ≠ t.2.2)
    (he : List.Forall₂ (fun e e' => Expanded g c.pass.pairs c.pass.triples e.feats e'.feats ∧ e'.label = e.label ∧ e'.weight = e.weight) es es') :
    ∃ c', Coin.Reached dbg hash cfg g.plain es' c' ∧
      ∀ f f', Expanded g c.pass.pairs c.pass.triples f f' → c'.predict dbg f' = c.predict dbg f := by
  have hb : g.numBits < 32 := by have := (reached_ok hc).1.le31; omega
  have hpass : c.pass = ⟨c.pass.pairs, c.pass.triples, g.numBits, g.constantFeatureEnabled⟩ := by
    obtain ⟨h1, h2⟩ := pass_reached hc
    rw [← h1, ← h2]
  have hv : ∀ f f' : SparseFeatures F, Expanded g c.pass.pairs c.pass.triples f f' → visited ⟨[], [], g.numBits, false⟩ f' = visited c.pass f := by
    intro f f' h
    have := visited_expanded hb ht h
    rwa [← hpass] at this
  obtain ⟨nma, c0, hn, h0, htr⟩ := hc
  have hp0 : c0.pass = c.pass := (Coin.trainAll_induct (dbg := dbg) (nb := g.numBits) (fun _ c => c0.pass = c.pass) (by
      intro es c c' e hc h1 hl
      rw [Coin.learn_pass hl, h1]) es [] c0 c (Coin.new_ok hn h0).1 rfl htr).2
  exact ⟨_, ⟨nma, _, hn, Coin.new_plain h0, (Coin.trainAll_withPass (he.imp fun _ _ h => ⟨hv _ _ h.1, h.2⟩) hp0 htr).1⟩,
    fun f f' h => Coin.predict_withPass (hv f f' h)⟩

/-- C118 for the constant: it is a feature with value 1 and index `2 ^ numBits / 2` at the end of every example. -/
theorem C118_constant (dbg : Bool) (hash : HashFn) (cfg : CoinConfig F) (g : GlobalConfig) (hg : g.interactions = []) (h1 : g.constantFeatureEnabled = true)
    (es es' : List (TrainEx F)) (c : Coin F) (hc : Coin.Reached dbg hash cfg g es c)
    (he : List.Forall₂ (fun e e' => e'.feats.allFeatures = e.feats.allFeatures ++ [(BitVec.ofNat 32 (2 ^ g.numBits / 2), Flt.one)] ∧ e'.label = e.label ∧
      e'.weight = e.weight) es es') :
    ∃ c', Coin.Reached dbg hash cfg { g with constantFeatureEnabled := false } es' c' ∧
      ∀ f f', f'.allFeatures = f.allFeatures ++ [(BitVec.ofNat 32 (2 ^ g.numBits / 2), Flt.one)] → c'.predict dbg f' = c.predict dbg f := by
  have hp : c.pass.pairs = [] ∧ c.pass.triples = [] := by
    obtain ⟨nma, c0, hn, h0, htr⟩ := hc
    have hp0 : c0.pass = c.pass := (Coin.trainAll_induct (dbg := dbg) (nb := g.numBits) (fun _ c => c0.pass = c.pass) (by
        intro es c c' e hc h1 hl
        rw [Coin.learn_pass hl, h1]) es [] c0 c (Coin.new_ok hn h0).1 rfl htr).2
    rw [← hp0]
    unfold Coin.new at h0
    rw [hg] at h0
    obtain ⟨⟨pairs, triples⟩, hpt, h0⟩ := bind_ok.1 h0
    have : (([], []) : List (Namespace × Namespace) × List (Namespace × Namespace × Namespace)) = (pairs, triples) := Except.ok.inj hpt
    cases this
    simp only at h0
    split at h0
    · obtain ⟨W, hW, h0⟩ := bind_ok.1 h0
      cases h0
      exact ⟨rfl, rfl⟩
    · cases h0
  have hE : ∀ f f' : SparseFeatures F, f'.allFeatures = f.allFeatures ++ [(BitVec.ofNat 32 (2 ^ g.numBits / 2), Flt.one)] →
      Expanded g c.pass.pairs c.pass.triples f f' := by
    intro f f' h
    unfold Expanded
    rw [hp.1, hp.2, h1, h]
    simp
  obtain ⟨c', h2, h3⟩ := C118_interactions_partial dbg hash cfg g es es' c hc (by rw [hp.2]; simp) (he.imp fun _ _ h => ⟨hE _ _ h.1, h.2⟩)
  have : g.plain = { g with constantFeatureEnabled := false } := by
    unfold GlobalConfig.plain
    rw [hg]
  exact ⟨c', this ▸ h2, fun f f' h => h3 f f' (hE f f' h)⟩

section examples

/-- Exact arithmetic on the rationals, for the examples. -/
local instance transRatExpanded : Trans ℚ where
  exp := id
  ln := id
  powf := fun a _ => a
  sqrt := id

attribute [local instance] fieldFlt

/-- Two bits, the constant and the interaction of two namespaces. -/
def pairGlobal : GlobalConfig := ⟨2, 0#32, true, [[.name ['a'], .name ['b', 'b']]]⟩

/-- An example with a feature in each of the two namespaces. -/
def pairExample (v w : ℚ) : SparseFeatures ℚ :=
  SparseFeatures.modifyOrCreate (SparseFeatures.modifyOrCreate SparseFeatures.new (.named 1#32) (fun n => n.addFeature 1#32 v)) (.named 2#32)
    (fun n => n.addFeature 3#32 w)

/-- The features, their product and the constant, in one namespace. -/
def pairListed (v w : ℚ) : SparseFeatures ℚ :=
  SparseFeatures.modifyOrCreate SparseFeatures.new .default
    (fun n => (((n.addFeature 1#32 v).addFeature 3#32 w).addFeature 0#32 (v * w)).addFeature 2#32 1)

/-- A regressor with an interaction and the constant, its training example, and the example with the product and the constant. -/
example : ∃ c : Coin ℚ, ∃ p : ℚ × ℚ, Coin.Reached true tinyHash CoinConfig.dflt pairGlobal [⟨pairExample 2 5, 3, 1⟩, ⟨pairExample 1 1, 2, 1⟩] c ∧
    c.pass.pairs = [(.named 1#32, .named 2#32)] ∧ c.pass.triples = [] ∧
    Expanded pairGlobal c.pass.pairs c.pass.triples (pairExample 2 5) (pairListed 2 5) ∧ c.predict true (pairExample 2 5) = .ok p ∧ p.1 ≠ 0 :=
  ⟨_, _, ⟨1, _, by decide, rfl, rfl⟩, by decide +kernel, by decide +kernel, by unfold Expanded; decide +kernel, rfl, by decide +kernel⟩

/-- Two bits, and the interaction of a namespace with itself, alone and with another one. -/
def selfGlobal : GlobalConfig := ⟨2, 0#32, false, [[.name ['a'], .name ['a']], [.name ['a'], .name ['a'], .name ['b', 'b']]]⟩

/-- Interactions of a namespace with itself: the square of the feature, and its product with the feature of the other namespace. -/
example : ∃ c : Coin ℚ, Coin.Reached true tinyHash CoinConfig.dflt selfGlobal [⟨pairExample 2 5, 3, 1⟩] c ∧
    c.pass.pairs = [(.named 1#32, .named 1#32)] ∧ c.pass.triples = [(.named 1#32, .named 1#32, .named 2#32)] ∧
    Expanded selfGlobal c.pass.pairs c.pass.triples (pairExample 2 5)
      (SparseFeatures.modifyOrCreate SparseFeatures.new .default
        (fun n => (((n.addFeature 1#32 2).addFeature 3#32 5).addFeature 2#32 4).addFeature 1#32 20)) :=
  ⟨_, ⟨1, _, by decide, rfl, rfl⟩, by decide +kernel, by decide +kernel, by unfold Expanded; decide +kernel⟩

/-- Training with the constant, and with the constant listed. -/
example : ∃ c : Coin ℚ, Coin.Reached true tinyHash CoinConfig.dflt tinyGlobal [⟨ratFeat 1#32 2, 3, 1⟩] c ∧ tinyGlobal.interactions = [] ∧
    tinyGlobal.constantFeatureEnabled = true ∧
    (twoFeats 1#32 2#32 2 1).allFeatures = (ratFeat 1#32 2).allFeatures ++ [(BitVec.ofNat 32 (2 ^ tinyGlobal.numBits / 2), Flt.one)] :=
  ⟨_, ⟨1, _, by decide, rfl, rfl⟩, rfl, rfl, by decide +kernel⟩

end examples

end Rml
