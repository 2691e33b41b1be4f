import Verif.Props.Coin
import Verif.Props.Hash
import Verif.Lemmas.SpecHash

/-! The Coin regressor under renaming of features: another hash, another number of bits. -/

set_option linter.unusedSectionVars false

namespace Rml
namespace Coin
variable {F : Type} [Flt F]

theorem bettingPredict_fold {dbg : Bool} {c : Coin F} {nb : Nat} (hc : c.Ok nb) {f : SparseFeatures F} {w : F}
    (hr : ∀ iv ∈ visited c.pass f, iv.1.toNat < 2 ^ nb) {ms : CoinModelState F} {rest : List (CoinModelState F)} (hm : c.modelStates = ms :: rest) :
    c.bettingPredict dbg f w = (do
      let s := (visited c.pass f).foldl (fun acc iv => innerPredict c.config.alpha acc iv.2 (c.weights.wst iv.1.toNat)) (Flt.zero, Flt.zero)
      let nsum := Flt.add ms.normalizedSumNormX (Flt.mul s.2 w)
      let tw := Flt.add ms.totalWeight w
      let avg := Flt.div (Flt.add nsum (Flt.lit 1 1000000)) tw
      let p ← Flt.clamp (Flt.div s.1 avg) c.minLabel c.maxLabel
      .ok (p, { c with modelStates := ⟨nsum, tw⟩ :: rest, averageSquaredNormX := avg })) := by
  unfold bettingPredict foreachFeatureWithState
  have := readPass dbg nb (innerPredict c.config.alpha) (visited c.pass f) c.weights hc.table hr (Flt.zero, Flt.zero)
  rw [this, hm]
  rfl

/-- The two regressors hold the same at the weights in `U`, up to the renaming `σ`. -/
structure NRel (σ : U32 → U32) (U : U32 → Prop) (nb nb' : Nat) (c c' : Coin F) : Prop where
  ok : c.Ok nb
  ok' : c'.Ok nb'
  config : c'.config = c.config
  loss : c'.lossFunction = c.lossFunction
  head : c'.modelStates.head? = c.modelStates.head?
  minL : c'.minLabel = c.minLabel
  maxL : c'.maxLabel = c.maxLabel
  weights : ∀ i : U32, U i → i.toNat < 2 ^ nb → (σ i).toNat < 2 ^ nb' → c'.weights.wst (σ i).toNat = c.weights.wst i.toNat

theorem clamp_le {x lo hi y : F} (h : Flt.clamp x lo hi = .ok y) : Flt.le lo hi = true := by
  unfold Flt.clamp at h
  split at h
  · assumption
  · simp at h

theorem foldl_rename {S : Type} {σ : U32 → U32} {st st' : Nat → WState F} (g : S → F → WState F → S) {L : List (U32 × F)}
    (h : ∀ iv ∈ L, st' (σ iv.1).toNat = st iv.1.toNat) : ∀ s : S,
    (L.map fun iv => (σ iv.1, iv.2)).foldl (fun s iv => g s iv.2 (st' iv.1.toNat)) s = L.foldl (fun s iv => g s iv.2 (st iv.1.toNat)) s := by
  induction L with
  | nil => intro s; rfl
  | cons iv L ih =>
    intro s
    simp only [List.map_cons, List.foldl_cons]
    rw [h iv (by simp)]
    exact ih (fun jv hj => h jv (by simp [hj])) _

theorem filter_rename {σ : U32 → U32} {U : U32 → Prop} (hσ : ∀ i j, U i → U j → σ i = σ j → i = j) {L : List (U32 × F)}
    (hL : ∀ iv ∈ L, U iv.1) {i : U32} (hi : U i) :
    (L.map fun iv => (σ iv.1, iv.2)).filter (fun iv => iv.1.toNat = (σ i).toNat) =
      (L.filter fun iv => iv.1.toNat = i.toNat).map fun iv => (σ iv.1, iv.2) := by
  rw [List.filter_map]
  congr 1
  refine List.filter_congr fun iv hiv => ?_
  simp only [Function.comp, decide_eq_decide]
  constructor
  · intro h; rw [hσ _ _ (hL iv hiv) hi (BitVec.eq_of_toNat_eq h)]
  · intro h; rw [BitVec.eq_of_toNat_eq h]

theorem learn_rename {dbg : Bool} {σ : U32 → U32} {U : U32 → Prop} (hσ : ∀ i j, U i → U j → σ i = σ j → i = j) {nb nb' : Nat} {c c' : Coin F}
    (h : NRel σ U nb nb' c c') {f f' : SparseFeatures F} (hU : ∀ iv ∈ visited c.pass f, U iv.1)
    (hf : visited c'.pass f' = (visited c.pass f).map fun iv => (σ iv.1, iv.2))
    (hr' : ∀ iv ∈ visited c'.pass f', iv.1.toNat < 2 ^ nb') {l w : F} {c1 : Coin F} (hl : c.learn dbg f l w = .ok c1) :
    ∃ c1', c'.learn dbg f' l w = .ok c1' ∧ NRel σ U nb nb' c1 c1' ∧ c1.pass = c.pass ∧ c1'.pass = c'.pass := by
  obtain ⟨p, cb, hb, hc1, hok1, hcfg, hmin, hmax, hloss, hpass, hr, hw⟩ := learn_inv h.ok hl
  obtain ⟨ms, rest, hms⟩ : ∃ ms rest, c.modelStates = ms :: rest := by
    cases hm : c.modelStates with
    | nil => exact absurd hm h.ok.models
    | cons ms rest => exact ⟨ms, rest, rfl⟩
  obtain ⟨rest', hms'⟩ : ∃ rest', c'.modelStates = ms :: rest' := by
    have := h.head
    rw [hms] at this
    cases hm : c'.modelStates with
    | nil => exact absurd hm h.ok'.models
    | cons ms' rest' =>
      rw [hm] at this
      simp only [List.head?_cons, Option.some.injEq] at this
      exact ⟨rest', by rw [this]⟩
  have hrσ : ∀ iv ∈ visited c.pass f, (σ iv.1).toNat < 2 ^ nb' := by
    intro iv hiv
    refine hr' (σ iv.1, iv.2) ?_
    rw [hf]
    exact List.mem_map.2 ⟨iv, hiv, rfl⟩
  have hst : ∀ iv ∈ visited c.pass f, c'.weights.wst (σ iv.1).toNat = c.weights.wst iv.1.toNat :=
    fun iv hiv => h.weights iv.1 (hU iv hiv) (hr iv hiv) (hrσ iv hiv)
  have hok : (c.seen l).Ok nb := ⟨h.ok.table, h.ok.bits, h.ok.le31, h.ok.models⟩
  have hok' : (c'.seen l).Ok nb' := ⟨h.ok'.table, h.ok'.bits, h.ok'.le31, h.ok'.models⟩
  rw [bettingPredict_fold hok (c := c.seen l) hr hms] at hb
  obtain ⟨p', hp, hb⟩ := bind_ok.1 hb
  simp only [Except.ok.injEq, Prod.mk.injEq] at hb
  obtain ⟨rfl, hcb⟩ := hb
  obtain ⟨c1', hl'⟩ := learn_succeeds (dbg := dbg) (w := w) (l := l) h.ok' hr' (by rw [h.minL, h.maxL]; exact clamp_le hp)
  obtain ⟨q, cb', hb', hc1', hok1', hcfg', hmin', hmax', hloss', hpass', _, hw'⟩ := learn_inv h.ok' hl'
  refine ⟨c1', hl', ?_, hpass, hpass'⟩
  rw [bettingPredict_fold hok' (c := c'.seen l) hr' hms'] at hb'
  obtain ⟨q', hq, hb'⟩ := bind_ok.1 hb'
  simp only [Except.ok.injEq, Prod.mk.injEq] at hb'
  obtain ⟨rfl, hcb'⟩ := hb'
  simp only [seen] at hp hq hcb hcb'
  rw [hf, h.config, foldl_rename (innerPredict c.config.alpha) hst, h.minL, h.maxL] at hq
  rw [hf, h.config, foldl_rename (innerPredict c.config.alpha) hst, h.minL, h.maxL, h.loss] at hcb'
  have hqp : q' = p' := Except.ok.inj (hq.symm.trans hp)
  subst hqp
  have havg : cb'.averageSquaredNormX = cb.averageSquaredNormX := by rw [← hcb, ← hcb']
  have hupd : cb'.updateOf q' l w = cb.updateOf q' l w := by rw [← hcb, ← hcb']; rfl
  refine ⟨hok1, hok1', by rw [hcfg, hcfg', h.config], by rw [hloss, hloss', h.loss], ?_, by rw [hmin, hmin', h.minL], by rw [hmax, hmax', h.maxL], ?_⟩
  · rw [hc1, hc1', ← hcb, ← hcb']; rfl
  · intro i hi h1 h2
    rw [hw _ h1, hw' _ h2, havg, hupd, h.config, h.weights i hi h1 h2]
    unfold visitsAt
    rw [hf, filter_rename hσ hU hi, List.foldl_map]

theorem trainAll_rename {dbg : Bool} {σ : U32 → U32} {U : U32 → Prop} (hσ : ∀ i j, U i → U j → σ i = σ j → i = j) {nb nb' : Nat}
    {pass pass' : PassCfg} {es es' : List (TrainEx F)}
    (hes : List.Forall₂ (fun e e' => visited pass' e'.feats = (visited pass e.feats).map (fun iv => (σ iv.1, iv.2)) ∧ e'.label = e.label ∧
      e'.weight = e.weight ∧ (∀ iv ∈ visited pass e.feats, U iv.1) ∧ ∀ iv ∈ visited pass' e'.feats, iv.1.toNat < 2 ^ nb') es es') :
    ∀ {c c' c1 : Coin F}, c.pass = pass → c'.pass = pass' → NRel σ U nb nb' c c' → c.trainAll dbg es = .ok c1 →
      ∃ c1', c'.trainAll dbg es' = .ok c1' ∧ NRel σ U nb nb' c1 c1' ∧ c1.pass = pass ∧ c1'.pass = pass' := by
  induction hes with
  | nil =>
    intro c c' c1 hp hp' h ht
    simp only [trainAll, Except.ok.injEq] at ht
    subst ht
    exact ⟨c', rfl, h, hp, hp'⟩
  | cons he _ ih =>
    intro c c' c1 hp hp' h ht
    obtain ⟨h1, h2, h3, h4, h5⟩ := he
    rw [trainAll] at ht
    obtain ⟨c2, hc2, ht⟩ := bind_ok.1 ht
    obtain ⟨c2', hl, hrel, q, q'⟩ := learn_rename hσ h (by rw [hp]; exact h4) (by rw [hp, hp']; exact h1) (by rw [hp']; exact h5) hc2
    obtain ⟨c1', h6, h7⟩ := ih (q.trans hp) (q'.trans hp') hrel ht
    refine ⟨c1', ?_, h7⟩
    rw [trainAll, h2, h3, hl]
    exact h6

theorem predict_rename {dbg : Bool} {σ : U32 → U32} {U : U32 → Prop} {nb nb' : Nat} {c c' : Coin F} (h : NRel σ U nb nb' c c')
    {f f' : SparseFeatures F} (hU : ∀ iv ∈ visited c.pass f, U iv.1)
    (hf : visited c'.pass f' = (visited c.pass f).map fun iv => (σ iv.1, iv.2))
    (hr' : ∀ iv ∈ visited c'.pass f', iv.1.toNat < 2 ^ nb') {r : F × F} (hp : c.predict dbg f = .ok r) : c'.predict dbg f' = .ok r := by
  unfold predict at hp ⊢
  obtain ⟨x, h1, hp⟩ := bind_ok.1 hp
  obtain ⟨hr, hx⟩ := rawSum_inv h.ok h1
  have hst : ∀ iv ∈ visited c.pass f, c'.weights.wst (σ iv.1).toNat = c.weights.wst iv.1.toNat := by
    intro iv hiv
    refine h.weights iv.1 (hU iv hiv) (hr iv hiv) (hr' (σ iv.1, iv.2) ?_)
    rw [hf]
    exact List.mem_map.2 ⟨iv, hiv, rfl⟩
  rw [rawSum_eq h.ok' hr', hf, foldl_rename (fun acc v (s : WState F) => Flt.add acc (Flt.mul v s.xt)) hst, ← hx, h.minL, h.maxL, h.config]
  exact hp

theorem new_rename {hash hash' : HashFn} {cfg : CoinConfig F} {g g' : GlobalConfig} {n n' : Nat} {c c' : Coin F} (hn : 0 < n) (hn' : 0 < n')
    (h : Coin.new hash cfg g n = .ok c) (h' : Coin.new hash' cfg g' n' = .ok c') (σ : U32 → U32) (U : U32 → Prop) :
    NRel σ U g.numBits g'.numBits c c' := by
  obtain ⟨hok, h1, hsq, hr, hz⟩ := Coin.new_ok hn h
  obtain ⟨hok', h1', hsq', hr', hz'⟩ := Coin.new_ok hn' h'
  have e := hr'.trans hr.symm
  simp only [Prod.mk.injEq] at e
  refine ⟨hok, hok', by rw [h1, h1'], by rw [hsq, hsq'], ?_, e.1, e.2, fun i _ hi hi' => by rw [hz _ hi, hz' _ hi']⟩
  have key : ∀ {hash : HashFn} {g : GlobalConfig} {n : Nat} {c : Coin F}, 0 < n → Coin.new hash cfg g n = .ok c →
      c.modelStates.head? = some ⟨Flt.zero, Flt.zero⟩ := by
    intro hash g n c hn h
    unfold Coin.new at h
    obtain ⟨⟨pairs, triples⟩, _, h⟩ := bind_ok.1 h
    simp only at h
    split at h
    · obtain ⟨w, hw, h⟩ := bind_ok.1 h
      simp only [Except.ok.injEq] at h
      subst h
      cases n with
      | zero => omega
      | succ n => rfl
    · cases h
  rw [key hn h, key hn' h']

theorem new_pass {hash : HashFn} {cfg : CoinConfig F} {g : GlobalConfig} {n : Nat} {c : Coin F} (h : Coin.new hash cfg g n = .ok c) :
    ∃ ps ts, compileInteractions hash g.hashSeed g.interactions = .ok (ps, ts) ∧ c.pass = ⟨ps, ts, g.numBits, g.constantFeatureEnabled⟩ := by
  unfold Coin.new at h
  obtain ⟨⟨pairs, triples⟩, h1, h⟩ := bind_ok.1 h
  simp only at h
  split at h
  · obtain ⟨w, hw, h⟩ := bind_ok.1 h
    simp only [Except.ok.injEq] at h
    subst h
    exact ⟨pairs, triples, h1, rfl⟩
  · cases h

theorem reached_new {dbg : Bool} {hash : HashFn} {cfg : CoinConfig F} {g : GlobalConfig} {es : List (TrainEx F)} {c : Coin F}
    (h : Coin.Reached dbg hash cfg g es c) : ∃ n c0, 0 < n ∧ Coin.new hash cfg g n = .ok c0 ∧ c0.trainAll dbg es = .ok c ∧ c0.pass = c.pass := by
  obtain ⟨nma, c0, hn, h0, ht⟩ := h
  exact ⟨nma, c0, hn, h0, ht, (Coin.trainAll_induct (dbg := dbg) (nb := g.numBits) (fun _ c => c0.pass = c.pass) (by
      intro es c c' e hc h1 hl
      obtain ⟨_, _, _, _, _, _, _, _, _, q, _⟩ := Coin.learn_inv hc hl
      rw [q, h1]) es [] c0 c (Coin.new_ok hn h0).1 rfl ht).2⟩

end Coin

variable {F : Type} [Flt F]

/-! ### Fewer bits -/

theorem maskIdx_maskIdx {b nb : Nat} (h : b ≤ nb) (hn : nb < 32) (x : U32) : maskIdx b (maskIdx nb x) = maskIdx b x := by
  apply BitVec.eq_of_toNat_eq
  rw [maskIdx_toNat (by omega), maskIdx_toNat hn, maskIdx_toNat (by omega)]
  exact Nat.mod_mod_of_dvd _ (pow_dvd_pow 2 h)

theorem lookup_lowBits (b : Nat) (es : List (Namespace × NsFeats F)) (ns : Namespace) :
    SparseFeatures.lookup (es.map fun e => (e.1, e.2.lowBits b)) ns = (SparseFeatures.lookup es ns).map (NsFeats.lowBits b) := by
  induction es with
  | nil => rfl
  | cons e es ih =>
    obtain ⟨k, v⟩ := e
    simp only [List.map_cons, SparseFeatures.lookup]
    split
    · rfl
    · exact ih

/-- One feature with fewer bits. -/
def lowFeat (b : Nat) (iv : U32 × F) : U32 × F := (lowBits b iv.1, iv.2)

theorem iter_lowBits (b : Nat) (n : NsFeats F) : (n.lowBits b).iter = n.iter.map (lowFeat b) := by
  unfold NsFeats.iter NsFeats.lowBits
  rw [List.zip_map_left]
  rfl

theorem allFeatures_lowBits (b : Nat) (f : SparseFeatures F) : (f.lowBits b).allFeatures = f.allFeatures.map (lowFeat b) := by
  unfold SparseFeatures.allFeatures SparseFeatures.lowBits
  rw [List.flatMap_map, List.map_flatMap]
  exact List.flatMap_congr fun e _ => iter_lowBits b e.2

theorem nsIter_lowBits (b : Nat) (f : SparseFeatures F) (ns : Namespace) : nsIter (f.lowBits b) ns = (nsIter f ns).map (lowFeat b) := by
  unfold nsIter SparseFeatures.getNamespace SparseFeatures.lowBits
  rw [lookup_lowBits]
  cases SparseFeatures.lookup f.entries ns with
  | none => rfl
  | some n =>
    simp only [Option.map_some]
    have : (n.lowBits b).active = n.active := rfl
    rw [this]
    cases n.active with
    | false => rfl
    | true => exact iter_lowBits b n

theorem pair_lowBits {b nb : Nat} (h : b ≤ nb) (hn : nb < 32) (x y : U32) :
    maskIdx b (fnvMul (maskIdx b x) ^^^ maskIdx b y) = maskIdx b (maskIdx nb (fnvMul x ^^^ y)) := by
  rw [maskIdx_maskIdx h hn]
  refine maskIdx_xor_congr ?_ (maskIdx_idem (by omega) _)
  rw [fnvMul_eq, fnvMul_eq]
  exact maskIdx_mul_congr (by omega) (maskIdx_idem (by omega) _)

theorem triple_lowBits {b nb : Nat} (h : b ≤ nb) (hn : nb < 32) (x y z : U32) :
    maskIdx b (fnvMul (fnvMul (maskIdx b x) ^^^ maskIdx b y) ^^^ maskIdx b z) = maskIdx b (maskIdx nb (fnvMul (fnvMul x ^^^ y) ^^^ z)) := by
  rw [maskIdx_maskIdx h hn]
  refine maskIdx_xor_congr ?_ (maskIdx_idem (by omega) _)
  rw [fnvMul_eq (fnvMul _ ^^^ _), fnvMul_eq (fnvMul x ^^^ y)]
  refine maskIdx_mul_congr (by omega) ?_
  refine maskIdx_xor_congr ?_ (maskIdx_idem (by omega) _)
  rw [fnvMul_eq, fnvMul_eq]
  exact maskIdx_mul_congr (by omega) (maskIdx_idem (by omega) _)

theorem quadVisit_lowBits {b nb : Nat} (h : b ≤ nb) (hn : nb < 32) (f : SparseFeatures F) (p : Namespace × Namespace) :
    quadVisit b (f.lowBits b) p = (quadVisit nb f p).map (lowFeat b) := by
  unfold quadVisit
  rw [nsIter_lowBits, nsIter_lowBits, List.zipIdx_map, List.flatMap_map, List.map_flatMap]
  refine List.flatMap_congr fun e _ => ?_
  simp only [Prod.map, id_eq]
  rw [← List.map_drop, List.map_map, List.map_map]
  refine List.map_congr_left fun g _ => ?_
  simp only [Function.comp, lowFeat, lowBits_eq]
  rw [pair_lowBits h hn]

theorem cubicVisit_lowBits {b nb : Nat} (h : b ≤ nb) (hn : nb < 32) (f : SparseFeatures F) (t : Namespace × Namespace × Namespace) :
    cubicVisit b (f.lowBits b) t = (cubicVisit nb f t).map (lowFeat b) := by
  unfold cubicVisit
  rw [nsIter_lowBits, nsIter_lowBits, nsIter_lowBits, List.zipIdx_map, List.flatMap_map, List.map_flatMap]
  refine List.flatMap_congr fun e _ => ?_
  simp only [Prod.map, id_eq]
  rw [← List.map_drop, ← List.map_drop, List.flatMap_map, List.map_flatMap]
  refine List.flatMap_congr fun g _ => ?_
  rw [List.map_map, List.map_map]
  refine List.map_congr_left fun k _ => ?_
  simp only [Function.comp, lowFeat, lowBits_eq]
  rw [triple_lowBits h hn]

/-- The features and interactions that a regressor visits, without the constant. -/
theorem visited_lowBits {b nb : Nat} (h : b ≤ nb) (hn : nb < 32) (ps : List (Namespace × Namespace)) (ts : List (Namespace × Namespace × Namespace))
    (f : SparseFeatures F) : visited ⟨ps, ts, b, false⟩ (f.lowBits b) = (visited ⟨ps, ts, nb, false⟩ f).map (lowFeat b) := by
  unfold visited constVisit
  simp only [Bool.false_eq_true, if_false, List.append_nil, List.map_append]
  rw [allFeatures_lowBits, List.map_flatMap, List.map_flatMap]
  congr 1
  · congr 1
    exact List.flatMap_congr fun p _ => quadVisit_lowBits h hn f p
  · exact List.flatMap_congr fun t _ => cubicVisit_lowBits h hn f t

theorem visited_const (ps : List (Namespace × Namespace)) (ts : List (Namespace × Namespace × Namespace)) (nb : Nat) (k : Bool)
    (f : SparseFeatures F) : visited ⟨ps, ts, nb, k⟩ f = visited ⟨ps, ts, nb, false⟩ f ++ (if k then [(constantFeatureIndex nb, Flt.one)] else []) := by
  unfold visited constVisit
  simp
end Rml
