import Verif.Lemmas.Bits
import Verif.Props.Weights
import Verif.Props.Units
import Verif.Props.JsonParser

/-!
C89: names of features do not matter unless two collide. All theorems hold for every arithmetic, so also for `f32`.
-/

set_option linter.unusedSectionVars false

namespace Rml
open Coin
variable {F : Type} [Flt F]

/-- C89. Two models with the same configuration of the regressor, but possibly another hash function, hash seed and number of bits. The second one is
trained on the same examples, except that the index `i` of every feature, interaction or constant is `σ i` there. If no two different indices become
equal, then both make the same prediction. -/
theorem C89_names (dbg : Bool) (hash hash' : HashFn) (cfg : CoinConfig F) (g g' : GlobalConfig) (σ : U32 → U32) (es es' : List (TrainEx F))
    (f f' : SparseFeatures F) (c : Coin F) (hc : Coin.Reached dbg hash cfg g es c) (n' : Nat) (hn' : 0 < n') (c0' : Coin F)
    (h0' : Coin.new hash' cfg g' n' = .ok c0')
    (hσ : ∀ i j, UsedIndex c.pass es f i → UsedIndex c.pass es f j → σ i = σ j → i = j)
    (he : List.Forall₂ (fun e e' => visited c0'.pass e'.feats = (visited c.pass e.feats).map (fun iv => (σ iv.1, iv.2)) ∧ e'.label = e.label ∧
      e'.weight = e.weight ∧ e'.feats.Fits g'.numBits) es es')
    (hf : visited c0'.pass f' = (visited c.pass f).map fun iv => (σ iv.1, iv.2)) (hfit : f'.Fits g'.numBits) (r : F × F)
    (hp : c.predict dbg f = .ok r) : ∃ c', Coin.Reached dbg hash' cfg g' es' c' ∧ c'.predict dbg f' = .ok r := by
  obtain ⟨n, c0, hn, h0, ht, hpass⟩ := reached_new hc
  have hok' := (Coin.new_ok hn' h0').1
  have hin : ∀ f : SparseFeatures F, f.Fits g'.numBits → ∀ iv ∈ visited c0'.pass f, iv.1.toNat < 2 ^ g'.numBits := by
    intro f hf
    have := C01_index_in_range c0'.pass f (by rw [hok'.bits]; exact hok'.le31) (by rw [hok'.bits]; exact hf)
    rwa [hok'.bits] at this
  have hes : List.Forall₂ (fun e e' => visited c0'.pass e'.feats = (visited c.pass e.feats).map (fun iv => (σ iv.1, iv.2)) ∧ e'.label = e.label ∧
      e'.weight = e.weight ∧ (∀ iv ∈ visited c.pass e.feats, UsedIndex c.pass es f iv.1) ∧
      ∀ iv ∈ visited c0'.pass e'.feats, iv.1.toNat < 2 ^ g'.numBits) es es' := by
    have key : ∀ (l l' : List (TrainEx F)), (∀ e ∈ l, e ∈ es) → List.Forall₂ (fun e e' => visited c0'.pass e'.feats =
        (visited c.pass e.feats).map (fun iv => (σ iv.1, iv.2)) ∧ e'.label = e.label ∧ e'.weight = e.weight ∧ e'.feats.Fits g'.numBits) l l' →
        List.Forall₂ (fun e e' => visited c0'.pass e'.feats = (visited c.pass e.feats).map (fun iv => (σ iv.1, iv.2)) ∧ e'.label = e.label ∧
          e'.weight = e.weight ∧ (∀ iv ∈ visited c.pass e.feats, UsedIndex c.pass es f iv.1) ∧
          ∀ iv ∈ visited c0'.pass e'.feats, iv.1.toNat < 2 ^ g'.numBits) l l' := by
      intro l l' hl h
      induction h with
      | nil => exact .nil
      | cons h _ ih =>
        exact .cons ⟨h.1, h.2.1, h.2.2.1, fun iv hiv => .inl ⟨_, hl _ (by simp), iv.2, hiv⟩, hin _ h.2.2.2⟩ (ih fun e he => hl e (by simp [he]))
    exact key es es' (fun _ h => h) he
  obtain ⟨c', h1, h2, q, q'⟩ := trainAll_rename hσ hes hpass rfl (new_rename hn hn' h0 h0' σ (UsedIndex c.pass es f)) ht
  refine ⟨c', ⟨n', c0', hn', h0', h1⟩, predict_rename h2 (fun iv hiv => .inr ⟨iv.2, hiv⟩) (by rw [q']; exact hf) (by rw [q']; exact hin f' hfit) hp⟩

/-- A regressor can be made with every number of bits below 32, if its interactions are valid. -/
theorem coin_new_bits (hash : HashFn) (cfg : CoinConfig F) (g : GlobalConfig) (hb : g.numBits ≤ 31) {ps : List (Namespace × Namespace)}
    {ts : List (Namespace × Namespace × Namespace)} (h : compileInteractions hash g.hashSeed g.interactions = .ok (ps, ts)) :
    ∃ c : Coin F, Coin.new hash cfg g 1 = .ok c := by
  have e : (bitsToMaxFeatureIndex g.numBits).toNat = 2 ^ g.numBits := bitsToMax_toNat (by omega)
  have hpos : 0 < 2 ^ g.numBits := Nat.two_pow_pos _
  have hfs : numBitsToRepresent (2 ^ g.numBits - 1) ≤ 31 := by
    unfold numBitsToRepresent
    split
    · omega
    · rename_i h0
      have : (2 ^ g.numBits - 1).log2 < 31 := (Nat.log2_lt h0).2 (by have := Nat.pow_le_pow_right (n := 2) (by omega) hb; omega)
      omega
  have hw : ∃ w : DenseWeights F, DenseWeights.new (bitsToMaxFeatureIndex g.numBits).toNat 1 6 = .ok w := by
    unfold DenseWeights.new
    rw [e, if_neg (by omega)]
    have h1 : numBitsToRepresent (1 - 1) = 0 := rfl
    have h2 : numBitsToRepresent (6 - 1) = 3 := by decide
    simp only [h1, h2]
    rw [if_pos (by omega)]
    exact ⟨_, rfl⟩
  obtain ⟨w, hw⟩ := hw
  unfold Coin.new
  rw [h]
  simp only [bind, Except.bind]
  rw [if_pos (by omega), hw]
  exact ⟨_, rfl⟩

/-- C89 with the constant apart. -/
theorem names_const (dbg : Bool) (hash hash' : HashFn) (cfg : CoinConfig F) (g g' : GlobalConfig) (σ : U32 → U32) (es es' : List (TrainEx F))
    (f f' : SparseFeatures F) (c : Coin F) (hc : Coin.Reached dbg hash cfg g es c) (c0' : Coin F) (h0' : Coin.new hash' cfg g' 1 = .ok c0')
    (hk : g'.constantFeatureEnabled = g.constantFeatureEnabled)
    (hσ : ∀ i j, UsedIndex { c.pass with addConstant := false } es f i → UsedIndex { c.pass with addConstant := false } es f j → σ i = σ j → i = j)
    (hconst : g.constantFeatureEnabled = true → ∀ i, UsedIndex { c.pass with addConstant := false } es f i →
      (i.toNat = 2 ^ g.numBits / 2 ↔ (σ i).toNat = 2 ^ g'.numBits / 2))
    (he : List.Forall₂ (fun e e' => visited { c0'.pass with addConstant := false } e'.feats =
      (visited { c.pass with addConstant := false } e.feats).map (fun iv => (σ iv.1, iv.2)) ∧ e'.label = e.label ∧
      e'.weight = e.weight ∧ e'.feats.Fits g'.numBits) es es')
    (hf : visited { c0'.pass with addConstant := false } f' = (visited { c.pass with addConstant := false } f).map fun iv => (σ iv.1, iv.2))
    (hfit : f'.Fits g'.numBits) (r : F × F)
    (hp : c.predict dbg f = .ok r) : ∃ c', Coin.Reached dbg hash' cfg g' es' c' ∧ c'.predict dbg f' = .ok r := by
  obtain ⟨n, c0, hn, h0, ht, hpass⟩ := reached_new hc
  obtain ⟨ps, ts, _, e1⟩ := new_pass h0
  obtain ⟨ps', ts', _, e1'⟩ := new_pass h0'
  rw [hpass] at e1
  rw [hk] at e1'
  have hb : g.numBits < 32 := by have := (Coin.new_ok hn h0).1.le31; omega
  have hb' : g'.numBits < 32 := by have := (Coin.new_ok (by omega) h0').1.le31; omega
  -- the renaming, with the constant
  let τ : U32 → U32 := fun i => if g.constantFeatureEnabled = true ∧ i = constantFeatureIndex g.numBits then constantFeatureIndex g'.numBits else σ i
  have hci : ∀ i : U32, i = constantFeatureIndex g.numBits ↔ i.toNat = 2 ^ g.numBits / 2 := fun i =>
    ⟨fun h => by rw [h, constantFeatureIndex_toNat hb], fun h => BitVec.eq_of_toNat_eq (by rw [h, constantFeatureIndex_toNat hb])⟩
  have hci' : ∀ i : U32, i = constantFeatureIndex g'.numBits ↔ i.toNat = 2 ^ g'.numBits / 2 := fun i =>
    ⟨fun h => by rw [h, constantFeatureIndex_toNat hb'], fun h => BitVec.eq_of_toNat_eq (by rw [h, constantFeatureIndex_toNat hb'])⟩
  have hτ : ∀ i, UsedIndex { c.pass with addConstant := false } es f i → τ i = σ i := by
    intro i hi
    show (if _ then _ else _) = _
    split
    · rename_i h
      exact ((hci' _).2 ((hconst h.1 i hi).1 ((hci i).1 h.2))).symm
    · rfl
  have hvis : ∀ f : SparseFeatures F, visited c.pass f = visited { c.pass with addConstant := false } f ++
      (if g.constantFeatureEnabled then [(constantFeatureIndex g.numBits, Flt.one)] else []) := by
    intro f; rw [e1]; exact visited_const _ _ _ _ _
  have hvis' : ∀ f : SparseFeatures F, visited c0'.pass f = visited { c0'.pass with addConstant := false } f ++
      (if g.constantFeatureEnabled then [(constantFeatureIndex g'.numBits, Flt.one)] else []) := by
    intro f; rw [e1']; exact visited_const _ _ _ _ _
  have hused : ∀ i, UsedIndex c.pass es f i →
      UsedIndex { c.pass with addConstant := false } es f i ∨ (g.constantFeatureEnabled = true ∧ i = constantFeatureIndex g.numBits) := by
    have key : ∀ (h : SparseFeatures F) i v, (i, v) ∈ visited c.pass h → (i, v) ∈ visited { c.pass with addConstant := false } h ∨
        (g.constantFeatureEnabled = true ∧ i = constantFeatureIndex g.numBits) := by
      intro h i v hm
      rw [hvis, List.mem_append] at hm
      rcases hm with hm | hm
      · exact .inl hm
      · split at hm
        · rename_i hk
          simp only [List.mem_singleton, Prod.mk.injEq] at hm
          exact .inr ⟨hk, hm.1⟩
        · cases hm
    intro i hi
    rcases hi with ⟨e, he, v, hv⟩ | ⟨v, hv⟩
    · rcases key _ _ _ hv with h | h
      · exact .inl (.inl ⟨e, he, v, h⟩)
      · exact .inr h
    · rcases key _ _ _ hv with h | h
      · exact .inl (.inr ⟨v, h⟩)
      · exact .inr h
  have hmap : ∀ h h' : SparseFeatures F, (∀ iv ∈ visited { c.pass with addConstant := false } h, UsedIndex { c.pass with addConstant := false } es f iv.1) →
      visited { c0'.pass with addConstant := false } h' = (visited { c.pass with addConstant := false } h).map (fun iv => (σ iv.1, iv.2)) →
      visited c0'.pass h' = (visited c.pass h).map fun iv => (τ iv.1, iv.2) := by
    intro h h' hu hv
    rw [hvis, hvis', hv, List.map_append]
    congr 1
    · exact List.map_congr_left fun iv hiv => by rw [hτ _ (hu iv hiv)]
    · split
      · rename_i hk
        simp only [List.map_cons, List.map_nil]
        rw [show τ (constantFeatureIndex g.numBits) = constantFeatureIndex g'.numBits from if_pos ⟨hk, rfl⟩]
      · rfl
  refine C89_names dbg hash hash' cfg g g' τ es es' f f' c hc 1 (by omega) c0' h0' ?_ ?_ (hmap f f' (fun iv hiv => .inr ⟨iv.2, hiv⟩) hf) hfit r hp
  · intro i j hi hj hij
    rcases hused i hi with hi | ⟨k1, rfl⟩ <;> rcases hused j hj with hj | ⟨k2, rfl⟩
    · rw [hτ i hi, hτ j hj] at hij
      exact hσ i j hi hj hij
    · rw [hτ i hi, show τ (constantFeatureIndex g.numBits) = constantFeatureIndex g'.numBits from if_pos ⟨k2, rfl⟩] at hij
      exact (hci i).2 ((hconst k2 i hi).2 ((hci' _).1 hij))
    · rw [hτ j hj, show τ (constantFeatureIndex g.numBits) = constantFeatureIndex g'.numBits from if_pos ⟨k1, rfl⟩] at hij
      exact ((hci j).2 ((hconst k1 j hj).2 ((hci' _).1 hij.symm))).symm
    · rfl
  · have key : ∀ (l l' : List (TrainEx F)), (∀ e ∈ l, e ∈ es) → List.Forall₂ (fun e e' => visited { c0'.pass with addConstant := false } e'.feats =
        (visited { c.pass with addConstant := false } e.feats).map (fun iv => (σ iv.1, iv.2)) ∧ e'.label = e.label ∧ e'.weight = e.weight ∧
        e'.feats.Fits g'.numBits) l l' → List.Forall₂ (fun e e' => visited c0'.pass e'.feats = (visited c.pass e.feats).map (fun iv => (τ iv.1, iv.2)) ∧
          e'.label = e.label ∧ e'.weight = e.weight ∧ e'.feats.Fits g'.numBits) l l' := by
      intro l l' hl h
      induction h with
      | nil => exact .nil
      | cons h _ ih =>
        exact .cons ⟨hmap _ _ (fun iv hiv => .inl ⟨_, hl _ (by simp), iv.2, hiv⟩) h.1, h.2⟩ (ih fun e he => hl e (by simp [he]))
    exact key es es' (fun _ h => h) he

/-- The indices of the features of a history and of an example to predict. -/
def FeatureOf (es : List (TrainEx F)) (f : SparseFeatures F) (i : U32) : Prop :=
  (∃ e ∈ es, ∃ v, (i, v) ∈ e.feats.allFeatures) ∨ ∃ v, (i, v) ∈ f.allFeatures

/-- C89 without interactions: the features of all examples are renamed by `σ`. No two features become equal, and none becomes or stops being the constant
(it has the index `2 ^ numBits / 2`). -/
theorem C89_features (dbg : Bool) (hash hash' : HashFn) (cfg : CoinConfig F) (g g' : GlobalConfig) (hg : g.interactions = [])
    (hg' : g'.interactions = []) (hk : g'.constantFeatureEnabled = g.constantFeatureEnabled) (hb : g'.numBits ≤ 31) (σ : U32 → U32)
    (es es' : List (TrainEx F)) (f f' : SparseFeatures F) (c : Coin F) (hc : Coin.Reached dbg hash cfg g es c)
    (hσ : ∀ i j, FeatureOf es f i → FeatureOf es f j → σ i = σ j → i = j)
    (hconst : g.constantFeatureEnabled = true → ∀ i, FeatureOf es f i → (i.toNat = 2 ^ g.numBits / 2 ↔ (σ i).toNat = 2 ^ g'.numBits / 2))
    (hfit : ∀ i, FeatureOf es f i → (σ i).toNat < 2 ^ g'.numBits)
    (he : List.Forall₂ (fun e e' => e'.feats.allFeatures = e.feats.allFeatures.map (fun iv => (σ iv.1, iv.2)) ∧ e'.label = e.label ∧
      e'.weight = e.weight) es es')
    (hf : f'.allFeatures = f.allFeatures.map fun iv => (σ iv.1, iv.2)) (r : F × F) (hp : c.predict dbg f = .ok r) :
    ∃ c', Coin.Reached dbg hash' cfg g' es' c' ∧ c'.predict dbg f' = .ok r := by
  have hcomp : ∀ (h : HashFn) (s : U32), compileInteractions h s [] = .ok ([], []) := fun _ _ => rfl
  obtain ⟨c0', h0'⟩ := coin_new_bits hash' cfg g' hb (by rw [hg']; exact hcomp _ _)
  obtain ⟨n, c0, hn, h0, ht, hpass⟩ := reached_new hc
  obtain ⟨ps, ts, e0, e1⟩ := new_pass h0
  obtain ⟨ps', ts', e0', e1'⟩ := new_pass h0'
  rw [hg, hcomp] at e0
  rw [hg', hcomp] at e0'
  simp only [Except.ok.injEq, Prod.mk.injEq] at e0 e0'
  obtain ⟨rfl, rfl⟩ := e0
  obtain ⟨rfl, rfl⟩ := e0'
  rw [hpass] at e1
  have hv : ∀ h : SparseFeatures F, visited { c.pass with addConstant := false } h = h.allFeatures := by
    intro h; rw [e1]; simp [visited, constVisit]
  have hv' : ∀ h : SparseFeatures F, visited { c0'.pass with addConstant := false } h = h.allFeatures := by
    intro h; rw [e1']; simp [visited, constVisit]
  have hu : ∀ i, UsedIndex { c.pass with addConstant := false } es f i ↔ FeatureOf es f i := by
    intro i
    unfold UsedIndex FeatureOf
    simp only [hv]
  have hfits : ∀ h h' : SparseFeatures F, (∀ iv ∈ h.allFeatures, FeatureOf es f iv.1) → h'.allFeatures = h.allFeatures.map (fun iv => (σ iv.1, iv.2)) →
      h'.Fits g'.numBits := by
    intro h h' hh e iv hiv
    rw [e] at hiv
    obtain ⟨jv, hj, rfl⟩ := List.mem_map.1 hiv
    exact hfit _ (hh jv hj)
  refine names_const dbg hash hash' cfg g g' σ es es' f f' c hc c0' h0' hk (fun i j hi hj => hσ i j ((hu i).1 hi) ((hu j).1 hj))
    (fun k i hi => hconst k i ((hu i).1 hi)) ?_ (by rw [hv, hv']; exact hf) (hfits f f' (fun iv hiv => .inr ⟨iv.2, hiv⟩) hf) r hp
  have key : ∀ (l l' : List (TrainEx F)), (∀ e ∈ l, e ∈ es) → List.Forall₂ (fun e e' => e'.feats.allFeatures =
      e.feats.allFeatures.map (fun iv => (σ iv.1, iv.2)) ∧ e'.label = e.label ∧ e'.weight = e.weight) l l' →
      List.Forall₂ (fun e e' => visited { c0'.pass with addConstant := false } e'.feats =
        (visited { c.pass with addConstant := false } e.feats).map (fun iv => (σ iv.1, iv.2)) ∧ e'.label = e.label ∧ e'.weight = e.weight ∧
        e'.feats.Fits g'.numBits) l l' := by
    intro l l' hl h
    induction h with
    | nil => exact .nil
    | cons h _ ih =>
      refine .cons ⟨by rw [hv, hv']; exact h.1, h.2.1, h.2.2, hfits _ _ (fun iv hiv => .inl ⟨_, hl _ (by simp), iv.2, hiv⟩) h.1⟩
        (ih fun e he => hl e (by simp [he]))
  exact key es es' (fun _ h => h) he

theorem fits_lowBits {b : Nat} (hb : b < 32) (f : SparseFeatures F) : (f.lowBits b).Fits b := by
  intro iv hiv
  rw [allFeatures_lowBits] at hiv
  obtain ⟨jv, _, rfl⟩ := List.mem_map.1 hiv
  simp only [lowFeat, lowBits_eq]
  exact maskIdx_lt hb _

/-- C89 for the number of bits: with fewer bits, a model makes the same predictions if no two features or interactions (of the examples learned from and
the example to predict) collide, and none collides with the constant. -/
theorem C89_bits (dbg : Bool) (hash : HashFn) (cfg : CoinConfig F) (g : GlobalConfig) (b : Nat) (hb : b ≤ g.numBits) (es : List (TrainEx F))
    (f : SparseFeatures F) (c : Coin F) (hc : Coin.Reached dbg hash cfg g es c)
    (hno : ∀ i j, UsedIndex { c.pass with addConstant := false } es f i → UsedIndex { c.pass with addConstant := false } es f j →
      lowBits b i = lowBits b j → i = j)
    (hconst : g.constantFeatureEnabled = true → ∀ i, UsedIndex { c.pass with addConstant := false } es f i →
      (i.toNat = 2 ^ g.numBits / 2 ↔ (lowBits b i).toNat = 2 ^ b / 2))
    (r : F × F) (hp : c.predict dbg f = .ok r) :
    ∃ c', Coin.Reached dbg hash cfg { g with numBits := b } (es.map fun e => { e with feats := e.feats.lowBits b }) c' ∧
      c'.predict dbg (f.lowBits b) = .ok r := by
  obtain ⟨n, c0, hn, h0, ht, hpass⟩ := reached_new hc
  have hb31 := (Coin.new_ok hn h0).1.le31
  have hb32 : b < 32 := by omega
  obtain ⟨ps, ts, e0, e1⟩ := new_pass h0
  obtain ⟨c0', h0'⟩ := coin_new_bits hash cfg { g with numBits := b } (by show b ≤ 31; omega) e0
  obtain ⟨ps', ts', e0', e1'⟩ := new_pass h0'
  have e := e0.symm.trans e0'
  simp only [Except.ok.injEq, Prod.mk.injEq] at e
  obtain ⟨rfl, rfl⟩ := e
  rw [hpass] at e1
  have hv : ∀ h : SparseFeatures F, visited { c0'.pass with addConstant := false } (h.lowBits b) =
      (visited { c.pass with addConstant := false } h).map (fun iv => (lowBits b iv.1, iv.2)) := by
    intro h; rw [e1, e1']; exact visited_lowBits hb (by omega) ps ts h
  refine names_const dbg hash hash cfg g { g with numBits := b } (lowBits b) es _ f _ c hc c0' h0' rfl hno hconst ?_ (hv f)
    (fits_lowBits hb32 f) r hp
  rw [List.forall₂_map_right_iff]
  exact List.forall₂_same.2 fun e _ => ⟨hv _, rfl, rfl, fits_lowBits hb32 _⟩

/-- C89 for VW text: a parser with fewer bits accepts the same text and gives the same example and label, except that every index has fewer bits. It
fails on the same text in the same way. -/
theorem C89_vw (pr : Vw.Parser F) (b : Nat) (hb : b ≤ pr.numBits) (hn : pr.numBits ≤ 31) (chunk : Text.Str) :
    (∀ e, Vw.parseChunk pr ⟨[]⟩ chunk = .error e → Vw.parseChunk { pr with numBits := b } ⟨[]⟩ chunk = .error e) ∧
    ∀ f l pool, Vw.parseChunk pr ⟨[]⟩ chunk = .ok ((f, l), pool) →
      ∃ pool', Vw.parseChunk { pr with numBits := b } ⟨[]⟩ chunk = .ok ((f.lowBits b, l), pool') := by
  have h := Vw.parseChunk_lowBits hb (by omega) ⟨[]⟩ chunk
  have he : Pool.lowBits b (⟨[]⟩ : Pool (SparseFeatures F)) = ⟨[]⟩ := rfl
  rw [he] at h
  exact ⟨fun e q => by rw [h, q]; rfl, fun f l pool q => ⟨_, by rw [h, q]; rfl⟩⟩

/-- C89 for JSON. -/
theorem C89_json {N : Type} (pr : Js.Parser F N) (b : Nat) (hb : b ≤ pr.numBits) (hn : pr.numBits ≤ 31) (chunk : Text.Str) :
    (∀ e, Js.parseChunk pr ⟨[]⟩ chunk = .error e → Js.parseChunk { pr with numBits := b } ⟨[]⟩ chunk = .error e) ∧
    ∀ f l pool, Js.parseChunk pr ⟨[]⟩ chunk = .ok ((f, l), pool) →
      ∃ pool', Js.parseChunk { pr with numBits := b } ⟨[]⟩ chunk = .ok ((f.lowBits b, l), pool') := by
  have h := Js.parseChunk_lowBits hb (by omega) ⟨[]⟩ chunk
  have he : Pool.lowBits b (⟨[]⟩ : Pool (SparseFeatures F)) = ⟨[]⟩ := rfl
  rw [he] at h
  exact ⟨fun e q => by rw [h, q]; rfl, fun f l pool q => ⟨_, by rw [h, q]; rfl⟩⟩

/-- C89 for DsJson. -/
theorem C89_dsjson {N : Type} (pr : Js.Parser F N) (b : Nat) (hb : b ≤ pr.numBits) (hn : pr.numBits ≤ 31) (chunk : Text.Str) :
    (∀ e, Ds.parseChunk pr ⟨[]⟩ chunk = .error e → Ds.parseChunk { pr with numBits := b } ⟨[]⟩ chunk = .error e) ∧
    ∀ f l pool, Ds.parseChunk pr ⟨[]⟩ chunk = .ok ((f, l), pool) →
      ∃ pool', Ds.parseChunk { pr with numBits := b } ⟨[]⟩ chunk = .ok ((f.lowBits b, l), pool') := by
  have h := Ds.parseChunk_lowBits hb (by omega) ⟨[]⟩ chunk
  have he : Pool.lowBits b (⟨[]⟩ : Pool (SparseFeatures F)) = ⟨[]⟩ := rfl
  rw [he] at h
  exact ⟨fun e q => by rw [h, q]; rfl, fun f l pool q => ⟨_, by rw [h, q]; rfl⟩⟩

section examples

/-- Exact arithmetic on the rationals, for the examples. -/
local instance transRatNames : Trans ℚ where
  exp := id
  ln := id
  powf := fun a _ => a
  sqrt := id
local instance fltRatNames : Flt ℚ := fieldFlt ℚ
attribute [local instance] intFlt

/-- The condition of C89 is needed: with 3 bits the features 1 and 5 have weights of their own, with 2 bits they share one and the prediction changes. -/
theorem C89_collision_false : ∃ (c c' : Coin ℚ) (p p' : ℚ × ℚ),
    Coin.Reached true tinyHash CoinConfig.dflt { tinyGlobal with numBits := 3 } [⟨ratFeat 5#32 1, 3, 1⟩, ⟨ratFeat 5#32 2, -4, 1⟩] c ∧
    Coin.Reached true tinyHash CoinConfig.dflt tinyGlobal [⟨(ratFeat 5#32 1).lowBits 2, 3, 1⟩, ⟨(ratFeat 5#32 2).lowBits 2, -4, 1⟩] c' ∧
    c.predict true (ratFeat 1#32 1) = .ok p ∧ c'.predict true ((ratFeat 1#32 1).lowBits 2) = .ok p' ∧ p ≠ p' :=
  ⟨_, _, _, _, ⟨1, _, by decide, rfl, rfl⟩, ⟨1, _, by decide, rfl, rfl⟩, rfl, rfl, by decide +kernel⟩

/-- Features 5 and 7 of 3 bits are features 1 and 3 of 2 bits; the constant is 4 and 2. The hypotheses of `C89_bits`. -/
example : ∃ (c : Coin ℚ) (p : ℚ × ℚ),
    Coin.Reached true tinyHash CoinConfig.dflt { tinyGlobal with numBits := 3 } [⟨twoFeats 5#32 7#32 1 5, 3, 1⟩, ⟨ratFeat 7#32 2, -4, 2⟩] c ∧
    (∀ i, UsedIndex { c.pass with addConstant := false } [⟨twoFeats 5#32 7#32 1 5, 3, 1⟩, ⟨ratFeat 7#32 2, -4, 2⟩] (ratFeat 5#32 1) i →
      i = 5#32 ∨ i = 7#32) ∧
    lowBits 2 5#32 = 1#32 ∧ lowBits 2 7#32 = 3#32 ∧ c.predict true (ratFeat 5#32 1) = .ok p := by
  refine ⟨_, _, ⟨1, _, by decide, rfl, rfl⟩, ?_, by decide, by decide, rfl⟩
  rintro i (⟨e, he, v, hv⟩ | ⟨v, hv⟩)
  · simp only [List.mem_cons, List.not_mem_nil, or_false] at he
    rcases he with rfl | rfl
    · have : (i, v) ∈ [((5#32 : U32), (1 : ℚ)), (7#32, 5)] := hv
      simp at this; rcases this with h | h <;> simp [h]
    · have : (i, v) ∈ [((7#32 : U32), (2 : ℚ))] := hv
      simp at this; simp [this]
  · have : (i, v) ∈ [((5#32 : U32), (1 : ℚ))] := hv
    simp at this; simp [this]

/-- Another seed, another name: feature 1 is called 3 and feature 3 is called 0. The hypotheses of `C89_features`. -/
example : ∃ (c : Coin ℚ) (p : ℚ × ℚ), Coin.Reached true tinyHash CoinConfig.dflt tinyGlobal [⟨twoFeats 1#32 3#32 1 5, 3, 1⟩] c ∧
    List.Forall₂ (fun (e e' : TrainEx ℚ) => e'.feats.allFeatures =
      e.feats.allFeatures.map (fun iv => (if iv.1 = 1#32 then 3#32 else if iv.1 = 3#32 then 0#32 else iv.1, iv.2)) ∧ e'.label = e.label ∧
      e'.weight = e.weight) [⟨twoFeats 1#32 3#32 1 5, 3, 1⟩] [(⟨twoFeats 3#32 0#32 1 5, 3, 1⟩ : TrainEx ℚ)] ∧
    c.predict true (ratFeat 1#32 1) = .ok p :=
  ⟨_, _, ⟨1, _, by decide, rfl, rfl⟩, .cons ⟨by decide +kernel, rfl, rfl⟩ .nil, rfl⟩

/-- A text that both parsers accept. -/
example : ∃ f l pool, Vw.parseChunk (⟨.sparseSimple, .simple, 0#32, 3, fun s k => BitVec.ofNat 32 s.length + k,
    fun s => if s = ['3'] then some 3 else none, true⟩ : Vw.Parser Int) ⟨[]⟩ "3 |ab cde:3".toList = .ok ((f, l), pool) := ⟨_, _, _, rfl⟩

end examples

end Rml
