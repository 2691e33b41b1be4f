import Verif.Props.Ieee
import Verif.Props.Coin
import Verif.Props.Hash
import Verif.Lemmas.CoinBound
import Verif.SpecNan

/-!
# C98: finite data and the model

`learn` does not check for NaN: once the prediction of an example is NaN, the update is NaN, and with it the weight of the constant feature, which takes part in
every later example. From then on the model predicts 0 for everything, whatever it is trained with. It takes no NaN in the data to get there: three examples
with a feature value of 1e-30 are enough.
-/

namespace Rml

/-! ### NaN in, NaN out -/

theorem mul_nan_left (a b : BitVec 32) (h : f32IsNaN a = true) : f32IsNaN (f32Mul a b) = true := by
  unfold f32Mul
  simp [h, nan_nan]

theorem mul_nan_right (a b : BitVec 32) (h : f32IsNaN b = true) : f32IsNaN (f32Mul a b) = true := by
  unfold f32Mul
  simp [h, nan_nan]

theorem div_nan_left (a b : BitVec 32) (h : f32IsNaN a = true) : f32IsNaN (f32Div a b) = true := by
  unfold f32Div
  simp [h, nan_nan]

theorem add_nan_l (a b : BitVec 32) (h : f32IsNaN a = true) : f32IsNaN (f32Add a b) = true := by rw [add_nan_left a b h]; rfl
theorem add_nan_r (a b : BitVec 32) (h : f32IsNaN b = true) : f32IsNaN (f32Add a b) = true := by rw [add_nan_right a b h]; rfl

theorem neg_nan (a : BitVec 32) : f32IsNaN (f32Neg a) = f32IsNaN a := by
  unfold f32IsNaN
  rw [neg_mag]

theorem sub_nan_l (a b : BitVec 32) (h : f32IsNaN a = true) : f32IsNaN (f32Sub a b) = true := add_nan_l _ _ h
theorem sub_nan_r (a b : BitVec 32) (h : f32IsNaN b = true) : f32IsNaN (f32Sub a b) = true := add_nan_r _ _ (by rw [neg_nan]; exact h)

theorem lt_nan_r (a b : BitVec 32) (h : f32IsNaN b = true) : f32Lt a b = false := by
  unfold f32Lt
  simp [h]

theorem lt_nan_l (a b : BitVec 32) (h : f32IsNaN a = true) : f32Lt a b = false := by
  unfold f32Lt
  simp [h]

theorem le_of_lt_ieee (a b : BitVec 32) (h : f32Lt a b = true) : f32Le a b = true := by
  unfold f32Lt at h
  unfold f32Le
  simp only [Bool.and_eq_true, Bool.not_eq_true', decide_eq_true_eq] at *
  exact ⟨h.1, h.2.le⟩

theorem lt_zero_iff (a : BitVec 32) : f32Lt 0#32 a = true ↔ f32IsNaN a = false ∧ f32Sign a = false ∧ 0 < f32Mag a := by
  have h0 : f32Key 0#32 = 0 := rfl
  have h1 : f32IsNaN 0#32 = false := rfl
  unfold f32Lt
  rw [h0, h1]
  simp only [Bool.not_false, Bool.true_and, Bool.and_eq_true, Bool.not_eq_true', decide_eq_true_eq]
  unfold f32Key
  cases f32Sign a
  · simp
  · simp

theorem le_one_iff (a : BitVec 32) : f32Le 0x3f800000#32 a = true ↔ f32IsNaN a = false ∧ f32Sign a = false ∧ 0x3f800000 ≤ f32Mag a := by
  have h0 : f32Key 0x3f800000#32 = 0x3f800000 := rfl
  have h1 : f32IsNaN 0x3f800000#32 = false := rfl
  unfold f32Le
  rw [h0, h1]
  simp only [Bool.not_false, Bool.true_and, Bool.and_eq_true, Bool.not_eq_true', decide_eq_true_eq]
  unfold f32Key
  cases f32Sign a
  · simp only [Bool.false_eq_true, if_false, true_and]
    constructor
    · rintro ⟨h1, h2⟩
      exact ⟨h1, by omega⟩
    · rintro ⟨h1, h2⟩
      exact ⟨h1, by omega⟩
  · simp only [if_true, Bool.true_eq_false, false_and, and_false, iff_false, not_and, not_le]
    intro
    omega

/-- A positive number times a number of at least 1 is positive: it cannot underflow. -/
theorem mul_pos_ieee (a b : BitVec 32) (ha : f32Lt 0#32 a = true) (hb : f32Le 0x3f800000#32 b = true) : f32Lt 0#32 (f32Mul a b) = true := by
  obtain ⟨a1, a2, a3⟩ := (lt_zero_iff a).1 ha
  obtain ⟨b1, b2, b3⟩ := (le_one_iff b).1 hb
  unfold f32Mul
  rw [a1, b1, a2, b2]
  have na : f32Mag a ≠ 0 := by omega
  have nb : f32Mag b ≠ 0 := by omega
  simp only [Bool.or_self, Bool.false_eq_true, if_false, na, nb, decide_false, bne_self_eq_false]
  split
  · rw [lt_zero_iff]
    refine ⟨nan_make _ le_rfl, f32Sign_make _ (by norm_num), ?_⟩
    rw [f32Mag_make _ (by norm_num)]
    norm_num
  · rw [lt_zero_iff]
    refine ⟨make_num _ _ _, f32Sign_make _ (encMag_lt _ _), ?_⟩
    rw [f32Mag_make _ (encMag_lt _ _)]
    have ua : 1 ≤ f32Units a := Nat.one_le_iff_ne_zero.2 fun h => na (mag_zero_of_units h)
    have ub : 2 ^ 149 ≤ f32Units b := by
      have h1 : f32Units 0x3f800000#32 = 2 ^ 149 := by decide +kernel
      rw [← h1]
      rcases Nat.lt_or_eq_of_le b3 with h | h
      · exact (units_lt (show f32Mag 0x3f800000#32 < f32Mag b from h)).le
      · have : f32Mag 0x3f800000#32 = f32Mag b := h
        unfold f32Units
        rw [this]
    have hq : 1 ≤ f32Units a * f32Units b / 2 ^ 149 := by
      rw [Nat.one_le_div_iff (by positivity)]
      calc 2 ^ 149 = 1 * 2 ^ 149 := (one_mul _).symm
        _ ≤ f32Units a * f32Units b := Nat.mul_le_mul ua ub
    unfold encMag
    have h2 := le_divEven (f32Units a * f32Units b) (2 ^ 149 * 2 ^ dropBits (f32Units a * f32Units b) (2 ^ 149))
    by_cases hd : dropBits (f32Units a * f32Units b) (2 ^ 149) = 0
    · rw [hd, pow_zero, mul_one] at h2 ⊢
      omega
    · have h3 := le_drop (f32Units a * f32Units b) (2 ^ 149) hd
      omega

section coin
variable [t : F32Trans]

/-- Numbers are `f32`. -/
@[reducible] local instance nanNumbers : Flt (BitVec 32) := ieeeFlt t
local instance nanCmp : LawfulCmp (BitVec 32) := lawfulCmp_ieee t
local instance nanZero : LawfulZero (BitVec 32) := lawfulZero_ieee t

/-- A weight that has been moved: the largest update is not 0, and the largest value is at least 1. -/
def Moved (s : Coin.WState (BitVec 32)) : Prop := f32Lt 0#32 s.mg = true ∧ f32Le 0x3f800000#32 s.mx = true

theorem moved_update {alpha beta avg u x : BitVec 32} (hb : f32IsNaN beta = false) {s : Coin.WState (BitVec 32)} (h : Moved s) :
    Moved (Coin.innerUpdate alpha beta avg u x s) := by
  obtain ⟨h1, h2⟩ := h
  constructor
  · change f32Lt 0#32 (if f32Lt s.mg (u &&& 0x7fffffff#32) then (if f32Lt beta (u &&& 0x7fffffff#32) then u &&& 0x7fffffff#32 else beta) else s.mg) = true
    generalize u &&& 0x7fffffff#32 = v
    split
    · rename_i h3
      have hv : f32Lt 0#32 v = true := by
        unfold f32Lt at *
        simp only [Bool.and_eq_true, Bool.not_eq_true', decide_eq_true_eq] at *
        exact ⟨⟨rfl, h3.1.2⟩, by omega⟩
      split
      · exact hv
      · rename_i h4
        unfold f32Lt at *
        simp only [Bool.and_eq_true, Bool.not_eq_true', decide_eq_true_eq, hb, not_and, not_lt] at *
        exact ⟨⟨rfl, trivial⟩, by have := h4 ⟨trivial, hv.1.2⟩; omega⟩
    · exact h1
  · change f32Le 0x3f800000#32 (if f32Lt s.mx (x &&& 0x7fffffff#32) then x &&& 0x7fffffff#32 else s.mx) = true
    generalize x &&& 0x7fffffff#32 = v
    split
    · rename_i h3
      unfold f32Lt f32Le at *
      simp only [Bool.and_eq_true, Bool.not_eq_true', decide_eq_true_eq] at *
      exact ⟨⟨rfl, h3.1.2⟩, by omega⟩
    · exact h2

theorem zt_nan {alpha beta avg u x : BitVec 32} {s : Coin.WState (BitVec 32)} (h : f32IsNaN s.zt = true ∨ f32IsNaN u = true) :
    f32IsNaN (Coin.innerUpdate alpha beta avg u x s).zt = true := by
  change f32IsNaN (f32Add s.zt (f32Neg (f32Mul u x))) = true
  rcases h with h | h
  · exact add_nan_l _ _ h
  · exact add_nan_r _ _ (by rw [neg_nan]; exact mul_nan_left _ _ h)

theorem xt_nan {alpha beta avg u x : BitVec 32} (hb : f32IsNaN beta = false) {s : Coin.WState (BitVec 32)} (h : Moved s) (hz : f32IsNaN s.zt = true) :
    f32IsNaN (Coin.innerUpdate alpha beta avg u x s).xt = true := by
  have hm := moved_update (alpha := alpha) (avg := avg) (u := u) (x := x) hb h
  refine div_nan_left _ _ ?_
  have : f32Lt 0#32 (f32Mul (Coin.innerUpdate alpha beta avg u x s).mg (Coin.innerUpdate alpha beta avg u x s).mx) = true := mul_pos_ieee _ _ hm.1 hm.2
  unfold Coin.betWeight
  have h2 : Flt.lt Flt.zero (Flt.mul (Coin.innerUpdate alpha beta avg u x s).mg (Coin.innerUpdate alpha beta avg u x s).mx) = true := this
  unfold Coin.innerUpdate at h2
  dsimp only at h2 ⊢
  rw [if_pos h2]
  exact mul_nan_right _ _ hz

/-- The index of the constant feature. -/
def constantAt (g : GlobalConfig) : Nat := 2 ^ g.numBits / 2

/-- The constant weight is lost: it is NaN, and so is the sum of its gradients. -/
structure Lost (g : GlobalConfig) (c : Coin (BitVec 32)) : Prop where
  xt : f32IsNaN (c.weights.wst (constantAt g)).xt = true
  zt : f32IsNaN (c.weights.wst (constantAt g)).zt = true
  moved : Moved (c.weights.wst (constantAt g))

theorem const_visit {c : Coin (BitVec 32)} {g : GlobalConfig} (hc : c.Ok g.numBits) (hk : c.pass.addConstant = true) (f : SparseFeatures (BitVec 32)) :
    ∃ i : U32, i.toNat = constantAt g ∧ (i, 0x3f800000#32) ∈ visited c.pass f := by
  refine ⟨constantFeatureIndex c.pass.numBits, ?_, ?_⟩
  · rw [constantFeatureIndex_toNat (by rw [hc.bits]; have := hc.le31; omega), hc.bits]
    rfl
  · unfold visited constVisit
    rw [hk]
    exact List.mem_append_right _ (by simp; rfl)

omit t in
theorem constantAt_lt {g : GlobalConfig} : constantAt g < 2 ^ g.numBits := Nat.div_lt_self (by positivity) (by norm_num)

theorem visitsAt_const {c : Coin (BitVec 32)} {g : GlobalConfig} (hc : c.Ok g.numBits) (hk : c.pass.addConstant = true) (f : SparseFeatures (BitVec 32)) :
    c.visitsAt f (constantAt g) ≠ [] := by
  obtain ⟨i, h1, h2⟩ := const_visit hc hk f
  intro h
  have : (i, 0x3f800000#32) ∈ c.visitsAt f (constantAt g) := List.mem_filter.2 ⟨h2, by simp [h1]⟩
  rw [h] at this
  simp at this

omit t in
theorem fold_keeps {S A : Type} (f : S → A → S) (I : S → Prop) (hI : ∀ s a, I s → I (f s a)) : ∀ (l : List A) (s : S), I s → I (l.foldl f s) := by
  intro l
  induction l with
  | nil => intro s h; exact h
  | cons a l ih => intro s h; exact ih _ (hI s a h)

omit t in
theorem fold_gains {S A : Type} (f : S → A → S) (I J : S → Prop) (hI : ∀ s a, I s → J (f s a)) (hJ : ∀ s, J s → I s) :
    ∀ (l : List A) (s : S), l ≠ [] → I s → J (l.foldl f s) := by
  intro l
  induction l with
  | nil => intro s h; exact absurd rfl h
  | cons a l ih =>
    intro s _ h
    by_cases hl : l = []
    · subst hl
      exact hI s a h
    · exact ih _ hl (hJ _ (hI s a h))

/-- Learning cannot repair a constant weight whose gradient sum is NaN: after one more example the weight is NaN, too. -/
theorem lost_step {dbg : Bool} {g : GlobalConfig} {c c' : Coin (BitVec 32)} (hc : c.Ok g.numBits) (hk : c.pass.addConstant = true)
    (hb : f32IsNaN c.config.beta = false) (hm : Moved (c.weights.wst (constantAt g))) (hz : f32IsNaN (c.weights.wst (constantAt g)).zt = true)
    {f : SparseFeatures (BitVec 32)} {l w : BitVec 32} (h : c.learn dbg f l w = .ok c') : Lost g c' := by
  obtain ⟨p, c1, _, _, _, _, _, _, _, _, _, hw⟩ := Coin.learn_inv hc h
  have key := hw _ constantAt_lt
  have := fold_gains (fun (s : Coin.WState (BitVec 32)) (iv : U32 × BitVec 32) =>
      Coin.innerUpdate c.config.alpha c.config.beta c1.averageSquaredNormX (c1.updateOf p l w) iv.2 s)
    (fun s => Moved s ∧ f32IsNaN s.zt = true) (fun s => Moved s ∧ f32IsNaN s.zt = true ∧ f32IsNaN s.xt = true)
    (fun s iv h => ⟨moved_update hb h.1, zt_nan (.inl h.2), xt_nan hb h.1 h.2⟩) (fun s h => ⟨h.1, h.2.1⟩)
    _ (c.weights.wst (constantAt g)) (visitsAt_const hc hk f) ⟨hm, hz⟩
  rw [← key] at this
  exact ⟨this.2.2, this.2.1, this.1⟩

/-- The label range contains 0. -/
def RangeZero (c : Coin (BitVec 32)) : Prop := f32Le c.minLabel 0#32 = true ∧ f32Le 0#32 c.maxLabel = true

theorem rangeZero_step {dbg : Bool} {nb : Nat} {c c' : Coin (BitVec 32)} (hc : c.Ok nb) (h0 : RangeZero c)
    {f : SparseFeatures (BitVec 32)} {l w : BitVec 32} (h : c.learn dbg f l w = .ok c') : RangeZero c' := by
  obtain ⟨_, _, _, _, _, _, hmin, hmax, _⟩ := Coin.learn_inv hc h
  unfold RangeZero
  rw [hmin, hmax]
  have n1 : Flt.isNaN c.minLabel = false := (LawfulCmp.le_num _ _ (show Flt.le c.minLabel 0#32 = true from h0.1)).1
  have n2 : Flt.isNaN c.maxLabel = false := (LawfulCmp.le_num _ _ (show Flt.le 0#32 c.maxLabel = true from h0.2)).2
  exact ⟨LawfulCmp.le_trans (F := BitVec 32) _ _ _ (fmin_props l c.minLabel n1).2.1 h0.1, LawfulCmp.le_trans (F := BitVec 32) _ _ _ h0.2 (fmax_props l c.maxLabel n2).2.1⟩

theorem new_rangeZero {hash : HashFn} {cfg : CoinConfig (BitVec 32)} {g : GlobalConfig} {nma : Nat} {c : Coin (BitVec 32)} (hn : 0 < nma)
    (h : Coin.new hash cfg g nma = .ok c) : RangeZero c := by
  obtain ⟨_, _, _, h1, _⟩ := Coin.new_ok hn h
  unfold RangeZero
  cases hl : cfg.lossFunction with
  | squared =>
    rw [hl] at h1
    have e1 : c.minLabel = 0#32 := congrArg Prod.fst h1
    have e2 : c.maxLabel = 0#32 := congrArg Prod.snd h1
    rw [e1, e2]
    exact ⟨by decide, by decide⟩
  | logistic a b =>
    rw [hl] at h1
    have e1 : c.minLabel = f32Lit (-50) 1 := congrArg Prod.fst h1
    have e2 : c.maxLabel = f32Lit 50 1 := congrArg Prod.snd h1
    rw [e1, e2]
    exact ⟨by decide +kernel, by decide +kernel⟩

theorem new_constant {hash : HashFn} {cfg : CoinConfig (BitVec 32)} {g : GlobalConfig} {nma : Nat} {c : Coin (BitVec 32)}
    (h : Coin.new hash cfg g nma = .ok c) : c.pass.addConstant = g.constantFeatureEnabled := by
  unfold Coin.new at h
  obtain ⟨⟨ps, ts⟩, _, h⟩ := bind_ok.1 h
  simp only at h
  split at h
  · obtain ⟨w, _, h⟩ := bind_ok.1 h
    simp only [Except.ok.injEq] at h
    rw [← h]
  · cases h

/-- What holds for every trained regressor. -/
structure Live (cfg : CoinConfig (BitVec 32)) (g : GlobalConfig) (c : Coin (BitVec 32)) : Prop where
  ok : c.Ok g.numBits
  config : c.config = cfg
  loss : c.lossFunction = .squared
  zero : RangeZero c
  range : c.RangeOk
  const : c.pass.addConstant = g.constantFeatureEnabled

theorem Live.learn {dbg : Bool} {cfg : CoinConfig (BitVec 32)} {g : GlobalConfig} {c c' : Coin (BitVec 32)} (h : Live cfg g c) (e : TrainEx (BitVec 32))
    (hl : c.learn dbg e.feats e.label e.weight = .ok c') : Live cfg g c' := by
  obtain ⟨_, _, _, _, hok, q1, _, _, q2, q3, _⟩ := Coin.learn_inv h.ok hl
  exact ⟨hok, by rw [q1, h.config], by rw [q2, h.loss], rangeZero_step h.ok h.zero hl,
    (rangeInv_step (ls := [c.minLabel, c.maxLabel]) e h.ok ⟨h.range, by simp, by simp⟩ hl).ok, by rw [q3, h.const]⟩

theorem Live.train {dbg : Bool} {cfg : CoinConfig (BitVec 32)} {g : GlobalConfig} : ∀ (es : List (TrainEx (BitVec 32))) {c c' : Coin (BitVec 32)}, Live cfg g c →
    c.trainAll dbg es = .ok c' → Live cfg g c' := by
  intro es
  induction es with
  | nil =>
    intro c c' h ht
    simp only [Coin.trainAll, Except.ok.injEq] at ht
    exact ht ▸ h
  | cons e es ih =>
    intro c c' h ht
    unfold Coin.trainAll at ht
    obtain ⟨c1, h1, ht⟩ := bind_ok.1 ht
    exact ih (h.learn e h1) ht

theorem live_reached {dbg : Bool} {hash : HashFn} {cfg : CoinConfig (BitVec 32)} {g : GlobalConfig} {es : List (TrainEx (BitVec 32))} {c : Coin (BitVec 32)}
    (h : Coin.Reached dbg hash cfg g es c) : Live cfg g c := by
  obtain ⟨nma, c0, hn, h0, h⟩ := h
  obtain ⟨a1, a2, a3, _⟩ := Coin.new_ok hn h0
  exact Live.train es ⟨a1, a2, a3, new_rangeZero hn h0, new_rangeOk hn h0, new_constant h0⟩ h

theorem lost_train {dbg : Bool} {cfg : CoinConfig (BitVec 32)} {g : GlobalConfig} (hk : g.constantFeatureEnabled = true) (hb : f32IsNaN cfg.beta = false) :
    ∀ (es : List (TrainEx (BitVec 32))) {c c' : Coin (BitVec 32)}, Live cfg g c → Lost g c → c.trainAll dbg es = .ok c' → Lost g c' := by
  intro es
  induction es with
  | nil =>
    intro c c' _ h ht
    simp only [Coin.trainAll, Except.ok.injEq] at ht
    exact ht ▸ h
  | cons e es ih =>
    intro c c' hl h ht
    unfold Coin.trainAll at ht
    obtain ⟨c1, h1, ht⟩ := bind_ok.1 ht
    exact ih (hl.learn e h1) (lost_step hl.ok (by rw [hl.const, hk]) (by rw [hl.config]; exact hb) h.moved h.zt h1) ht

theorem nan_sum (wt : U32 × BitVec 32 → BitVec 32) (vs : List (U32 × BitVec 32)) (iv : U32 × BitVec 32) (hi : iv ∈ vs) (hn : f32IsNaN (wt iv) = true) :
    ∀ a, f32IsNaN (vs.foldl (fun acc iv => Flt.add acc (Flt.mul iv.2 (wt iv))) a) = true := by
  induction vs with
  | nil => simp at hi
  | cons jv vs ih =>
    intro a
    rcases List.mem_cons.1 hi with rfl | hi
    · exact fold_keeps _ (fun s => f32IsNaN s = true) (fun s a h => add_nan_l _ _ h) vs _ (add_nan_r _ _ (mul_nan_right _ _ hn))
    · exact ih hi _

/-- A lost model predicts 0 for everything. -/
theorem lost_predict {dbg : Bool} {cfg : CoinConfig (BitVec 32)} {g : GlobalConfig} (hk : g.constantFeatureEnabled = true) {c : Coin (BitVec 32)} (hl : Live cfg g c)
    (h : Lost g c) (f : SparseFeatures (BitVec 32)) (hf : f.Fits g.numBits) : c.predict dbg f = .ok (cfg.linkFunction.link 0#32, 0#32) := by
  have hv := C01_index_in_range c.pass f (by rw [hl.ok.bits]; exact hl.ok.le31) (by rw [hl.ok.bits]; exact hf)
  rw [hl.ok.bits] at hv
  obtain ⟨i, h1, h2⟩ := const_visit hl.ok (by rw [hl.const, hk]) f
  have hn := nan_sum (fun iv => (c.weights.wst iv.1.toNat).xt) (visited c.pass f) _ h2 (by dsimp only; rw [h1]; exact h.xt) Flt.zero
  unfold Coin.predict
  rw [Coin.rawSum_eq hl.ok hv]
  simp only [bind, Except.bind]
  have hn' : Flt.isNaN ((visited c.pass f).foldl (fun acc iv => Flt.add acc (Flt.mul iv.2 (c.weights.wst iv.1.toNat).xt)) (Flt.zero : BitVec 32)) = true := hn
  rw [if_pos hn']
  unfold Flt.clamp
  rw [if_pos hl.range.le]
  have c1 : Flt.lt (Flt.zero : BitVec 32) c.minLabel = false := by
    have := hl.zero.1
    change f32Lt 0#32 c.minLabel = false
    unfold f32Le at this
    unfold f32Lt
    simp only [Bool.and_eq_true, decide_eq_true_eq] at this
    have h3 : ¬ f32Key 0#32 < f32Key c.minLabel := not_lt.2 this.2
    simp [h3]
  have c2 : Flt.lt c.maxLabel (Flt.zero : BitVec 32) = false := by
    have := hl.zero.2
    change f32Lt c.maxLabel 0#32 = false
    unfold f32Le at this
    unfold f32Lt
    simp only [Bool.and_eq_true, decide_eq_true_eq] at this
    have h3 : ¬ f32Key c.maxLabel < f32Key 0#32 := not_lt.2 this.2
    simp [h3]
  rw [c1, c2, hl.config]
  rfl

/-! ### One bad number -/

theorem pred_nan (alpha : BitVec 32) (wt : U32 × BitVec 32 → Coin.WState (BitVec 32)) (vs : List (U32 × BitVec 32)) (iv : U32 × BitVec 32) (hi : iv ∈ vs)
    (hn : f32IsNaN iv.2 = true) : ∀ a, f32IsNaN (vs.foldl (fun acc iv => Coin.innerPredict alpha acc iv.2 (wt iv)) a).1 = true := by
  have e1 : ∀ (acc : BitVec 32 × BitVec 32) x s, (Coin.innerPredict alpha acc x s).1 = f32Add acc.1 (f32Mul (Coin.betWeight alpha s (Flt.fmax s.mx (Flt.abs x))) x) := by
    intro acc x s
    unfold Coin.innerPredict
    dsimp only
    split <;> rfl
  induction vs with
  | nil => simp at hi
  | cons jv vs ih =>
    intro a
    rcases List.mem_cons.1 hi with rfl | hi
    · refine fold_keeps _ (fun s : BitVec 32 × BitVec 32 => f32IsNaN s.1 = true) (fun s a h => ?_) vs _ ?_
      · rw [e1]
        exact add_nan_l _ _ h
      · rw [e1]
        exact add_nan_r _ _ (mul_nan_right _ _ hn)
    · exact ih hi _

theorem clamp_nan {x lo hi q : BitVec 32} (hx : f32IsNaN x = true) (h : Flt.clamp x lo hi = .ok q) : f32IsNaN q = true := by
  unfold Flt.clamp at h
  split at h
  · simp only [Except.ok.injEq] at h
    have g1 : Flt.lt x lo = false := lt_nan_l _ _ hx
    have g2 : Flt.lt hi x = false := lt_nan_r _ _ hx
    rw [g1, g2] at h
    rw [← h]
    exact hx
  · cases h

/-- What the prediction inside `learn` is. -/
theorem betting_eq {dbg : Bool} {nb : Nat} {c c1 : Coin (BitVec 32)} (hc : c.Ok nb) {f : SparseFeatures (BitVec 32)} {w p : BitVec 32}
    (hv : ∀ iv ∈ visited c.pass f, iv.1.toNat < 2 ^ nb) (h : c.bettingPredict dbg f w = .ok (p, c1)) :
    ∃ ms rest ps, c.modelStates = ms :: rest ∧
      ps = (visited c.pass f).foldl (fun s iv => Coin.innerPredict c.config.alpha s iv.2 (c.weights.wst iv.1.toNat)) (Flt.zero, Flt.zero) ∧
      c1.modelStates = ⟨Flt.add ms.normalizedSumNormX (Flt.mul ps.2 w), Flt.add ms.totalWeight w⟩ :: rest ∧
      c1.averageSquaredNormX = Flt.div (Flt.add (Flt.add ms.normalizedSumNormX (Flt.mul ps.2 w)) (Flt.lit 1 1000000)) (Flt.add ms.totalWeight w) ∧
      Flt.clamp (Flt.div ps.1 c1.averageSquaredNormX) c.minLabel c.maxLabel = .ok p := by
  unfold Coin.bettingPredict foreachFeatureWithState at h
  have hr := Coin.readPass dbg nb (Coin.innerPredict c.config.alpha) (visited c.pass f) c.weights hc.table hv (Flt.zero, Flt.zero)
  rw [hr, ok_bind] at h
  generalize (visited c.pass f).foldl (fun s iv => Coin.innerPredict c.config.alpha s iv.2 (c.weights.wst iv.1.toNat)) (Flt.zero, Flt.zero) = ps at h ⊢
  obtain ⟨a, b⟩ := ps
  dsimp only at h
  cases hm : c.modelStates with
  | nil => rw [hm] at h; cases h
  | cons ms rest =>
    rw [hm] at h
    obtain ⟨q, hq, h⟩ := bind_ok.1 h
    simp only [Except.ok.injEq, Prod.mk.injEq] at h
    obtain ⟨rfl, rfl⟩ := h
    exact ⟨ms, rest, _, rfl, rfl, rfl, rfl, hq⟩

theorem update_eq {c1 : Coin (BitVec 32)} (hs : c1.lossFunction = .squared) (p l w : BitVec 32) :
    c1.updateOf p l w = f32Mul (f32Mul (f32Lit 2 1) (f32Sub (if f32Lt p c1.minLabel then c1.minLabel else if f32Lt c1.maxLabel p then c1.maxLabel else p) l)) w := by
  unfold Coin.updateOf
  rw [hs]
  rfl

theorem update_nan {dbg : Bool} {nb : Nat} {c c1 : Coin (BitVec 32)} (hc : c.Ok nb) (hs : c.lossFunction = .squared) {e : TrainEx (BitVec 32)}
    (hv : ∀ iv ∈ visited c.pass e.feats, iv.1.toNat < 2 ^ nb) {p : BitVec 32}
    (h : c.bettingPredict dbg e.feats e.weight = .ok (p, c1)) (hn : HasNaN c.pass e) : f32IsNaN (c1.updateOf p e.label e.weight) = true := by
  rw [update_eq (by rw [(Coin.bettingPredict_inv h).2.2.2.2.1, hs])]
  rcases hn with hn | hn | ⟨i, v, hi, hn⟩
  · exact mul_nan_left _ _ (mul_nan_right _ _ (sub_nan_r _ _ ((ieeeNaN_iff _).1 hn)))
  · exact mul_nan_right _ _ ((ieeeNaN_iff _).1 hn)
  · have hp : f32IsNaN p = true := by
      obtain ⟨ms, rest, ps, _, hps, _, _, hcl⟩ := betting_eq hc hv h
      refine clamp_nan (div_nan_left _ _ ?_) hcl
      rw [hps]
      exact pred_nan c.config.alpha (fun iv => c.weights.wst iv.1.toNat) _ _ hi ((ieeeNaN_iff _).1 hn) (Flt.zero, Flt.zero)
    rw [lt_nan_l _ _ hp, lt_nan_r _ _ hp]
    exact mul_nan_left _ _ (mul_nan_right _ _ (sub_nan_l _ _ hp))

/-- The largest value of the constant is at least 1 after any example. -/
theorem mx_step {dbg : Bool} {g : GlobalConfig} {c c' : Coin (BitVec 32)} (hc : c.Ok g.numBits) (hk : c.pass.addConstant = true)
    (h0 : f32IsNaN (c.weights.wst (constantAt g)).mx = false) {f : SparseFeatures (BitVec 32)} {l w : BitVec 32} (h : c.learn dbg f l w = .ok c') :
    f32Le 0x3f800000#32 (c'.weights.wst (constantAt g)).mx = true := by
  obtain ⟨p, c1, _, _, _, _, _, _, _, _, _, hw⟩ := Coin.learn_inv hc h
  rw [hw _ constantAt_lt]
  obtain ⟨i, h1, h2⟩ := const_visit hc hk f
  have h3 : (i, 0x3f800000#32) ∈ c.visitsAt f (constantAt g) := List.mem_filter.2 ⟨h2, by simp [h1]⟩
  obtain ⟨l1, l2, e⟩ := List.append_of_mem h3
  rw [e, List.foldl_append, List.foldl_cons]
  have step : ∀ (s : Coin.WState (BitVec 32)) (x : BitVec 32), (Coin.innerUpdate c.config.alpha c.config.beta c1.averageSquaredNormX (c1.updateOf p l w) x s).mx =
    if f32Lt s.mx (x &&& 0x7fffffff#32) then x &&& 0x7fffffff#32 else s.mx := fun _ _ => rfl
  refine fold_keeps _ (fun s : Coin.WState (BitVec 32) => f32Le 0x3f800000#32 s.mx = true) (fun s a hs => ?_) l2 _ ?_
  · rw [step]
    split
    · rename_i h4
      exact LawfulCmp.le_trans (F := BitVec 32) _ _ _ hs (le_of_lt_ieee _ _ h4)
    · exact hs
  · rw [step]
    have hnn := fold_keeps (fun (s : Coin.WState (BitVec 32)) (iv : U32 × BitVec 32) =>
      Coin.innerUpdate c.config.alpha c.config.beta c1.averageSquaredNormX (c1.updateOf p l w) iv.2 s) (fun s => f32IsNaN s.mx = false)
      (fun s a hs => by
        rw [step]
        split
        · rename_i h4
          unfold f32Lt at h4
          simp only [Bool.and_eq_true, Bool.not_eq_true'] at h4
          exact h4.1.2
        · exact hs) l1 _ h0
    generalize l1.foldl _ _ = s at hnn ⊢
    have e1 : 0x3f800000#32 &&& 0x7fffffff#32 = 0x3f800000#32 := by decide
    dsimp only
    rw [e1]
    split
    · decide
    · rename_i h4
      unfold f32Lt at h4
      unfold f32Le
      have e2 : f32IsNaN 0x3f800000#32 = false := rfl
      rw [hnn, e2] at h4 ⊢
      simpa using h4

theorem mg_step {alpha beta avg u x : BitVec 32} (hb : f32IsNaN beta = false) {s : Coin.WState (BitVec 32)} (h : f32Lt 0#32 s.mg = true) :
    f32Lt 0#32 (Coin.innerUpdate alpha beta avg u x s).mg = true :=
  (moved_update (s := { s with mx := 0x3f800000#32 }) (alpha := alpha) (avg := avg) (u := u) (x := x) hb ⟨h, show f32Le 0x3f800000#32 0x3f800000#32 = true by decide⟩).1

theorem mx_num_step {dbg : Bool} {g : GlobalConfig} {c c' : Coin (BitVec 32)} (hc : c.Ok g.numBits) (hk : c.pass.addConstant = true)
    (h0 : f32IsNaN (c.weights.wst (constantAt g)).mx = false) {f : SparseFeatures (BitVec 32)} {l w : BitVec 32} (h : c.learn dbg f l w = .ok c') :
    f32IsNaN (c'.weights.wst (constantAt g)).mx = false :=
  ((le_one_iff _).1 (mx_step hc hk h0 h)).1

theorem mx_train {dbg : Bool} {cfg : CoinConfig (BitVec 32)} {g : GlobalConfig} (hk : g.constantFeatureEnabled = true) :
    ∀ (es : List (TrainEx (BitVec 32))) {c c' : Coin (BitVec 32)}, Live cfg g c → f32IsNaN (c.weights.wst (constantAt g)).mx = false →
      c.trainAll dbg es = .ok c' → f32IsNaN (c'.weights.wst (constantAt g)).mx = false ∧
        (es ≠ [] → f32Le 0x3f800000#32 (c'.weights.wst (constantAt g)).mx = true) := by
  intro es
  induction es with
  | nil =>
    intro c c' _ h0 ht
    simp only [Coin.trainAll, Except.ok.injEq] at ht
    exact ht ▸ ⟨h0, fun h => absurd rfl h⟩
  | cons e es ih =>
    intro c c' hl h0 ht
    unfold Coin.trainAll at ht
    obtain ⟨c1, h1, ht⟩ := bind_ok.1 ht
    have hs := mx_step hl.ok (by rw [hl.const, hk]) h0 h1
    have h2 := ih (hl.learn e h1) ((le_one_iff _).1 hs).1 ht
    refine ⟨h2.1, fun _ => ?_⟩
    by_cases he : es = []
    · subst he
      simp only [Coin.trainAll, Except.ok.injEq] at ht
      exact ht ▸ hs
    · exact h2.2 he

theorem new_wst {hash : HashFn} {cfg : CoinConfig (BitVec 32)} {g : GlobalConfig} {nma : Nat} {c : Coin (BitVec 32)} (hn : 0 < nma)
    (h : Coin.new hash cfg g nma = .ok c) {i : Nat} (hi : i < 2 ^ g.numBits) : c.weights.wst i = ⟨0#32, 0#32, 0#32, 0#32, 0#32, 0#32⟩ := by
  obtain ⟨_, _, _, _, h1⟩ := Coin.new_ok hn h
  exact h1 i hi

/-- C98 (one bad number): take any regressor of `f32` numbers with the constant feature, trained with any examples, at least one of which moved the weight
of the constant. One example with a NaN in a value, in the label or in the weight, and one more example, whatever it is: from then on, whatever else the model is
trained with, it predicts 0 for everything. -/
theorem C98_bad_number (dbg : Bool) (hash : HashFn) (cfg : CoinConfig (BitVec 32)) (g : GlobalConfig) (hk : g.constantFeatureEnabled = true) (hb : ¬ IeeeNaN cfg.beta)
    (es : List (TrainEx (BitVec 32))) (c : Coin (BitVec 32)) (hc : Coin.Reached dbg hash cfg g es c) (i : U32) (hi : i.toNat = 2 ^ g.numBits / 2)
    (s : Coin.WState (BitVec 32)) (hs : c.Holds i s) (hm : f32Lt 0#32 s.mg = true)
    (bad next : TrainEx (BitVec 32)) (hbad : HasNaN c.pass bad) (later : List (TrainEx (BitVec 32))) (c' : Coin (BitVec 32))
    (h : c.trainAll dbg (bad :: next :: later) = .ok c') (f : SparseFeatures (BitVec 32)) (hf : f.Fits g.numBits) :
    c'.predict dbg f = .ok (cfg.linkFunction.link 0#32, 0#32) := by
  have hl := live_reached hc
  have hb' : f32IsNaN cfg.beta = false := by
    rw [← Bool.not_eq_true, ← ieeeNaN_iff]
    exact hb
  have hs' : s = c.weights.wst (constantAt g) := by
    have := ((Coin.holds_iff hl.ok).1 hs).2
    rw [hi] at this
    exact this
  subst hs'
  obtain ⟨nma, c0, hn, h0, ht⟩ := hc
  have hl0 : Live cfg g c0 := live_reached (es := []) (dbg := dbg) ⟨nma, c0, hn, h0, rfl⟩
  have hw0 := new_wst hn h0 (constantAt_lt (g := g))
  have hmx := mx_train hk es hl0 (by rw [hw0]; rfl) ht
  have hes : es ≠ [] := by
    rintro rfl
    simp only [Coin.trainAll, Except.ok.injEq] at ht
    rw [← ht, hw0] at hm
    exact absurd hm (by decide)
  unfold Coin.trainAll at h
  obtain ⟨c1, h1, h⟩ := bind_ok.1 h
  unfold Coin.trainAll at h
  obtain ⟨c2, h2, h⟩ := bind_ok.1 h
  have hl1 := hl.learn bad h1
  have hl2 := hl1.learn next h2
  have k : ∀ c : Coin (BitVec 32), Live cfg g c → c.pass.addConstant = true := fun c h => by rw [h.const, hk]
  obtain ⟨p, cb, hbp, _, _, _, _, _, _, _, hv, hw⟩ := Coin.learn_inv hl.ok h1
  have key := hw _ constantAt_lt
  have hu : f32IsNaN (cb.updateOf p bad.label bad.weight) = true := by
    refine update_nan (c := c.seen bad.label) ?_ hl.loss hv hbp hbad
    exact ⟨hl.ok.table, hl.ok.bits, hl.ok.le31, hl.ok.models⟩
  have := fold_gains (fun (s : Coin.WState (BitVec 32)) (iv : U32 × BitVec 32) =>
      Coin.innerUpdate c.config.alpha c.config.beta cb.averageSquaredNormX (cb.updateOf p bad.label bad.weight) iv.2 s)
    (fun s => Moved s) (fun s => Moved s ∧ f32IsNaN s.zt = true)
    (fun s iv h => ⟨moved_update (by rw [hl.config]; exact hb') h, zt_nan (.inr hu)⟩) (fun s h => h.1)
    _ (c.weights.wst (constantAt g)) (visitsAt_const hl.ok (k c hl) bad.feats) ⟨hm, hmx.2 hes⟩
  rw [← key] at this
  have hlost := lost_step hl1.ok (k c1 hl1) (by rw [hl1.config]; exact hb') this.1 this.2 h2
  exact lost_predict hk (Live.train later hl2 h) (lost_train hk hb' later hl2 hlost h) f hf

/-! ### Data of ordinary size -/

/-- Everything that is finite, and stays so on data of ordinary size. -/
structure Bounded (g : GlobalConfig) (c : Coin (BitVec 32)) : Prop where
  stats : ∀ i, i < 2 ^ g.numBits → StatOk (c.weights.wst i) ∧ UpTo 105 (c.weights.wst i).xt
  norms : ∀ ms ∈ c.modelStates, NormOk ms
  lo : UpTo 16 c.minLabel
  hi : UpTo 16 c.maxLabel

theorem valueOk_of {x : BitVec 32} (h : IeeeFinite x ∧ (ieeeValue x = 0 ∨ 1 / 2 ^ 10 ≤ |ieeeValue x| ∧ |ieeeValue x| ≤ 2 ^ 10)) : ValueOk x := by
  obtain ⟨h1, h2⟩ := h
  rcases h2 with h2 | ⟨h2, h3⟩
  · exact ⟨⟨h1, by unfold V; rw [h2, abs_zero]; positivity⟩, .inl h2⟩
  · exact ⟨⟨h1, le_trans h3 (by norm_num)⟩, .inr (le_trans (by norm_num) h2)⟩

theorem own_visits {c : Coin (BitVec 32)} {f : SparseFeatures (BitVec 32)} (h : OwnWeights c.pass f) (i : Nat) :
    c.visitsAt f i = [] ∨ ∃ iv ∈ visited c.pass f, iv.1.toNat = i ∧ c.visitsAt f i = [iv] := by
  unfold Coin.visitsAt
  unfold OwnWeights at h
  generalize visited c.pass f = vs at h ⊢
  induction vs with
  | nil => exact .inl rfl
  | cons jv vs ih =>
    rw [List.map_cons, List.nodup_cons] at h
    by_cases hj : jv.1.toNat = i
    · right
      refine ⟨jv, by simp, hj, ?_⟩
      rw [List.filter_cons_of_pos (by simpa using hj)]
      congr 1
      rw [List.filter_eq_nil_iff]
      intro kv hk he
      rw [decide_eq_true_eq] at he
      refine h.1 (List.mem_map.2 ⟨kv, hk, ?_⟩)
      exact BitVec.eq_of_toNat_eq (by rw [he, hj])
    · rw [List.filter_cons_of_neg (by simpa using hj)]
      rcases ih h.2 with h1 | ⟨iv, h1, h2, h3⟩
      · exact .inl h1
      · exact .inr ⟨iv, by simp [h1], h2, h3⟩

/-- What one example does, whether or not its features have weights of their own. -/
theorem coin_step_core {dbg : Bool} {cfg : CoinConfig (BitVec 32)} {g : GlobalConfig} {c c' : Coin (BitVec 32)} (hl : Live cfg g c) (h : Bounded g c)
    (hw : ∀ i, i < 2 ^ g.numBits → UpTo 20 (c.weights.wst i).we) (ha : UpTo 20 cfg.alpha)
    {e : TrainEx (BitVec 32)} (he : Ordinary c.pass e) (hlearn : c.learn dbg e.feats e.label e.weight = .ok c') :
    ∃ avg u : BitVec 32, UpTo 67 avg ∧ (2 : ℝ) ^ (-53 : ℤ) ≤ V avg ∧ UpTo 26 u ∧
      (∀ i, i < 2 ^ g.numBits → c'.weights.wst i = (c.visitsAt e.feats i).foldl (fun s iv => Coin.innerUpdate cfg.alpha cfg.beta avg u iv.2 s) (c.weights.wst i)) ∧
      (∀ ms ∈ c'.modelStates, NormOk ms) ∧ UpTo 16 c'.minLabel ∧ UpTo 16 c'.maxLabel := by
  obtain ⟨p, c1, hbp, hc', _, _, hmin, hmax, _, _, hv, hst⟩ := Coin.learn_inv hl.ok hlearn
  have hok : (c.seen e.label).Ok g.numBits := ⟨hl.ok.table, hl.ok.bits, hl.ok.le31, hl.ok.models⟩
  have hinv := Coin.bettingPredict_inv hbp
  obtain ⟨ms, rest, ps, hms, hps, hm1, havg, hcl⟩ := betting_eq hok hv hbp
  have label : UpTo 16 e.label := ⟨he.label.1, le_trans he.label.2 (by norm_num)⟩
  have weight0 : (2 : ℝ) ^ (-8 : ℤ) ≤ V e.weight := le_trans (by norm_num) he.weight.2.1
  have weight : UpTo 8 e.weight := ⟨he.weight.1, by rw [abs_of_nonneg (le_trans (by positivity) weight0)]; exact le_trans he.weight.2.2 (by norm_num)⟩
  have hlo : UpTo 16 c'.minLabel := by rw [hmin]; exact fmin_val label h.lo
  have hhi : UpTo 16 c'.maxLabel := by rw [hmax]; exact (fmax_val label h.hi).1
  have e1 : c1.minLabel = c'.minLabel := by rw [hc']
  have e2 : c1.maxLabel = c'.maxLabel := by rw [hc']
  have e3 : (c.seen e.label).minLabel = c'.minLabel := by rw [hmin]; rfl
  have e4 : (c.seen e.label).maxLabel = c'.maxLabel := by rw [hmax]; rfl
  have hpred : PredOk ps := by
    rw [hps]
    have : ∀ (vs : List (U32 × BitVec 32)) (acc : BitVec 32 × BitVec 32), (∀ iv ∈ vs, iv ∈ visited c.pass e.feats) → PredOk acc →
        PredOk (vs.foldl (fun s iv => Coin.innerPredict cfg.alpha s iv.2 (c.weights.wst iv.1.toNat)) acc) := by
      intro vs
      induction vs with
      | nil => intro acc _ h; exact h
      | cons iv vs ih =>
        intro acc hm hacc
        refine ih _ (fun iv h => hm iv (by simp [h])) ?_
        have hi := hv iv (hm iv (by simp))
        exact predict_bound ha (valueOk_of (he.values iv (hm iv (by simp)))) (h.stats _ hi).1 (hw _ hi) hacc
    have h2 := this (visited c.pass e.feats) (0#32, 0#32) (fun _ h => h) ⟨upTo_zero, upTo_zero, by rw [V_zero]⟩
    rw [← hl.config] at h2
    exact h2
  obtain ⟨n1, n2, n3⟩ := norm_bound (h.norms ms (by rw [show c.modelStates = ms :: rest from hms]; simp)) hpred weight weight0
  have havg' : c1.averageSquaredNormX = f32Div (f32Add (f32Add ms.normalizedSumNormX (f32Mul ps.2 e.weight)) (f32Lit 1 1000000)) (f32Add ms.totalWeight e.weight) := havg
  rw [← havg'] at n2 n3
  have hnan : f32IsNaN (f32Div ps.1 c1.averageSquaredNormX) = false := by
    rw [← Bool.not_eq_true, ← ieeeNaN_iff]
    intro hn
    rcases (C97_div_nan t _ _).1 hn with h1 | h1 | h1 | h1
    · exact hpred.pred.fin h1.1
    · exact n2.fin h1.1
    · exact n2.fin h1.2.1
    · have := h1.2
      have p0 : (0 : ℝ) < (2 : ℝ) ^ (-53 : ℤ) := by positivity
      unfold V at n3
      linarith
  have hp : UpTo 16 p ∧ f32IsNaN p = false := by
    unfold Flt.clamp at hcl
    split at hcl
    · simp only [Except.ok.injEq] at hcl
      rw [e3, e4] at hcl
      have := clamped_bound hlo hhi hnan
      have hcl' : (if f32Lt (f32Div ps.1 c1.averageSquaredNormX) c'.minLabel then c'.minLabel else if f32Lt c'.maxLabel (f32Div ps.1 c1.averageSquaredNormX) then c'.maxLabel
        else f32Div ps.1 c1.averageSquaredNormX) = p := hcl
      rw [hcl'] at this
      exact ⟨this, (fin_of p this.fin).1⟩
    · cases hcl
  have hu : UpTo 26 (c1.updateOf p e.label e.weight) := by
    rw [update_eq (by rw [hinv.2.2.2.2.1]; exact hl.loss), e1, e2]
    have q := clamped_bound hlo hhi hp.2
    generalize (if f32Lt p c'.minLabel then c'.minLabel else if f32Lt c'.maxLabel p then c'.maxLabel else p) = r at q
    have q1 := (q.add (label.neg).1 (by norm_num) (by norm_num)).1
    have q2 := (lit_two.mul q1 (by norm_num) (by norm_num)).1
    exact ((q2.mul weight (by norm_num) (by norm_num)).1).mono (by norm_num)
  refine ⟨c1.averageSquaredNormX, c1.updateOf p e.label e.weight, n2, n3, hu, fun i hi => ?_, fun ms' hms' => ?_, hlo, hhi⟩
  · rw [hst i hi, hl.config]
  · have : c'.modelStates = c1.modelStates := by rw [hc']
    rw [this, hm1] at hms'
    rcases List.mem_cons.1 hms' with rfl | hms'
    · exact n1
    · exact h.norms _ (by rw [show c.modelStates = ms :: rest from hms]; simp [hms'])

/-- One example. -/
theorem bounded_step {dbg : Bool} {cfg : CoinConfig (BitVec 32)} {g : GlobalConfig} {c c' : Coin (BitVec 32)} (hl : Live cfg g c) (h : Bounded g c)
    (hw : ∀ i, i < 2 ^ g.numBits → UpTo 20 (c.weights.wst i).we) (ha : UpTo 20 cfg.alpha) (hb : UpTo 20 cfg.beta) (hb0 : (2 : ℝ) ^ (-20 : ℤ) ≤ V cfg.beta)
    {e : TrainEx (BitVec 32)} (he : Ordinary c.pass e) (ho : OwnWeights c.pass e.feats) (hlearn : c.learn dbg e.feats e.label e.weight = .ok c') : Bounded g c' := by
  obtain ⟨avg, u, n2, n3, hu, hst, hn, hlo, hhi⟩ := coin_step_core hl h hw ha he hlearn
  refine ⟨fun i hi => ?_, hn, hlo, hhi⟩
  rw [hst i hi]
  rcases own_visits ho i with h1 | ⟨iv, h1, h2, h3⟩
  · rw [h1]
    exact h.stats i hi
  · rw [h3]
    have := update_bound (avg := avg) (u := u) (x := iv.2) ha hb hb0 n2 n3 hu (valueOk_of (he.values iv h1)) (h.stats i hi).1 (hw i hi)
    exact ⟨this.1, this.2.2⟩

theorem bounded_train {dbg : Bool} {cfg : CoinConfig (BitVec 32)} {g : GlobalConfig} (ha : UpTo 20 cfg.alpha) (hb : UpTo 20 cfg.beta)
    (hb0 : (2 : ℝ) ^ (-20 : ℤ) ≤ V cfg.beta) : ∀ (es : List (TrainEx (BitVec 32))) {c c' : Coin (BitVec 32)}, Live cfg g c → Bounded g c →
      (∀ es1 es2 c1, es = es1 ++ es2 → c.trainAll dbg es1 = .ok c1 → ∀ (i : U32) s, c1.Holds i s → |ieeeValue s.we| ≤ 2 ^ 20) →
      (∀ e ∈ es, Ordinary c.pass e ∧ OwnWeights c.pass e.feats) → c.trainAll dbg es = .ok c' → Bounded g c' := by
  intro es
  induction es with
  | nil =>
    intro c c' _ h _ _ ht
    simp only [Coin.trainAll, Except.ok.injEq] at ht
    exact ht ▸ h
  | cons e es ih =>
    intro c c' hl h hw he ht
    have ht' := ht
    unfold Coin.trainAll at ht
    obtain ⟨c1, h1, ht⟩ := bind_ok.1 ht
    have hpass : c1.pass = c.pass := by
      obtain ⟨_, _, _, _, _, _, _, _, _, q, _⟩ := Coin.learn_inv hl.ok h1
      exact q
    have hw0 : ∀ i, i < 2 ^ g.numBits → UpTo 20 (c.weights.wst i).we := by
      intro i hi
      have h31 : (2 : Nat) ^ g.numBits ≤ 2 ^ 31 := Nat.pow_le_pow_right (by norm_num) hl.ok.le31
      have hn : (BitVec.ofNat 32 i).toNat = i := by
        rw [BitVec.toNat_ofNat]
        omega
      have := hw [] (e :: es) c rfl rfl (BitVec.ofNat 32 i) (c.weights.wst i) ((Coin.holds_iff hl.ok).2 ⟨by rw [hn]; exact hi, by rw [hn]⟩)
      have h2 : |V (c.weights.wst i).we| ≤ (2 : ℝ) ^ (20 : ℤ) := le_trans this (by norm_num)
      exact ⟨fin_of_small (h2.trans (pow_mono (by norm_num))), h2⟩
    have hb1 := bounded_step hl h hw0 ha hb hb0 (he e (by simp)).1 (he e (by simp)).2 h1
    refine ih (hl.learn e h1) hb1 (fun es1 es2 c2 e1 e2 => ?_) (fun e' h' => by rw [hpass]; exact he e' (by simp [h'])) ht
    refine hw (e :: es1) es2 c2 (by rw [e1]; rfl) ?_
    unfold Coin.trainAll
    rw [h1]
    exact e2

omit t in
theorem zero_stat : StatOk ⟨0#32, 0#32, 0#32, 0#32, 0#32, 0#32⟩ :=
  ⟨upTo_zero, upTo_zero, by rw [V_zero, abs_zero], upTo_zero, .inl V_zero, upTo_zero, .inl V_zero⟩

theorem new_states {hash : HashFn} {cfg : CoinConfig (BitVec 32)} {g : GlobalConfig} {nma : Nat} {c : Coin (BitVec 32)}
    (h : Coin.new hash cfg g nma = .ok c) : ∀ ms ∈ c.modelStates, ms = ⟨0#32, 0#32⟩ := by
  unfold Coin.new at h
  obtain ⟨⟨ps, ts⟩, _, h⟩ := bind_ok.1 h
  simp only at h
  split at h
  · obtain ⟨w, _, h⟩ := bind_ok.1 h
    simp only [Except.ok.injEq] at h
    rw [← h]
    intro ms hm
    exact List.eq_of_mem_replicate hm
  · cases h

theorem new_bounded {hash : HashFn} {cfg : CoinConfig (BitVec 32)} {g : GlobalConfig} {nma : Nat} {c : Coin (BitVec 32)} (hn : 0 < nma)
    (h : Coin.new hash cfg g nma = .ok c) : Bounded g c := by
  have hlab : UpTo 16 c.minLabel ∧ UpTo 16 c.maxLabel := by
    obtain ⟨_, _, _, h1, _⟩ := Coin.new_ok hn h
    cases hl : cfg.lossFunction with
    | squared =>
      rw [hl] at h1
      have e1 : c.minLabel = 0#32 := congrArg Prod.fst h1
      have e2 : c.maxLabel = 0#32 := congrArg Prod.snd h1
      rw [e1, e2]
      exact ⟨upTo_zero, upTo_zero⟩
    | logistic a b =>
      rw [hl] at h1
      have e1 : c.minLabel = f32Lit (-50) 1 := congrArg Prod.fst h1
      have e2 : c.maxLabel = f32Lit 50 1 := congrArg Prod.snd h1
      rw [e1, e2]
      have k : ∀ m : BitVec 32, f32Mag m ≤ 143 * 2 ^ 23 → UpTo 16 m := fun m h => upTo_of_mag 143 (by norm_num) (by norm_num) h
      exact ⟨k _ (by decide +kernel), k _ (by decide +kernel)⟩
  refine ⟨fun i hi => ?_, fun ms hms => ?_, hlab.1, hlab.2⟩
  · rw [new_wst hn h hi]
    exact ⟨zero_stat, upTo_zero⟩
  · rw [new_states h ms hms]
    exact ⟨upTo_zero, by rw [V_zero], upTo_zero, by rw [V_zero]⟩

/-- What follows for the model and its predictions. -/
theorem bounded_finite {dbg : Bool} {cfg : CoinConfig (BitVec 32)} {g : GlobalConfig} {c : Coin (BitVec 32)} (hl : Live cfg g c) (hB : Bounded g c)
    (hwealth : ∀ (i : U32) s, c.Holds i s → |ieeeValue s.we| ≤ 2 ^ 20) :
    (∀ (i : U32) s, c.Holds i s → IeeeFinite s.xt ∧ IeeeFinite s.zt ∧ IeeeFinite s.g2 ∧ IeeeFinite s.mx ∧ IeeeFinite s.we ∧ IeeeFinite s.mg) ∧
    ∀ f : SparseFeatures (BitVec 32), f.Fits g.numBits → (∀ iv ∈ visited c.pass f, IeeeFinite iv.2 ∧ |ieeeValue iv.2| ≤ 2 ^ 10) →
      ∃ v, c.rawSum dbg f = .ok v ∧ ¬ IeeeNaN v := by
  constructor
  · intro i s hs
    have hwe : |V s.we| ≤ (2 : ℝ) ^ (20 : ℤ) := le_trans (hwealth i s hs) (by norm_num)
    obtain ⟨h1, rfl⟩ := (Coin.holds_iff hl.ok).1 hs
    obtain ⟨h2, h3⟩ := hB.stats _ h1
    exact ⟨h3.fin, h2.zt.fin, h2.g2.fin, h2.mx.fin, fin_of_small (hwe.trans (pow_mono (by norm_num))), h2.mg.fin⟩
  · intro f hf hvals
    have hv := C01_index_in_range c.pass f (by rw [hl.ok.bits]; exact hl.ok.le31) (by rw [hl.ok.bits]; exact hf)
    rw [hl.ok.bits] at hv
    refine ⟨_, Coin.rawSum_eq hl.ok hv, ?_⟩
    have : ∀ (vs : List (U32 × BitVec 32)) (acc : BitVec 32), (∀ iv ∈ vs, iv ∈ visited c.pass f) → ¬ IeeeNaN acc →
        ¬ IeeeNaN (vs.foldl (fun acc iv => Flt.add acc (Flt.mul iv.2 (c.weights.wst iv.1.toNat).xt)) acc) := by
      intro vs
      induction vs with
      | nil => intro acc _ h; exact h
      | cons iv vs ih =>
        intro acc hm hacc
        refine ih _ (fun iv h => hm iv (by simp [h])) fun hnan => ?_
        obtain ⟨q1, q2⟩ := hvals iv (hm iv (by simp))
        have hfin := (UpTo.mul (i := 10) ⟨q1, le_trans q2 (by norm_num)⟩ (hB.stats _ (hv iv (hm iv (by simp)))).2 (by norm_num) (by norm_num)).1.fin
        rcases (C97_add_nan t _ _).1 hnan with h1 | h1 | h1
        · exact hacc h1
        · exact hfin h1.1
        · exact hfin h1.2.1.1
    exact this _ _ (fun _ h => h) (fun h => zero_fin h.1)

/-- C98 (partial): training with data of ordinary size, any number of examples, keeps everything in the model a finite number, and no prediction of ordinary data is NaN, as long
as the wealth of no weight leaves ±2^20, and the features of an example have weights of their own. What is missing is that nothing is asked of the wealth; that is false
in general (`C98_finite_false`), and data of any finite size. -/
theorem C98_partial (dbg : Bool) (hash : HashFn) (cfg : CoinConfig (BitVec 32)) (g : GlobalConfig) (ha : |ieeeValue cfg.alpha| ≤ 2 ^ 20)
    (hb : 1 / 2 ^ 20 ≤ ieeeValue cfg.beta ∧ ieeeValue cfg.beta ≤ 2 ^ 20) (nma : Nat) (hn : 0 < nma) (c0 : Coin (BitVec 32)) (h0 : Coin.new hash cfg g nma = .ok c0)
    (es : List (TrainEx (BitVec 32))) (hes : ∀ e ∈ es, Ordinary c0.pass e ∧ OwnWeights c0.pass e.feats) (c : Coin (BitVec 32)) (hc : c0.trainAll dbg es = .ok c)
    (hwealth : ∀ es1 es2 c1, es = es1 ++ es2 → c0.trainAll dbg es1 = .ok c1 → ∀ (i : U32) s, c1.Holds i s → |ieeeValue s.we| ≤ 2 ^ 20) :
    (∀ (i : U32) s, c.Holds i s → IeeeFinite s.xt ∧ IeeeFinite s.zt ∧ IeeeFinite s.g2 ∧ IeeeFinite s.mx ∧ IeeeFinite s.we ∧ IeeeFinite s.mg) ∧
    ∀ f : SparseFeatures (BitVec 32), f.Fits g.numBits → (∀ iv ∈ visited c.pass f, IeeeFinite iv.2 ∧ |ieeeValue iv.2| ≤ 2 ^ 10) →
      ∃ v, c.rawSum dbg f = .ok v ∧ ¬ IeeeNaN v := by
  have ha' : |V cfg.alpha| ≤ (2 : ℝ) ^ (20 : ℤ) := le_trans ha (by norm_num)
  have hb0 : (2 : ℝ) ^ (-20 : ℤ) ≤ V cfg.beta := le_trans (by norm_num) hb.1
  have hb' : |V cfg.beta| ≤ (2 : ℝ) ^ (20 : ℤ) := by
    rw [abs_of_nonneg (le_trans (by positivity) hb0)]
    exact le_trans hb.2 (by norm_num)
  have hl0 : Live cfg g c0 := live_reached (es := []) (dbg := dbg) ⟨nma, c0, hn, h0, rfl⟩
  have hl := Live.train es hl0 hc
  have hB := bounded_train (dbg := dbg) ⟨fin_of_small (ha'.trans (pow_mono (by norm_num))), ha'⟩ ⟨fin_of_small (hb'.trans (pow_mono (by norm_num))), hb'⟩ hb0 es hl0
    (new_bounded hn h0) hwealth hes hc
  exact bounded_finite hl hB (hwealth es [] c (by simp) hc)

end coin

/-- The features of an example with the one feature 1. -/
def oneFeature (v : BitVec 32) : SparseFeatures (BitVec 32) := SparseFeatures.modifyOrCreate SparseFeatures.new .default (fun n => n.addFeature 1#32 v)

/-- Three examples with label 1 and weight 1; the feature is 1e-30 in two of them. -/
def nanWitness : List (TrainEx (BitVec 32)) :=
  [⟨oneFeature (f32Lit 1 (10 ^ 30)), f32Lit 1 1, f32Lit 1 1⟩, ⟨oneFeature (f32Lit 1 (10 ^ 30)), f32Lit 1 1, f32Lit 1 1⟩, ⟨oneFeature (f32Lit 1 1), f32Lit 1 1, f32Lit 1 1⟩]

/-- Three examples with weight 1; the values and the labels of two of them are large. -/
def hugeWitness : List (TrainEx (BitVec 32)) :=
  [⟨oneFeature (f32Lit (10 ^ 30) 1), f32Lit (10 ^ 10) 1, f32Lit 1 1⟩, ⟨oneFeature (f32Lit (10 ^ 30) 1), f32Lit (10 ^ 10) 1, f32Lit 1 1⟩,
   ⟨oneFeature (f32Lit 1 1), f32Lit 1 1, f32Lit 1 1⟩]

def nanGlobal : GlobalConfig := ⟨2, 0#32, true, []⟩

def nanTrain (es : List (TrainEx (BitVec 32))) : M (Coin (BitVec 32)) :=
  letI := ieeeFlt noTrans
  do let c ← Coin.new (fun _ s => s) CoinConfig.dflt nanGlobal 1; c.trainAll true es

def nanCheck (low : BitVec 32) (es : List (TrainEx (BitVec 32))) : Bool :=
  letI := ieeeFlt noTrans
  match nanTrain es with
  | .ok c => (fun s : Coin.WState (BitVec 32) => f32IsNaN s.xt && f32IsNaN s.zt && f32Lt 0#32 s.mg && f32Le 0x3f800000#32 s.mx) (c.weights.wst 2) &&
      es.all fun e => (visited c.pass e.feats).all fun iv => decide (f32Mag iv.2 < 0x7f800000) && f32Le low iv.2
  | .error _ => false

theorem nanCheck_tiny : nanCheck 0#32 nanWitness = true := by decide +kernel
theorem nanCheck_huge : nanCheck 0x3f800000#32 hugeWitness = true := by decide +kernel

theorem stopped_of_check (low : BitVec 32) (es : List (TrainEx (BitVec 32))) (h : nanCheck low es = true) : letI := ieeeFlt noTrans
    ∃ c, Coin.Reached true (fun _ s => s) CoinConfig.dflt nanGlobal es c ∧ (∀ e ∈ es, ∀ iv ∈ visited c.pass e.feats, IeeeFinite iv.2 ∧ f32Le low iv.2 = true) ∧ StoppedLearning (t := noTrans) true nanGlobal c := by
  let _ : F32Trans := noTrans
  let _ := ieeeFlt noTrans
  unfold nanCheck at h
  split at h
  · rename_i c hc
    simp only [Bool.and_eq_true, List.all_eq_true, decide_eq_true_eq] at h
    obtain ⟨⟨⟨⟨h1, h2⟩, h3⟩, h4⟩, h5⟩ := h
    unfold nanTrain at hc
    obtain ⟨c0, hc0, hc⟩ := bind_ok.1 hc
    have hr : Coin.Reached true (fun _ s => s) CoinConfig.dflt nanGlobal es c := ⟨1, c0, by norm_num, hc0, hc⟩
    have hl := live_reached hr
    refine ⟨c, hr, fun e he iv hiv => ⟨(ieeeFinite_iff _).2 (h5 e he iv hiv).1, (h5 e he iv hiv).2⟩, fun later c' ht f hf => ?_⟩
    have hlost : Lost nanGlobal c := ⟨h1, h2, h3, h4⟩
    exact lost_predict rfl (Live.train later hl ht) (lost_train rfl (by decide +kernel) later hl hlost ht) f hf
  · cases h

/-- C98 is false for finite data: with the default configuration, three examples with label 1 and weight 1, two of them with a value of 1e-30, make a regressor that predicts
0 for everything, whatever else it is trained with. -/
theorem C98_finite_false : letI := ieeeFlt noTrans
    ∃ (es : List (TrainEx (BitVec 32))) (c : Coin (BitVec 32)), Coin.Reached true (fun _ s => s) CoinConfig.dflt nanGlobal es c ∧
      (∀ e ∈ es, IeeeFinite e.label ∧ IeeeFinite e.weight ∧ ∀ iv ∈ visited c.pass e.feats, IeeeFinite iv.2) ∧ StoppedLearning (t := noTrans) true nanGlobal c := by
  obtain ⟨c, h1, h2, h3⟩ := stopped_of_check _ nanWitness nanCheck_tiny
  refine ⟨nanWitness, c, h1, fun e he => ⟨?_, ?_, fun iv hiv => (h2 e he iv hiv).1⟩, h3⟩
  · rw [ieeeFinite_iff]
    revert e
    decide +kernel
  · rw [ieeeFinite_iff]
    revert e
    decide +kernel

/-- Tiny values are not the only reason: the same with values of at least 1, labels up to 1e10 and weight 1. -/
theorem C98_large_false : letI := ieeeFlt noTrans
    ∃ (es : List (TrainEx (BitVec 32))) (c : Coin (BitVec 32)), Coin.Reached true (fun _ s => s) CoinConfig.dflt nanGlobal es c ∧
      (∀ e ∈ es, IeeeFinite e.label ∧ f32Le e.label (f32Lit (10 ^ 10) 1) = true ∧ e.weight = 0x3f800000#32 ∧
        ∀ iv ∈ visited c.pass e.feats, IeeeFinite iv.2 ∧ f32Le 0x3f800000#32 iv.2 = true) ∧ StoppedLearning (t := noTrans) true nanGlobal c := by
  obtain ⟨c, h1, h2, h3⟩ := stopped_of_check _ hugeWitness nanCheck_huge
  refine ⟨hugeWitness, c, h1, fun e he => ⟨?_, ?_, ?_, h2 e he⟩, h3⟩
  · rw [ieeeFinite_iff]
    revert e
    decide +kernel
  · revert e
    decide +kernel
  · revert e
    decide +kernel

/-! ### Concrete cases -/

/-- A model that one example of label 1 has moved: it meets the hypotheses of `C98_bad_number`, and NaN values are what the parsers make of `nan`. -/
example : letI : F32Trans := noTrans; letI := ieeeFlt noTrans
    ∃ c s, Coin.Reached true (fun _ s => s) CoinConfig.dflt nanGlobal [⟨oneFeature 0x3f800000#32, 0x3f800000#32, 0x3f800000#32⟩] c ∧ c.Holds 2#32 s ∧ f32Lt 0#32 s.mg = true ∧
      HasNaN c.pass ⟨oneFeature 0x3f800000#32, 0x7fc00000#32, 0x3f800000#32⟩ ∧ ¬ IeeeNaN (CoinConfig.dflt : CoinConfig (BitVec 32)).beta := by
  let _ : F32Trans := noTrans
  let _ := ieeeFlt noTrans
  have hchk : (match nanTrain [⟨oneFeature 0x3f800000#32, 0x3f800000#32, 0x3f800000#32⟩] with
    | .ok c => f32Lt 0#32 (c.weights.wst 2).mg
    | .error _ => false) = true := by decide +kernel
  split at hchk
  · rename_i c hc
    unfold nanTrain at hc
    obtain ⟨c0, hc0, hc⟩ := bind_ok.1 hc
    have hr : Coin.Reached true (fun _ s => s) CoinConfig.dflt nanGlobal [⟨oneFeature 0x3f800000#32, 0x3f800000#32, 0x3f800000#32⟩] c := ⟨1, c0, by norm_num, hc0, hc⟩
    refine ⟨c, c.weights.wst 2, hr, (Coin.holds_iff (live_reached hr).ok).2 ⟨by decide, rfl⟩, hchk, .inl (by unfold IeeeNaN; decide), ?_⟩
    rw [ieeeNaN_iff]
    decide +kernel
  · cases hchk

/-- Two examples of ordinary size: label 1 with a value of 1, and label 2 with a value of 0.5. -/
def ordinaryData : List (TrainEx (BitVec 32)) :=
  [⟨oneFeature 0x3f800000#32, 0x3f800000#32, 0x3f800000#32⟩, ⟨oneFeature 0x3f000000#32, 0x40000000#32, 0x3f800000#32⟩]

/-- The wealth of all weights is small. -/
def smallWealth (c : Coin (BitVec 32)) : Bool :=
  letI := ieeeFlt noTrans
  (List.range 4).all fun i => decide (f32Mag (c.weights.wst i).we ≤ 147 * 2 ^ 23)

def ordinaryCheck : Bool :=
  letI := ieeeFlt noTrans
  match nanTrain [], nanTrain (ordinaryData.take 1), nanTrain ordinaryData with
  | .ok c0, .ok c1, .ok c2 => smallWealth c0 && smallWealth c1 && smallWealth c2 &&
      ordinaryData.all fun e => ((visited c0.pass e.feats).all fun iv => iv.2 == 0x3f800000#32 || iv.2 == 0x3f000000#32) && decide ((visited c0.pass e.feats).map (·.1)).Nodup
  | _, _, _ => false

/-- They meet the hypotheses of `C98_partial`. -/
example : letI : F32Trans := noTrans; letI := ieeeFlt noTrans
    ∃ c0 c : Coin (BitVec 32), Coin.new (fun _ s => s) CoinConfig.dflt nanGlobal 1 = .ok c0 ∧ (∀ e ∈ ordinaryData, Ordinary c0.pass e ∧ OwnWeights c0.pass e.feats) ∧
      c0.trainAll true ordinaryData = .ok c ∧
      (∀ es1 es2 c1, ordinaryData = es1 ++ es2 → c0.trainAll true es1 = .ok c1 → ∀ (i : U32) s, c1.Holds i s → |ieeeValue s.we| ≤ 2 ^ 20) ∧
      |ieeeValue (CoinConfig.dflt : CoinConfig (BitVec 32)).alpha| ≤ 2 ^ 20 ∧ 1 / 2 ^ 20 ≤ ieeeValue (CoinConfig.dflt : CoinConfig (BitVec 32)).beta ∧
      ieeeValue (CoinConfig.dflt : CoinConfig (BitVec 32)).beta ≤ 2 ^ 20 := by
  let T : F32Trans := noTrans
  let _ := ieeeFlt noTrans
  have hchk : ordinaryCheck = true := by decide +kernel
  unfold ordinaryCheck at hchk
  split at hchk
  · rename_i c0 c1 c2 h0 h1 h2
    simp only [Bool.and_eq_true, List.all_eq_true, decide_eq_true_eq, Bool.or_eq_true, beq_iff_eq] at hchk
    obtain ⟨⟨⟨w0, w1⟩, w2⟩, hd⟩ := hchk
    unfold nanTrain at h0 h1 h2
    obtain ⟨d0, hn, h0⟩ := bind_ok.1 h0
    obtain ⟨d1, hn1, h1⟩ := bind_ok.1 h1
    obtain ⟨d2, hn2, h2⟩ := bind_ok.1 h2
    rw [hn] at hn1 hn2
    cases hn1
    cases hn2
    simp only [Coin.trainAll, Except.ok.injEq] at h0
    subst h0
    have v1 : V 0x3f800000#32 = 1 := by
      have := V_pow 127 (by norm_num) (by norm_num)
      norm_num at this
      exact this
    have v2 : V 0x3f000000#32 = 1 / 2 := by
      have := V_pow 126 (by norm_num) (by norm_num)
      norm_num at this
      exact this
    have v3 : V 0x40000000#32 = 2 := by
      have := V_pow 128 (by norm_num) (by norm_num)
      norm_num at this
      exact this
    have small : ∀ c : Coin (BitVec 32), c.Ok 2 → smallWealth c = true → ∀ (i : U32) s, c.Holds i s → |ieeeValue s.we| ≤ 2 ^ 20 := by
      intro c hc hs i s hi
      obtain ⟨hi', rfl⟩ := (Coin.holds_iff hc).1 hi
      unfold smallWealth at hs
      simp only [List.all_eq_true, List.mem_range, decide_eq_true_eq] at hs
      have := (upTo_of_mag 147 (by norm_num) (by norm_num) (hs _ hi')).le
      exact le_trans this (by norm_num)
    have ok : ∀ (es : List (TrainEx (BitVec 32))) c, d0.trainAll true es = .ok c → c.Ok 2 := fun es c h => (live_reached (dbg := true) ⟨1, d0, by norm_num, hn, h⟩).ok
    refine ⟨d0, c2, hn, fun e he => ⟨⟨?_, ?_, fun iv hiv => ?_⟩, (hd e he).2⟩, h2, fun es1 es2 cc e1 e2 => ?_, ?_, ?_, ?_⟩
    · simp only [ordinaryData, List.mem_cons, List.not_mem_nil, or_false] at he
      rcases he with rfl | rfl
      · refine ⟨by unfold IeeeFinite; decide, ?_⟩
        rw [show ieeeValue 0x3f800000#32 = 1 from v1]
        norm_num
      · refine ⟨by unfold IeeeFinite; decide, ?_⟩
        rw [show ieeeValue 0x40000000#32 = 2 from v3]
        norm_num
    · have : e.weight = 0x3f800000#32 := by
        simp only [ordinaryData, List.mem_cons, List.not_mem_nil, or_false] at he
        rcases he with rfl | rfl <;> rfl
      rw [this, show ieeeValue 0x3f800000#32 = 1 from v1]
      refine ⟨by unfold IeeeFinite; decide, ?_, ?_⟩ <;> norm_num
    · rcases (hd e he).1 iv hiv with h | h
      · rw [h, show ieeeValue 0x3f800000#32 = 1 from v1]
        refine ⟨by unfold IeeeFinite; decide, .inr ⟨?_, ?_⟩⟩ <;> norm_num
      · rw [h, show ieeeValue 0x3f000000#32 = 1 / 2 from v2]
        refine ⟨by unfold IeeeFinite; decide, .inr ⟨?_, ?_⟩⟩ <;> norm_num [abs_of_pos]
    · refine small cc (ok _ _ e2) ?_
      have e3 : es1 = ordinaryData.take es1.length := by rw [e1]; simp
      have e4 : es1.length ≤ 2 := by
        have := congrArg List.length e1
        rw [List.length_append] at this
        change 2 = _ at this
        omega
      rw [e3] at e2
      generalize es1.length = n at e2 e4
      obtain rfl | rfl | rfl : n = 0 ∨ n = 1 ∨ n = 2 := by omega
      · simp only [List.take_zero, Coin.trainAll, Except.ok.injEq] at e2
        exact e2 ▸ w0
      · rw [h1] at e2
        cases e2
        exact w1
      · have : ordinaryData.take 2 = ordinaryData := rfl
        rw [this, h2] at e2
        cases e2
        exact w2
    · have := (upTo_of_mag (m := (CoinConfig.dflt : CoinConfig (BitVec 32)).alpha) 147 (by norm_num) (by norm_num) (by decide +kernel)).le
      exact le_trans this (by norm_num)
    · have hb : (CoinConfig.dflt : CoinConfig (BitVec 32)).beta = 0x3f800000#32 := by decide +kernel
      rw [hb, show ieeeValue 0x3f800000#32 = 1 from v1]
      norm_num
    · have hb : (CoinConfig.dflt : CoinConfig (BitVec 32)).beta = 0x3f800000#32 := by decide +kernel
      rw [hb, show ieeeValue 0x3f800000#32 = 1 from v1]
      norm_num
  · cases hchk

end Rml
