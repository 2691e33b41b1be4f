import Verif.Props.Nan
import Verif.Lemmas.CoinWealth

/-!
# C98: how much training it takes

The wealth of a weight is what `C98_partial` has to ask about. Each visit at most doubles it, so that a bound on the number of visits is enough, and features may share weights.
-/

namespace Rml

section coin
variable [t : F32Trans]

/-- Numbers are `f32`. -/
@[reducible] local instance visitNumbers : Flt (BitVec 32) := ieeeFlt t

/-- What a number of visits can make of the wealth. -/
noncomputable def growth (k n : Nat) : ℝ := (2 + 1 / 2 ^ 10) ^ n * 2 ^ k

omit t in
theorem growth_small {k n : Nat} (h : n + k ≤ 19) : growth k n ≤ 2 ^ 20 := by
  unfold growth
  have h1 : ((2 : ℝ) + 1 / 2 ^ 10) ^ n = 2 ^ n * (1 + 1 / 2 ^ 11) ^ n := by
    rw [← mul_pow]
    norm_num
  have h2 : ((1 : ℝ) + 1 / 2 ^ 11) ^ n ≤ 2 :=
    (pow_le_pow_right₀ (by norm_num) (show n ≤ 19 by omega)).trans (by norm_num)
  calc ((2 : ℝ) + 1 / 2 ^ 10) ^ n * 2 ^ k = 2 ^ (n + k) * (1 + 1 / 2 ^ 11) ^ n := by rw [h1, pow_add]; ring
    _ ≤ 2 ^ 19 * 2 := mul_le_mul (pow_le_pow_right₀ (by norm_num) h) h2 (by positivity) (by positivity)
    _ = 2 ^ 20 := by norm_num

/-- The visits of one weight during one example. -/
theorem visits_fold {alpha beta avg u : BitVec 32} {k : Nat} (ha : UpTo 20 alpha) (hak : |V alpha| ≤ 2 ^ k) (hb : UpTo 20 beta)
    (hb0 : (2 : ℝ) ^ (-20 : ℤ) ≤ V beta) (hv : UpTo 67 avg) (hv0 : (2 : ℝ) ^ (-53 : ℤ) ≤ V avg) (hu : UpTo 26 u) :
    ∀ (vs : List (U32 × BitVec 32)) (s : Coin.WState (BitVec 32)) (n : Nat), n + vs.length + k ≤ 19 → (∀ iv ∈ vs, ValueOk iv.2) →
      StatOk s ∧ UpTo 105 s.xt → |V s.we| + 2 ^ k ≤ growth k n →
      (StatOk (vs.foldl (fun s iv => Coin.innerUpdate alpha beta avg u iv.2 s) s) ∧ UpTo 105 (vs.foldl (fun s iv => Coin.innerUpdate alpha beta avg u iv.2 s) s).xt) ∧
      |V (vs.foldl (fun s iv => Coin.innerUpdate alpha beta avg u iv.2 s) s).we| + 2 ^ k ≤ growth k (n + vs.length) := by
  intro vs
  induction vs with
  | nil => intro s n _ _ hs hg; exact ⟨hs, hg⟩
  | cons iv vs ih =>
    intro s n hn hvs hs hg
    rw [List.length_cons] at hn
    have hk1 : (1 : ℝ) ≤ 2 ^ k := one_le_pow₀ (by norm_num)
    have hw : UpTo 20 s.we := by
      have : |V s.we| ≤ (2 : ℝ) ^ (20 : ℤ) := by
        have h1 := growth_small (k := k) (n := n) (by omega)
        have h2 : |V s.we| ≤ 2 ^ 20 := by linarith
        exact h2.trans (by norm_num)
      exact ⟨fin_of_small (this.trans (pow_mono (by norm_num))), this⟩
    have hx := hvs iv (by simp)
    have h1 := update_bound (t := t) (u := u) (x := iv.2) ha hb hb0 hv hv0 hu hx hs.1 hw
    have h2 := wealth_double (t := t) (avg := avg) (u := u) (x := iv.2) hk1 (pow_le_pow_right₀ (by norm_num) (by omega)) ha hak hb hb0 hu hx hs.1 hw
    have h3 := ih (Coin.innerUpdate alpha beta avg u iv.2 s) (n + 1) (by omega) (fun iv h => hvs iv (by simp [h])) ⟨h1.1, h1.2.2⟩ (by
      refine h2.trans ((mul_le_mul_of_nonneg_left hg (by norm_num)).trans (le_of_eq ?_))
      unfold growth
      rw [pow_succ]
      ring)
    rw [List.length_cons, show n + (vs.length + 1) = n + 1 + vs.length by omega]
    exact h3

omit t in
theorem visitsAt_length [Flt (BitVec 32)] (c : Coin (BitVec 32)) (f : SparseFeatures (BitVec 32)) (i : U32) :
    (c.visitsAt f i.toNat).length = ((visited c.pass f).filter (fun iv => iv.1 == i)).length := by
  unfold Coin.visitsAt
  congr 1
  refine List.filter_congr fun iv _ => ?_
  rw [Bool.eq_iff_iff, decide_eq_true_eq, beq_iff_eq]
  exact ⟨fun h => BitVec.eq_of_toNat_eq h, fun h => by rw [h]⟩

/-- Any number of examples. -/
theorem visits_train {dbg : Bool} {cfg : CoinConfig (BitVec 32)} {g : GlobalConfig} {k : Nat} (ha : UpTo 20 cfg.alpha) (hak : |V cfg.alpha| ≤ 2 ^ k) (hb : UpTo 20 cfg.beta)
    (hb0 : (2 : ℝ) ^ (-20 : ℤ) ≤ V cfg.beta) : ∀ (es : List (TrainEx (BitVec 32))) (n : U32 → Nat) {c c' : Coin (BitVec 32)}, Live cfg g c → Bounded g c →
      (∀ i : U32, i.toNat < 2 ^ g.numBits → |V (c.weights.wst i.toNat).we| + 2 ^ k ≤ growth k (n i)) →
      (∀ i : U32, n i + trainingVisits c.pass es i + k ≤ 19) →
      (∀ e ∈ es, Ordinary c.pass e) → c.trainAll dbg es = .ok c' →
      Bounded g c' ∧ ∀ i : U32, i.toNat < 2 ^ g.numBits → |V (c'.weights.wst i.toNat).we| ≤ 2 ^ 20 := by
  intro es
  have hk1 : (1 : ℝ) ≤ 2 ^ k := one_le_pow₀ (by norm_num)
  induction es with
  | nil =>
    intro n c c' _ h hw hn _ ht
    simp only [Coin.trainAll, Except.ok.injEq] at ht
    subst ht
    refine ⟨h, fun i hi => ?_⟩
    have h1 := growth_small (k := k) (n := n i) (by have := hn i; omega)
    have := hw i hi
    linarith
  | cons e es ih =>
    intro n c c' hl h hw hn he ht
    unfold Coin.trainAll at ht
    obtain ⟨c1, h1, ht⟩ := bind_ok.1 ht
    have hpass : c1.pass = c.pass := by
      obtain ⟨_, _, _, _, _, _, _, _, _, q, _⟩ := Coin.learn_inv hl.ok h1
      exact q
    have h31 : (2 : Nat) ^ g.numBits ≤ 2 ^ 31 := Nat.pow_le_pow_right (by norm_num) hl.ok.le31
    have hix : ∀ i, i < 2 ^ g.numBits → (BitVec.ofNat 32 i).toNat = i := fun i hi => by
      rw [BitVec.toNat_ofNat]
      omega
    have hsplit : ∀ i, trainingVisits c.pass (e :: es) i = ((visited c.pass e.feats).filter (fun iv => iv.1 == i)).length + trainingVisits c.pass es i := fun i => by
      unfold trainingVisits
      rw [List.flatMap_cons, List.filter_append, List.length_append]
    have hw0 : ∀ i, i < 2 ^ g.numBits → UpTo 20 (c.weights.wst i).we := by
      intro i hi
      have h2 := hw (BitVec.ofNat 32 i) (by rw [hix i hi]; exact hi)
      rw [hix i hi] at h2
      have h3 := growth_small (k := k) (n := n (BitVec.ofNat 32 i)) (by have := hn (BitVec.ofNat 32 i); omega)
      have h4 : |V (c.weights.wst i).we| ≤ 2 ^ 20 := by linarith
      have h5 : |V (c.weights.wst i).we| ≤ (2 : ℝ) ^ (20 : ℤ) := h4.trans (by norm_num)
      exact ⟨fin_of_small (h5.trans (pow_mono (by norm_num))), h5⟩
    have hord := he e (by simp)
    obtain ⟨avg, u, n2, n3, hu, hst, hnm, hlo, hhi⟩ := coin_step_core hl h hw0 ha hord h1
    have key : ∀ i : U32, i.toNat < 2 ^ g.numBits → (StatOk (c1.weights.wst i.toNat) ∧ UpTo 105 (c1.weights.wst i.toNat).xt) ∧
        |V (c1.weights.wst i.toNat).we| + 2 ^ k ≤ growth k (n i + ((visited c.pass e.feats).filter (fun iv => iv.1 == i)).length) := by
      intro i hi
      rw [hst _ hi, ← visitsAt_length]
      refine visits_fold ha hak hb hb0 n2 n3 hu _ _ _ ?_ (fun iv hiv => ?_) (h.stats _ hi) (hw i hi)
      · have h2 := hn i
        rw [hsplit] at h2
        rw [visitsAt_length]
        omega
      · unfold Coin.visitsAt at hiv
        exact valueOk_of (hord.values iv (List.mem_filter.1 hiv).1)
    refine ih (fun i => n i + ((visited c.pass e.feats).filter (fun iv => iv.1 == i)).length) (hl.learn e h1) ⟨fun i hi => ?_, hnm, hlo, hhi⟩
      (fun i hi => (key i hi).2) (fun i => ?_) (fun e' h' => by rw [hpass]; exact he e' (by simp [h'])) ht
    · have := (key (BitVec.ofNat 32 i) (by rw [hix i hi]; exact hi)).1
      rwa [hix i hi] at this
    · have h2 := hn i
      rw [hsplit] at h2
      rw [hpass]
      omega

/-- C98, little training: while no weight is visited more than 19 - k times, where 2^k bounds alpha, training with data of ordinary size keeps everything in the model a finite
number, and no prediction of ordinary data is NaN. Nothing is asked of the wealth, and features may share weights. With the default alpha of 4 that is 17 visits. -/
theorem C98_visits (dbg : Bool) (hash : HashFn) (cfg : CoinConfig (BitVec 32)) (g : GlobalConfig) (k : Nat) (ha : |ieeeValue cfg.alpha| ≤ 2 ^ k)
    (hb : 1 / 2 ^ 20 ≤ ieeeValue cfg.beta ∧ ieeeValue cfg.beta ≤ 2 ^ 20) (nma : Nat) (hn : 0 < nma) (c0 : Coin (BitVec 32)) (h0 : Coin.new hash cfg g nma = .ok c0)
    (es : List (TrainEx (BitVec 32))) (hes : ∀ e ∈ es, Ordinary c0.pass e) (hv : ∀ i : U32, trainingVisits c0.pass es i + k ≤ 19)
    (c : Coin (BitVec 32)) (hc : c0.trainAll dbg es = .ok c) :
    (∀ (i : U32) s, c.Holds i s → IeeeFinite s.xt ∧ IeeeFinite s.zt ∧ IeeeFinite s.g2 ∧ IeeeFinite s.mx ∧ IeeeFinite s.we ∧ IeeeFinite s.mg) ∧
    ∀ f : SparseFeatures (BitVec 32), f.Fits g.numBits → (∀ iv ∈ visited c.pass f, IeeeFinite iv.2 ∧ |ieeeValue iv.2| ≤ 2 ^ 10) →
      ∃ v, c.rawSum dbg f = .ok v ∧ ¬ IeeeNaN v := by
  have hk : k ≤ 19 := by have := hv 0#32; omega
  have ha' : |V cfg.alpha| ≤ (2 : ℝ) ^ (20 : ℤ) := by
    refine le_trans (le_trans ha (pow_le_pow_right₀ (by norm_num) (show k ≤ 20 by omega))) (by norm_num)
  have hb0 : (2 : ℝ) ^ (-20 : ℤ) ≤ V cfg.beta := le_trans (by norm_num) hb.1
  have hb' : |V cfg.beta| ≤ (2 : ℝ) ^ (20 : ℤ) := by
    rw [abs_of_nonneg (le_trans (by positivity) hb0)]
    exact le_trans hb.2 (by norm_num)
  have hl0 : Live cfg g c0 := live_reached (es := []) (dbg := dbg) ⟨nma, c0, hn, h0, rfl⟩
  have hl := Live.train es hl0 hc
  obtain ⟨hB, hwe⟩ := visits_train (dbg := dbg) (k := k) ⟨fin_of_small (ha'.trans (pow_mono (by norm_num))), ha'⟩ ha
    ⟨fin_of_small (hb'.trans (pow_mono (by norm_num))), hb'⟩ hb0 es (fun _ => 0) hl0 (new_bounded hn h0)
    (fun i hi => by rw [new_wst hn h0 hi]; simp [growth, V_zero]) (fun i => by have := hv i; omega) hes hc
  refine bounded_finite hl hB fun i s hs => ?_
  obtain ⟨h1, rfl⟩ := (Coin.holds_iff hl.ok).1 hs
  exact hwe i h1

/-- Any number of examples, with a bound on the wealth in between. -/
theorem shared_train {dbg : Bool} {cfg : CoinConfig (BitVec 32)} {g : GlobalConfig} {k : Nat} (hk : k ≤ 18) (ha : UpTo 20 cfg.alpha) (hak : |V cfg.alpha| ≤ 2 ^ k) (hb : UpTo 20 cfg.beta)
    (hb0 : (2 : ℝ) ^ (-20 : ℤ) ≤ V cfg.beta) : ∀ (es : List (TrainEx (BitVec 32))) {c c' : Coin (BitVec 32)}, Live cfg g c → Bounded g c →
      (∀ es1 es2 c1, es = es1 ++ es2 → c.trainAll dbg es1 = .ok c1 → ∀ (i : U32) s, c1.Holds i s → |ieeeValue s.we| ≤ 2 ^ k) →
      (∀ e ∈ es, Ordinary c.pass e ∧ ∀ i : U32, trainingVisits c.pass [e] i + k ≤ 18) → c.trainAll dbg es = .ok c' → Bounded g c' := by
  intro es
  induction es with
  | nil =>
    intro c c' _ h _ _ ht
    simp only [Coin.trainAll, Except.ok.injEq] at ht
    exact ht ▸ h
  | cons e es ih =>
    intro c c' hl h hw he ht
    unfold Coin.trainAll at ht
    obtain ⟨c1, h1, ht⟩ := bind_ok.1 ht
    have hpass : c1.pass = c.pass := by
      obtain ⟨_, _, _, _, _, _, _, _, _, q, _⟩ := Coin.learn_inv hl.ok h1
      exact q
    have h31 : (2 : Nat) ^ g.numBits ≤ 2 ^ 31 := Nat.pow_le_pow_right (by norm_num) hl.ok.le31
    have hix : ∀ i, i < 2 ^ g.numBits → (BitVec.ofNat 32 i).toNat = i := fun i hi => by
      rw [BitVec.toNat_ofNat]
      omega
    have hwk : ∀ i, i < 2 ^ g.numBits → |V (c.weights.wst i).we| ≤ 2 ^ k := fun i hi =>
      hw [] (e :: es) c rfl rfl (BitVec.ofNat 32 i) (c.weights.wst i) ((Coin.holds_iff hl.ok).2 ⟨by rw [hix i hi]; exact hi, by rw [hix i hi]⟩)
    have hw0 : ∀ i, i < 2 ^ g.numBits → UpTo 20 (c.weights.wst i).we := by
      intro i hi
      have h5 : |V (c.weights.wst i).we| ≤ (2 : ℝ) ^ (20 : ℤ) :=
        (hwk i hi).trans ((pow_le_pow_right₀ (by norm_num) (show k ≤ 20 by omega)).trans (by norm_num))
      exact ⟨fin_of_small (h5.trans (pow_mono (by norm_num))), h5⟩
    obtain ⟨hord, hcount⟩ := he e (by simp)
    obtain ⟨avg, u, n2, n3, hu, hst, hnm, hlo, hhi⟩ := coin_step_core hl h hw0 ha hord h1
    have hB : Bounded g c1 := by
      refine ⟨fun i hi => ?_, hnm, hlo, hhi⟩
      rw [hst i hi]
      refine (visits_fold ha hak hb hb0 n2 n3 hu _ _ 1 ?_ (fun iv hiv => ?_) (h.stats _ hi) ?_).1
      · have h2 := hcount (BitVec.ofNat 32 i)
        unfold trainingVisits at h2
        rw [List.flatMap_cons, List.flatMap_nil, List.append_nil, ← visitsAt_length, hix i hi] at h2
        omega
      · unfold Coin.visitsAt at hiv
        exact valueOk_of (hord.values iv (List.mem_filter.1 hiv).1)
      · have h2 := hwk i hi
        have h3 : (0 : ℝ) < 2 ^ k := by positivity
        unfold growth
        rw [pow_one]
        nlinarith
    refine ih (hl.learn e h1) hB (fun es1 es2 c2 e1 e2 => ?_) (fun e' h' => by rw [hpass]; exact he e' (by simp [h'])) ht
    refine hw (e :: es1) es2 c2 (by rw [e1]; rfl) ?_
    unfold Coin.trainAll
    rw [h1]
    exact e2

/-- C98 (partial), features that share weights: as `C98_partial`, for any number of examples, with the wealth of every weight within ±2^k after each example, where 2^k bounds
alpha, when no example has more than 18 - k features and interactions with the same weight. -/
theorem C98_shared_partial (dbg : Bool) (hash : HashFn) (cfg : CoinConfig (BitVec 32)) (g : GlobalConfig) (k : Nat) (hk : k ≤ 18) (ha : |ieeeValue cfg.alpha| ≤ 2 ^ k)
    (hb : 1 / 2 ^ 20 ≤ ieeeValue cfg.beta ∧ ieeeValue cfg.beta ≤ 2 ^ 20) (nma : Nat) (hn : 0 < nma) (c0 : Coin (BitVec 32)) (h0 : Coin.new hash cfg g nma = .ok c0)
    (es : List (TrainEx (BitVec 32))) (hes : ∀ e ∈ es, Ordinary c0.pass e ∧ ∀ i : U32, trainingVisits c0.pass [e] i + k ≤ 18)
    (c : Coin (BitVec 32)) (hc : c0.trainAll dbg es = .ok c)
    (hwealth : ∀ es1 es2 c1, es = es1 ++ es2 → c0.trainAll dbg es1 = .ok c1 → ∀ (i : U32) s, c1.Holds i s → |ieeeValue s.we| ≤ 2 ^ k) :
    (∀ (i : U32) s, c.Holds i s → IeeeFinite s.xt ∧ IeeeFinite s.zt ∧ IeeeFinite s.g2 ∧ IeeeFinite s.mx ∧ IeeeFinite s.we ∧ IeeeFinite s.mg) ∧
    ∀ f : SparseFeatures (BitVec 32), f.Fits g.numBits → (∀ iv ∈ visited c.pass f, IeeeFinite iv.2 ∧ |ieeeValue iv.2| ≤ 2 ^ 10) →
      ∃ v, c.rawSum dbg f = .ok v ∧ ¬ IeeeNaN v := by
  have ha' : |V cfg.alpha| ≤ (2 : ℝ) ^ (20 : ℤ) := by
    refine le_trans (le_trans ha (pow_le_pow_right₀ (by norm_num) (show k ≤ 20 by omega))) (by norm_num)
  have hb0 : (2 : ℝ) ^ (-20 : ℤ) ≤ V cfg.beta := le_trans (by norm_num) hb.1
  have hb' : |V cfg.beta| ≤ (2 : ℝ) ^ (20 : ℤ) := by
    rw [abs_of_nonneg (le_trans (by positivity) hb0)]
    exact le_trans hb.2 (by norm_num)
  have hl0 : Live cfg g c0 := live_reached (es := []) (dbg := dbg) ⟨nma, c0, hn, h0, rfl⟩
  have hl := Live.train es hl0 hc
  have hB := shared_train (dbg := dbg) hk ⟨fin_of_small (ha'.trans (pow_mono (by norm_num))), ha'⟩ ha
    ⟨fin_of_small (hb'.trans (pow_mono (by norm_num))), hb'⟩ hb0 es hl0 (new_bounded hn h0) hwealth hes hc
  exact bounded_finite hl hB fun i s hs => (hwealth es [] c (by simp) hc i s hs).trans (pow_le_pow_right₀ (by norm_num) (by omega))

end coin

/-! ### A concrete case -/

/-- Five examples whose two features have the same weight. -/
def sharedData : List (TrainEx (BitVec 32)) :=
  List.replicate 5 ⟨SparseFeatures.modifyOrCreate SparseFeatures.new .default (fun n => (n.addFeature 1#32 0x3f800000#32).addFeature 1#32 0x3f000000#32), 0x3f800000#32, 0x3f800000#32⟩

def sharedCheck : Bool :=
  letI := ieeeFlt noTrans
  match nanTrain [], nanTrain sharedData with
  | .ok c0, .ok _ => (sharedData.all fun e => ((visited c0.pass e.feats).all fun iv => iv.2 == 0x3f800000#32 || iv.2 == 0x3f000000#32) &&
      decide (¬ ((visited c0.pass e.feats).map (·.1)).Nodup)) && decide ((sharedData.flatMap fun e => visited c0.pass e.feats).length ≤ 17)
  | _, _ => false

/-- Two of them meet the hypotheses of `C98_shared_partial`: the wealth is below 2^4, and no weight is visited more than 14 times in an example. -/
example : letI : F32Trans := noTrans; letI := ieeeFlt noTrans
    (match nanTrain [], nanTrain (sharedData.take 1), nanTrain (sharedData.take 2) with
    | .ok c0, .ok c1, .ok c2 => ([c0, c1, c2].all fun c => (List.range 4).all fun i => decide (f32Mag (c.weights.wst i).we ≤ 131 * 2 ^ 23)) &&
        sharedData.all fun e => decide ((visited c0.pass e.feats).length ≤ 14)
    | _, _, _ => false) = true := by decide +kernel

/-- They meet the hypotheses of `C98_visits`, with the default configuration, and not those of `C98_partial`. -/
example : letI : F32Trans := noTrans; letI := ieeeFlt noTrans
    ∃ c0 c : Coin (BitVec 32), Coin.new (fun _ s => s) CoinConfig.dflt nanGlobal 1 = .ok c0 ∧ (∀ e ∈ sharedData, Ordinary c0.pass e ∧ ¬ OwnWeights c0.pass e.feats) ∧
      (∀ i : U32, trainingVisits c0.pass sharedData i + 2 ≤ 19) ∧ c0.trainAll true sharedData = .ok c ∧
      |ieeeValue (CoinConfig.dflt : CoinConfig (BitVec 32)).alpha| ≤ 2 ^ 2 ∧ 1 / 2 ^ 20 ≤ ieeeValue (CoinConfig.dflt : CoinConfig (BitVec 32)).beta ∧
      ieeeValue (CoinConfig.dflt : CoinConfig (BitVec 32)).beta ≤ 2 ^ 20 := by
  let T : F32Trans := noTrans
  let _ := ieeeFlt noTrans
  have hchk : sharedCheck = true := by decide +kernel
  unfold sharedCheck at hchk
  split at hchk
  · rename_i c0 c1 h0 h1
    simp only [Bool.and_eq_true, List.all_eq_true, decide_eq_true_eq, Bool.or_eq_true, beq_iff_eq] at hchk
    obtain ⟨hd, hlen⟩ := hchk
    unfold nanTrain at h0 h1
    obtain ⟨d0, hn, h0⟩ := bind_ok.1 h0
    obtain ⟨d1, hn1, h1⟩ := bind_ok.1 h1
    rw [hn] at hn1
    cases hn1
    simp only [Coin.trainAll, Except.ok.injEq] at h0
    subst h0
    have v1 : V 0x3f800000#32 = 1 := by
      have := V_pow 127 (by norm_num) (by norm_num)
      norm_num at this
      exact this
    have v2 : V 0x3f000000#32 = 1 / 2 := by
      have := V_pow 126 (by norm_num) (by norm_num)
      norm_num at this
      exact this
    have v3 : V 0x40800000#32 = 4 := by
      have := V_pow 129 (by norm_num) (by norm_num)
      norm_num at this
      exact this
    have one : ∀ e ∈ sharedData, e.label = 0x3f800000#32 ∧ e.weight = 0x3f800000#32 := by
      intro e he
      rw [List.eq_of_mem_replicate he]
      exact ⟨rfl, rfl⟩
    refine ⟨d0, c1, hn, fun e he => ⟨⟨?_, ?_, fun iv hiv => ?_⟩, (hd e he).2⟩, fun i => ?_, h1, ?_, ?_, ?_⟩
    · rw [(one e he).1, show ieeeValue 0x3f800000#32 = 1 from v1]
      exact ⟨by unfold IeeeFinite; decide, by norm_num⟩
    · rw [(one e he).2, show ieeeValue 0x3f800000#32 = 1 from v1]
      refine ⟨by unfold IeeeFinite; decide, ?_, ?_⟩ <;> norm_num
    · rcases (hd e he).1 iv hiv with h | h
      · rw [h, show ieeeValue 0x3f800000#32 = 1 from v1]
        refine ⟨by unfold IeeeFinite; decide, .inr ⟨?_, ?_⟩⟩ <;> norm_num
      · rw [h, show ieeeValue 0x3f000000#32 = 1 / 2 from v2]
        refine ⟨by unfold IeeeFinite; decide, .inr ⟨?_, ?_⟩⟩ <;> norm_num [abs_of_pos]
    · unfold trainingVisits
      have := List.length_filter_le (fun iv : U32 × BitVec 32 => iv.1 == i) (sharedData.flatMap fun e => visited d0.pass e.feats)
      omega
    · have hb : (CoinConfig.dflt : CoinConfig (BitVec 32)).alpha = 0x40800000#32 := by decide +kernel
      rw [hb, show ieeeValue 0x40800000#32 = 4 from v3]
      norm_num
    · have hb : (CoinConfig.dflt : CoinConfig (BitVec 32)).beta = 0x3f800000#32 := by decide +kernel
      rw [hb, show ieeeValue 0x3f800000#32 = 1 from v1]
      norm_num
    · have hb : (CoinConfig.dflt : CoinConfig (BitVec 32)).beta = 0x3f800000#32 := by decide +kernel
      rw [hb, show ieeeValue 0x3f800000#32 = 1 from v1]
      norm_num
  · cases hchk

end Rml
