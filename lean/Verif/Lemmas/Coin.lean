import Verif.SpecCoin
import Verif.Lemmas.Weights
import Verif.Lemmas.Hash
import Verif.Lemmas.Reductions

/-! Helper lemmas: how a learn call of the Coin regressor changes each weight. -/

set_option linter.unusedSectionVars false

namespace Rml
variable {F : Type} [Flt F]

namespace DenseWeights

/-- The six values of a weight. -/
def wst (w : DenseWeights F) (i : Nat) : Coin.WState F :=
  match (w.weights.drop (w.slot i 0)).take 6 with
  | [a, b, c, d, e, f] => ⟨a, b, c, d, e, f⟩
  | _ => ⟨Flt.zero, Flt.zero, Flt.zero, Flt.zero, Flt.zero, Flt.zero⟩

/-- Tables of a Coin regressor with `2 ^ nb` weights. -/
structure CoinTable (w : DenseWeights F) (nb : Nat) : Prop where
  wf : w.WF
  feat : w.featureIndexSize = 2 ^ nb
  model : 0 < w.modelIndexSize
  state : w.featureStateSize = 6
  len : w.weights.length = 2 ^ nb * (2 ^ w.modelIndexSizeShift * 2 ^ w.featureStateSizeShift)

theorem wst_toList {w : DenseWeights F} {nb : Nat} (h : w.CoinTable nb) {i : Nat} (hi : i < 2 ^ nb) :
    (w.wst i).toList = (w.weights.drop (w.slot i 0)).take 6 := by
  have hl := slot_add_le w h.wf (f := i) (m := 0) (by rw [h.feat]; exact hi) h.model
  rw [h.state] at hl
  have hlen : ((w.weights.drop (w.slot i 0)).take 6).length = 6 := by simp; omega
  unfold wst
  generalize (w.weights.drop (w.slot i 0)).take 6 = l at hlen
  match l, hlen with
  | [a, b, c, d, e, f], _ => rfl

theorem stateAt_wst {w : DenseWeights F} {nb : Nat} (h : w.CoinTable nb) (dbg : Bool) {i : Nat} (hi : i < 2 ^ nb) :
    w.stateAt dbg i 0 = .ok (w.wst i).toList := by
  rw [stateAt_eq dbg w h.wf (by rw [h.feat]; exact hi) h.model, wst_toList h hi, h.state]

theorem slot_out {w : DenseWeights F} {nb : Nat} (h : w.CoinTable nb) {i : Nat} (hi : ¬ i < 2 ^ nb) : w.weights.length ≤ w.slot i 0 := by
  rw [h.len]
  unfold slot
  rw [Nat.pow_add]
  have := Nat.mul_le_mul_right (2 ^ w.modelIndexSizeShift * 2 ^ w.featureStateSizeShift) (Nat.not_lt.1 hi)
  omega

theorem convertIndex_val {w : DenseWeights F} {dbg : Bool} {i m j : Nat} (h : w.convertIndex dbg i m = .ok j) : j = w.slot i m := by
  unfold convertIndex at h
  obtain ⟨_, _, h⟩ := bind_ok.1 h
  obtain ⟨_, _, h⟩ := bind_ok.1 h
  simp only [Except.ok.injEq] at h
  exact h.symm

/-- A read that succeeds is in range. -/
theorem stateAt_lt {w : DenseWeights F} {nb : Nat} (h : w.CoinTable nb) {dbg : Bool} {i : Nat} {l : List F}
    (hl : w.stateAt dbg i 0 = .ok l) : i < 2 ^ nb := by
  by_contra hi
  have := slot_out h hi
  unfold stateAt at hl
  obtain ⟨j, h1, hl⟩ := bind_ok.1 hl
  rw [convertIndex_val h1, h.state] at hl
  split at hl
  · omega
  · simp at hl

theorem weightAt_lt {w : DenseWeights F} {nb : Nat} (h : w.CoinTable nb) {dbg : Bool} {i : Nat} {x : F}
    (hl : w.weightAt dbg i 0 = .ok x) : i < 2 ^ nb := by
  by_contra hi
  have := slot_out h hi
  unfold weightAt at hl
  obtain ⟨j, h1, hl⟩ := bind_ok.1 hl
  rw [convertIndex_val h1] at hl
  rw [List.getElem?_eq_none this] at hl
  simp at hl

theorem weightAt_wst {w : DenseWeights F} {nb : Nat} (h : w.CoinTable nb) (dbg : Bool) {i : Nat} (hi : i < 2 ^ nb) :
    w.weightAt dbg i 0 = .ok (w.wst i).xt := by
  have hl := slot_add_le w h.wf (f := i) (m := 0) (by rw [h.feat]; exact hi) h.model
  rw [h.state] at hl
  have h2 := wst_toList h hi
  unfold weightAt
  rw [convertIndex_ok dbg w (by rw [h.feat]; exact hi) h.model]
  have h3 : w.weights[w.slot i 0]? = some (w.wst i).xt := by
    have : ((w.weights.drop (w.slot i 0)).take 6)[0]? = some (w.wst i).xt := by rw [← h2]; rfl
    simpa [List.getElem?_take, List.getElem?_drop] using this
  simp only [bind, Except.bind, h3]

theorem putState_table {w : DenseWeights F} {nb : Nat} (h : w.CoinTable nb) {i : Nat} (hi : i < 2 ^ nb) (s : Coin.WState F) :
    (w.putState i 0 s.toList).CoinTable nb := by
  have hi' : i < w.featureIndexSize := by rw [h.feat]; exact hi
  have hs : s.toList.length = w.featureStateSize := by rw [h.state]; rfl
  exact ⟨putState_wf w h.wf hi' h.model hs, h.feat, h.model, h.state, by rw [putState_len w h.wf hi' h.model hs]; exact h.len⟩

theorem toList_inj {s t : Coin.WState F} (h : s.toList = t.toList) : s = t := by
  cases s; cases t
  simp only [Coin.WState.toList, List.cons.injEq, and_true] at h
  obtain ⟨rfl, rfl, rfl, rfl, rfl, rfl⟩ := h
  rfl

theorem putState_wst {w : DenseWeights F} {nb : Nat} (h : w.CoinTable nb) {i j : Nat} (hi : i < 2 ^ nb) (hj : j < 2 ^ nb)
    (s : Coin.WState F) : (w.putState i 0 s.toList).wst j = if j = i then s else w.wst j := by
  have hi' : i < w.featureIndexSize := by rw [h.feat]; exact hi
  have hj' : j < w.featureIndexSize := by rw [h.feat]; exact hj
  have hs : s.toList.length = w.featureStateSize := by rw [h.state]; rfl
  have hr := read_putState w h.wf hi' h.model hj' h.model hs
  rw [h.state] at hr
  apply toList_inj
  rw [wst_toList (putState_table h hi s) hj]
  have : (w.putState i 0 s.toList).slot j 0 = w.slot j 0 := rfl
  rw [this, hr]
  simp only [Prod.mk.injEq, and_true]
  split
  · rfl
  · exact (wst_toList h hj).symm

theorem ofList_toList (s : Coin.WState F) : Coin.WState.ofList s.toList = .ok s := rfl

/-- An updating pass changes each weight by its own visits, in order. -/
theorem updatePass (dbg : Bool) (nb : Nat) (g : F → Coin.WState F → Coin.WState F) (vs : List (U32 × F)) : ∀ (w : DenseWeights F),
    w.CoinTable nb → (∀ iv ∈ vs, iv.1.toNat < 2 ^ nb) →
    ∃ w', vs.foldlM (m := Except Panic) (fun (sw : Unit × DenseWeights F) iv => do
        let st ← sw.2.stateAt dbg iv.1.toNat 0
        let (s', st') ← (do
          let s ← Coin.WState.ofList st
          .ok ((), (g iv.2 s).toList) : M (Unit × List F))
        let w' ← sw.2.setStateAt dbg iv.1.toNat 0 st'
        .ok (s', w')) ((), w) = .ok ((), w') ∧ w'.CoinTable nb ∧
      ∀ i, i < 2 ^ nb → w'.wst i = (vs.filter (fun iv => iv.1.toNat = i)).foldl (fun s iv => g iv.2 s) (w.wst i) := by
  induction vs with
  | nil => intro w h _; exact ⟨w, rfl, h, fun i _ => rfl⟩
  | cons iv vs ih =>
    intro w h hr
    have hi := hr iv (by simp)
    have hi' : iv.1.toNat < w.featureIndexSize := by rw [h.feat]; exact hi
    obtain ⟨w', h1, h2, h3⟩ := ih (w.putState iv.1.toNat 0 (g iv.2 (w.wst iv.1.toNat)).toList) (putState_table h hi _)
      (fun x hx => hr x (by simp [hx]))
    refine ⟨w', ?_, h2, ?_⟩
    · rw [List.foldlM_cons]
      simp only [stateAt_wst h dbg hi, ofList_toList, bind, Except.bind]
      rw [setStateAt_eq dbg w h.wf hi' h.model (by rw [h.state]; rfl)]
      exact h1
    · intro i hib
      rw [h3 i hib, putState_wst h hi hib, List.filter_cons]
      by_cases he : i = iv.1.toNat
      · subst he; simp
      · rw [if_neg he]
        have : ¬ iv.1.toNat = i := fun h => he h.symm
        simp [this]

/-- A pass that succeeds visits only weights in range. -/
theorem updatePass_range (dbg : Bool) (nb : Nat) (g : F → Coin.WState F → Coin.WState F) (vs : List (U32 × F)) : ∀ (w : DenseWeights F),
    w.CoinTable nb → ∀ r, vs.foldlM (m := Except Panic) (fun (sw : Unit × DenseWeights F) iv => do
        let st ← sw.2.stateAt dbg iv.1.toNat 0
        let (s', st') ← (do
          let s ← Coin.WState.ofList st
          .ok ((), (g iv.2 s).toList) : M (Unit × List F))
        let w' ← sw.2.setStateAt dbg iv.1.toNat 0 st'
        .ok (s', w')) ((), w) = .ok r → ∀ iv ∈ vs, iv.1.toNat < 2 ^ nb := by
  induction vs with
  | nil => intro w _ r _; simp
  | cons iv vs ih =>
    intro w h r hr
    rw [List.foldlM_cons] at hr
    obtain ⟨⟨u, w1⟩, h1, hr⟩ := bind_ok.1 hr
    obtain ⟨st, h2, h1⟩ := bind_ok.1 h1
    have hi := stateAt_lt h h2
    have hi' : iv.1.toNat < w.featureIndexSize := by rw [h.feat]; exact hi
    rw [stateAt_wst h dbg hi] at h2
    simp only [Except.ok.injEq] at h2
    subst h2
    simp only [ofList_toList, bind, Except.bind] at h1
    rw [setStateAt_eq dbg w h.wf hi' h.model (by rw [h.state]; rfl)] at h1
    simp only [Except.ok.injEq, Prod.mk.injEq, true_and] at h1
    subst h1
    intro x hx
    rcases List.mem_cons.1 hx with rfl | hx
    · exact hi
    · exact ih _ (putState_table h hi _) r hr x hx

end DenseWeights

namespace Coin

/-- Regressors made by `new` and trained. -/
structure Ok (c : Coin F) (nb : Nat) : Prop where
  table : c.weights.CoinTable nb
  bits : c.pass.numBits = nb
  le31 : nb ≤ 31
  models : c.modelStates ≠ []

theorem new_ok {hash : HashFn} {cfg : CoinConfig F} {g : GlobalConfig} {nma : Nat} {c : Coin F} (hn : 0 < nma)
    (h : Coin.new hash cfg g nma = .ok c) : c.Ok g.numBits ∧ c.config = cfg ∧ c.lossFunction = .squared ∧
      (c.minLabel, c.maxLabel) = (match cfg.lossFunction with
        | .squared => ((Flt.zero : F), (Flt.zero : F))
        | .logistic _ _ => (fl (-50), fl 50)) ∧
      ∀ i, i < 2 ^ g.numBits → c.weights.wst i = ⟨Flt.zero, Flt.zero, Flt.zero, Flt.zero, Flt.zero, Flt.zero⟩ := by
  unfold Coin.new at h
  obtain ⟨⟨pairs, triples⟩, _, h⟩ := bind_ok.1 h
  simp only at h
  split at h
  · rename_i hb
    obtain ⟨w, hw, h⟩ := bind_ok.1 h
    simp only [Except.ok.injEq] at h
    subst h
    obtain ⟨hwf, e1, e2, e3, _, hz⟩ := DenseWeights.new_wf hw
    rw [bitsToMax_toNat hb] at e1
    have hlen : w.weights.length = 2 ^ g.numBits * (2 ^ w.modelIndexSizeShift * 2 ^ w.featureStateSizeShift) := by
      unfold DenseWeights.new at hw
      split at hw
      · simp at hw
      · dsimp only at hw
        split at hw
        · simp only [Except.ok.injEq] at hw
          subst hw
          have hnb : numBitsToRepresent ((bitsToMaxFeatureIndex g.numBits).toNat - 1) = g.numBits := by
            rw [bitsToMax_toNat hb]
            unfold numBitsToRepresent
            split
            · rename_i h0
              rcases Nat.eq_zero_or_pos g.numBits with h1 | h1
              · omega
              · have : 2 ^ 1 ≤ 2 ^ g.numBits := Nat.pow_le_pow_right (by omega) h1
                omega
            · rename_i h0
              have hlt : 2 ^ g.numBits - 1 < 2 ^ g.numBits := by have := Nat.two_pow_pos g.numBits; omega
              have h1 : (2 ^ g.numBits - 1).log2 < g.numBits := (Nat.log2_lt h0).2 hlt
              have h2 : g.numBits ≤ (2 ^ g.numBits - 1).log2 + 1 := by
                by_contra hc
                have h3 : (2 ^ g.numBits - 1).log2 < g.numBits - 1 := by omega
                have h4 := (Nat.log2_lt h0).1 h3
                have h5 : 2 ^ g.numBits = 2 * 2 ^ (g.numBits - 1) := by
                  rw [← Nat.pow_succ']
                  congr 1
                  omega
                have := Nat.two_pow_pos (g.numBits - 1)
                omega
              omega
          simp only [List.length_replicate, hnb, Nat.mul_assoc]
        · simp at hw
    have ht : w.CoinTable g.numBits := ⟨hwf, e1, by rw [e2]; exact hn, e3, hlen⟩
    refine ⟨⟨ht, rfl, by omega, ?_⟩, rfl, rfl, rfl, ?_⟩
    · simp; omega
    · intro i hi
      have h1 := DenseWeights.wst_toList ht hi
      have h2 : ∀ x ∈ (w.wst i).toList, x = Flt.zero := by
        intro x hx
        rw [h1] at hx
        exact hz x (List.mem_of_mem_drop (List.mem_of_mem_take hx))
      show w.wst i = _
      generalize w.wst i = s at h2
      obtain ⟨a, b, c, d, e, f⟩ := s
      simp only [WState.toList, List.mem_cons, List.not_mem_nil, or_false] at h2
      have q1 := h2 a (by simp)
      have q2 := h2 b (by simp)
      have q3 := h2 c (by simp)
      have q4 := h2 d (by simp)
      have q5 := h2 e (by simp)
      have q6 := h2 f (by simp)
      rw [q1, q2, q3, q4, q5, q6]
  · simp at h

/-- The label range after seeing a label. -/
def seen (c : Coin F) (label : F) : Coin F := { c with minLabel := Flt.fmin label c.minLabel, maxLabel := Flt.fmax label c.maxLabel }

theorem learn_def (dbg : Bool) (c : Coin F) (f : SparseFeatures F) (l w : F) :
    c.learn dbg f l w = ((c.seen l).bettingPredict dbg f w >>= fun r => r.2.updateAfterPredict dbg f r.1 l w) := rfl

theorem bettingPredict_inv {dbg : Bool} {c : Coin F} {f : SparseFeatures F} {w : F} {r : F × Coin F}
    (h : c.bettingPredict dbg f w = .ok r) : r.2.weights = c.weights ∧ r.2.config = c.config ∧ r.2.minLabel = c.minLabel ∧
      r.2.maxLabel = c.maxLabel ∧ r.2.lossFunction = c.lossFunction ∧ r.2.pass = c.pass ∧ r.2.modelStates ≠ [] ∧
      ∃ x, Flt.clamp x c.minLabel c.maxLabel = .ok r.1 := by
  unfold bettingPredict at h
  obtain ⟨⟨pred, nsn⟩, _, h⟩ := bind_ok.1 h
  simp only at h
  split at h
  · simp at h
  · obtain ⟨p, hp, h⟩ := bind_ok.1 h
    simp only [Except.ok.injEq] at h
    subst h
    exact ⟨rfl, rfl, rfl, rfl, rfl, rfl, by simp, _, hp⟩

/-- The visits of the weight `i`, in order. -/
def visitsAt (c : Coin F) (f : SparseFeatures F) (i : Nat) : List (U32 × F) := (visited c.pass f).filter (fun iv => iv.1.toNat = i)

/-- What a learn call that returns does. -/
theorem learn_inv {dbg : Bool} {c c' : Coin F} {nb : Nat} (hc : c.Ok nb) {f : SparseFeatures F} {l w : F}
    (h : c.learn dbg f l w = .ok c') :
    ∃ p c1, (c.seen l).bettingPredict dbg f w = .ok (p, c1) ∧ c' = { c1 with weights := c'.weights } ∧ c'.Ok nb ∧
      c'.config = c.config ∧ c'.minLabel = Flt.fmin l c.minLabel ∧ c'.maxLabel = Flt.fmax l c.maxLabel ∧
      c'.lossFunction = c.lossFunction ∧ c'.pass = c.pass ∧ (∀ iv ∈ visited c.pass f, iv.1.toNat < 2 ^ nb) ∧
      ∀ i, i < 2 ^ nb → c'.weights.wst i =
        (c.visitsAt f i).foldl (fun s iv => innerUpdate c.config.alpha c.config.beta c1.averageSquaredNormX (c1.updateOf p l w) iv.2 s)
          (c.weights.wst i) := by
  rw [learn_def] at h
  obtain ⟨⟨p, c1⟩, h1, h⟩ := bind_ok.1 h
  obtain ⟨e1, e2, e3, e4, e5, e6, e7, _⟩ := bettingPredict_inv h1
  simp only at e1 e2 e3 e4 e5 e6 e7 h
  unfold updateAfterPredict at h
  obtain ⟨⟨u, wt⟩, h2, h⟩ := bind_ok.1 h
  simp only [Except.ok.injEq] at h
  have ht : c1.weights.CoinTable nb := by rw [e1]; exact hc.table
  have hp : c1.pass = c.pass := e6
  unfold foreachFeatureWithStateMut at h2
  rw [hp] at h2
  have hr := DenseWeights.updatePass_range dbg nb (innerUpdate c1.config.alpha c1.config.beta c1.averageSquaredNormX (c1.updateOf p l w))
    (visited c.pass f) c1.weights ht _ h2
  obtain ⟨w', h3, h4, h5⟩ := DenseWeights.updatePass dbg nb
    (innerUpdate c1.config.alpha c1.config.beta c1.averageSquaredNormX (c1.updateOf p l w)) (visited c.pass f) c1.weights ht hr
  rw [h3] at h2
  simp only [Except.ok.injEq, Prod.mk.injEq] at h2
  obtain ⟨_, rfl⟩ := h2
  subst h
  refine ⟨p, c1, h1, rfl, ⟨h4, ?_, hc.le31, e7⟩, e2, e3, e4, e5, e6, hr, ?_⟩
  · show c1.pass.numBits = nb
    rw [hp]; exact hc.bits
  · intro i hi
    have := h5 i hi
    rw [e1, e2] at this
    exact this

/-- A read pass in range succeeds. -/
theorem readPass {S : Type} (dbg : Bool) (nb : Nat) (g : S → F → WState F → S) (vs : List (U32 × F)) (w : DenseWeights F)
    (h : w.CoinTable nb) (hr : ∀ iv ∈ vs, iv.1.toNat < 2 ^ nb) : ∀ s : S,
    vs.foldlM (m := Except Panic) (fun s iv => do
      let st ← w.stateAt dbg iv.1.toNat 0
      (do
        let x ← WState.ofList st
        .ok (g s iv.2 x) : M S)) s = .ok (vs.foldl (fun s iv => g s iv.2 (w.wst iv.1.toNat)) s) := by
  induction vs with
  | nil => intro s; rfl
  | cons iv vs ih =>
    intro s
    rw [List.foldlM_cons]
    simp only [DenseWeights.stateAt_wst h dbg (hr iv (by simp)), DenseWeights.ofList_toList, bind, Except.bind]
    exact ih (fun x hx => hr x (by simp [hx])) _

/-- A learn call succeeds if the example fits and the label range is ordered. -/
theorem learn_succeeds {dbg : Bool} {c : Coin F} {nb : Nat} (hc : c.Ok nb) {f : SparseFeatures F} {l w : F}
    (hr : ∀ iv ∈ visited c.pass f, iv.1.toNat < 2 ^ nb) (hm : Flt.le (Flt.fmin l c.minLabel) (Flt.fmax l c.maxLabel) = true) :
    ∃ c', c.learn dbg f l w = .ok c' := by
  rw [learn_def]
  have h1 : ∃ r, (c.seen l).bettingPredict dbg f w = .ok r := by
    unfold bettingPredict foreachFeatureWithState
    have := readPass dbg nb (innerPredict (c.seen l).config.alpha) (visited (c.seen l).pass f) (c.seen l).weights hc.table hr
      (Flt.zero, Flt.zero)
    rw [this]
    simp only [bind, Except.bind]
    have hne : (c.seen l).modelStates ≠ [] := hc.models
    cases hms : (c.seen l).modelStates with
    | nil => exact absurd hms hne
    | cons ms rest =>
      simp only
      have hm' : Flt.le (c.seen l).minLabel (c.seen l).maxLabel = true := hm
      simp only [Flt.clamp, hm', if_true]
      exact ⟨_, rfl⟩
  obtain ⟨⟨p, c1⟩, h1⟩ := h1
  obtain ⟨e1, e2, e3, e4, e5, e6, e7, _⟩ := bettingPredict_inv h1
  rw [h1]
  simp only [bind, Except.bind]
  simp only at e1 e6
  have ht : c1.weights.CoinTable nb := by rw [e1]; exact hc.table
  have e6 : c1.pass = c.pass := e6
  obtain ⟨w', h3, _, _⟩ := DenseWeights.updatePass dbg nb
    (innerUpdate c1.config.alpha c1.config.beta c1.averageSquaredNormX (c1.updateOf p l w)) (visited c.pass f) c1.weights ht hr
  unfold updateAfterPredict foreachFeatureWithStateMut
  rw [e6]
  dsimp only
  rw [h3]
  exact ⟨_, rfl⟩

/-- The raw sum of a prediction. -/
theorem rawSum_inv {dbg : Bool} {c : Coin F} {nb : Nat} (hc : c.Ok nb) {f : SparseFeatures F} {x : F} (h : c.rawSum dbg f = .ok x) :
    (∀ iv ∈ visited c.pass f, iv.1.toNat < 2 ^ nb) ∧
      x = (visited c.pass f).foldl (fun acc iv => Flt.add acc (Flt.mul iv.2 (c.weights.wst iv.1.toNat).xt)) Flt.zero := by
  unfold rawSum foreachFeature at h
  generalize visited c.pass f = vs at h
  generalize (Flt.zero : F) = s at h ⊢
  induction vs generalizing s with
  | nil => simp only [List.foldlM_nil, pure, Except.pure, Except.ok.injEq] at h; exact ⟨by simp, h.symm⟩
  | cons iv vs ih =>
    rw [List.foldlM_cons] at h
    obtain ⟨y, h1, h⟩ := bind_ok.1 h
    obtain ⟨wt, h2, h1⟩ := bind_ok.1 h1
    have hi := DenseWeights.weightAt_lt hc.table h2
    rw [DenseWeights.weightAt_wst hc.table dbg hi] at h2
    simp only [Except.ok.injEq] at h1 h2
    subst h1 h2
    obtain ⟨h3, h4⟩ := ih _ h
    refine ⟨?_, h4⟩
    intro x hx
    rcases List.mem_cons.1 hx with rfl | hx
    · exact hi
    · exact h3 x hx

theorem rawSum_eq {dbg : Bool} {c : Coin F} {nb : Nat} (hc : c.Ok nb) {f : SparseFeatures F}
    (hr : ∀ iv ∈ visited c.pass f, iv.1.toNat < 2 ^ nb) :
    c.rawSum dbg f = .ok ((visited c.pass f).foldl (fun acc iv => Flt.add acc (Flt.mul iv.2 (c.weights.wst iv.1.toNat).xt)) Flt.zero) := by
  unfold rawSum foreachFeature
  generalize visited c.pass f = vs at hr
  generalize (Flt.zero : F) = s
  induction vs generalizing s with
  | nil => rfl
  | cons iv vs ih =>
    rw [List.foldlM_cons]
    simp only [DenseWeights.weightAt_wst hc.table dbg (hr iv (by simp)), bind, Except.bind]
    exact ih (fun x hx => hr x (by simp [hx])) _

theorem holds_iff {c : Coin F} {nb : Nat} (hc : c.Ok nb) {i : U32} {s : WState F} :
    c.Holds i s ↔ i.toNat < 2 ^ nb ∧ s = c.weights.wst i.toNat := by
  unfold Holds
  constructor
  · intro h
    have hi := DenseWeights.stateAt_lt hc.table h
    rw [DenseWeights.stateAt_wst hc.table true hi] at h
    simp only [Except.ok.injEq] at h
    exact ⟨hi, (DenseWeights.toList_inj h).symm⟩
  · rintro ⟨hi, rfl⟩
    exact DenseWeights.stateAt_wst hc.table true hi

/-- Invariants of training: an invariant of learn calls that holds at first holds for every trained regressor. -/
theorem trainAll_induct {dbg : Bool} {nb : Nat} (P : List (TrainEx F) → Coin F → Prop)
    (step : ∀ es (c c' : Coin F) (e : TrainEx F), c.Ok nb → P es c → c.learn dbg e.feats e.label e.weight = .ok c' → P (es ++ [e]) c') :
    ∀ (es pre : List (TrainEx F)) (c c' : Coin F), c.Ok nb → P pre c → c.trainAll dbg es = .ok c' → c'.Ok nb ∧ P (pre ++ es) c' := by
  intro es
  induction es with
  | nil =>
    intro pre c c' hc hp h
    simp only [trainAll, Except.ok.injEq] at h
    subst h
    simpa using ⟨hc, hp⟩
  | cons e es ih =>
    intro pre c c' hc hp h
    unfold trainAll at h
    obtain ⟨c1, h1, h⟩ := bind_ok.1 h
    have hok := (learn_inv hc h1)
    obtain ⟨_, _, _, _, hok, _⟩ := hok
    have := ih (pre ++ [e]) c1 c' hok (step pre c c1 e hc hp h1) h
    simpa using this

theorem trainAll_append {dbg : Bool} (es es' : List (TrainEx F)) : ∀ (c : Coin F),
    c.trainAll dbg (es ++ es') = (c.trainAll dbg es >>= fun c' => c'.trainAll dbg es') := by
  induction es with
  | nil => intro c; rfl
  | cons e es ih =>
    intro c
    simp only [List.cons_append, trainAll]
    cases c.learn dbg e.feats e.label e.weight with
    | error x => rfl
    | ok c1 => exact ih c1

end Coin

end Rml
