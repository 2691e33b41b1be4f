import Verif.SpecSettings
import Verif.Props.ExplorePolicies
import Verif.Lemmas.Create
import Verif.Props.Choice

/-! C115: settings outside their range. -/

namespace Rml

section any
variable {F : Type} [Flt F]

theorem checkTypes_iff {t b : TypeDesc} : (∃ u, checkTypes t b = .ok u) ↔ t.checkOk b = true := by
  unfold checkTypes
  constructor
  · rintro ⟨u, h⟩
    split at h
    · assumption
    · cases h
  · intro h; exact ⟨(), by rw [if_pos h]⟩

theorem coin_new_same {hash : HashFn} {g : GlobalConfig} {n : Nat} {k : CoinConfig F} (k' : CoinConfig F) {c : Coin F} (h : Coin.new hash k g n = .ok c) :
    ∃ c', Coin.new hash k' g n = .ok c' := by
  unfold Coin.new at h ⊢
  obtain ⟨⟨ps, ts⟩, h1, h⟩ := bind_ok.1 h
  simp only [h1, ok_bind]
  by_cases hb : g.numBits < 32
  · simp only [if_pos hb] at h ⊢
    cases hw : (DenseWeights.new (BitVec.toNat (bitsToMaxFeatureIndex g.numBits)) n 6 : M (DenseWeights F)) with
    | error e => simp only [hw] at h; cases h
    | ok w => exact ⟨_, rfl⟩
  · simp only [if_neg hb] at h; cases h

omit [Flt F] in
theorem squareOk_same {c c' : RedConfig F} (h : SameStack c c') : squareCbConfigOk c = squareCbConfigOk c' := by cases h <;> rfl

theorem create_same {c c' : RedConfig F} (h : SameStack c c') {hash : HashFn} {g : GlobalConfig} {n : Nat} {x : (r : Red F) × r.State}
    (hx : create hash g n c = .ok x) : ∃ x', create hash g n c' = .ok x' ∧ x'.1.meta.types = x.1.meta.types := by
  induction h generalizing x with
  | coin k k' =>
    unfold create at hx ⊢
    obtain ⟨coin, h1, hx⟩ := cbind_ok.1 hx
    cases hx
    cases h2 : Coin.new hash k g n with
    | error e => rw [h2] at h1; cases h1
    | ok c0 =>
      obtain ⟨c', h3⟩ := coin_new_same k' h2
      exact ⟨_, cbind_ok.2 ⟨c', by rw [h3]; rfl, rfl⟩, rfl⟩
  | binary _ ih =>
    unfold create at hx ⊢
    obtain ⟨y, h1, hx⟩ := cbind_ok.1 hx
    obtain ⟨u, h2, hx⟩ := cbind_ok.1 hx
    cases hx
    obtain ⟨y', h3, h4⟩ := ih h1
    exact ⟨_, cbind_ok.2 ⟨y', h3, cbind_ok.2 ⟨u, by rw [h4]; exact h2, rfl⟩⟩, show binaryTypes y'.1.meta.types = binaryTypes y.1.meta.types by rw [h4]⟩
  | cbAdf ty _ ih =>
    unfold create at hx ⊢
    obtain ⟨y, h1, hx⟩ := cbind_ok.1 hx
    obtain ⟨u, h2, hx⟩ := cbind_ok.1 hx
    cases hx
    obtain ⟨y', h3, h4⟩ := ih h1
    exact ⟨_, cbind_ok.2 ⟨y', h3, cbind_ok.2 ⟨u, by rw [h4]; exact h2, rfl⟩⟩, rfl⟩
  | greedy _ _ _ ih =>
    unfold create at hx ⊢
    obtain ⟨y, h1, hx⟩ := cbind_ok.1 hx
    obtain ⟨u, h2, hx⟩ := cbind_ok.1 hx
    cases hx
    obtain ⟨y', h3, h4⟩ := ih h1
    exact ⟨_, cbind_ok.2 ⟨y', h3, cbind_ok.2 ⟨u, by rw [h4]; exact h2, rfl⟩⟩, rfl⟩
  | softmax _ _ _ _ _ ih =>
    unfold create at hx ⊢
    obtain ⟨y, h1, hx⟩ := cbind_ok.1 hx
    obtain ⟨u, h2, hx⟩ := cbind_ok.1 hx
    cases hx
    obtain ⟨y', h3, h4⟩ := ih h1
    exact ⟨_, cbind_ok.2 ⟨y', h3, cbind_ok.2 ⟨u, by rw [h4]; exact h2, rfl⟩⟩, rfl⟩
  | squareCb _ _ _ _ _ _ hs ih =>
    unfold create at hx ⊢
    rw [← squareOk_same hs]
    split at hx
    · rename_i hsq
      rw [if_pos hsq]
      obtain ⟨y, h1, hx⟩ := cbind_ok.1 hx
      obtain ⟨u, h2, hx⟩ := cbind_ok.1 hx
      cases hx
      obtain ⟨y', h3, h4⟩ := ih h1
      exact ⟨_, cbind_ok.2 ⟨y', h3, cbind_ok.2 ⟨u, by rw [h4]; exact h2, rfl⟩⟩, rfl⟩
    · cases hx
  | debug _ ih =>
    unfold create at hx ⊢
    obtain ⟨y, h1, hx⟩ := cbind_ok.1 hx
    obtain ⟨u, h2, hx⟩ := cbind_ok.1 hx
    cases hx
    obtain ⟨y', h3, h4⟩ := ih h1
    exact ⟨_, cbind_ok.2 ⟨y', h3, cbind_ok.2 ⟨u, by rw [h4]; exact h2, rfl⟩⟩, show debugTypes y'.1.meta.types = debugTypes y.1.meta.types by rw [h4]⟩
  | elementwise _ _ _ _ ih =>
    unfold create at hx ⊢
    obtain ⟨y, h1, hx⟩ := cbind_ok.1 hx
    obtain ⟨u, h2, hx⟩ := cbind_ok.1 hx
    cases hx
    obtain ⟨y', h3, h4⟩ := ih h1
    exact ⟨_, cbind_ok.2 ⟨y', h3, cbind_ok.2 ⟨u, by rw [h4]; exact h2, rfl⟩⟩, show elementwiseTypes y'.1.meta.types = elementwiseTypes y.1.meta.types by rw [h4]⟩

/-- C115, what the code does: no number of a configuration is looked at when the workspace is created. -/
theorem C115_unchecked (hash : HashFn) (g : GlobalConfig) (c c' : RedConfig F) (h : SameStack c c') :
    (∃ w, Workspace.new hash g c = .ok w) → ∃ w', Workspace.new hash g c' = .ok w' := by
  rintro ⟨w, hw⟩
  unfold Workspace.new at hw ⊢
  obtain ⟨x, h1, _⟩ := cbind_ok.1 hw
  obtain ⟨x', h2, _⟩ := create_same h h1
  exact ⟨_, cbind_ok.2 ⟨x', h2, rfl⟩⟩

theorem learnAll_red {dbg : Bool} (es : List (Features F × Label F)) : ∀ {w w' : Workspace F}, learnAll dbg w es = .ok w' → w'.red = w.red := by
  induction es with
  | nil => intro w w' h; simp only [learnAll, Except.ok.injEq] at h; rw [h]
  | cons e es ih =>
    obtain ⟨ft, l⟩ := e
    intro w w' h
    simp only [learnAll] at h
    obtain ⟨⟨v, ft'⟩, h1, h⟩ := bind_ok.1 h
    rw [ih h, learn_red h1]

theorem enforce_rejects {eps : F} (h : Flt.lt eps Flt.zero = true ∨ Flt.lt Flt.one eps = true) (h0 : Flt.eq eps Flt.zero = false) (els : List (Nat × F)) :
    ∀ out, enforceUnwrap eps els ≠ .ok out := by
  intro out ho
  unfold enforceUnwrap at ho
  obtain ⟨r, h1, ho⟩ := bind_ok.1 ho
  unfold enforceMinProb at h1
  have hb : (Flt.lt eps Flt.zero || Flt.lt Flt.one eps) = true := by
    rcases h with h | h <;> simp [h]
  rw [h0, hb] at h1
  simp only [Bool.false_eq_true, if_false, if_true, ite_self, Except.ok.injEq] at h1
  subst h1
  simp [unwrapOpt] at ho

/-- C115 fails for the uniform exploration of softmax and SquareCB: with a value outside [0, 1] every prediction of the workspace panics, untrained or trained, for every
example. -/
theorem C115_uniform_false (hash : HashFn) (g : GlobalConfig) (eps : F) (h : Flt.lt eps Flt.zero = true ∨ Flt.lt Flt.one eps = true) (h0 : Flt.eq eps Flt.zero = false)
    (c : RedConfig F) (x y : F) (w0 : Workspace F) (hw : Workspace.new hash g (.softmax eps x c) = .ok w0 ∨ Workspace.new hash g (.squareCb eps x y c) = .ok w0)
    (dbg : Bool) (es : List (Features F × Label F)) (w : Workspace F) (hl : learnAll dbg w0 es = .ok w) (ft : Features F) (r : Prediction F × Features F) :
    w.predict dbg ft ≠ .ok r := by
  intro hp
  have hred := learnAll_red es hl
  obtain ⟨wr, ws⟩ := w
  obtain ⟨vr, vs⟩ := w0
  simp only at hred
  subst hred
  unfold Workspace.predict at hp
  obtain ⟨⟨p, ft', d'⟩, hp, _⟩ := bind_ok.1 hp
  unfold Red.predict at hp
  obtain ⟨d1, d2, _, hp, _, _⟩ := wrapCall_ok hp
  rcases hw with hw | hw
  · have hb := built_of_new hw
    generalize hx : (⟨wr, vs⟩ : (r : Red F) × r.State) = x0 at hb
    cases hb with
    | softmax hb ht =>
      cases hx
      simp only [Red.predictImpl] at hp
      obtain ⟨⟨q, ft1, d3⟩, _, hk⟩ := bind_ok.1 hp
      obtain ⟨scores, _, hk⟩ := bind_ok.1 hk
      obtain ⟨out, ho, _⟩ := bind_ok.1 hk
      unfold softmaxProbs at ho
      obtain ⟨_, _, ho⟩ := bind_ok.1 ho
      obtain ⟨best, _, ho⟩ := bind_ok.1 ho
      split at ho
      · cases ho
      · exact enforce_rejects h h0 _ _ ho
  · have hb := built_of_new hw
    generalize hx : (⟨wr, vs⟩ : (r : Red F) × r.State) = x0 at hb
    cases hb with
    | squareCb _ hb ht =>
      cases hx
      simp only [Red.predictImpl] at hp
      obtain ⟨⟨q, ft1, d3⟩, _, hk⟩ := bind_ok.1 hp
      obtain ⟨scores, _, hk⟩ := bind_ok.1 hk
      obtain ⟨out, ho, _⟩ := bind_ok.1 hk
      unfold squareCbProbs at ho
      obtain ⟨_, _, ho⟩ := bind_ok.1 ho
      obtain ⟨best, _, ho⟩ := bind_ok.1 ho
      split at ho
      · cases ho
      · simp only at ho
        split at ho
        · cases ho
        · exact enforce_rejects h h0 _ _ ho

end any

section field
variable {K : Type} [Field K] [LinearOrder K] [IsStrictOrderedRing K] [Trans K]
attribute [local instance] fieldFlt

/-- C115 fails for epsilon-greedy: with a value above 1 the best action is the least likely one, with a negative value all other actions have negative probabilities. -/
theorem C115_greedy_false (hash : HashFn) (g : GlobalConfig) (eps : K) (c : RedConfig K) (w0 : Workspace K) (hw : Workspace.new hash g (.greedy eps c) = .ok w0) (dbg : Bool)
    (es : List (Features K × Label K)) (w : Workspace K) (hl : learnAll dbg w0 es = .ok w) (ft ft' : Features K) (out : List (Nat × K))
    (hp : w.predict dbg ft = .ok (.actionProbs out, ft')) : ∃ best, best < out.length ∧
      (1 < eps → ∀ i e b, i ≠ best → out[i]? = some e → out[best]? = some b → b.2 < e.2) ∧ (eps < 0 → ∀ i e, i ≠ best → out[i]? = some e → e.2 < 0) := by
  have hred := learnAll_red es hl
  obtain ⟨wr, ws⟩ := w
  obtain ⟨vr, vs⟩ := w0
  simp only at hred
  subst hred
  unfold Workspace.predict at hp
  obtain ⟨⟨p, ft1, d'⟩, hp2, hk⟩ := bind_ok.1 hp
  simp only [Except.ok.injEq, Prod.mk.injEq] at hk
  obtain ⟨rfl, rfl⟩ := hk
  have hb := built_of_new hw
  generalize hx : (⟨wr, vs⟩ : (r : Red K) × r.State) = x0 at hb
  cases hb with
  | @greedy _ _ x hb ht =>
    cases hx
    have hp3 : (Red.greedy ⟨"CbExploreAdfGreedy", exploreTypes, 1⟩ eps x.1).predict dbg ws ft 0 0 = .ok (.actionProbs out, ft1, d') := hp2
    obtain ⟨scores, out', best, d1, r, _, ho, hbest, hids, hv, _, _⟩ :=
      C20_greedy_reduction dbg ⟨"CbExploreAdfGreedy", exploreTypes, 1⟩ eps x.1 ws ft ft1 0 d' 0 (.actionProbs out) hp3
    cases ho
    have hlen : out.length = scores.length := by simpa using congrArg List.length hids
    have hblt : best < out.length := by
      obtain ⟨v, hv, _⟩ := hbest
      by_contra hc
      rw [List.getElem?_eq_none (by simp; omega)] at hv
      cases hv
    have hpos : (0 : K) < (scores.length : K) := by
      have : 0 < scores.length := by omega
      exact_mod_cast this
    refine ⟨best, hblt, fun h1 i e b hi he hbst => ?_, fun h1 i e hi he => ?_⟩
    · have h2 := hv i e he
      have h3 := hv best b hbst
      rw [if_neg hi] at h2
      rw [if_pos rfl] at h3
      rw [h2, h3]
      linarith
    · have h2 := hv i e he
      rw [if_neg hi] at h2
      rw [h2]
      exact div_neg_of_neg_of_pos h1 hpos

end field

section real
noncomputable local instance fltRealSettings : Flt ℝ := fieldFlt ℝ

/-- C115 fails for softmax: with a negative lambda an action is the more likely the worse it is. -/
theorem C115_lambda_false (lambda : ℝ) (h : lambda < 0) (scores : List (Nat × ℝ)) (hne : scores ≠ []) : ∃ out, softmaxProbs lambda 0 scores = .ok out ∧
    ∀ (i j : Nat) (a b a' b' : Nat × ℝ), scores[i]? = some a → scores[j]? = some b → out[i]? = some a' → out[j]? = some b' → a.2 < b.2 → a'.2 < b'.2 := by
  obtain ⟨out, h1, _, _, _, _, _, h2⟩ := C21_softmax_distribution lambda 0 le_rfl zero_le_one scores hne
  refine ⟨out, h1, fun i j a b a' b' ha hb ha' hb' hab => ?_⟩
  have h2 := h2 rfl
  have key : ∀ (i : Nat) (a a' : Nat × ℝ), scores[i]? = some a → out[i]? = some a' →
      a'.2 = Real.exp (-lambda * a.2) / (scores.map (fun e => Real.exp (-lambda * e.2))).sum := by
    intro i a a' ha ha'
    have := congrArg (fun l => l[i]?) h2
    simpa [List.getElem?_map, ha, ha'] using this
  rw [key i a a' ha ha', key j b b' hb hb']
  have hpos : 0 < (scores.map (fun e => Real.exp (-lambda * e.2))).sum := by
    apply List.sum_pos
    · intro x hx
      obtain ⟨e, _, rfl⟩ := List.mem_map.1 hx
      exact Real.exp_pos _
    · simpa using hne
  refine div_lt_div_of_pos_right (Real.exp_lt_exp.2 ?_) hpos
  nlinarith

/-- C115 fails for SquareCB: with a negative scale there are scores for which an action has a negative probability. -/
theorem C115_gamma_false (gamma : ℝ) (h : gamma < 0) : ∃ (scores out : List (Nat × ℝ)), squareCbProbs gamma 0 scores = .ok out ∧ ∃ e ∈ out, e.2 < 0 := by
  have hv : (2 : ℝ) + gamma * (-3 / gamma - 0) = -1 := by
    have hne : gamma ≠ 0 := h.ne
    field_simp
    ring
  have hpos : 0 < -3 / gamma := div_pos_of_neg_of_neg (by norm_num) h
  refine ⟨[(0, 0), (1, -3 / gamma)], [(0, 1 - (0 + 1 / (2 + gamma * (-3 / gamma - 0)))), (1, 1 / (2 + gamma * (-3 / gamma - 0)))], ?_, (1, 1 / (2 + gamma * (-3 / gamma - 0))), by simp, ?_⟩
  · have hlt : ¬ (-3 / gamma < 0) := not_lt.2 hpos.le
    simp [squareCbProbs, cmpCheck, argMin, argMinFrom, unwrapOpt, enforceUnwrap, enforceMinProb, hlt, bind, Except.bind]
  · rw [hv]; norm_num

end real

/-! ### Examples -/

section
attribute [local instance] intFlt

/-- An epsilon of 7 is accepted. -/
example : ∃ w, Workspace.new tinyHash tinyGlobal (.greedy (7 : Int) (.cbAdf .mtr (.coin CoinConfig.dflt))) = .ok w :=
  C115_unchecked _ _ _ _ (.greedy 0 7 (.cbAdf _ (.coin CoinConfig.dflt CoinConfig.dflt))) ⟨_, rfl⟩

/-- A uniform exploration of 2 is accepted, and no prediction succeeds. -/
example : ∃ w0, Workspace.new tinyHash tinyGlobal (.softmax (2 : Int) 1 (.cbAdf .mtr (.coin CoinConfig.dflt))) = .ok w0 ∧
    ∀ ft r, w0.predict true ft ≠ .ok r :=
  ⟨_, rfl, fun ft r => C115_uniform_false tinyHash tinyGlobal 2 (.inr rfl) rfl (.cbAdf .mtr (.coin CoinConfig.dflt)) 1 0 _ (.inl rfl) true [] _ rfl ft r⟩

end

section
attribute [local instance] transRatOrder fltRatOrder

/-- An epsilon of 3: the better of two actions has a negative probability after one event. -/
example : ∃ (w0 w : Workspace ℚ) (ft ft' : Features ℚ) (es : List (Features ℚ × Label ℚ)) (out : List (Nat × ℚ)),
    Workspace.new tinyHash tinyGlobal (.greedy 3 (.cbAdf .mtr (.coin CoinConfig.dflt))) = .ok w0 ∧ learnAll true w0 es = .ok w ∧
      w.predict true ft = .ok (.actionProbs out, ft') ∧ out.map (·.2) = [3/2, -1/2] := by
  have hv : ratRun (.greedy 3 (.cbAdf .mtr (.coin CoinConfig.dflt))) (.cbAdf ratEvent) ⟨0, 1, 1/2⟩ (.cbAdf ratEvent) =
      some (.actionProbs [(0, 3/2), (1, -1/2)]) := by decide +kernel
  obtain ⟨w, w1, ft1, ft2, h1, h2, h3⟩ := ratRun_some hv
  exact ⟨w, w1, _, ft2, [(.cbAdf ratEvent, .cb ⟨0, 1, 1/2⟩)], _, h1, by simp only [learnAll, h2, ok_bind], h3, rfl⟩

end

end Rml
