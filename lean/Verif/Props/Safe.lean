import Verif.Lemmas.Safe2
import Verif.Props.ExplorePolicies

/-!
C79: well-formed input never crashes a model. Any history of predict, learn and predict-then-learn calls on well-formed examples and
labels succeeds.
-/

set_option linter.unusedSectionVars false

namespace Rml
variable {F : Type} [Flt F]

section run
variable [LawfulCmp F]

theorem safeExample_ok {dbg : Bool} {nb : Nat} {t : StackType} {ft : Features F} (h : SafeExample dbg nb t ft) : Ready dbg ft ∧ TameFt dbg nb ft :=
  ⟨ready_of h.formed h.valid, fun f hf => ⟨h.fits f hf, fun hd => h.settled hd f hf⟩⟩

theorem safeLabel_fine {dbg : Bool} {mode : Option CBType} {t : StackType} {ft : Features F} {l : Label F} (h : SafeLabel dbg mode t ft l) :
    LabelFine dbg mode ft l := ⟨h.positive, h.chosen⟩

/-- The histories of a stack with well-behaved exploration. -/
theorem run_safe_on {G : Coin F → Prop} {Q : F → Prop} {R : List (Nat × F) → Prop} {dbg : Bool} (h01 : dbg = true → Flt.lt (Flt.zero : F) Flt.one = true) {hash : HashFn} {g : GlobalConfig} {c : RedConfig F}
    {w0 : Workspace F} (h : Workspace.new hash g c = .ok w0) (he : c.NoElementwise) (hgood : ∀ c, G c → CoinGood g.numBits c)
    (hG : ∀ c f, G c → f.Fits g.numBits → ∃ p raw, c.predict dbg f = .ok (p, raw) ∧ Q raw) (hp : c.ProbsOn Q R) {t : StackType} (ht : c.typeOf = some t)
    (ex0 : Nat → Features F) (calls : List (Call F))
    (hkeep : ∀ (S S1 : Session F) call o, call ∈ calls → S.w.red = w0.red → G S.w.coin → Session.step dbg S call = .ok (S1, o) → G S1.w.coin) : ∀ (w : Workspace F) (ex : Nat → Features F), w.red = w0.red → G w.coin →
    (∀ i, Ready dbg (ex0 i) → After dbg (ex i) (ex0 i)) → (∀ call ∈ calls, SafeCall dbg g.numBits c t ex0 call) →
    ∃ r, Session.run dbg ⟨w, ex⟩ calls = .ok r ∧ ∀ x ∈ r.2, ∀ ps, x.2 = some (.actionProbs ps) → R ps := by
  have hb := built_of_new h
  have hty := built_type hb
  rw [ht] at hty
  simp only [Option.some.injEq] at hty
  have hps := predict_safe (dbg := dbg) (nb := g.numBits) hG hb he hp
  have hls := learn_safe (nb := g.numBits) h01 hb he
  have hpl := ptl_safe (nb := g.numBits) hgood hG h01 hb he hp
  have hpairs := hb.pairsOk
  obtain ⟨red0, st0⟩ := w0
  simp only at hps hls hpl hpairs hty hkeep
  have hpred : ∀ (s : red0.State) ft gt, G (red0.coinOf s) → After dbg ft gt → SafeExample dbg g.numBits t gt →
      (t.prediction = .actionProbs → gt.actionList ≠ []) → ∃ p ft', Workspace.predict dbg ⟨red0, s⟩ ft = .ok (p, ft') ∧ After dbg ft' gt ∧ ∀ ps, p = .actionProbs ps → R ps := by
    intro s ft gt hg heq hsafe hne
    obtain ⟨ok, tm⟩ := safeExample_ok hsafe
    have ok' := ok.of_after heq
    have tm' := tm.of_after heq
    obtain ⟨p, ft', h1, _, _, hR⟩ := hps s ft 0 hg ok' tm' (by rw [heq.ty, hsafe.type, hty]) (fun hq => heq.actions (hne (by rw [hty]; exact hq)))
      (by decide)
    have hn := predictImpl_nice dbg red0 hpairs s
    have hw := wrap_safe hn red0 ok' tm' (by decide : (0 : Nat) < 256) h1
    have hr : Workspace.predict dbg ⟨red0, s⟩ ft = .ok (p, ft') := by
      unfold Workspace.predict Red.predict
      simp only
      rw [hw, ok_bind]
    exact ⟨p, ft', hr, (after_of hn (predict_le dbg red0 hpairs s) ok' (by decide) h1).trans heq, hR⟩
  have hlearn : ∀ (s : red0.State) ft gt l, G (red0.coinOf s) → After dbg ft gt → SafeExample dbg g.numBits t gt →
      SafeLabel dbg c.cbMode t gt l → ∃ s' ft', Workspace.learn dbg ⟨red0, s⟩ ft l = .ok (⟨red0, s'⟩, ft') ∧ After dbg ft' gt := by
    intro s ft gt l hg heq hsafe hl
    obtain ⟨ok, tm⟩ := safeExample_ok hsafe
    have ok' := ok.of_after heq
    have tm' := tm.of_after heq
    obtain ⟨s', ft', h1⟩ := hls s ft l 0 (hgood _ hg) ok' tm' (by rw [heq.ty, hsafe.type, hty]) (by rw [hl.type, hty]) ((safeLabel_fine hl).of_after heq) (by decide)
    have hn := learnImpl_nice dbg red0 hpairs s l
    have hw := wrap_safe hn red0 ok' tm' (by decide : (0 : Nat) < 256) h1
    have hr : Workspace.learn dbg ⟨red0, s⟩ ft l = .ok (⟨red0, s'⟩, ft') := by
      unfold Workspace.learn Red.learn
      simp only
      rw [hw, ok_bind]
    exact ⟨s', ft', hr, (after_of hn (learn_le dbg red0 hpairs s l) ok' (by decide) h1).trans heq⟩
  have hptl : ∀ (s : red0.State) ft gt l, G (red0.coinOf s) → After dbg ft gt → SafeExample dbg g.numBits t gt →
      (t.prediction = .actionProbs → gt.actionList ≠ []) → SafeLabel dbg c.cbMode t gt l →
      ∃ p s' ft', Workspace.predictThenLearn dbg ⟨red0, s⟩ ft l = .ok (p, ⟨red0, s'⟩, ft') ∧ After dbg ft' gt ∧ ∀ ps, p = .actionProbs ps → R ps := by
    intro s ft gt l hg heq hsafe hne hl
    obtain ⟨ok, tm⟩ := safeExample_ok hsafe
    have ok' := ok.of_after heq
    have tm' := tm.of_after heq
    obtain ⟨p, s', ft3, h3, a3, hR⟩ := hpl s ft l 0 hg ok' tm' (by rw [heq.ty, hsafe.type, hty]) (fun hq => heq.actions (hne (by rw [hty]; exact hq)))
      (by rw [hl.type, hty]) ((safeLabel_fine hl).of_after heq) (by decide)
    have hw := wrap_safe (ptlImpl_nice dbg red0 hpairs s l 0) red0 ok' tm' (by decide : (0 : Nat) < 256) h3
    have hr : Workspace.predictThenLearn dbg ⟨red0, s⟩ ft l = .ok (p, ⟨red0, s'⟩, ft3) := by
      unfold Workspace.predictThenLearn Red.predictThenLearn
      simp only
      rw [hw, ok_bind]
    exact ⟨p, s', ft3, hr, a3.trans heq, hR⟩
  have hput : ∀ (w w' : Workspace F) (ex : Nat → Features F) (i : Nat) (ft : Features F), (∀ j, Ready dbg (ex0 j) → After dbg (ex j) (ex0 j)) →
      After dbg ft (ex0 i) → ∀ j, Ready dbg (ex0 j) → After dbg ((Session.put ⟨w, ex⟩ w' i ft).ex j) (ex0 j) := by
    intro w w' ex i ft hex hft j hj
    simp only [Session.put]
    split
    · rename_i hji; subst hji; exact hft
    · exact hex j hj
  induction calls with
  | nil => intro w ex _ _ _ _; exact ⟨_, rfl, by simp⟩
  | cons call calls ih =>
    rintro ⟨red, s⟩ ex hred hg hex hcalls
    simp only at hred
    subst hred
    have hcall := hcalls call (by simp)
    have hrest := fun x hx => hcalls x (List.mem_cons_of_mem _ hx)
    have step : ∃ S1 o, Session.step dbg ⟨⟨red, s⟩, ex⟩ call = .ok (S1, o) ∧ S1.w.red = red ∧ (∀ i, Ready dbg (ex0 i) → After dbg (S1.ex i) (ex0 i)) ∧
        ∀ ps, o = some (.actionProbs ps) → R ps := by
      cases call with
      | predict i =>
        obtain ⟨p, ft', h1, h2, hR⟩ := hpred s (ex i) (ex0 i) hg (hex i (safeExample_ok hcall.1).1) hcall.1 hcall.2
        refine ⟨_, some p, by simp only [Session.step]; rw [h1, ok_bind], rfl, hput _ _ _ _ _ hex h2, fun ps h => hR ps (by simpa using h)⟩
      | learn i l =>
        obtain ⟨s', ft', h1, h2⟩ := hlearn s (ex i) (ex0 i) l hg (hex i (safeExample_ok hcall.1).1) hcall.1 hcall.2
        refine ⟨_, none, by simp only [Session.step]; rw [h1, ok_bind], rfl, hput _ _ _ _ _ hex h2, fun ps h => by simp at h⟩
      | predictThenLearn i l =>
        obtain ⟨p, s', ft', h1, h2, hR⟩ := hptl s (ex i) (ex0 i) l hg (hex i (safeExample_ok hcall.1).1) hcall.1 hcall.2.1 hcall.2.2
        refine ⟨_, some p, by simp only [Session.step]; rw [h1, ok_bind], rfl, hput _ _ _ _ _ hex h2, fun ps h => hR ps (by simpa using h)⟩
    obtain ⟨⟨w1, ex1⟩, o, h1, h2, h3, h5⟩ := step
    have hg1 : G w1.coin := hkeep _ _ call o (by simp) rfl hg h1
    obtain ⟨r, h4, h6⟩ := ih (fun S S1 x o hx => hkeep S S1 x o (List.mem_cons_of_mem _ hx)) w1 ex1 h2 hg1 h3 hrest
    refine ⟨(r.1, (call, o) :: r.2), ?_, fun x hx => ?_⟩
    swap
    · rcases List.mem_cons.1 hx with rfl | hx
      · exact h5
      · exact h6 x hx
    unfold Session.run
    rw [h1, ok_bind]
    simp only
    rw [h4, ok_bind]

/-- The exploration reductions make probabilities of every list of scores without NaN. -/
abbrev RedConfig.ProbsOk (c : RedConfig F) : Prop := c.ProbsOn (fun x => Flt.isNaN x = false) (fun _ => True)

/-- The histories of a stack whose exploration works for every list of scores without NaN. -/
theorem run_safe {dbg : Bool} (h01 : dbg = true → Flt.lt (Flt.zero : F) Flt.one = true) {hash : HashFn} {g : GlobalConfig} {c : RedConfig F}
    {w0 : Workspace F} (h : Workspace.new hash g c = .ok w0) (he : c.NoElementwise) (hp : c.ProbsOk) {t : StackType} (ht : c.typeOf = some t)
    (ex0 : Nat → Features F) (calls : List (Call F)) (w : Workspace F) (ex : Nat → Features F) (hr : w.red = w0.red) (hg : CoinGood g.numBits w.coin)
    (hex : ∀ i, Ready dbg (ex0 i) → After dbg (ex i) (ex0 i)) (hc : ∀ call ∈ calls, SafeCall dbg g.numBits c t ex0 call) :
    ∃ r, Session.run dbg ⟨w, ex⟩ calls = .ok r := by
  obtain ⟨r, h1, _⟩ := run_safe_on (G := CoinGood g.numBits) h01 h he (fun _ h => h) (fun c f hg hf => hg.predict dbg hf) hp ht ex0 calls
    (fun S S1 call o _ _ hg h => hg.trains (step_trains h)) w ex hr hg hex hc
  exact ⟨r, h1⟩

theorem new_good {hash : HashFn} {g : GlobalConfig} {c : RedConfig F} {w : Workspace F} (h : Workspace.new hash g c = .ok w) : CoinGood g.numBits w.coin := by
  obtain ⟨cfg, h1⟩ := (built_of_new h).coin_new
  exact ⟨(Coin.new_ok (by omega) h1).1, new_rangeOk (by omega) h1⟩

theorem argMin_lt {l : List F} {b : Nat} (h : argMin l = some b) : b < l.length := by
  cases l with
  | nil => simp [argMin] at h
  | cons x xs =>
    simp only [argMin, Option.some.injEq] at h
    have : ∀ (l : List F) (i best : Nat) (bv : F), best < i → argMinFrom i best bv l < i + l.length := by
      intro l
      induction l with
      | nil => intro i best bv h; simpa [argMinFrom] using h
      | cons y ys ih =>
        intro i best bv h
        unfold argMinFrom
        split
        · have := ih (i + 1) i y (by omega); simp only [List.length_cons]; omega
        · have := ih (i + 1) best bv (by omega); simp only [List.length_cons]; omega
    have := this xs 1 0 x (by omega)
    simp only [List.length_cons]
    omega

theorem cmpCheck_ok {sc : List (Nat × F)} (h : ∀ x ∈ sc, Flt.isNaN x.2 = false) : cmpCheck (sc.map (·.2)) = .ok () := by
  unfold cmpCheck
  rw [if_neg]
  rintro ⟨_, h2⟩
  obtain ⟨y, hy, h3⟩ := List.any_eq_true.1 h2
  obtain ⟨x, hx, rfl⟩ := List.mem_map.1 hy
  rw [h x hx] at h3
  simp at h3

theorem best_ok {sc : List (Nat × F)} (hne : sc ≠ []) : ∃ b e, argMin (sc.map (·.2)) = some b ∧ sc[b]? = some e := by
  cases hm : argMin (sc.map (·.2)) with
  | none =>
    cases sc with
    | nil => exact absurd rfl hne
    | cons x xs => simp [argMin] at hm
  | some b =>
    have hlt := argMin_lt hm
    rw [List.length_map] at hlt
    exact ⟨b, sc[b], rfl, List.getElem?_eq_getElem hlt⟩

theorem enforce_zero {e : F} (h : Flt.eq e Flt.zero = true) {l : List (Nat × F)} (hne : l ≠ []) : enforceUnwrap e l = .ok l := by
  unfold enforceUnwrap enforceMinProb
  have hl : ¬ l.length = 0 := fun h => hne (List.length_eq_zero_iff.1 h)
  rw [if_neg hl, if_pos h, ok_bind]
  rfl

theorem probsOk_of_noUniform (c : RedConfig F) (h : c.NoUniform) : c.ProbsOk := by
  induction c with
  | coin _ => trivial
  | unknown _ => trivial
  | binary c ih => exact ih h
  | cbAdf _ c ih => exact ih h
  | greedy e c ih => exact ⟨fun sc hne _ _ => (greedyProbs_ok e hne).imp fun _ h => ⟨h, trivial⟩, ih h⟩
  | debug c ih => exact ih h
  | elementwise _ _ _ c ih => exact ih h
  | softmax e lm c ih =>
    refine ⟨fun sc hne _ hnum => ?_, ih h.2⟩
    obtain ⟨b, be, h1, h2⟩ := best_ok hne
    unfold softmaxProbs
    rw [cmpCheck_ok hnum, ok_bind, h1]
    simp only [unwrapOpt, ok_bind]
    rw [h2]
    exact ⟨_, enforce_zero h.1 (by simpa using hne), trivial⟩
  | squareCb e gs ge c ih =>
    refine ⟨fun n sc hne _ hnum => ?_, ih h.2⟩
    obtain ⟨b, be, h1, h2⟩ := best_ok hne
    unfold squareCbProbs
    rw [cmpCheck_ok hnum, ok_bind, h1]
    simp only [unwrapOpt, ok_bind]
    rw [h2]
    simp only [List.getElem?_map, h2, Option.map_some]
    exact ⟨_, enforce_zero h.1 (by simpa using hne), trivial⟩

/-- C79 for any arithmetic, so also for single precision floats with rounding, infinities and NaN: a model without ElementwiseInteraction and
with uniform epsilon 0 in its softmax and SquareCB reductions (the default) serves every history of well-formed calls. -/
theorem C79_no_panic (dbg : Bool) (h01 : dbg = true → Flt.lt (Flt.zero : F) Flt.one = true) (hash : HashFn) (g : GlobalConfig) (c : RedConfig F)
    (w : Workspace F) (h : Workspace.new hash g c = .ok w) (t : StackType) (ht : c.typeOf = some t) (he : c.NoElementwise) (hu : c.NoUniform)
    (ex : Nat → Features F) (calls : List (Call F)) (hc : ∀ call ∈ calls, SafeCall dbg g.numBits c t ex call) :
    ∃ r, Session.run dbg ⟨w, ex⟩ calls = .ok r :=
  run_safe h01 h he (probsOk_of_noUniform c hu) ht ex calls w ex rfl (new_good h) (fun _ hv => hv.refl) hc

end run

/-- C79 for single precision bit patterns: comparisons are as in IEEE 754; about the arithmetic nothing is assumed but that integers keep their
order when they become floats. -/
theorem C79_f32 (o : F32Ops) (ho : ∀ m n : Int, m ≤ n → f32Le (o.lit m 1) (o.lit n 1) = true) (dbg : Bool) (hash : HashFn) (g : GlobalConfig)
    (c : RedConfig (BitVec 32)) (w : Workspace (BitVec 32)) (h : @Workspace.new _ (f32Flt o) hash g c = .ok w) (t : StackType)
    (ht : c.typeOf = some t) (he : c.NoElementwise) (hu : @RedConfig.NoUniform _ (f32Flt o) c) (ex : Nat → Features (BitVec 32))
    (calls : List (Call (BitVec 32))) (hc : ∀ call ∈ calls, @SafeCall _ (f32Flt o) dbg g.numBits c t ex call) :
    ∃ r, @Session.run _ (f32Flt o) dbg (@Session.mk _ (f32Flt o) w ex) calls = .ok r := by
  let _ : Flt (BitVec 32) := f32Flt o
  have _ : LawfulCmp (BitVec 32) := lawfulCmp_f32 o ho
  exact C79_no_panic dbg (fun _ => show f32Lt 0#32 0x3f800000#32 = true by decide +kernel) hash g c w h t ht he hu ex calls hc

section real
noncomputable local instance : Flt ℝ := fieldFlt ℝ

/-- The uniform epsilons are between 0 and 1 and the gamma scales are not negative. -/
def RedConfig.UnitEpsilon : RedConfig ℝ → Prop
  | .coin _ | .unknown _ => True
  | .softmax e _ c => 0 ≤ e ∧ e ≤ 1 ∧ c.UnitEpsilon
  | .squareCb e gs _ c => 0 ≤ e ∧ e ≤ 1 ∧ 0 ≤ gs ∧ c.UnitEpsilon
  | .binary c | .cbAdf _ c | .greedy _ c | .debug c | .elementwise _ _ _ c => c.UnitEpsilon

theorem probsOk_of_unit (c : RedConfig ℝ) (h : c.UnitEpsilon) : c.ProbsOk := by
  induction c with
  | coin _ => trivial
  | unknown _ => trivial
  | binary c ih => exact ih h
  | cbAdf _ c ih => exact ih h
  | greedy _ c ih => exact ⟨fun sc hne _ _ => (greedyProbs_ok _ hne).imp fun _ h => ⟨h, trivial⟩, ih h⟩
  | debug c ih => exact ih h
  | elementwise _ _ _ c ih => exact ih h
  | softmax e lm c ih =>
    refine ⟨fun sc hne _ _ => ?_, ih h.2.2⟩
    obtain ⟨out, h1, _⟩ := C21_softmax_distribution lm e h.1 h.2.1 sc hne
    exact ⟨out, h1, trivial⟩
  | squareCb e gs ge c ih =>
    refine ⟨fun n sc hne hids _ => ?_, ih h.2.2.2⟩
    obtain ⟨_, _, out, _, _, h1, _⟩ := C22_squarecb_distribution (squareCbGamma gs ge n) e
      (mul_nonneg h.2.2.1 (Real.rpow_nonneg (Nat.cast_nonneg n) ge)) h.1 h.2.1 sc hne (by rw [hids]; exact List.nodup_range)
    exact ⟨out, h1, trivial⟩

/-- C79 with exact arithmetic, for any uniform epsilons between 0 and 1. -/
theorem C79_exact (dbg : Bool) (hash : HashFn) (g : GlobalConfig) (c : RedConfig ℝ) (w : Workspace ℝ) (h : Workspace.new hash g c = .ok w)
    (t : StackType) (ht : c.typeOf = some t) (he : c.NoElementwise) (hu : c.UnitEpsilon) (ex : Nat → Features ℝ) (calls : List (Call ℝ))
    (hc : ∀ call ∈ calls, SafeCall dbg g.numBits c t ex call) : ∃ r, Session.run dbg ⟨w, ex⟩ calls = .ok r := by
  have _ : LawfulCmp ℝ := lawfulCmp_field ℝ
  exact run_safe (fun _ => by simp) h he (probsOk_of_unit c hu) ht ex calls w ex rfl (new_good h) (fun _ hv => hv.refl) hc

end real

/-! ### The conditions are needed -/

theorem predict_no_actions {hash : HashFn} {g : GlobalConfig} {nma : Nat} {c : RedConfig F} {x : (r : Red F) × r.State} (hb : Built hash g nma c x)
    (dbg : Bool) (s : x.1.State) (sh : Option (SparseFeatures F)) (d : Depth) {p : Prediction F} {ft' : Features F} {d' : Depth}
    (h : x.1.predictImpl dbg s (.cbAdf ⟨sh, []⟩) d = .ok (p, ft', d')) : p = .actionScores [] := by
  induction hb generalizing d p ft' d' with
  | coin _ =>
    unfold Red.predictImpl at h
    simp [Features.asSimple, bind, Except.bind] at h
  | @binary rc x hb hc ih =>
    unfold Red.predictImpl at h
    obtain ⟨⟨q, ft1, d1⟩, h1, h⟩ := bind_ok.1 h
    obtain ⟨d1, d2, _, h2, _⟩ := wrapCall_ok h1
    have := ih s d1 h2
    simp only at this
    subst this
    simp [Prediction.asScalar, bind, Except.bind] at h
  | @cbAdf ty rc x hb hc ih =>
    unfold Red.predictImpl at h
    simp only [Features.asCb, ok_bind, cbPredictLoop, Except.ok.injEq, Prod.mk.injEq] at h
    exact h.1.symm
  | @greedy e rc x hb hc ih =>
    unfold Red.predictImpl at h
    obtain ⟨⟨q, ft1, d1⟩, h1, h⟩ := bind_ok.1 h
    obtain ⟨d1, d2, _, h2, _⟩ := wrapCall_ok h1
    have := ih s d1 h2
    simp only at this
    subst this
    simp [Prediction.asScores, bind, Except.bind, greedyProbs, argMin, unwrapOpt] at h
  | @softmax e lm rc x hb hc ih =>
    unfold Red.predictImpl at h
    obtain ⟨⟨q, ft1, d1⟩, h1, h⟩ := bind_ok.1 h
    obtain ⟨d1, d2, _, h2, _⟩ := wrapCall_ok h1
    have := ih s.2 d1 h2
    simp only at this
    subst this
    simp [Prediction.asScores, bind, Except.bind, softmaxProbs, cmpCheck, argMin, unwrapOpt] at h
  | @squareCb e gs ge rc x _ hb hc ih =>
    unfold Red.predictImpl at h
    obtain ⟨⟨q, ft1, d1⟩, h1, h⟩ := bind_ok.1 h
    obtain ⟨d1, d2, _, h2, _⟩ := wrapCall_ok h1
    have := ih s.2 d1 h2
    simp only at this
    subst this
    simp [Prediction.asScores, bind, Except.bind, squareCbProbs, cmpCheck, argMin, unwrapOpt] at h
  | @debug rc x hb hc ih =>
    unfold Red.predictImpl at h
    obtain ⟨d1, d2, _, h2, _⟩ := wrapCall_ok h
    exact ih s d1 h2
  | elementwise _ _ _ =>
    unfold Red.predictImpl at h
    simp [elementwiseWith, Features.asSimple, bind, Except.bind] at h

/-- A model that chooses actions crashes on every example without actions. -/
theorem C79_needs_action (dbg : Bool) (hash : HashFn) (g : GlobalConfig) (c : RedConfig F) (w0 : Workspace F) (h : Workspace.new hash g c = .ok w0)
    (t : StackType) (ht : c.typeOf = some t) (hp : t.prediction = .actionProbs) (s : w0.red.State) (sh : Option (SparseFeatures F)) :
    ∃ e, Workspace.predict dbg ⟨w0.red, s⟩ (.cbAdf ⟨sh, []⟩) = .error e := by
  cases hr : Workspace.predict dbg ⟨w0.red, s⟩ (.cbAdf ⟨sh, []⟩) with
  | error e => exact ⟨e, rfl⟩
  | ok r =>
    exfalso
    obtain ⟨p, ft'⟩ := r
    have hft : (Features.cbAdf ⟨sh, []⟩ : Features F).ty = t.features := by
      have hty := built_type (built_of_new h)
      rw [ht] at hty
      clear hr h
      revert hp ht
      have : ∀ (c : RedConfig F) (t : StackType), c.typeOf = some t → (t.prediction = .actionProbs ∨ t.prediction = .actionScores) → t.features = .sparseCBAdf := by
        intro c
        induction c with
        | coin _ => intro t ht; simp [RedConfig.typeOf] at ht; subst ht; simp
        | unknown _ => intro t ht; simp [RedConfig.typeOf] at ht
        | binary c ih => intro t ht; simp only [RedConfig.typeOf] at ht; split at ht <;> simp at ht; subst ht; simp
        | cbAdf _ c ih => intro t ht; simp only [RedConfig.typeOf] at ht; split at ht <;> simp at ht; subst ht; simp
        | greedy _ c ih => intro t ht; simp only [RedConfig.typeOf] at ht; split at ht <;> simp at ht; subst ht; simp
        | softmax _ _ c ih => intro t ht; simp only [RedConfig.typeOf] at ht; split at ht <;> simp at ht; subst ht; simp
        | squareCb _ _ _ c ih => intro t ht; simp only [RedConfig.typeOf] at ht; split at ht <;> simp at ht; subst ht; simp
        | debug c ih => exact ih
        | elementwise _ _ _ c ih =>
          intro t ht hp
          simp only [RedConfig.typeOf] at ht
          split at ht <;> simp at ht
          rename_i l p heq
          subst ht
          exact ih _ heq hp
      intro ht hp
      exact (this c t ht (.inl hp)).symm
    have h2 := (C28_predict_typed dbg h ht s (.cbAdf ⟨sh, []⟩) hft).2 p ft' hr
    obtain ⟨⟨q, ft1, d1⟩, h3, h4⟩ := bind_ok.1 hr
    simp only [Except.ok.injEq, Prod.mk.injEq] at h4
    obtain ⟨rfl, rfl⟩ := h4
    obtain ⟨d1, d2, _, h5, _⟩ := wrapCall_ok h3
    have := predict_no_actions (built_of_new h) dbg s sh d1 h5
    simp only at this
    subst this
    rw [hp] at h2
    simp [Prediction.ty] at h2

theorem learn_not_chosen {hash : HashFn} {g : GlobalConfig} {nma : Nat} {c : RedConfig F} {x : (r : Red F) × r.State} (hb : Built hash g nma c x)
    (hm : c.cbMode = some .mtr) (dbg : Bool) (s : x.1.State) (f : CBAdfFeatures F) (l : Label F)
    (hl : ∀ cl, l = .cb cl → f.shared = none ∨ f.actions.length ≤ cl.action) (d : Depth) (r : x.1.State × Features F × Depth)
    (h : x.1.learnImpl dbg s (.cbAdf f) l d = .ok r) : False := by
  induction hb generalizing l d with
  | coin _ => simp [RedConfig.cbMode] at hm
  | @binary rc x hb hc ih =>
    unfold Red.learnImpl at h
    obtain ⟨b, _, h⟩ := bind_ok.1 h
    obtain ⟨d1, d2, _, h2, _⟩ := wrapCall_ok h
    exact ih hm s _ (fun cl h => by simp at h) d1 _ h2
  | @cbAdf ty rc x hb hc ih =>
    simp only [RedConfig.cbMode, Option.some.injEq] at hm
    subst hm
    unfold Red.learnImpl at h
    simp only [Features.asCb, ok_bind] at h
    obtain ⟨cl, h1, h⟩ := bind_ok.1 h
    have hcl : l = .cb cl := by
      cases l <;> simp [Label.asCb] at h1
      rw [h1]
    obtain ⟨y, h2, _⟩ := bind_ok.1 h
    unfold cbMtrLearn at h2
    rcases hl cl hcl with q | q
    · rw [q] at h2
      simp at h2
    · split at h2
      · rw [List.getElem?_eq_none q] at h2
        simp [unwrapOpt, bind, Except.bind] at h2
      · simp at h2
  | @greedy e rc x hb hc ih =>
    unfold Red.learnImpl at h
    obtain ⟨d1, d2, _, h2, _⟩ := wrapCall_ok h
    exact ih hm s _ hl d1 _ h2
  | @softmax e lm rc x hb hc ih =>
    unfold Red.learnImpl at h
    obtain ⟨y, h, _⟩ := bind_ok.1 h
    obtain ⟨d1, d2, _, h2, _⟩ := wrapCall_ok h
    exact ih hm s.2 _ hl d1 _ h2
  | @squareCb e gs ge rc x _ hb hc ih =>
    unfold Red.learnImpl at h
    obtain ⟨cl, h1, h⟩ := bind_ok.1 h
    have hcl : l = .cb cl := by
      cases l <;> simp [Label.asCb] at h1
      rw [h1]
    obtain ⟨y, h, _⟩ := bind_ok.1 h
    obtain ⟨d1, d2, _, h2, _⟩ := wrapCall_ok h
    exact ih hm s.2 _ (fun cl' h' => by simp only [Label.cb.injEq] at h'; subst h'; exact hl cl hcl) d1 _ h2
  | @debug rc x hb hc ih =>
    unfold Red.learnImpl at h
    obtain ⟨d1, d2, _, h2, _⟩ := wrapCall_ok h
    exact ih hm s _ hl d1 _ h2
  | elementwise _ _ _ =>
    unfold Red.learnImpl at h
    simp [elementwiseWith, Features.asSimple, bind, Except.bind] at h

/-- In mtr mode learning crashes on every example without shared features and for every label whose action the example does not have. -/
theorem C79_needs_chosen (dbg : Bool) (hash : HashFn) (g : GlobalConfig) (c : RedConfig F) (w0 : Workspace F) (h : Workspace.new hash g c = .ok w0)
    (hm : c.cbMode = some .mtr) (s : w0.red.State) (f : CBAdfFeatures F) (l : CBLabel F)
    (hl : f.shared = none ∨ f.actions.length ≤ l.action) : ∃ e, Workspace.learn dbg ⟨w0.red, s⟩ (.cbAdf f) (.cb l) = .error e := by
  cases hr : Workspace.learn dbg ⟨w0.red, s⟩ (.cbAdf f) (.cb l) with
  | error e => exact ⟨e, rfl⟩
  | ok r =>
    obtain ⟨y, h3, _⟩ := bind_ok.1 hr
    obtain ⟨d1, d2, _, h5, _⟩ := wrapCall_ok h3
    exact (learn_not_chosen (built_of_new h) hm dbg s f (.cb l) (fun cl h => by simp only [Label.cb.injEq] at h; subst h; exact hl) d1 _ h5).elim

theorem settled_of_self {f : SparseFeatures F} (hf : f.WF) (h : f.absDiffEq f Flt.epsilon = true) : ∀ iv ∈ f.allFeatures, Settled iv.2 := by
  intro iv hiv
  rw [mem_allFeatures hf.toInv0] at hiv
  obtain ⟨ns, hiv⟩ := hiv
  have hact : (f.vw ns).2.2 = true := by
    by_contra hx
    have := hf.inactive_empty ns (by simpa using hx)
    rw [this] at hiv
    simp at hiv
  rw [SparseFeatures.absDiffEq] at h
  rw [← SparseFeatures.absDiffEq, absDiffEq_vw hf.toInv0 hf.toInv0] at h
  simp only [decide_true, Bool.true_and, List.all_eq_true] at h
  have h1 := h ns ((SparseFeatures.mem_activeKeys hf.toInv0 ns).2 hact)
  obtain ⟨k, hk, hke⟩ := List.mem_iff_getElem.1 (List.of_mem_zip hiv).2
  have := h1 (iv.2, iv.2) (List.mem_iff_getElem.2 ⟨k, by simpa using hk, by simp [hke]⟩)
  exact this

/-- In the debug profile a model crashes on every example with an infinite value or NaN. -/
theorem C79_needs_settled (hash : HashFn) (g : GlobalConfig) (c : RedConfig F) (w0 : Workspace F) (h : Workspace.new hash g c = .ok w0)
    (s : w0.red.State) (ft : Features F) (hv : ft.Valid) (f : SparseFeatures F) (hf : f ∈ ft.objects) (iv : U32 × F) (hiv : iv ∈ f.allFeatures)
    (hn : ¬ Settled iv.2) : ∃ e, Workspace.predict true ⟨w0.red, s⟩ ft = .error e := by
  cases hr : Workspace.predict true ⟨w0.red, s⟩ ft with
  | error e => exact ⟨e, rfl⟩
  | ok r =>
    exfalso
    obtain ⟨⟨p, ft1, d0⟩, h3, _⟩ := bind_ok.1 hr
    have hn' := predictImpl_nice true w0.red (built_of_new h).pairsOk s
    have hok := okEx_of_valid hv
    have hself := ((wrapCall_runs hn' hok.good).1 ⟨_, _, h3⟩).1
    have habs : ft.absDiffEq ft Flt.epsilon = true := by
      unfold SelfOk debugAssert at hself
      by_contra hx
      simp at hx
      simp [hx] at hself
    apply hn
    cases ft with
    | simple f' =>
      simp only [Features.objects, List.mem_singleton] at hf
      subst hf
      exact settled_of_self hv.1 habs iv hiv
    | cbAdf f' =>
      simp only [Features.absDiffEq, CBAdfFeatures.absDiffEq, decide_true, Bool.and_true, Bool.and_eq_true] at habs
      simp only [Features.objects, List.mem_append, Option.mem_toList] at hf
      rcases hf with hf | hf
      · have h1 := habs.1
        rw [hf] at h1
        exact settled_of_self (hv.1 f hf).1 h1 iv hiv
      · have h2 := habs.2
        rw [List.all_eq_true] at h2
        obtain ⟨k, hk, rfl⟩ := List.mem_iff_getElem.1 hf
        exact settled_of_self (hv.2 _ hf).1 (h2 (f'.actions[k], f'.actions[k]) (List.mem_iff_getElem.2 ⟨k, by simpa using hk, by simp⟩)) iv hiv

theorem Features.Valid.formed {ft : Features F} (h : ft.Valid) : ft.Formed := by
  cases ft with
  | simple f => exact h
  | cbAdf f => exact ⟨fun s hs => ⟨(h.1 s hs).1, (h.1 s hs).2.1⟩, fun a ha => ⟨(h.2 a ha).1, (h.2 a ha).2.1⟩⟩

section examples
open SparseFeatures
attribute [local instance] intFlt

theorem tiny_safeExample (dbg : Bool) : SafeExample dbg 2 ⟨.cb, .sparseCBAdf, .actionProbs⟩ tinyCb := by
  have hall : ∀ f ∈ tinyCb.objects, ∀ iv ∈ f.allFeatures, iv.1.toNat < 2 ^ 2 := by decide +kernel
  have hset : ∀ f ∈ tinyCb.objects, ∀ iv ∈ f.allFeatures, Flt.le (Flt.abs (Flt.sub iv.2 iv.2)) Flt.epsilon = true := by decide +kernel
  exact ⟨tinyCb_valid.formed, fun _ => tinyCb_valid, rfl, fun f hf => hall f hf, fun _ f hf => hset f hf⟩

/-- The hypotheses of C79 are met, in both profiles, by a history with each kind of call. -/
example (dbg : Bool) : ∃ w, Workspace.new tinyHash tinyGlobal tinySquare = .ok w ∧ tinySquare.typeOf = some ⟨.cb, .sparseCBAdf, .actionProbs⟩ ∧
    tinySquare.NoElementwise ∧ tinySquare.NoUniform ∧ ∀ call ∈ [Call.predict 0, .learn 0 (.cb ⟨1, 3, 1⟩), .predictThenLearn 0 (.cb ⟨0, 2, 1⟩)],
      SafeCall dbg tinyGlobal.numBits tinySquare ⟨.cb, .sparseCBAdf, .actionProbs⟩ (fun _ => tinyCb) call := by
  refine ⟨_, rfl, rfl, trivial, ⟨by decide, trivial⟩, ?_⟩
  have hl : ∀ a : Nat, a < 2 → ∀ c : Int, SafeLabel dbg tinySquare.cbMode ⟨.cb, .sparseCBAdf, .actionProbs⟩ tinyCb (.cb ⟨a, c, 1⟩) := by
    intro a ha c
    refine ⟨rfl, ?_, ?_⟩
    · rintro _ cl h
      simp only [Label.cb.injEq] at h
      subst h
      show decide ((0 : Int) < 1) = true
      decide
    · rintro _ f cl h1 h2
      simp only [Label.cb.injEq] at h2
      simp only [tinyCb, Features.cbAdf.injEq] at h1
      subst h1 h2
      exact ⟨rfl, ha⟩
  intro call hcall
  simp only [List.mem_cons, List.not_mem_nil, or_false] at hcall
  rcases hcall with rfl | rfl | rfl
  · exact ⟨tiny_safeExample dbg, fun _ => by simp [tinyCb, Features.actionList]⟩
  · exact ⟨tiny_safeExample dbg, hl 1 (by omega) 3⟩
  · exact ⟨tiny_safeExample dbg, fun _ => by simp [tinyCb, Features.actionList], hl 0 (by omega) 2⟩

/-- In the release profile also an example with a visible but empty namespace is well-formed, although predicting changes it
(`C26_empty_namespace_false`). -/
example : SafeExample false 2 ⟨.cb, .sparseCBAdf, .actionScores⟩ tinyEmpty ∧ ¬ tinyEmpty.Valid := by
  refine ⟨⟨⟨?_, ?_⟩, by simp, rfl, ?_, by simp⟩, ?_⟩
  · intro s hs
    simp only [Option.some.injEq] at hs
    subst hs
    exact ⟨(tinyFeat_wf _ _).1, (tinyFeat_wf _ _).2.1⟩
  · intro a ha
    simp only [List.mem_singleton] at ha
    subst ha
    refine ⟨⟨⟨by simp [modifyOrCreate, setNamespace, SparseFeatures.insert, SparseFeatures.new, Sorted], ?_, ?_⟩, ?_⟩, ?_⟩
    · simp [modifyOrCreate, setNamespace, SparseFeatures.insert, SparseFeatures.new, getOrCreate, lookup, NsFeats.new, RVec.new]
    · simp [modifyOrCreate, setNamespace, SparseFeatures.insert, SparseFeatures.new, getOrCreate, lookup, NsFeats.new]
    · intro ns
      by_cases h : Namespace.default = ns <;>
        simp [modifyOrCreate, setNamespace, SparseFeatures.insert, SparseFeatures.new, getOrCreate, lookup, vw, NsFeats.new, RVec.new, h, noView]
    · intro k
      rfl
  · show ∀ f ∈ tinyEmpty.objects, ∀ iv ∈ f.allFeatures, iv.1.toNat < 2 ^ 2
    decide +kernel
  · intro h
    have := (h.2 _ (List.mem_singleton.2 rfl)).2.2 .default _ rfl
    exact this rfl

/-- C79 fails for ElementwiseInteraction: a well-formed example without the namespaces of the pair crashes the model. -/
theorem C79_elementwise_false : ∃ (c : RedConfig Int) (w : Workspace Int) (t : StackType) (ft : Features Int), Workspace.new tinyHash tinyGlobal c = .ok w ∧
    c.typeOf = some t ∧ c.NoUniform ∧ SafeExample false 2 t ft ∧ Workspace.predict false w ft = .error .unwrap := by
  refine ⟨.elementwise (.name ['a', 'b']) .default true (.coin CoinConfig.dflt), _, ⟨.simple, .sparseSimple, .scalar⟩, .simple (tinyFeat 1#32 1), rfl, rfl,
    trivial, ⟨⟨(tinyFeat_wf _ _).1, (tinyFeat_wf _ _).2.1⟩, by simp, rfl, ?_, by simp⟩, ?_⟩
  · intro f hf
    simp only [Features.objects, List.mem_singleton] at hf
    subst hf
    show ∀ iv ∈ (tinyFeat 1#32 1).allFeatures, iv.1.toNat < 2 ^ 2
    decide +kernel
  · rfl

end examples

end Rml
