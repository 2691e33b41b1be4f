import Verif.Lemmas.Stack

/-! Helper lemmas: depth bookkeeping and `predict_then_learn`. -/

set_option linter.unusedSectionVars false

namespace Rml
open SparseFeatures
variable {F : Type} [Flt F]

/-! ### Depth -/

/-- A call that returns the depth it was given. -/
def KeepsDepth {α : Type} (body : Features F → Depth → M (α × Features F × Depth)) : Prop :=
  ∀ ft d a ft' d', d < 256 → body ft d = .ok (a, ft', d') → d' = d

theorem KeepsDepth.wrap {α : Type} {body : Features F → Depth → M (α × Features F × Depth)} (h : KeepsDepth body) (dbg : Bool)
    (m : Meta) (off : Nat) : KeepsDepth (fun ft d => wrapCall dbg m ft d off body) := by
  intro ft d a ft' d' hd hr
  obtain ⟨d1, d2, h1, h2, h3, _⟩ := wrapCall_ok hr
  have := h _ _ _ _ _ (increment_lt h1) h2
  subst this
  exact (increment_decrement hd h1 h3).2

theorem KeepsDepth.elementwise {α : Type} {body : Features F → Depth → M (α × Features F × Depth)} (h : KeepsDepth body) (dbg : Bool)
    (bits : Nat) (pair : Namespace × Namespace) (keep : Bool) : KeepsDepth (elementwiseWith dbg bits pair keep body) := by
  intro ft d a ft' d' hd hr
  obtain ⟨ft1, ft2, h1⟩ := elementwiseWith_ok hr
  exact h _ _ _ _ _ hd h1

theorem cbPredictLoop_depth {childP : Features F → Depth → M (Prediction F × Features F × Depth)} (h : KeepsDepth childP)
    {shared : Option (SparseFeatures F)} (as : List (SparseFeatures F)) : ∀ (i : Nat) (d : Depth)
    (r : List (Nat × F) × List (SparseFeatures F) × Depth), d < 256 → cbPredictLoop childP shared i as d = .ok r → r.2.2 = d := by
  induction as with
  | nil => intro i d r _ hr; simp [cbPredictLoop] at hr; subst hr; rfl
  | cons a as ih =>
    intro i d r hd hr
    unfold cbPredictLoop at hr
    obtain ⟨a1, _, hr⟩ := bind_ok.1 hr
    obtain ⟨⟨p, ft, d1⟩, h2, hr⟩ := bind_ok.1 hr
    obtain ⟨⟨_, raw⟩, _, hr⟩ := bind_ok.1 hr
    obtain ⟨a2, _, hr⟩ := bind_ok.1 hr
    obtain ⟨a3, _, hr⟩ := bind_ok.1 hr
    obtain ⟨⟨ps, as', d2⟩, h6, hr⟩ := bind_ok.1 hr
    simp only [Except.ok.injEq] at hr
    subst hr
    have := h _ _ _ _ _ hd h2
    subst this
    have := ih _ _ _ hd h6
    exact this

theorem cbIpsLoop_depth {S : Type} {dbg : Bool} {childL : S → Features F → Label F → Depth → M (S × Features F × Depth)}
    (h : ∀ s l, KeepsDepth (fun ft d => childL s ft l d)) {shared : Option (SparseFeatures F)} (label : CBLabel F)
    (as : List (SparseFeatures F)) : ∀ (i : Nat) (s : S) (d : Depth) (r : S × List (SparseFeatures F) × Depth), d < 256 →
      cbIpsLoop dbg childL shared label i as s d = .ok r → r.2.2 = d := by
  induction as with
  | nil => intro i s d r _ hr; simp [cbIpsLoop] at hr; subst hr; rfl
  | cons a as ih =>
    intro i s d r hd hr
    unfold cbIpsLoop at hr
    obtain ⟨a1, _, hr⟩ := bind_ok.1 hr
    obtain ⟨l, _, hr⟩ := bind_ok.1 hr
    obtain ⟨⟨s1, ft, d1⟩, h2, hr⟩ := bind_ok.1 hr
    obtain ⟨a2, _, hr⟩ := bind_ok.1 hr
    obtain ⟨a3, _, hr⟩ := bind_ok.1 hr
    obtain ⟨⟨s2, as', d2⟩, h6, hr⟩ := bind_ok.1 hr
    simp only [Except.ok.injEq] at hr
    subst hr
    have := h s (.simple l) _ _ _ _ _ hd h2
    subst this
    have := ih _ _ _ _ hd h6
    exact this

theorem predictImpl_depth (dbg : Bool) (r : Red F) : ∀ s : r.State, KeepsDepth (r.predictImpl dbg s) := by
  induction r with
  | coin m =>
    intro s ft d a ft' d' hd hr
    unfold Red.predictImpl at hr
    obtain ⟨f, _, hr⟩ := bind_ok.1 hr
    obtain ⟨_, _, hr⟩ := bind_ok.1 hr
    simp only [Except.ok.injEq, Prod.mk.injEq] at hr
    exact hr.2.2.symm
  | binary m r ih =>
    intro s ft d a ft' d' hd hr
    unfold Red.predictImpl at hr
    obtain ⟨⟨p, ft1, d1⟩, h1, hr⟩ := bind_ok.1 hr
    obtain ⟨_, _, hr⟩ := bind_ok.1 hr
    simp only [Except.ok.injEq, Prod.mk.injEq] at hr
    rw [← hr.2.2]
    exact (ih s).wrap dbg r.meta 0 _ _ _ _ _ hd h1
  | cbAdf m ty r ih =>
    intro s ft d a ft' d' hd hr
    unfold Red.predictImpl at hr
    obtain ⟨f, _, hr⟩ := bind_ok.1 hr
    obtain ⟨⟨sc, as, d1⟩, h1, hr⟩ := bind_ok.1 hr
    simp only [Except.ok.injEq, Prod.mk.injEq] at hr
    rw [← hr.2.2]
    exact cbPredictLoop_depth ((ih s.2).wrap dbg r.meta 0) _ _ _ _ hd h1
  | greedy m e r ih =>
    intro s ft d a ft' d' hd hr
    unfold Red.predictImpl at hr
    obtain ⟨⟨p, ft1, d1⟩, h1, hr⟩ := bind_ok.1 hr
    obtain ⟨_, _, hr⟩ := bind_ok.1 hr
    obtain ⟨_, _, hr⟩ := bind_ok.1 hr
    simp only [Except.ok.injEq, Prod.mk.injEq] at hr
    rw [← hr.2.2]
    exact (ih s).wrap dbg r.meta 0 _ _ _ _ _ hd h1
  | softmax m e lm r ih =>
    intro s ft d a ft' d' hd hr
    unfold Red.predictImpl at hr
    obtain ⟨⟨p, ft1, d1⟩, h1, hr⟩ := bind_ok.1 hr
    obtain ⟨_, _, hr⟩ := bind_ok.1 hr
    obtain ⟨_, _, hr⟩ := bind_ok.1 hr
    simp only [Except.ok.injEq, Prod.mk.injEq] at hr
    rw [← hr.2.2]
    exact (ih s.2).wrap dbg r.meta 0 _ _ _ _ _ hd h1
  | squareCb m e gs ge r ih =>
    intro s ft d a ft' d' hd hr
    unfold Red.predictImpl at hr
    obtain ⟨⟨p, ft1, d1⟩, h1, hr⟩ := bind_ok.1 hr
    obtain ⟨_, _, hr⟩ := bind_ok.1 hr
    obtain ⟨_, _, hr⟩ := bind_ok.1 hr
    simp only [Except.ok.injEq, Prod.mk.injEq] at hr
    rw [← hr.2.2]
    exact (ih s.2).wrap dbg r.meta 0 _ _ _ _ _ hd h1
  | debug m r ih => intro s; exact (ih s).wrap dbg r.meta 0
  | elementwise m pair keep bits r ih => intro s; exact ((ih s).wrap dbg r.meta 0).elementwise dbg bits pair keep

theorem learnImpl_depth (dbg : Bool) (r : Red F) : ∀ (s : r.State) (l : Label F), KeepsDepth (fun ft d => r.learnImpl dbg s ft l d) := by
  induction r with
  | coin m =>
    intro s l ft d a ft' d' hd hr
    simp only [Red.learnImpl] at hr
    obtain ⟨f, _, hr⟩ := bind_ok.1 hr
    obtain ⟨_, _, hr⟩ := bind_ok.1 hr
    obtain ⟨_, _, hr⟩ := bind_ok.1 hr
    simp only [Except.ok.injEq, Prod.mk.injEq] at hr
    exact hr.2.2.symm
  | binary m r ih =>
    intro s l ft d a ft' d' hd hr
    simp only [Red.learnImpl] at hr
    obtain ⟨_, _, hr⟩ := bind_ok.1 hr
    exact (ih s _).wrap dbg r.meta 0 _ _ _ _ _ hd hr
  | cbAdf m ty r ih =>
    intro s l ft d a ft' d' hd hr
    simp only [Red.learnImpl] at hr
    obtain ⟨f, _, hr⟩ := bind_ok.1 hr
    obtain ⟨lb, _, hr⟩ := bind_ok.1 hr
    cases ty with
    | ips =>
      simp only at hr
      obtain ⟨⟨s', as, d1⟩, hl, hr⟩ := bind_ok.1 hr
      simp only [Except.ok.injEq, Prod.mk.injEq] at hr
      rw [← hr.2.2]
      exact cbIpsLoop_depth (fun s l => (ih s l).wrap dbg r.meta 0) lb _ _ _ _ _ hd hl
    | mtr =>
      simp only at hr
      obtain ⟨⟨s', f', d1⟩, hl, hr⟩ := bind_ok.1 hr
      simp only [Except.ok.injEq, Prod.mk.injEq] at hr
      rw [← hr.2.2]
      unfold cbMtrLearn at hl
      simp only at hl
      cases hsh : f.shared with
      | none => rw [hsh] at hl; simp at hl
      | some sh =>
        rw [hsh] at hl
        simp only at hl
        obtain ⟨action, _, hl⟩ := bind_ok.1 hl
        obtain ⟨sh1, _, hl⟩ := bind_ok.1 hl
        obtain ⟨⟨s', ft2, d2⟩, h3, hl⟩ := bind_ok.1 hl
        obtain ⟨sh2, _, hl⟩ := bind_ok.1 hl
        obtain ⟨sh3, _, hl⟩ := bind_ok.1 hl
        simp only [Except.ok.injEq, Prod.mk.injEq] at hl
        rw [← hl.2.2]
        exact (ih _ _).wrap dbg r.meta 0 _ _ _ _ _ hd h3
  | greedy m e r ih => intro s l; exact (ih s l).wrap dbg r.meta 0
  | softmax m e lm r ih =>
    intro s l ft d a ft' d' hd hr
    simp only [Red.learnImpl] at hr
    obtain ⟨⟨p, ft1, d1⟩, h1, hr⟩ := bind_ok.1 hr
    simp only [Except.ok.injEq, Prod.mk.injEq] at hr
    rw [← hr.2.2]
    exact (ih s.2 l).wrap dbg r.meta 0 _ _ _ _ _ hd h1
  | squareCb m e gs ge r ih =>
    intro s l ft d a ft' d' hd hr
    simp only [Red.learnImpl] at hr
    obtain ⟨_, _, hr⟩ := bind_ok.1 hr
    obtain ⟨⟨p, ft1, d1⟩, h1, hr⟩ := bind_ok.1 hr
    simp only [Except.ok.injEq, Prod.mk.injEq] at hr
    rw [← hr.2.2]
    exact (ih s.2 _).wrap dbg r.meta 0 _ _ _ _ _ hd h1
  | debug m r ih => intro s l; exact (ih s l).wrap dbg r.meta 0
  | elementwise m pair keep bits r ih => intro s l; exact ((ih s l).wrap dbg r.meta 0).elementwise dbg bits pair keep

theorem defaultPtl_ok {S : Type} {pred : Features F → Depth → M (Prediction F × Features F × Depth)}
    {lrn : Features F → Depth → M (S × Features F × Depth)} {ft : Features F} {d : Depth} {p : Prediction F} {s : S} {ft' : Features F}
    {d' : Depth} (h : defaultPredictThenLearn pred lrn ft d = .ok ((p, s), ft', d')) :
    d' = d ∧ ∃ ft1 d1, pred ft d = .ok (p, ft1, d1) ∧ lrn ft1 d1 = .ok (s, ft', d) := by
  unfold defaultPredictThenLearn at h
  obtain ⟨⟨p', ft1, d1⟩, h1, h⟩ := bind_ok.1 h
  obtain ⟨⟨s', ft2, d2⟩, h2, h⟩ := bind_ok.1 h
  obtain ⟨_, h3, h⟩ := bind_ok.1 h
  simp only [Except.ok.injEq, Prod.mk.injEq] at h
  obtain ⟨⟨rfl, rfl⟩, rfl, rfl⟩ := h
  have : d2 = d := by
    unfold massert at h3
    split at h3
    · simpa using ‹decide _ = true›
    · simp at h3
  subst this
  exact ⟨rfl, ft1, d1, h1, h2⟩

/-- Every `predict_then_learn` that is not overridden. -/
theorem KeepsDepth.default {S : Type} {pred : Features F → Depth → M (Prediction F × Features F × Depth)}
    {lrn : Features F → Depth → M (S × Features F × Depth)} : KeepsDepth (defaultPredictThenLearn pred lrn) := by
  rintro ft d ⟨p, s⟩ ft' d' _ hr
  exact (defaultPtl_ok hr).1

theorem ptlImpl_depth (dbg : Bool) (r : Red F) : ∀ (s : r.State) (l : Label F) (off : Nat),
    KeepsDepth (fun ft d => r.predictThenLearnImpl dbg s ft l d off) := by
  induction r with
  | binary m r ih =>
    intro s l off ft d a ft' d' hd hr
    simp only [Red.predictThenLearnImpl] at hr
    obtain ⟨_, _, hr⟩ := bind_ok.1 hr
    obtain ⟨⟨⟨p, s'⟩, ft1, d1⟩, h1, hr⟩ := bind_ok.1 hr
    obtain ⟨_, _, hr⟩ := bind_ok.1 hr
    simp only [Except.ok.injEq, Prod.mk.injEq] at hr
    rw [← hr.2.2]
    exact (ih s _ 0).wrap dbg r.meta 0 _ _ _ _ _ hd h1
  | debug m r ih => intro s l off; exact (ih s l off).wrap dbg r.meta off
  | elementwise m pair keep bits r ih => intro s l off; exact ((ih s l 0).wrap dbg r.meta 0).elementwise dbg bits pair keep
  | coin m => intro s l off; exact KeepsDepth.default
  | cbAdf m ty r ih => intro s l off; exact KeepsDepth.default
  | greedy m e r ih => intro s l off; exact KeepsDepth.default
  | softmax m e lm r ih => intro s l off; exact KeepsDepth.default
  | squareCb m e gs ge r ih => intro s l off; exact KeepsDepth.default

/-! ### `predict_then_learn` puts features back -/

theorem Nice.default {S : Type} {pred : Features F → Depth → M (Prediction F × Features F × Depth)}
    {lrn : Features F → Depth → M (S × Features F × Depth)} (hp : Nice pred) (hl : Nice lrn) :
    Nice (defaultPredictThenLearn pred lrn) := by
  refine ⟨?_, ?_, ?_, ?_⟩
  · rintro f d ⟨p, s⟩ ft' d' hf hd hr
    obtain ⟨rfl, ft1, d1, h1, h2⟩ := defaultPtl_ok hr
    obtain ⟨rfl, f1, rfl, i1, v1⟩ := hp.simple f _ p ft1 d1 hf hd h1
    obtain ⟨_, f2, rfl, i2, v2⟩ := hl.simple f1 _ s ft' _ i1 hd h2
    refine ⟨rfl, f2, rfl, i2, fun ns => ?_⟩
    rcases v2 ns with h | h
    · rw [h]; exact v1 ns
    · exact Or.inr h
  · rintro f d ⟨p, s⟩ ft' d' hf hd hr
    obtain ⟨rfl, ft1, d1, h1, h2⟩ := defaultPtl_ok hr
    obtain ⟨rfl, f1, rfl, e1⟩ := hp.cb f _ p ft1 d1 hf hd h1
    obtain ⟨_, f2, rfl, e2⟩ := hl.cb f1 _ s ft' _ (hf.of_eqv e1.symm) hd h2
    exact ⟨rfl, f2, rfl, e2.trans e1⟩
  · intro f g d he
    unfold defaultPredictThenLearn
    refine RelM.bind (hp.congrSimple f g d he) ?_
    rintro ⟨p, ft1, d1⟩ ⟨p', gt1, d1'⟩ _ _ ⟨q1, q2, q3⟩
    simp only at q1 q2 q3
    subst q1 q3
    refine RelM.bind (hl.congr q2) ?_
    rintro ⟨s, ft2, d2⟩ ⟨s', gt2, d2'⟩ _ _ ⟨w1, w2, w3⟩
    simp only at w1 w2 w3
    subst w1 w3
    refine RelM.bind (RelM.refl _) ?_
    rintro ⟨⟩ _ _ _ rfl
    exact ⟨rfl, w2, rfl⟩
  · intro f g d he
    unfold defaultPredictThenLearn
    refine RelM.bind (hp.congrCb f g d he) ?_
    rintro ⟨p, ft1, d1⟩ ⟨p', gt1, d1'⟩ _ _ ⟨q1, q2, q3⟩
    simp only at q1 q2 q3
    subst q1 q3
    refine RelM.bind (hl.congr q2) ?_
    rintro ⟨s, ft2, d2⟩ ⟨s', gt2, d2'⟩ _ _ ⟨w1, w2, w3⟩
    simp only at w1 w2 w3
    subst w1 w3
    refine RelM.bind (RelM.refl _) ?_
    rintro ⟨⟩ _ _ _ rfl
    exact ⟨rfl, w2, rfl⟩

theorem ptlImpl_nice (dbg : Bool) (r : Red F) (hp : r.PairsOk) : ∀ (s : r.State) (l : Label F) (off : Nat),
    Nice (fun ft d => r.predictThenLearnImpl dbg s ft l d off) := by
  induction r with
  | binary m r ih =>
    intro s l off
    simp only [Red.predictThenLearnImpl]
    cases l.asBinary with
    | error e => exact Nice.fail e
    | ok b =>
      have := ((ih hp s (.simple (binaryToSimple b)) 0).wrap dbg r.meta 0).map (fun (x : Prediction F × r.State) => do
        let y ← x.1.asScalar
        .ok ((Prediction.binary (F := F) (Flt.lt Flt.zero y.1), x.2) : Prediction F × r.State))
      convert this using 1
      funext ft d
      simp only [bind, Except.bind]
      cases wrapCall dbg r.meta ft d 0 (fun ft d => r.predictThenLearnImpl dbg s ft (.simple (binaryToSimple b)) d 0) with
      | error e => rfl
      | ok x => simp only; cases x.1.1.asScalar <;> rfl
  | debug m r ih => intro s l off; exact (ih hp s l off).wrap dbg r.meta off
  | elementwise m pair keep bits r ih =>
    intro s l off; exact ((ih hp.2 s l 0).wrap dbg r.meta 0).elementwise dbg bits pair keep hp.1
  | coin m => intro s l off; exact Nice.default (predictImpl_nice dbg _ hp s) (learnImpl_nice dbg _ hp s l)
  | cbAdf m ty r ih => intro s l off; exact Nice.default (predictImpl_nice dbg _ hp s) (learnImpl_nice dbg _ hp s l)
  | greedy m e r ih => intro s l off; exact Nice.default (predictImpl_nice dbg _ hp s) (learnImpl_nice dbg _ hp s l)
  | softmax m e lm r ih => intro s l off; exact Nice.default (predictImpl_nice dbg _ hp s) (learnImpl_nice dbg _ hp s l)
  | squareCb m e gs ge r ih => intro s l off; exact Nice.default (predictImpl_nice dbg _ hp s) (learnImpl_nice dbg _ hp s l)

/-! ### `predict_then_learn` is `predict` and `learn` -/

/-- The call returns the value `a`. -/
def Runs {α : Type} (x : M (α × Features F × Depth)) (a : α) : Prop := ∃ ft' d', x = .ok (a, ft', d')

/-- Features as they occur inside a stack: composite namespaces are not visible. -/
def Good : Features F → Prop
  | .simple f => f.Inv0 ∧ ∀ ns, ns.isRaw = true → (f.vw ns).2.2 = false
  | .cbAdf f => CbGood f

/-- The check of the debug profile on unchanged features. -/
def SelfOk (dbg : Bool) (ft : Features F) : Prop := debugAssert dbg (ft.absDiffEq ft Flt.epsilon) = .ok ()

theorem Nice.assert_eq {α : Type} {body : Features F → Depth → M (α × Features F × Depth)} (h : Nice body) {ft ft' : Features F}
    (hg : Good ft) {d d' : Depth} (hd : d < 256) {a : α} (hb : body ft d = .ok (a, ft', d')) (eps : F) :
    d' = d ∧ ft'.absDiffEq ft eps = ft.absDiffEq ft eps := by
  cases ft with
  | simple f =>
    obtain ⟨rfl, f', rfl, i, v⟩ := h.simple f d a ft' d' hg.1 hd hb
    refine ⟨rfl, ?_⟩
    have hk : f'.activeKeys = f.activeKeys := by
      refine eq_of_sorted_mem Namespace.rank (activeKeys_sorted i) (activeKeys_sorted hg.1) (fun ns => ?_)
      rw [mem_activeKeys i, mem_activeKeys hg.1]
      rcases v ns with hv | ⟨hr, hv⟩
      · rw [hv]
      · rw [hv, hg.2 ns hr]; simp [noView]
    simp only [Features.absDiffEq]
    rw [absDiffEq_vw i hg.1, absDiffEq_vw hg.1 hg.1, hk]
    congr 1
    rw [Bool.eq_iff_iff, List.all_eq_true, List.all_eq_true]
    refine forall₂_congr (fun ns hns => ?_)
    rw [← hk, mem_activeKeys i] at hns
    rcases v ns with hv | ⟨hr, hv⟩
    · rw [hv]
    · rw [hv] at hns; simp [noView] at hns
  | cbAdf f =>
    obtain ⟨rfl, f', rfl, e⟩ := h.cb f d a ft' d' hg hd hb
    exact ⟨rfl, ftAbsDiffEq_congr (FtEqv.cb e) (FtEqv.cb (CbEqv.refl hg)) eps⟩

theorem wrapCall_runs {α : Type} {body : Features F → Depth → M (α × Features F × Depth)} (h : Nice body) {dbg : Bool} {m : Meta}
    {ft : Features F} (hg : Good ft) {d : Depth} {off : Nat} {a : α} :
    Runs (wrapCall dbg m ft d off body) a ↔ SelfOk dbg ft ∧ ∃ d1, Depth.increment dbg d m.numModelsBelow off = .ok d1 ∧
      (∃ d3, Depth.decrement dbg d1 m.numModelsBelow off = .ok d3) ∧ Runs (body ft d1) a := by
  constructor
  · rintro ⟨ft', d', hr⟩
    obtain ⟨d1, d2, h1, h2, h3, h4⟩ := wrapCall_ok hr
    obtain ⟨rfl, h5⟩ := h.assert_eq hg (increment_lt h1) h2 Flt.epsilon
    simp only at h4 h3
    rw [h5] at h4
    exact ⟨h4, d2, h1, ⟨_, h3⟩, ft', d2, h2⟩
  · rintro ⟨h4, d1, h1, ⟨d3, h3⟩, ft', d2, h2⟩
    obtain ⟨rfl, h5⟩ := h.assert_eq hg (increment_lt h1) h2 Flt.epsilon
    refine ⟨ft', d3, ?_⟩
    unfold wrapCall
    rw [h1, ok_bind, h2, ok_bind]
    simp only
    rw [h3, ok_bind, h5, h4, ok_bind]

/-- The features ElementwiseInteraction hands to its base (`elementwise_interaction.rs:179-199`). -/
def elementwisePrep (dbg : Bool) (numBits : Nat) (pair : Namespace × Namespace) (keep : Bool) (f : SparseFeatures F) :
    M (SparseFeatures F × NsFeats F × NsFeats F) := do
  let (cns, dest) ← elementwiseMultiply dbg numBits f pair.1 pair.2
  let f := f.setNamespace cns dest
  if keep then .ok (f, NsFeats.new .default, NsFeats.new .default) else do
    let n1 ← unwrapOpt (f.removeNamespace pair.1).1
    let f := (f.removeNamespace pair.1).2
    let n2 ← unwrapOpt (f.removeNamespace pair.2).1
    let f := (f.removeNamespace pair.2).2
    .ok (f, n1, n2)

/-- Putting things back. -/
def elementwiseBack (pair : Namespace × Namespace) (keep : Bool) (n1 n2 : NsFeats F) (f' : SparseFeatures F) : SparseFeatures F :=
  let cns := Namespace.rawHash (compositeHash pair.1 pair.2)
  if keep then (f'.removeNamespace cns).2 else ((f'.removeNamespace cns).2.setNamespace pair.1 n1).setNamespace pair.2 n2

theorem elementwiseWith_eq {α : Type} (dbg : Bool) (numBits : Nat) (pair : Namespace × Namespace) (keep : Bool)
    (body : Features F → Depth → M (α × Features F × Depth)) (f : SparseFeatures F) (d : Depth) :
    elementwiseWith dbg numBits pair keep body (.simple f) d = (do
      let x ← elementwisePrep dbg numBits pair keep f
      let r ← body (.simple x.1) d
      let f' ← r.2.1.asSimple
      .ok (r.1, .simple (elementwiseBack pair keep x.2.1 x.2.2 f'), r.2.2)) := by
  unfold elementwiseWith elementwisePrep
  simp only [Features.asSimple]
  rw [ok_bind]
  cases hm : elementwiseMultiply dbg numBits f pair.1 pair.2 with
  | error e => rfl
  | ok x =>
    obtain ⟨cns, dest⟩ := x
    have hc := (elementwiseMultiply_ok hm).1
    simp only at hc
    subst hc
    rw [ok_bind]
    simp only
    cases keep with
    | true => rfl
    | false =>
      simp only [Bool.false_eq_true, if_false]
      rw [ok_bind]
      cases unwrapOpt ((f.setNamespace _ dest).removeNamespace pair.1).1 with
      | error e => rfl
      | ok n1 =>
        rw [ok_bind, ok_bind]
        cases unwrapOpt (((f.setNamespace _ dest).removeNamespace pair.1).2.removeNamespace pair.2).1 with
        | error e => rfl
        | ok n2 => rfl

theorem elementwisePrep_good {dbg : Bool} {numBits : Nat} {pair : Namespace × Namespace} {keep : Bool} {f : SparseFeatures F}
    (hf : f.Inv0) (hr : ∀ ns, ns.isRaw = true → (f.vw ns).2.2 = false) {x : SparseFeatures F × NsFeats F × NsFeats F}
    (h : elementwisePrep dbg numBits pair keep f = .ok x) : Good (.simple x.1) := by
  unfold elementwisePrep at h
  obtain ⟨⟨cns, dest⟩, hm, h⟩ := bind_ok.1 h
  obtain ⟨h1, h2, h3, h4, _⟩ := elementwiseMultiply_ok hm
  simp only at h1 h2 h3 h4 h
  have hg : Good (.simple (f.setNamespace cns dest)) := by
    refine ⟨setNamespace_inv0 hf h2 h3, fun ns hns => ?_⟩
    rw [vw_setNamespace]
    split
    · exact h4
    · exact hr ns hns
  have hrm : ∀ (g : SparseFeatures F) ns, Good (.simple g) → Good (.simple (g.removeNamespace ns).2) := by
    intro g ns hg
    refine ⟨removeNamespace_inv0 hg.1 ns, fun k hk => ?_⟩
    rw [vw_removeNamespace hg.1]
    split
    · rfl
    · exact hg.2 k hk
  cases keep with
  | true => simp at h; subst h; exact hg
  | false =>
    simp only [Bool.false_eq_true, if_false] at h
    obtain ⟨n1, _, h⟩ := bind_ok.1 h
    obtain ⟨n2, _, h⟩ := bind_ok.1 h
    simp only [Except.ok.injEq] at h
    subst h
    exact hrm _ _ (hrm _ _ hg)

theorem elementwise_runs {α : Type} {body : Features F → Depth → M (α × Features F × Depth)} (h : Nice body) {dbg : Bool} {numBits : Nat}
    {pair : Namespace × Namespace} {keep : Bool} {f : SparseFeatures F} (hg : Good (.simple f)) {d : Depth} (hd : d < 256) {a : α} :
    Runs (elementwiseWith dbg numBits pair keep body (.simple f) d) a ↔
      ∃ x, elementwisePrep dbg numBits pair keep f = .ok x ∧ Runs (body (.simple x.1) d) a := by
  rw [elementwiseWith_eq]
  constructor
  · rintro ⟨ft', d', hr⟩
    obtain ⟨x, hx, hr⟩ := bind_ok.1 hr
    obtain ⟨⟨a', ft1, d1⟩, h1, hr⟩ := bind_ok.1 hr
    obtain ⟨f', _, hr⟩ := bind_ok.1 hr
    simp only [Except.ok.injEq, Prod.mk.injEq] at hr
    obtain ⟨rfl, _⟩ := hr
    exact ⟨x, hx, ft1, d1, h1⟩
  · rintro ⟨x, hx, ft1, d1, h1⟩
    have hgx := elementwisePrep_good hg.1 hg.2 hx
    obtain ⟨_, f', rfl, _⟩ := h.simple _ _ _ _ _ hgx.1 hd h1
    rw [hx, ok_bind, h1, ok_bind]
    exact ⟨_, _, rfl⟩

/-- `ptl` computes what `pred` and `lrn` compute. -/
def Agree {S : Type} (pred : Features F → Depth → M (Prediction F × Features F × Depth))
    (lrn : Features F → Depth → M (S × Features F × Depth)) (ptl : Features F → Depth → M ((Prediction F × S) × Features F × Depth)) : Prop :=
  ∀ ft d p s, Good ft → d < 256 → (Runs (ptl ft d) (p, s) ↔ Runs (pred ft d) p ∧ Runs (lrn ft d) s)

theorem Agree.wrap {S : Type} {pred : Features F → Depth → M (Prediction F × Features F × Depth)}
    {lrn : Features F → Depth → M (S × Features F × Depth)} {ptl : Features F → Depth → M ((Prediction F × S) × Features F × Depth)}
    (h : Agree pred lrn ptl) (np : Nice pred) (nl : Nice lrn) (nt : Nice ptl) (dbg : Bool) (m : Meta) (off : Nat) :
    Agree (fun ft d => wrapCall dbg m ft d off pred) (fun ft d => wrapCall dbg m ft d off lrn)
      (fun ft d => wrapCall dbg m ft d off ptl) := by
  intro ft d p s hg hd
  rw [wrapCall_runs np hg, wrapCall_runs nl hg, wrapCall_runs nt hg]
  constructor
  · rintro ⟨h1, d1, h2, h3, h4⟩
    have := (h ft d1 p s hg (increment_lt h2)).1 h4
    exact ⟨⟨h1, d1, h2, h3, this.1⟩, ⟨h1, d1, h2, h3, this.2⟩⟩
  · rintro ⟨⟨h1, d1, h2, h3, h4⟩, _, d1', h2', _, h4'⟩
    rw [h2] at h2'
    simp only [Except.ok.injEq] at h2'
    subst h2'
    exact ⟨h1, d1, h2, h3, (h ft d1 p s hg (increment_lt h2)).2 ⟨h4, h4'⟩⟩

theorem Agree.elementwise {S : Type} {pred : Features F → Depth → M (Prediction F × Features F × Depth)}
    {lrn : Features F → Depth → M (S × Features F × Depth)} {ptl : Features F → Depth → M ((Prediction F × S) × Features F × Depth)}
    (h : Agree pred lrn ptl) (np : Nice pred) (nl : Nice lrn) (nt : Nice ptl) (dbg : Bool) (bits : Nat) (pair : Namespace × Namespace)
    (keep : Bool) :
    Agree (elementwiseWith dbg bits pair keep pred) (elementwiseWith dbg bits pair keep lrn) (elementwiseWith dbg bits pair keep ptl) := by
  intro ft d p s hg hd
  cases ft with
  | cbAdf f =>
    constructor
    · rintro ⟨ft', d', hr⟩
      unfold elementwiseWith at hr
      obtain ⟨_, hx, _⟩ := bind_ok.1 hr
      simp [Features.asSimple] at hx
    · rintro ⟨⟨ft', d', hr⟩, _⟩
      unfold elementwiseWith at hr
      obtain ⟨_, hx, _⟩ := bind_ok.1 hr
      simp [Features.asSimple] at hx
  | simple f =>
    rw [elementwise_runs np hg hd, elementwise_runs nl hg hd, elementwise_runs nt hg hd]
    constructor
    · rintro ⟨x, h1, h2⟩
      have := (h _ d p s (elementwisePrep_good hg.1 hg.2 h1) hd).1 h2
      exact ⟨⟨x, h1, this.1⟩, x, h1, this.2⟩
    · rintro ⟨⟨x, h1, h2⟩, x', h1', h2'⟩
      rw [h1] at h1'
      simp only [Except.ok.injEq] at h1'
      subst h1'
      exact ⟨x, h1, (h _ d p s (elementwisePrep_good hg.1 hg.2 h1) hd).2 ⟨h2, h2'⟩⟩

theorem Agree.default {S : Type} {pred : Features F → Depth → M (Prediction F × Features F × Depth)}
    {lrn : Features F → Depth → M (S × Features F × Depth)} (np : Nice pred) (nl : Nice lrn)
    (hs : ∀ f d p ft1 d1, pred (.simple f) d = .ok (p, ft1, d1) → ft1 = .simple f) :
    Agree pred lrn (defaultPredictThenLearn pred lrn) := by
  have key : ∀ ft d p ft1 d1, Good ft → d < 256 → pred ft d = .ok (p, ft1, d1) → ∀ s, (Runs (lrn ft d) s ↔ Runs (lrn ft1 d) s) := by
    intro ft d p ft1 d1 hg hd h1 s
    cases ft with
    | simple f => rw [hs _ _ _ _ _ h1]
    | cbAdf f =>
      obtain ⟨rfl, f1, rfl, e⟩ := np.cb f d p ft1 d1 hg hd h1
      have := nl.congrCb f f1 d1 e.symm
      constructor
      · rintro ⟨ft', d', hr⟩
        obtain ⟨⟨s', gt, e'⟩, h2, h3, _⟩ := this.ok_left hr
        simp only at h3
        subst h3
        exact ⟨_, _, h2⟩
      · rintro ⟨ft', d', hr⟩
        have := nl.congrCb f1 f d1 e
        obtain ⟨⟨s', gt, e'⟩, h2, h3, _⟩ := this.ok_left hr
        simp only at h3
        subst h3
        exact ⟨_, _, h2⟩
  intro ft d p s hg hd
  have hkeep : ∀ ft1 d1, pred ft d = .ok (p, ft1, d1) → d1 = d := fun ft1 d1 h1 => (np.assert_eq hg hd h1 Flt.epsilon).1
  constructor
  · rintro ⟨ft', d', hr⟩
    obtain ⟨rfl, ft1, d1, h1, h2⟩ := defaultPtl_ok hr
    have := hkeep _ _ h1
    subst this
    exact ⟨⟨_, _, h1⟩, (key _ _ _ _ _ hg hd h1 s).2 ⟨_, _, h2⟩⟩
  · rintro ⟨⟨ft1, d1, h1⟩, h2⟩
    have := hkeep _ _ h1
    subst this
    obtain ⟨ft2, d2, h3⟩ := (key _ _ _ _ _ hg hd h1 s).1 h2
    have hg1 : Good ft1 := by
      cases ft with
      | simple f => rw [hs _ _ _ _ _ h1]; exact hg
      | cbAdf f =>
        obtain ⟨_, f1, rfl, e⟩ := np.cb f d1 p ft1 d1 hg hd h1
        exact CbGood.of_eqv hg e.symm
    have := (nl.assert_eq hg1 hd h3 Flt.epsilon).1
    subst this
    refine ⟨ft2, d2, ?_⟩
    unfold defaultPredictThenLearn
    rw [h1, ok_bind]
    simp only
    rw [h3, ok_bind]
    simp [massert, bind, Except.bind]

theorem elementwiseWith_simple {α : Type} {dbg : Bool} {bits : Nat} {pair : Namespace × Namespace} {keep : Bool}
    {body : Features F → Depth → M (α × Features F × Depth)} {ft : Features F} {d : Depth} {r : α × Features F × Depth}
    (h : elementwiseWith dbg bits pair keep body ft d = .ok r) : ∃ f1 ft2, body (.simple f1) d = .ok (r.1, ft2, r.2.2) := by
  cases ft with
  | cbAdf f =>
    unfold elementwiseWith at h
    obtain ⟨_, hx, _⟩ := bind_ok.1 h
    simp [Features.asSimple] at hx
  | simple f =>
    rw [elementwiseWith_eq] at h
    obtain ⟨x, hx, h⟩ := bind_ok.1 h
    obtain ⟨⟨a', ft1, d1⟩, h1, h⟩ := bind_ok.1 h
    obtain ⟨f', _, h⟩ := bind_ok.1 h
    simp only [Except.ok.injEq] at h
    subst h
    exact ⟨x.1, ft1, h1⟩

theorem simple_no_scores (dbg : Bool) (r : Red F) : ∀ (s : r.State) (f : SparseFeatures F) (d : Depth) (sc : List (Nat × F)),
    ¬ Runs (r.predictImpl dbg s (.simple f) d) (.actionScores sc) := by
  induction r with
  | coin m =>
    rintro s f d sc ⟨ft', d', h⟩
    unfold Red.predictImpl at h
    obtain ⟨_, _, h⟩ := bind_ok.1 h
    obtain ⟨_, _, h⟩ := bind_ok.1 h
    simp at h
  | binary m r ih =>
    rintro s f d sc ⟨ft', d', h⟩
    unfold Red.predictImpl at h
    obtain ⟨_, _, h⟩ := bind_ok.1 h
    obtain ⟨_, _, h⟩ := bind_ok.1 h
    simp at h
  | cbAdf m ty r ih =>
    rintro s f d sc ⟨ft', d', h⟩
    unfold Red.predictImpl at h
    obtain ⟨_, hx, h⟩ := bind_ok.1 h
    simp [Features.asCb] at hx
  | greedy m e r ih =>
    rintro s f d sc ⟨ft', d', h⟩
    unfold Red.predictImpl at h
    obtain ⟨_, _, h⟩ := bind_ok.1 h
    obtain ⟨_, _, h⟩ := bind_ok.1 h
    obtain ⟨_, _, h⟩ := bind_ok.1 h
    simp at h
  | softmax m e l r ih =>
    rintro s f d sc ⟨ft', d', h⟩
    unfold Red.predictImpl at h
    obtain ⟨_, _, h⟩ := bind_ok.1 h
    obtain ⟨_, _, h⟩ := bind_ok.1 h
    obtain ⟨_, _, h⟩ := bind_ok.1 h
    simp at h
  | squareCb m e gs ge r ih =>
    rintro s f d sc ⟨ft', d', h⟩
    unfold Red.predictImpl at h
    obtain ⟨_, _, h⟩ := bind_ok.1 h
    obtain ⟨_, _, h⟩ := bind_ok.1 h
    obtain ⟨_, _, h⟩ := bind_ok.1 h
    simp at h
  | debug m r ih =>
    rintro s f d sc ⟨ft', d', h⟩
    unfold Red.predictImpl at h
    obtain ⟨d1, d2, _, h1, _, _⟩ := wrapCall_ok h
    exact ih _ _ _ _ ⟨_, _, h1⟩
  | elementwise m pair keep bits r ih =>
    rintro s f d sc ⟨ft', d', h⟩
    unfold Red.predictImpl at h
    obtain ⟨f1, ft2, h⟩ := elementwiseWith_simple h
    obtain ⟨d1, d2, _, h1, _, _⟩ := wrapCall_ok h
    exact ih _ _ _ _ ⟨_, _, h1⟩

theorem binary_agree {dbg : Bool} {m : Meta} {r : Red F}
    (ih : ∀ (s : r.State) (l : Label F), Agree (r.predictImpl dbg s) (fun ft d => r.learnImpl dbg s ft l d)
      (fun ft d => r.predictThenLearnImpl dbg s ft l d 0)) (hp : r.PairsOk) (s : r.State) (l : Label F) :
    Agree ((Red.binary m r).predictImpl dbg s) (fun ft d => (Red.binary m r).learnImpl dbg s ft l d)
      (fun ft d => (Red.binary m r).predictThenLearnImpl dbg s ft l d 0) := by
  intro ft d p s' hg hd
  simp only [Red.predictImpl, Red.learnImpl, Red.predictThenLearnImpl]
  cases hb : l.asBinary with
  | error e =>
    constructor
    · rintro ⟨_, _, h⟩; simp [bind, Except.bind] at h
    · rintro ⟨_, _, _, h⟩; simp [bind, Except.bind] at h
  | ok b =>
    have ha := (ih s (.simple (binaryToSimple b))).wrap (predictImpl_nice dbg r hp s) (learnImpl_nice dbg r hp s _)
      (ptlImpl_nice dbg r hp s _ 0) dbg r.meta 0
    rw [ok_bind, ok_bind]
    constructor
    · rintro ⟨ft', d', h⟩
      obtain ⟨⟨⟨p0, s0⟩, ft1, d1⟩, h1, h⟩ := bind_ok.1 h
      obtain ⟨⟨pr, _⟩, h2, h⟩ := bind_ok.1 h
      simp only [Except.ok.injEq, Prod.mk.injEq] at h
      obtain ⟨⟨rfl, rfl⟩, _⟩ := h
      obtain ⟨⟨ft2, d2, g1⟩, g2⟩ := (ha ft d p0 s0 hg hd).1 ⟨_, _, h1⟩
      refine ⟨⟨ft2, d2, ?_⟩, g2⟩
      simp only at g1 h2
      rw [g1, ok_bind]
      simp only
      rw [h2, ok_bind]
    · rintro ⟨⟨ft', d', h⟩, g2⟩
      obtain ⟨⟨p0, ft1, d1⟩, h1, h⟩ := bind_ok.1 h
      obtain ⟨⟨pr, _⟩, h2, h⟩ := bind_ok.1 h
      simp only [Except.ok.injEq, Prod.mk.injEq] at h
      obtain ⟨rfl, _⟩ := h
      obtain ⟨ft2, d2, g1⟩ := (ha ft d p0 s' hg hd).2 ⟨⟨_, _, h1⟩, g2⟩
      refine ⟨ft2, d2, ?_⟩
      simp only at g1 h2
      rw [g1, ok_bind]
      simp only
      rw [h2, ok_bind]

theorem ptl_agree (dbg : Bool) (r : Red F) (hp : r.PairsOk) : ∀ (s : r.State) (l : Label F),
    Agree (r.predictImpl dbg s) (fun ft d => r.learnImpl dbg s ft l d) (fun ft d => r.predictThenLearnImpl dbg s ft l d 0) := by
  induction r with
  | coin m =>
    intro s l
    refine Agree.default (predictImpl_nice dbg _ hp s) (learnImpl_nice dbg _ hp s l) ?_
    intro f d p ft1 d1 h
    unfold Red.predictImpl at h
    obtain ⟨_, _, h⟩ := bind_ok.1 h
    obtain ⟨_, _, h⟩ := bind_ok.1 h
    simp only [Except.ok.injEq, Prod.mk.injEq] at h
    exact h.2.1.symm
  | binary m r ih => intro s l; exact binary_agree (ih hp) hp s l
  | cbAdf m ty r ih =>
    intro s l
    refine Agree.default (predictImpl_nice dbg _ hp s) (learnImpl_nice dbg _ hp s l) ?_
    intro f d p ft1 d1 h
    unfold Red.predictImpl at h
    obtain ⟨_, hx, h⟩ := bind_ok.1 h
    simp [Features.asCb] at hx
  | greedy m e r ih =>
    intro s l
    refine Agree.default (predictImpl_nice dbg _ hp s) (learnImpl_nice dbg _ hp s l) ?_
    intro f d p ft1 d1 h
    unfold Red.predictImpl at h
    obtain ⟨⟨p0, _, _⟩, hx, h⟩ := bind_ok.1 h
    obtain ⟨sc, hsc, h⟩ := bind_ok.1 h
    rw [asScores_ok hsc] at hx
    obtain ⟨_, _, _, h1, _, _⟩ := wrapCall_ok hx
    exact absurd ⟨_, _, h1⟩ (simple_no_scores dbg r _ _ _ _)
  | softmax m e l r ih =>
    intro s l
    refine Agree.default (predictImpl_nice dbg _ hp s) (learnImpl_nice dbg _ hp s l) ?_
    intro f d p ft1 d1 h
    unfold Red.predictImpl at h
    obtain ⟨⟨p0, _, _⟩, hx, h⟩ := bind_ok.1 h
    obtain ⟨sc, hsc, h⟩ := bind_ok.1 h
    rw [asScores_ok hsc] at hx
    obtain ⟨_, _, _, h1, _, _⟩ := wrapCall_ok hx
    exact absurd ⟨_, _, h1⟩ (simple_no_scores dbg r _ _ _ _)
  | squareCb m e gs ge r ih =>
    intro s l
    refine Agree.default (predictImpl_nice dbg _ hp s) (learnImpl_nice dbg _ hp s l) ?_
    intro f d p ft1 d1 h
    unfold Red.predictImpl at h
    obtain ⟨⟨p0, _, _⟩, hx, h⟩ := bind_ok.1 h
    obtain ⟨sc, hsc, h⟩ := bind_ok.1 h
    rw [asScores_ok hsc] at hx
    obtain ⟨_, _, _, h1, _, _⟩ := wrapCall_ok hx
    exact absurd ⟨_, _, h1⟩ (simple_no_scores dbg r _ _ _ _)
  | debug m r ih =>
    intro s l
    exact (ih hp s l).wrap (predictImpl_nice dbg r hp s) (learnImpl_nice dbg r hp s l) (ptlImpl_nice dbg r hp s l 0) dbg r.meta 0
  | elementwise m pair keep bits r ih =>
    intro s l
    have hp' := hp.2
    exact ((ih hp' s l).wrap (predictImpl_nice dbg r hp' s) (learnImpl_nice dbg r hp' s l) (ptlImpl_nice dbg r hp' s l 0) dbg r.meta
      0).elementwise ((predictImpl_nice dbg r hp' s).wrap dbg r.meta 0) ((learnImpl_nice dbg r hp' s l).wrap dbg r.meta 0)
      ((ptlImpl_nice dbg r hp' s l 0).wrap dbg r.meta 0) dbg bits pair keep

/-! ### Stacks that come from a configuration -/

theorem toNamespace_notRaw (hash : HashFn) (seed : U32) (n : NamespaceDef) : (n.toNamespace hash seed).isRaw = false := by
  cases n <;> rfl

end Rml
