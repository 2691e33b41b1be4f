import Verif.Lemmas.Create

/-! Helper lemmas: type mismatches do not happen in created stacks. -/

set_option linter.unusedSectionVars false

namespace Rml
open SparseFeatures
variable {F : Type}

/-- No type mismatch. -/
def NTM {α : Type} (x : M α) : Prop := x ≠ .error .typeMismatch

theorem NTM.ok {α : Type} (a : α) : NTM (.ok a : M α) := by simp [NTM]
theorem NTM.err {α : Type} {e : Panic} (h : e ≠ .typeMismatch) : NTM (.error e : M α) := by simpa [NTM] using h

theorem NTM.bind {α β : Type} {x : M α} {f : α → M β} (hx : NTM x) (hf : ∀ a, x = .ok a → NTM (f a)) : NTM (x >>= f) := by
  cases x with
  | error e => simpa [NTM, Bind.bind, Except.bind] using hx
  | ok a => exact hf a rfl

theorem NTM.ite {α : Type} {c : Prop} [Decidable c] {x y : M α} (hx : NTM x) (hy : NTM y) : NTM (if c then x else y) := by
  split <;> assumption

theorem NTM.unwrapOpt {α : Type} (o : Option α) : NTM (unwrapOpt o) := by
  cases o <;> simp [NTM, Rml.unwrapOpt]

theorem NTM.foldlM {α β : Type} (f : β → α → M β) (hf : ∀ b a, NTM (f b a)) (l : List α) : ∀ b, NTM (l.foldlM f b) := by
  induction l with
  | nil => intro b; exact NTM.ok b
  | cons a t ih => intro b; rw [List.foldlM_cons]; exact NTM.bind (hf b a) (fun c _ => ih c)

theorem NTM.debugAssert (dbg b : Bool) : NTM (debugAssert dbg b) := NTM.ite (NTM.err (by simp)) (NTM.ok _)
theorem NTM.massert (b : Bool) : NTM (massert b) := NTM.ite (NTM.ok _) (NTM.err (by simp))

variable [Flt F]

theorem NTM.clamp (x lo hi : F) : NTM (Flt.clamp x lo hi) := NTM.ite (NTM.ok _) (NTM.err (by simp))

theorem NTM.convertIndex (dbg : Bool) (w : DenseWeights F) (a b : Nat) : NTM (w.convertIndex dbg a b) :=
  NTM.bind (NTM.debugAssert _ _) (fun _ _ => NTM.bind (NTM.debugAssert _ _) (fun _ _ => NTM.ok _))

theorem NTM.weightAt (dbg : Bool) (w : DenseWeights F) (a b : Nat) : NTM (w.weightAt dbg a b) := by
  refine NTM.bind (NTM.convertIndex _ _ _ _) (fun i _ => ?_)
  split
  · exact NTM.ok _
  · exact NTM.err (by simp)

theorem NTM.stateAt (dbg : Bool) (w : DenseWeights F) (a b : Nat) : NTM (w.stateAt dbg a b) :=
  NTM.bind (NTM.convertIndex _ _ _ _) (fun _ _ => NTM.ite (NTM.ok _) (NTM.err (by simp)))

theorem NTM.setStateAt (dbg : Bool) (w : DenseWeights F) (a b : Nat) (s : List F) : NTM (w.setStateAt dbg a b s) :=
  NTM.bind (NTM.convertIndex _ _ _ _) (fun _ _ => NTM.ite (NTM.ite (NTM.ok _) (NTM.err (by simp))) (NTM.err (by simp)))

theorem NTM.ofList (l : List F) : NTM (Coin.WState.ofList l) := by
  unfold Coin.WState.ofList
  split
  · exact NTM.ok _
  · exact NTM.err (by simp)

theorem NTM.coinPredict (dbg : Bool) (c : Coin F) (f : SparseFeatures F) : NTM (c.predict dbg f) := by
  unfold Coin.predict
  refine NTM.bind (NTM.foldlM _ (fun _ _ => NTM.bind (NTM.weightAt _ _ _ _) (fun _ _ => NTM.ok _)) _ _) (fun _ _ => ?_)
  exact NTM.bind (NTM.clamp _ _ _) (fun _ _ => NTM.ok _)

theorem NTM.coinLearn (dbg : Bool) (c : Coin F) (f : SparseFeatures F) (l w : F) : NTM (c.learn dbg f l w) := by
  unfold Coin.learn
  refine NTM.bind ?_ (fun x _ => ?_)
  · unfold Coin.bettingPredict
    refine NTM.bind (NTM.foldlM _ (fun _ _ => NTM.bind (NTM.stateAt _ _ _ _) (fun _ _ =>
      NTM.bind (NTM.ofList _) (fun _ _ => NTM.ok _))) _ _) (fun _ _ => ?_)
    simp only
    split
    · exact NTM.err (by simp)
    · exact NTM.bind (NTM.clamp _ _ _) (fun _ _ => NTM.ok _)
  · unfold Coin.updateAfterPredict
    refine NTM.bind (NTM.foldlM _ (fun _ _ => NTM.bind (NTM.stateAt _ _ _ _) (fun _ _ =>
      NTM.bind (NTM.bind (NTM.ofList _) (fun _ _ => NTM.ok _)) (fun _ _ =>
        NTM.bind (NTM.setStateAt _ _ _ _ _) (fun _ _ => NTM.ok _)))) _ _) (fun _ _ => NTM.ok _)

theorem NTM.u8Mul (dbg : Bool) (a b : Nat) : NTM (u8Mul dbg a b) := NTM.ite (NTM.err (by simp)) (NTM.ok _)
theorem NTM.increment (dbg : Bool) (d : Depth) (n i : Nat) : NTM (d.increment dbg n i) :=
  NTM.bind (NTM.u8Mul _ _ _) (fun _ _ => NTM.ite (NTM.err (by simp)) (NTM.ok _))
theorem NTM.decrement (dbg : Bool) (d : Depth) (n i : Nat) : NTM (d.decrement dbg n i) :=
  NTM.bind (NTM.u8Mul _ _ _) (fun _ _ => NTM.ite (NTM.err (by simp)) (NTM.ok _))

theorem NTM.append (a s : SparseFeatures F) : NTM (a.append s) := by
  refine NTM.foldlM _ (fun b e => ?_) _ _
  unfold appendStep
  refine NTM.ite (NTM.bind ?_ (fun _ _ => NTM.ok _)) (NTM.ok _)
  exact NTM.ite (NTM.ok _) (NTM.err (by simp))

theorem NTM.remove (a s : SparseFeatures F) : NTM (a.remove s) := by
  refine NTM.foldlM _ (fun b e => ?_) _ _
  unfold removeStep
  exact NTM.ite (NTM.ite (NTM.err (by simp)) (NTM.ok _)) (NTM.ok _)

theorem NTM.appendShared (s : Option (SparseFeatures F)) (a : SparseFeatures F) : NTM (appendShared s a) := by
  cases s with
  | none => exact NTM.ok _
  | some s => exact NTM.append _ _

theorem NTM.removeShared (s : Option (SparseFeatures F)) (a : SparseFeatures F) : NTM (removeShared s a) := by
  cases s with
  | none => exact NTM.ok _
  | some s => exact NTM.remove _ _

theorem NTM.cmpCheck (l : List F) : NTM (cmpCheck l) := NTM.ite (NTM.err (by simp)) (NTM.ok _)

theorem NTM.rhoLoop (cz : Bool) (sup : Nat) (m : F) (l : List F) : ∀ s, NTM (rhoLoop cz sup m l s) := by
  induction l with
  | nil => intro s; exact NTM.ok _
  | cons p ps ih =>
    intro s
    unfold Rml.rhoLoop
    exact NTM.ite (NTM.ok _) (NTM.ite (NTM.err (by simp)) (ih _))

theorem NTM.enforceMinProb (eps : F) (cz : Bool) (l : List (Nat × F)) : NTM (enforceMinProb eps cz l) := by
  unfold Rml.enforceMinProb
  refine NTM.ite (NTM.ok _) (NTM.ite (NTM.ok _) (NTM.ite (NTM.ok _) ?_))
  refine NTM.ite (NTM.ok _) (NTM.bind (NTM.cmpCheck _) (fun _ _ => ?_))
  split
  · exact NTM.err (by simp)
  · exact NTM.bind (NTM.rhoLoop _ _ _ _ _) (fun _ _ => NTM.ok _)

theorem NTM.enforceUnwrap (eps : F) (l : List (Nat × F)) : NTM (enforceUnwrap eps l) :=
  NTM.bind (NTM.enforceMinProb _ _ _) (fun _ _ => NTM.unwrapOpt _)

theorem NTM.greedyProbs (eps : F) (l : List (Nat × F)) : NTM (greedyProbs eps l) := by
  refine NTM.bind (NTM.unwrapOpt _) (fun _ _ => ?_)
  dsimp only
  split
  · exact NTM.ok _
  · exact NTM.err (by simp)

theorem NTM.softmaxProbs (lm eps : F) (l : List (Nat × F)) : NTM (softmaxProbs lm eps l) := by
  refine NTM.bind (NTM.cmpCheck _) (fun _ _ => NTM.bind (NTM.unwrapOpt _) (fun _ _ => ?_))
  simp only
  split
  · exact NTM.err (by simp)
  · exact NTM.enforceUnwrap _ _

theorem NTM.squareCbProbs (gm eps : F) (l : List (Nat × F)) : NTM (squareCbProbs gm eps l) := by
  refine NTM.bind (NTM.cmpCheck _) (fun _ _ => NTM.bind (NTM.unwrapOpt _) (fun _ _ => ?_))
  simp only
  split
  · exact NTM.err (by simp)
  · split
    · exact NTM.err (by simp)
    · exact NTM.enforceUnwrap _ _

theorem NTM.elementwiseLoop (dbg : Bool) (b1 b2 cb : U32) : ∀ (fuel : Nat) (as bs : List (U32 × F)) (dest : NsFeats F),
    NTM (elementwiseLoop dbg b1 b2 cb fuel as bs dest) := by
  intro fuel
  induction fuel with
  | zero => intro as bs dest; exact NTM.ok _
  | succ fuel ih =>
    intro as bs dest
    cases as with
    | nil => exact NTM.ok _
    | cons a as =>
      cases bs with
      | nil => exact NTM.ok _
      | cons b bs =>
        unfold Rml.elementwiseLoop
        refine NTM.bind (NTM.ite (NTM.err (by simp)) (NTM.ok _)) (fun _ _ => ?_)
        refine NTM.bind (NTM.ite (NTM.err (by simp)) (NTM.ok _)) (fun _ _ => ?_)
        refine NTM.bind (NTM.ite (NTM.err (by simp)) (NTM.ok _)) (fun _ _ => ?_)
        exact NTM.ite (ih _ _ _) (NTM.ite (ih _ _ _) (ih _ _ _))

theorem NTM.elementwisePrep (dbg : Bool) (bits : Nat) (pair : Namespace × Namespace) (keep : Bool) (f : SparseFeatures F) :
    NTM (elementwisePrep dbg bits pair keep f) := by
  refine NTM.bind ?_ (fun _ _ => NTM.ite (NTM.ok _)
    (NTM.bind (NTM.unwrapOpt _) (fun _ _ => NTM.bind (NTM.unwrapOpt _) (fun _ _ => NTM.ok _))))
  refine NTM.bind (NTM.unwrapOpt _) (fun _ _ => NTM.bind (NTM.unwrapOpt _) (fun _ _ => NTM.bind ?_ (fun _ _ => NTM.ok _)))
  exact NTM.elementwiseLoop _ _ _ _ _ _ _ _

/-- A call on features of type `t` that has no type mismatch, returns something good and features of the same type. -/
def TypedCall {α : Type} (t : FeaturesType) (good : α → Prop) (body : Features F → Depth → M (α × Features F × Depth)) : Prop :=
  ∀ ft d, ft.ty = t → NTM (body ft d) ∧ ∀ a ft' d', body ft d = .ok (a, ft', d') → good a ∧ ft'.ty = t

theorem TypedCall.wrap {α : Type} {t : FeaturesType} {good : α → Prop} {body : Features F → Depth → M (α × Features F × Depth)}
    (h : TypedCall t good body) (dbg : Bool) (m : Meta) (off : Nat) : TypedCall t good (fun ft d => wrapCall dbg m ft d off body) := by
  intro ft d hft
  refine ⟨?_, ?_⟩
  · refine NTM.bind (NTM.increment _ _ _ _) (fun d1 _ => NTM.bind (h ft d1 hft).1 (fun x _ => ?_))
    exact NTM.bind (NTM.decrement _ _ _ _) (fun _ _ => NTM.bind (NTM.debugAssert _ _) (fun _ _ => NTM.ok _))
  · intro a ft' d' hr
    obtain ⟨d1, d2, _, h2, _, _⟩ := wrapCall_ok hr
    exact (h ft d1 hft).2 _ _ _ h2

theorem TypedCall.map {α β : Type} {t : FeaturesType} {good : α → Prop} {good' : β → Prop} {body : Features F → Depth → M (α × Features F × Depth)}
    (h : TypedCall t good body) (g : α → M β) (hg : ∀ a, good a → NTM (g a) ∧ ∀ b, g a = .ok b → good' b) :
    TypedCall t good' (fun ft d => do
      let r ← body ft d
      let b ← g r.1
      .ok (b, r.2.1, r.2.2)) := by
  intro ft d hft
  refine ⟨?_, ?_⟩
  · refine NTM.bind (h ft d hft).1 (fun x hx => NTM.bind (hg x.1 ?_).1 (fun _ _ => NTM.ok _))
    exact ((h ft d hft).2 x.1 x.2.1 x.2.2 hx).1
  · intro b ft' d' hr
    obtain ⟨x, h1, hr⟩ := bind_ok.1 hr
    obtain ⟨b', h2, hr⟩ := bind_ok.1 hr
    simp only [Except.ok.injEq, Prod.mk.injEq] at hr
    obtain ⟨rfl, rfl, rfl⟩ := hr
    have := (h ft d hft).2 x.1 x.2.1 x.2.2 h1
    exact ⟨(hg _ this.1).2 _ h2, this.2⟩

theorem TypedCall.elementwise {α : Type} {good : α → Prop} {body : Features F → Depth → M (α × Features F × Depth)}
    (h : TypedCall .sparseSimple good body) (dbg : Bool) (bits : Nat) (pair : Namespace × Namespace) (keep : Bool) :
    TypedCall .sparseSimple good (elementwiseWith dbg bits pair keep body) := by
  intro ft d hft
  cases ft with
  | cbAdf f => simp [Features.ty] at hft
  | simple f =>
    rw [elementwiseWith_eq]
    refine ⟨?_, ?_⟩
    · refine NTM.bind (NTM.elementwisePrep _ _ _ _ _) (fun x _ => NTM.bind (h (.simple x.1) d rfl).1 (fun r hr => ?_))
      have := ((h (.simple x.1) d rfl).2 r.1 r.2.1 r.2.2 hr).2
      cases hx : r.2.1 with
      | cbAdf f => rw [hx] at this; simp [Features.ty] at this
      | simple f => exact NTM.ok _
    · intro a ft' d' hr
      obtain ⟨x, h1, hr⟩ := bind_ok.1 hr
      obtain ⟨r, h2, hr⟩ := bind_ok.1 hr
      obtain ⟨f', h3, hr⟩ := bind_ok.1 hr
      simp only [Except.ok.injEq, Prod.mk.injEq] at hr
      obtain ⟨rfl, rfl, rfl⟩ := hr
      exact ⟨((h (.simple x.1) d rfl).2 r.1 r.2.1 r.2.2 h2).1, rfl⟩

theorem cbPredictLoop_typed {childP : Features F → Depth → M (Prediction F × Features F × Depth)}
    (h : TypedCall .sparseSimple (fun p => p.ty = .scalar) childP) (shared : Option (SparseFeatures F)) (as : List (SparseFeatures F)) :
    ∀ i d, NTM (cbPredictLoop childP shared i as d) := by
  induction as with
  | nil => intro i d; exact NTM.ok _
  | cons a as ih =>
    intro i d
    unfold cbPredictLoop
    refine NTM.bind (NTM.appendShared _ _) (fun a1 _ => NTM.bind (h (.simple a1) d rfl).1 (fun x hx => ?_))
    obtain ⟨p, ft, d1⟩ := x
    have hx := (h (.simple a1) d rfl).2 _ _ _ hx
    refine NTM.bind ?_ (fun _ _ => NTM.bind ?_ (fun _ _ => NTM.bind (NTM.removeShared _ _) (fun _ _ =>
      NTM.bind (ih _ _) (fun _ _ => NTM.ok _))))
    · cases p <;> simp [Prediction.ty] at hx
      exact NTM.ok _
    · cases ft <;> simp [Features.ty] at hx
      exact NTM.ok _

theorem cbIpsLoop_typed {S : Type} {dbg : Bool} {childL : S → Features F → Label F → Depth → M (S × Features F × Depth)}
    (h : ∀ s l, l.ty = .simple → TypedCall .sparseSimple (fun _ => True) (fun ft d => childL s ft l d)) (shared : Option (SparseFeatures F))
    (label : CBLabel F) (as : List (SparseFeatures F)) : ∀ i s d, NTM (cbIpsLoop dbg childL shared label i as s d) := by
  induction as with
  | nil => intro i s d; exact NTM.ok _
  | cons a as ih =>
    intro i s d
    unfold cbIpsLoop
    refine NTM.bind (NTM.appendShared _ _) (fun a1 _ => NTM.bind ?_ (fun l _ => NTM.bind (h s (.simple l) rfl (.simple a1) d rfl).1
      (fun x hx => ?_)))
    · unfold ipsLabel
      exact NTM.ite (NTM.bind (NTM.debugAssert _ _) (fun _ _ => NTM.ok _)) (NTM.ok _)
    · obtain ⟨s1, ft, d1⟩ := x
      have hx := (h s (.simple l) rfl (.simple a1) d rfl).2 _ _ _ hx
      refine NTM.bind ?_ (fun _ _ => NTM.bind (NTM.removeShared _ _) (fun _ _ => NTM.bind (ih _ _ _) (fun _ _ => NTM.ok _)))
      cases ft <;> simp [Features.ty] at hx
      exact NTM.ok _

theorem cbMtr_typed {S : Type} {childL : S → Features F → Label F → Depth → M (S × Features F × Depth)}
    (h : ∀ s l, l.ty = .simple → TypedCall .sparseSimple (fun _ => True) (fun ft d => childL s ft l d)) (f : CBAdfFeatures F)
    (label : CBLabel F) (mtr : MtrState) (s : S) (d : Depth) : NTM (cbMtrLearn childL f label mtr s d) := by
  unfold cbMtrLearn
  simp only
  split
  · refine NTM.bind (NTM.unwrapOpt _) (fun _ _ => NTM.bind (NTM.append _ _) (fun sh1 _ =>
      NTM.bind (h s (.simple _) rfl (.simple sh1) d rfl).1 (fun x hx => ?_)))
    obtain ⟨s1, ft, d1⟩ := x
    have hx := (h s _ rfl (.simple sh1) d rfl).2 _ _ _ hx
    refine NTM.bind ?_ (fun _ _ => NTM.bind (NTM.remove _ _) (fun _ _ => NTM.ok _))
    cases ft <;> simp [Features.ty] at hx
    exact NTM.ok _
  · exact NTM.err (by simp)

theorem checkOk_iff {t b : TypeDesc} : t.checkOk b = true ↔
    t.outLabel = some b.inLabel ∧ t.outFeatures = some b.inFeatures ∧ t.inPrediction = some b.outPrediction := by
  unfold TypeDesc.checkOk
  simp [and_assoc]

theorem typed_default {S : Type} {t : FeaturesType} {good : Prediction F → Prop} {pred : Features F → Depth → M (Prediction F × Features F × Depth)}
    {lrn : Features F → Depth → M (S × Features F × Depth)} (hp : TypedCall t good pred) (hl : TypedCall t (fun _ => True) lrn) :
    TypedCall t (fun x => good x.1) (defaultPredictThenLearn pred lrn) := by
  intro ft d hft
  refine ⟨?_, ?_⟩
  · unfold defaultPredictThenLearn
    refine NTM.bind (hp ft d hft).1 (fun x hx => ?_)
    have hx := (hp ft d hft).2 x.1 x.2.1 x.2.2 hx
    exact NTM.bind (hl x.2.1 x.2.2 hx.2).1 (fun _ _ => NTM.bind (NTM.massert _) (fun _ _ => NTM.ok _))
  · rintro ⟨p, s⟩ ft' d' hr
    obtain ⟨rfl, ft1, d1, h1, h2⟩ := defaultPtl_ok hr
    have hx := (hp ft _ hft).2 _ _ _ h1
    exact ⟨hx.1, ((hl ft1 d1 hx.2).2 _ _ _ h2).2⟩

theorem map_eq {α β : Type} (x : M (α × Features F × Depth)) (g : α → M β) : (do
      let (a, ft, d) ← x
      let b ← g a
      .ok (b, ft, d)) = (do
      let r ← x
      let b ← g r.1
      .ok (b, r.2.1, r.2.2) : M (β × Features F × Depth)) := rfl

theorem scoresMap {p : Prediction F} (hp : p.ty = .actionScores) (g : List (Nat × F) → M (List (Nat × F))) (hg : ∀ l, NTM (g l)) :
    NTM (do let x ← p.asScores; let y ← g x; .ok (Prediction.actionProbs y)) ∧
      ∀ b, (do let x ← p.asScores; let y ← g x; .ok (Prediction.actionProbs y)) = Except.ok b → b.ty = .actionProbs := by
  cases p <;> simp [Prediction.ty] at hp
  rename_i sc
  refine ⟨NTM.bind (NTM.ok sc) (fun _ _ => NTM.bind (hg _) (fun _ _ => NTM.ok _)), ?_⟩
  intro b hb
  obtain ⟨x, _, hb⟩ := bind_ok.1 hb
  obtain ⟨y, _, hb⟩ := bind_ok.1 hb
  simp only [Except.ok.injEq] at hb
  subst hb
  rfl

theorem exploreTyped {S : Type} {dbg : Bool} {m : Meta} {body : S → Features F → Depth → M (Prediction F × Features F × Depth)} {s : S}
    (h : TypedCall .sparseCBAdf (fun p => p.ty = .actionScores) (body s)) (g : List (Nat × F) → M (List (Nat × F))) (hg : ∀ l, NTM (g l)) :
    TypedCall .sparseCBAdf (fun (p : Prediction F) => p.ty = PredictionType.actionProbs) (fun ft d => do
      let (p, ft, d) ← wrapCall dbg m ft d 0 (body s)
      let scores ← p.asScores
      let probs ← g scores
      .ok (Prediction.actionProbs probs, ft, d)) := by
  have := (h.wrap dbg m 0).map (good' := fun p => p.ty = .actionProbs)
    (fun p => do let x ← p.asScores; let y ← g x; .ok (Prediction.actionProbs y)) (fun p hp => scoresMap hp g hg)
  convert this using 1
  funext ft d
  simp only [bind, Except.bind]
  cases wrapCall dbg m ft d 0 (body s) with
  | error e => rfl
  | ok x =>
    simp only
    cases x.1.asScores with
    | error e => rfl
    | ok y => simp only; cases g y <;> rfl

theorem Built.predict_typed {hash : HashFn} {g : GlobalConfig} {nma : Nat} {c : RedConfig F} {x : (r : Red F) × r.State}
    (h : Built hash g nma c x) (dbg : Bool) : ∀ s : x.1.State,
    TypedCall x.1.meta.types.inFeatures (fun p => p.ty = x.1.meta.types.outPrediction) (x.1.predictImpl dbg s) := by
  induction h with
  | coin _ =>
    intro s ft d hft
    cases ft with
    | cbAdf f => simp [Features.ty, Red.meta, coinTypes] at hft
    | simple f =>
      refine ⟨NTM.bind (NTM.ok f) (fun f _ => NTM.bind (NTM.coinPredict dbg s f) (fun _ _ => NTM.ok _)), ?_⟩
      intro a ft' d' hr
      obtain ⟨y, _, hr⟩ := bind_ok.1 hr
      obtain ⟨z, _, hr⟩ := bind_ok.1 hr
      simp only [Except.ok.injEq, Prod.mk.injEq] at hr
      obtain ⟨rfl, rfl, rfl⟩ := hr
      exact ⟨rfl, rfl⟩
  | @binary rc x _ hc ih =>
    intro s
    have hc := checkOk_iff.1 hc
    simp only [binaryTypes, Option.some.injEq] at hc
    have := ((ih s).wrap dbg x.1.meta 0).map (good' := fun p => p.ty = .binary)
      (fun p => do let y ← p.asScalar; .ok (Prediction.binary (F := F) (Flt.lt Flt.zero y.1))) (fun p hp => by
        rw [← hc.2.2] at hp
        cases p <;> simp [Prediction.ty] at hp
        exact ⟨NTM.ok _, fun b hb => by simp [Prediction.asScalar, bind, Except.bind] at hb; subst hb; rfl⟩)
    refine Eq.mp (congrArg (TypedCall x.1.meta.types.inFeatures (fun (p : Prediction F) => p.ty = PredictionType.binary)) ?_) this
    funext ft d
    simp only [Red.predictImpl, bind, Except.bind]
    cases wrapCall dbg x.1.meta ft d 0 (x.1.predictImpl dbg s) with
    | error e => rfl
    | ok x => simp only; cases x.1.asScalar <;> rfl
  | @cbAdf ty rc x _ hc ih =>
    intro s
    have hc := checkOk_iff.1 hc
    simp only [cbAdfTypes, Option.some.injEq] at hc
    have ih := ih s.2
    rw [← hc.2.1, ← hc.2.2] at ih
    intro ft d hft
    cases ft with
    | simple f => simp [Features.ty, Red.meta, cbAdfTypes] at hft
    | cbAdf f =>
      refine ⟨NTM.bind (NTM.ok f) (fun f _ => NTM.bind (cbPredictLoop_typed (ih.wrap dbg x.1.meta 0) _ _ _ _) (fun _ _ => NTM.ok _)), ?_⟩
      intro a ft' d' hr
      obtain ⟨y, _, hr⟩ := bind_ok.1 hr
      obtain ⟨z, _, hr⟩ := bind_ok.1 hr
      simp only [Except.ok.injEq, Prod.mk.injEq] at hr
      obtain ⟨rfl, rfl, rfl⟩ := hr
      exact ⟨rfl, rfl⟩
  | @greedy e rc x _ hc ih =>
    intro s
    have hc := checkOk_iff.1 hc
    simp only [exploreTypes, Option.some.injEq] at hc
    have ih := ih s
    rw [← hc.2.1, ← hc.2.2] at ih
    exact exploreTyped (body := fun s => x.1.predictImpl dbg s) ih (greedyProbs e) (NTM.greedyProbs e)
  | @softmax e lm rc x _ hc ih =>
    intro s
    have hc := checkOk_iff.1 hc
    simp only [exploreTypes, Option.some.injEq] at hc
    have ih := ih s.2
    rw [← hc.2.1, ← hc.2.2] at ih
    exact exploreTyped (body := fun s => x.1.predictImpl dbg s) ih (softmaxProbs lm e) (NTM.softmaxProbs lm e)
  | @squareCb e gs ge rc x _ _ hc ih =>
    intro s
    have hc := checkOk_iff.1 hc
    simp only [exploreTypes, Option.some.injEq] at hc
    have ih := ih s.2
    rw [← hc.2.1, ← hc.2.2] at ih
    exact exploreTyped (body := fun s => x.1.predictImpl dbg s) ih (squareCbProbs (squareCbGamma gs ge s.1) e)
      (NTM.squareCbProbs (squareCbGamma gs ge s.1) e)
  | @debug rc x _ _ ih => intro s; exact (ih s).wrap dbg x.1.meta 0
  | @elementwise one two keep rc x _ hc ih =>
    intro s
    have hc := checkOk_iff.1 hc
    simp only [elementwiseTypes, Option.some.injEq] at hc
    have ih := ih s
    rw [← hc.2.1] at ih
    exact (ih.wrap dbg x.1.meta 0).elementwise dbg _ _ _

theorem TypedCall.err {α : Type} {t : FeaturesType} {good : α → Prop} {e : Panic} (h : e ≠ .typeMismatch) :
    TypedCall (F := F) t good (fun _ _ => .error e) := fun _ _ _ => ⟨NTM.err h, fun _ _ _ hr => by simp at hr⟩

theorem Built.learn_typed {hash : HashFn} {g : GlobalConfig} {nma : Nat} {c : RedConfig F} {x : (r : Red F) × r.State}
    (h : Built hash g nma c x) (dbg : Bool) : ∀ (s : x.1.State) (l : Label F), l.ty = x.1.meta.types.inLabel →
    TypedCall x.1.meta.types.inFeatures (fun _ => True) (fun ft d => x.1.learnImpl dbg s ft l d) := by
  induction h with
  | coin _ =>
    intro s l hl ft d hft
    cases ft with
    | cbAdf f => simp [Features.ty, Red.meta, coinTypes] at hft
    | simple f =>
      cases l <;> simp [Label.ty, Red.meta, coinTypes] at hl
      rename_i l
      refine ⟨NTM.bind (NTM.ok f) (fun f _ => NTM.bind (NTM.ok l) (fun l _ => NTM.bind (NTM.coinLearn dbg s f _ _) (fun _ _ => NTM.ok _))), ?_⟩
      intro a ft' d' hr
      obtain ⟨y, _, hr⟩ := bind_ok.1 hr
      obtain ⟨z, _, hr⟩ := bind_ok.1 hr
      obtain ⟨z, _, hr⟩ := bind_ok.1 hr
      simp only [Except.ok.injEq, Prod.mk.injEq] at hr
      obtain ⟨rfl, rfl, rfl⟩ := hr
      exact ⟨trivial, rfl⟩
  | @binary rc x _ hc ih =>
    intro s l hl
    have hc := checkOk_iff.1 hc
    simp only [binaryTypes, Option.some.injEq] at hc
    cases l <;> simp [Label.ty, Red.meta, binaryTypes] at hl
    rename_i b
    exact (ih s (.simple (binaryToSimple b)) hc.1).wrap dbg x.1.meta 0
  | @cbAdf ty rc x _ hc ih =>
    intro s l hl
    have hc := checkOk_iff.1 hc
    simp only [cbAdfTypes, Option.some.injEq] at hc
    have ih : ∀ s l, l.ty = .simple → TypedCall .sparseSimple (fun _ => True) (fun ft d => wrapCall dbg x.1.meta ft d 0
        (fun ft d => x.1.learnImpl dbg s ft l d)) := by
      intro s l hl
      have := ih s l (hl.trans hc.1)
      rw [← hc.2.1] at this
      exact this.wrap dbg x.1.meta 0
    cases l <;> simp [Label.ty, Red.meta, cbAdfTypes] at hl
    rename_i l
    intro ft d hft
    cases ft with
    | simple f => simp [Features.ty, Red.meta, cbAdfTypes] at hft
    | cbAdf f =>
      cases ty with
      | ips =>
        refine ⟨NTM.bind (NTM.ok f) (fun f _ => NTM.bind (NTM.ok l) (fun l _ => NTM.bind (cbIpsLoop_typed ih _ _ _ _ _ _) (fun _ _ => NTM.ok _))), ?_⟩
        intro a ft' d' hr
        obtain ⟨y, _, hr⟩ := bind_ok.1 hr
        obtain ⟨z, _, hr⟩ := bind_ok.1 hr
        obtain ⟨z, _, hr⟩ := bind_ok.1 hr
        simp only [Except.ok.injEq, Prod.mk.injEq] at hr
        obtain ⟨rfl, rfl, rfl⟩ := hr
        exact ⟨trivial, rfl⟩
      | mtr =>
        refine ⟨NTM.bind (NTM.ok f) (fun f _ => NTM.bind (NTM.ok l) (fun l _ => NTM.bind (cbMtr_typed ih _ _ _ _ _) (fun _ _ => NTM.ok _))), ?_⟩
        intro a ft' d' hr
        obtain ⟨y, _, hr⟩ := bind_ok.1 hr
        obtain ⟨z, _, hr⟩ := bind_ok.1 hr
        obtain ⟨z, _, hr⟩ := bind_ok.1 hr
        simp only [Except.ok.injEq, Prod.mk.injEq] at hr
        obtain ⟨rfl, rfl, rfl⟩ := hr
        exact ⟨trivial, rfl⟩
  | @greedy e rc x _ hc ih =>
    intro s l hl
    have hc := checkOk_iff.1 hc
    simp only [exploreTypes, Option.some.injEq] at hc
    have ih := ih s l (hl.trans hc.1)
    rw [← hc.2.1] at ih
    exact ih.wrap dbg x.1.meta 0
  | @softmax e lm rc x _ hc ih =>
    intro s l hl
    have hc := checkOk_iff.1 hc
    simp only [exploreTypes, Option.some.injEq] at hc
    have ih := ih s.2 l (hl.trans hc.1)
    rw [← hc.2.1] at ih
    have := (ih.wrap dbg x.1.meta 0).map (good' := fun _ => True) (fun y => .ok ((s.1, y) : Nat × x.1.State))
      (fun _ _ => ⟨NTM.ok _, fun _ _ => trivial⟩)
    exact this
  | @squareCb e gs ge rc x _ _ hc ih =>
    intro s l hl
    have hc := checkOk_iff.1 hc
    simp only [exploreTypes, Option.some.injEq] at hc
    cases l <;> simp [Label.ty, Red.meta, exploreTypes] at hl
    rename_i l
    have ih := ih s.2 (.cb { l with probability := Flt.one }) hc.1
    rw [← hc.2.1] at ih
    have := (ih.wrap dbg x.1.meta 0).map (good' := fun _ => True) (fun y => .ok ((s.1 + 1, y) : Nat × x.1.State))
      (fun _ _ => ⟨NTM.ok _, fun _ _ => trivial⟩)
    exact this
  | @debug rc x _ _ ih => intro s l hl; exact (ih s l hl).wrap dbg x.1.meta 0
  | @elementwise one two keep rc x _ hc ih =>
    intro s l hl
    have hc := checkOk_iff.1 hc
    simp only [elementwiseTypes, Option.some.injEq] at hc
    have ih := ih s l hl
    rw [← hc.2.1] at ih
    exact (ih.wrap dbg x.1.meta 0).elementwise dbg _ _ _

theorem Built.ptl_typed {hash : HashFn} {g : GlobalConfig} {nma : Nat} {c : RedConfig F} {x : (r : Red F) × r.State}
    (h : Built hash g nma c x) (dbg : Bool) : ∀ (s : x.1.State) (l : Label F) (off : Nat), l.ty = x.1.meta.types.inLabel →
    TypedCall x.1.meta.types.inFeatures (fun y => y.1.ty = x.1.meta.types.outPrediction)
      (fun ft d => x.1.predictThenLearnImpl dbg s ft l d off) := by
  induction h with
  | coin h =>
    intro s l off hl
    exact typed_default ((Built.coin h).predict_typed dbg s) ((Built.coin h).learn_typed dbg s l hl)
  | @binary rc x _ hc ih =>
    intro s l off hl
    have hc := checkOk_iff.1 hc
    simp only [binaryTypes, Option.some.injEq] at hc
    cases l <;> simp [Label.ty, Red.meta, binaryTypes] at hl
    rename_i b
    have := ((ih s (.simple (binaryToSimple b)) 0 hc.1).wrap dbg x.1.meta 0).map
      (good' := fun (y : Prediction F × x.1.State) => y.1.ty = .binary) (fun (y : Prediction F × x.1.State) => do
        let z ← y.1.asScalar
        .ok ((Prediction.binary (F := F) (Flt.lt Flt.zero z.1), y.2) : Prediction F × x.1.State)) (fun y hy => by
        obtain ⟨p, s'⟩ := y
        simp only at hy
        rw [← hc.2.2] at hy
        cases p <;> simp [Prediction.ty] at hy
        exact ⟨NTM.ok _, fun b hb => by simp [Prediction.asScalar, bind, Except.bind] at hb; subst hb; rfl⟩)
    refine Eq.mp (congrArg (TypedCall x.1.meta.types.inFeatures
      (fun (y : Prediction F × x.1.State) => y.1.ty = PredictionType.binary)) ?_) this
    funext ft d
    simp only [Red.predictThenLearnImpl, Label.asBinary]
    rw [ok_bind]
    simp only [bind, Except.bind]
    cases wrapCall dbg x.1.meta ft d 0 (fun ft d => x.1.predictThenLearnImpl dbg s ft (.simple (binaryToSimple b)) d 0) with
    | error e => rfl
    | ok x => simp only; cases x.1.1.asScalar <;> rfl
  | @cbAdf ty rc x hb hc ih =>
    intro s l off hl
    exact typed_default ((Built.cbAdf hb hc).predict_typed dbg s) ((Built.cbAdf (ty := ty) hb hc).learn_typed dbg s l hl)
  | @greedy e rc x hb hc ih =>
    intro s l off hl
    exact typed_default ((Built.greedy (e := e) hb hc).predict_typed dbg s) ((Built.greedy (e := e) hb hc).learn_typed dbg s l hl)
  | @softmax e lm rc x hb hc ih =>
    intro s l off hl
    exact typed_default ((Built.softmax (e := e) (lm := lm) hb hc).predict_typed dbg s)
      ((Built.softmax (e := e) (lm := lm) hb hc).learn_typed dbg s l hl)
  | @squareCb e gs ge rc x hq hb hc ih =>
    intro s l off hl
    exact typed_default ((Built.squareCb (e := e) (gs := gs) (ge := ge) hq hb hc).predict_typed dbg s)
      ((Built.squareCb (e := e) (gs := gs) (ge := ge) hq hb hc).learn_typed dbg s l hl)
  | @debug rc x _ _ ih => intro s l off hl; exact (ih s l off hl).wrap dbg x.1.meta off
  | @elementwise one two keep rc x _ hc ih =>
    intro s l off hl
    have hc := checkOk_iff.1 hc
    simp only [elementwiseTypes, Option.some.injEq] at hc
    have ih := ih s l 0 hl
    rw [← hc.2.1] at ih
    exact (ih.wrap dbg x.1.meta 0).elementwise dbg _ _ _

end Rml
