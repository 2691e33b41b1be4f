import Verif.Model.Factory

/-! Helper lemmas about the reduction stack. -/

set_option linter.unusedSectionVars false

namespace Rml
variable {F : Type} [Flt F]

theorem bind_ok {α β : Type} {x : M α} {f : α → M β} {b : β} : (x >>= f) = .ok b ↔ ∃ a, x = .ok a ∧ f a = .ok b := by
  cases x with
  | error e => simp [bind, Except.bind]
  | ok a => simp [bind, Except.bind]

theorem wrapCall_ok {α : Type} {dbg : Bool} {m : Meta} {ft : Features F} {d : Depth} {off : Nat}
    {body : Features F → Depth → M (α × Features F × Depth)} {r : α × Features F × Depth}
    (h : wrapCall dbg m ft d off body = .ok r) :
    ∃ d1 d2, Depth.increment dbg d m.numModelsBelow off = .ok d1 ∧ body ft d1 = .ok (r.1, r.2.1, d2) ∧
      Depth.decrement dbg d2 m.numModelsBelow off = .ok r.2.2 ∧ debugAssert dbg (r.2.1.absDiffEq ft Flt.epsilon) = .ok () := by
  unfold wrapCall at h
  obtain ⟨d1, h1, h⟩ := bind_ok.1 h
  obtain ⟨⟨a, ft', d2⟩, h2, h⟩ := bind_ok.1 h
  obtain ⟨d3, h3, h⟩ := bind_ok.1 h
  obtain ⟨⟨⟩, h4, h⟩ := bind_ok.1 h
  simp only [Except.ok.injEq] at h
  subst h
  exact ⟨d1, d2, h1, h2, h3, h4⟩

theorem asScores_ok {p : Prediction F} {s : List (Nat × F)} (h : p.asScores = .ok s) : p = .actionScores s := by
  cases p <;> simp [Prediction.asScores] at h
  subst h; rfl

theorem asScalar_ok {p : Prediction F} {x : F × F} (h : p.asScalar = .ok x) : p = .scalar x.1 x.2 := by
  cases p <;> simp [Prediction.asScalar] at h
  subst h; rfl

theorem asSimple_ok {ft : Features F} {x : SparseFeatures F} (h : ft.asSimple = .ok x) : ft = .simple x := by
  cases ft <;> simp [Features.asSimple] at h
  subst h; rfl

theorem asCb_ok {ft : Features F} {x : CBAdfFeatures F} (h : ft.asCb = .ok x) : ft = .cbAdf x := by
  cases ft <;> simp [Features.asCb] at h
  subst h; rfl

theorem elementwiseWith_ok {α : Type} {dbg : Bool} {bits : Nat} {pair : Namespace × Namespace} {keep : Bool}
    {body : Features F → Depth → M (α × Features F × Depth)} {ft : Features F} {d : Depth} {r : α × Features F × Depth}
    (h : elementwiseWith dbg bits pair keep body ft d = .ok r) : ∃ ft1 ft2, body ft1 d = .ok (r.1, ft2, r.2.2) := by
  unfold elementwiseWith at h
  obtain ⟨f, _, h⟩ := bind_ok.1 h
  obtain ⟨⟨cns, dest⟩, _, h⟩ := bind_ok.1 h
  simp only at h
  split at h
  · obtain ⟨⟨a, ft', d'⟩, h1, h⟩ := bind_ok.1 h
    obtain ⟨f', _, h⟩ := bind_ok.1 h
    simp only [Except.ok.injEq] at h
    subst h
    exact ⟨_, _, h1⟩
  · obtain ⟨_, _, h⟩ := bind_ok.1 h
    obtain ⟨_, _, h⟩ := bind_ok.1 h
    obtain ⟨⟨a, ft', d'⟩, h1, h⟩ := bind_ok.1 h
    obtain ⟨f', _, h⟩ := bind_ok.1 h
    simp only [Except.ok.injEq] at h
    subst h
    exact ⟨_, _, h1⟩

theorem cbPredictLoop_ids {childP : Features F → Depth → M (Prediction F × Features F × Depth)}
    {shared : Option (SparseFeatures F)} (as : List (SparseFeatures F)) : ∀ (i : Nat) (d : Depth)
    {r : List (Nat × F) × List (SparseFeatures F) × Depth}, cbPredictLoop childP shared i as d = .ok r →
    r.1.map (·.1) = List.range' i as.length ∧ r.2.1.length = as.length := by
  induction as with
  | nil => intro i d r h; simp [cbPredictLoop] at h; subst h; simp
  | cons a as ih =>
    intro i d r h
    unfold cbPredictLoop at h
    obtain ⟨a1, _, h⟩ := bind_ok.1 h
    obtain ⟨⟨p, ft, d1⟩, _, h⟩ := bind_ok.1 h
    obtain ⟨⟨_, raw⟩, _, h⟩ := bind_ok.1 h
    obtain ⟨a2, _, h⟩ := bind_ok.1 h
    obtain ⟨a3, _, h⟩ := bind_ok.1 h
    obtain ⟨⟨ps, as', d2⟩, hl, h⟩ := bind_ok.1 h
    simp only [Except.ok.injEq] at h
    subst h
    have := ih _ _ hl
    simp [List.range'_succ, this.1, this.2]

/-- Action scores always list the actions 0, 1, 2, ... -/
theorem predictImpl_scores_ids (dbg : Bool) (r : Red F) : ∀ (s : r.State) (ft ft' : Features F) (d d' : Depth)
    (scores : List (Nat × F)), r.predictImpl dbg s ft d = .ok (.actionScores scores, ft', d') →
    scores.map (·.1) = List.range scores.length := by
  induction r with
  | coin m =>
    intro s ft ft' d d' scores h
    unfold Red.predictImpl at h
    obtain ⟨f, _, h⟩ := bind_ok.1 h
    obtain ⟨⟨p, raw⟩, _, h⟩ := bind_ok.1 h
    simp at h
  | binary m r ih =>
    intro s ft ft' d d' scores h
    unfold Red.predictImpl at h
    obtain ⟨⟨p, ft1, d1⟩, _, h⟩ := bind_ok.1 h
    obtain ⟨_, _, h⟩ := bind_ok.1 h
    simp at h
  | cbAdf m ty r ih =>
    intro s ft ft' d d' scores h
    unfold Red.predictImpl at h
    obtain ⟨f, _, h⟩ := bind_ok.1 h
    obtain ⟨⟨sc, as, d1⟩, hl, h⟩ := bind_ok.1 h
    simp only [Except.ok.injEq, Prod.mk.injEq, Prediction.actionScores.injEq] at h
    obtain ⟨rfl, _⟩ := h
    have := (cbPredictLoop_ids _ _ _ hl).1
    simp only at this
    have hl : sc.length = f.actions.length := by
      have := congrArg List.length this
      simpa using this
    rw [this, hl, List.range_eq_range']
  | greedy m e r ih =>
    intro s ft ft' d d' scores h
    unfold Red.predictImpl at h
    obtain ⟨⟨p, ft1, d1⟩, _, h⟩ := bind_ok.1 h
    obtain ⟨_, _, h⟩ := bind_ok.1 h
    obtain ⟨_, _, h⟩ := bind_ok.1 h
    simp at h
  | softmax m e l r ih =>
    intro s ft ft' d d' scores h
    unfold Red.predictImpl at h
    obtain ⟨⟨p, ft1, d1⟩, _, h⟩ := bind_ok.1 h
    obtain ⟨_, _, h⟩ := bind_ok.1 h
    obtain ⟨_, _, h⟩ := bind_ok.1 h
    simp at h
  | squareCb m e gs ge r ih =>
    intro s ft ft' d d' scores h
    unfold Red.predictImpl at h
    obtain ⟨⟨p, ft1, d1⟩, _, h⟩ := bind_ok.1 h
    obtain ⟨_, _, h⟩ := bind_ok.1 h
    obtain ⟨_, _, h⟩ := bind_ok.1 h
    simp at h
  | debug m r ih =>
    intro s ft ft' d d' scores h
    unfold Red.predictImpl at h
    obtain ⟨d1, d2, _, h1, _, _⟩ := wrapCall_ok h
    exact ih _ _ _ _ _ _ h1
  | elementwise m pair keep bits r ih =>
    intro s ft ft' d d' scores h
    unfold Red.predictImpl at h
    obtain ⟨ft1, ft2, h⟩ := elementwiseWith_ok h
    obtain ⟨d1, d2, _, h1, _, _⟩ := wrapCall_ok h
    exact ih _ _ _ _ _ _ h1

end Rml
