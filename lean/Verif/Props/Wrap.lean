import Verif.Props.Types
import Verif.Props.CbAdf2

/-! C34, C35: the Binary and the Debug reduction. -/

set_option linter.unusedSectionVars false

namespace Rml
open SparseFeatures
variable {F : Type} [Flt F]

theorem increment_off0 (dbg : Bool) (d n : Nat) : Depth.increment dbg d n 0 = if dbg && decide (256 ≤ d) then .error .overflow else .ok (d % 256) := by
  unfold Depth.increment u8Mul
  simp [bind, Except.bind]

theorem decrement_off0 (dbg : Bool) (d n : Nat) : Depth.decrement dbg d n 0 = .ok (d % 256) := by
  unfold Depth.decrement u8Mul
  simp [bind, Except.bind]

theorem wrapCall_meta {α : Type} (dbg : Bool) (m m' : Meta) (ft : Features F) (d : Depth)
    (body : Features F → Depth → M (α × Features F × Depth)) : wrapCall dbg m ft d 0 body = wrapCall dbg m' ft d 0 body := by
  unfold wrapCall
  simp only [increment_off0, decrement_off0]

/-- Change the result of a call. -/
def adapt {α β : Type} (g : α → M β) (x : M (α × Features F × Depth)) : M (β × Features F × Depth) :=
  x >>= fun r => g r.1 >>= fun b => .ok (b, r.2.1, r.2.2)

theorem wrapCall_def {α : Type} (dbg : Bool) (m : Meta) (ft : Features F) (d : Depth)
    (body : Features F → Depth → M (α × Features F × Depth)) : wrapCall dbg m ft d 0 body =
      ((if dbg && decide (256 ≤ d) then .error .overflow else .ok (d % 256) : M Nat) >>= fun d1 => body ft d1 >>= fun r =>
        debugAssert dbg (r.2.1.absDiffEq ft Flt.epsilon) >>= fun _ => .ok (r.1, r.2.1, r.2.2 % 256)) := by
  unfold wrapCall
  simp only [increment_off0, decrement_off0]
  rfl

/-- A wrapped call inside a wrapped call, with an adapter for the result. -/
theorem wrapCall_inner {α β : Type} (dbg : Bool) (m m' : Meta) (ft : Features F) (d : Depth)
    (body : Features F → Depth → M (α × Features F × Depth)) (g : α → M β) :
    wrapCall dbg m ft d 0 (fun ft d => adapt g (wrapCall dbg m' ft d 0 body)) = adapt g (wrapCall dbg m' ft d 0 body) := by
  rw [wrapCall_def]
  by_cases hd : (dbg && decide (256 ≤ d)) = true
  · rw [wrapCall_def, if_pos hd]
    rfl
  · rw [if_neg hd, ok_bind]
    have hw : wrapCall dbg m' ft (d % 256) 0 body = wrapCall dbg m' ft d 0 body := by
      rw [wrapCall_def, wrapCall_def, if_neg hd]
      have h1 : d % 256 < 256 := Nat.mod_lt _ (by decide)
      have h2 : ¬ (256 ≤ d % 256) := Nat.not_le.2 h1
      simp [h2]
    rw [hw]
    cases hr : wrapCall dbg m' ft d 0 body with
    | error e => rfl
    | ok r =>
      unfold adapt
      rw [ok_bind]
      cases g r.1 with
      | error e => rfl
      | ok b =>
        simp only [ok_bind]
        rw [wrapCall_check hr, ok_bind]
        have : r.2.2 < 256 := by
          obtain ⟨d1, d2, _, _, h3, _⟩ := wrapCall_ok hr
          rw [decrement_off0] at h3
          simp only [Except.ok.injEq] at h3
          rw [← h3]
          exact Nat.mod_lt _ (by decide)
        rw [Nat.mod_eq_of_lt this]

theorem adapt_ok {α : Type} (x : M (α × Features F × Depth)) : adapt (fun a => (.ok a : M α)) x = x := by
  cases x <;> rfl

/-- `wrapCall_inner` without an adapter. -/
theorem wrapCall_inner' {α : Type} (dbg : Bool) (m m' : Meta) (ft : Features F) (d : Depth)
    (body : Features F → Depth → M (α × Features F × Depth)) :
    wrapCall dbg m ft d 0 (fun ft d => wrapCall dbg m' ft d 0 body) = wrapCall dbg m' ft d 0 body := by
  have := wrapCall_inner dbg m m' ft d body (fun a => (.ok a : M α))
  simp only [adapt_ok] at this
  exact this

/-! ### C34 -/

/-- The Binary reduction predicts true exactly when the prediction of its regressor is positive. -/
theorem C34_predict (dbg : Bool) {m : Meta} {r : Red F} (s : r.State) (ft ft' : Features F) (p : Prediction F) :
    Workspace.predict dbg ⟨.binary m r, s⟩ ft = .ok (p, ft') ↔
      ∃ pr raw, Workspace.predict dbg ⟨r, s⟩ ft = .ok (.scalar pr raw, ft') ∧ p = .binary (Flt.lt Flt.zero pr) := by
  unfold Workspace.predict Red.predict
  have h : wrapCall dbg (Red.binary m r).meta ft 0 0 ((Red.binary m r).predictImpl dbg s) = 
      adapt (fun a => a.asScalar >>= fun x => .ok (.binary (Flt.lt Flt.zero x.1))) (wrapCall dbg r.meta ft 0 0 (r.predictImpl dbg s)) := by
    rw [← wrapCall_inner dbg m r.meta ft 0 (r.predictImpl dbg s)]
    congr 1
    funext ft d
    simp only [Red.predictImpl]
    cases wrapCall dbg r.meta ft d 0 (r.predictImpl dbg s) with
    | error e => rfl
    | ok x =>
      simp only [adapt, ok_bind]
      cases x.1.asScalar <;> rfl
  simp only
  rw [h]
  cases wrapCall dbg r.meta ft 0 0 (r.predictImpl dbg s) with
  | error e => simp [adapt, bind, Except.bind]
  | ok x =>
    obtain ⟨q, ft1, d1⟩ := x
    simp only [ok_bind]
    cases q <;> simp [adapt, Prediction.asScalar, bind, Except.bind]
    tauto

/-- The Binary reduction trains its regressor with +1 for true and -1 for false, weight 1. -/
theorem C34_learn (dbg : Bool) {m : Meta} {r : Red F} (s : r.State) (ft ft' : Features F) (b : Bool) (w' : Workspace F) :
    Workspace.learn dbg ⟨.binary m r, s⟩ ft (.binary b) = .ok (w', ft') ↔
      ∃ s', Workspace.learn dbg ⟨r, s⟩ ft (.simple ⟨if b then Flt.one else fl (-1), Flt.one⟩) = .ok (⟨r, s'⟩, ft') ∧
        w' = ⟨.binary m r, s'⟩ := by
  unfold Workspace.learn Red.learn
  have h : wrapCall dbg (Red.binary m r).meta ft 0 0 (fun ft d => (Red.binary m r).learnImpl dbg s ft (.binary b) d) =
      wrapCall dbg r.meta ft 0 0 (fun ft d => r.learnImpl dbg s ft (.simple ⟨if b then Flt.one else fl (-1), Flt.one⟩) d) :=
    wrapCall_inner' dbg m r.meta ft 0 _
  simp only
  constructor
  · intro hl
    obtain ⟨⟨s1, ft1, d1⟩, h1, h2⟩ := bind_ok.1 hl
    simp only [Except.ok.injEq, Prod.mk.injEq] at h2
    obtain ⟨rfl, rfl⟩ := h2
    exact ⟨s1, by rw [← h, h1, ok_bind], rfl⟩
  · rintro ⟨s', h1, rfl⟩
    obtain ⟨⟨s1, ft1, d1⟩, h3, h2⟩ := bind_ok.1 h1
    simp only [Except.ok.injEq, Prod.mk.injEq] at h2
    obtain ⟨h2, rfl⟩ := h2
    have : s1 = s' := by
      injection h2
    subst this
    rw [h, h3, ok_bind]

/-- A label that is not binary is rejected by the Binary reduction. -/
theorem C34_learn_other (dbg : Bool) {m : Meta} {r : Red F} (s : r.State) (ft : Features F) (l : Label F) (h : ∀ b, l ≠ .binary b) :
    Workspace.learn dbg ⟨.binary m r, s⟩ ft l = .error .typeMismatch := by
  unfold Workspace.learn Red.learn wrapCall
  rw [(C27_no_overflow dbg (.binary m r) 0 (by decide)).1]
  cases l with
  | binary b => exact absurd rfl (h b)
  | simple l => rfl
  | cb l => rfl

/-- `predict_then_learn` of the Binary reduction is that of its regressor, with the same translation of label and prediction. -/
theorem C34_predict_then_learn (dbg : Bool) {m : Meta} {r : Red F} (s : r.State) (ft ft' : Features F) (b : Bool) (p : Prediction F)
    (w' : Workspace F) :
    Workspace.predictThenLearn dbg ⟨.binary m r, s⟩ ft (.binary b) = .ok (p, w', ft') ↔
      ∃ pr raw s', Workspace.predictThenLearn dbg ⟨r, s⟩ ft (.simple ⟨if b then Flt.one else fl (-1), Flt.one⟩) =
          .ok (.scalar pr raw, ⟨r, s'⟩, ft') ∧ p = .binary (Flt.lt Flt.zero pr) ∧ w' = ⟨.binary m r, s'⟩ := by
  unfold Workspace.predictThenLearn Red.predictThenLearn
  have h : wrapCall dbg (Red.binary m r).meta ft 0 0 (fun ft d => (Red.binary m r).predictThenLearnImpl dbg s ft (.binary b) d 0) = 
      adapt (fun a => a.1.asScalar >>= fun x => .ok (.binary (Flt.lt Flt.zero x.1), a.2)) (wrapCall dbg r.meta ft 0 0
        (fun ft d => r.predictThenLearnImpl dbg s ft (.simple ⟨if b then Flt.one else fl (-1), Flt.one⟩) d 0)) := by
    rw [← wrapCall_inner dbg m r.meta ft 0]
    congr 1
    funext ft d
    simp only [Red.predictThenLearnImpl, Label.asBinary, ok_bind]
    have hb : (binaryToSimple b : SimpleLabel F) = ⟨if b then Flt.one else fl (-1), Flt.one⟩ := rfl
    rw [hb]
    cases wrapCall dbg r.meta ft d 0
        (fun ft d => r.predictThenLearnImpl dbg s ft (.simple ⟨if b then Flt.one else fl (-1), Flt.one⟩) d 0) with
    | error e => rfl
    | ok x =>
      simp only [adapt, ok_bind]
      cases x.1.1.asScalar <;> rfl
  simp only
  rw [h]
  cases wrapCall dbg r.meta ft 0 0
      (fun ft d => r.predictThenLearnImpl dbg s ft (.simple ⟨if b then Flt.one else fl (-1), Flt.one⟩) d 0) with
  | error e => simp [adapt, bind, Except.bind]
  | ok x =>
    obtain ⟨⟨q, s1⟩, ft1, d1⟩ := x
    simp only [ok_bind]
    cases q <;> simp [adapt, Prediction.asScalar, bind, Except.bind]
    tauto

section examples
attribute [local instance] intFlt

/-- The right-hand sides of C34 are met: Binary over Coin predicts and learns. -/
example : ∃ (m : Meta) (r : Red Int) (s : r.State), Workspace.FromConfig ⟨.binary m r, s⟩ ∧
    Workspace.predict true ⟨r, s⟩ (.simple (tinyFeat 1#32 2)) = .ok (.scalar 0 0, .simple (tinyFeat 1#32 2)) ∧
    returned (Workspace.learn true ⟨r, s⟩ (.simple (tinyFeat 1#32 2)) (.simple ⟨-1, 1⟩)) = true := by
  refine ⟨_, _, _, ⟨tinyHash, tinyGlobal, .binary (.coin CoinConfig.dflt), _, rfl, rfl⟩, ?_, ?_⟩
  · decide +kernel
  · decide +kernel

end examples

end Rml
