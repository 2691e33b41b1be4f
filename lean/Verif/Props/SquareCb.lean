import Verif.Props.Stack

/-! C23: the exploration schedule of SquareCB. -/

set_option linter.unusedSectionVars false

namespace Rml
variable {F : Type} [Flt F]

theorem square_step {dbg : Bool} {m : Meta} {eps gs ge : F} {r : Red F} {n : Nat} {s : r.State} {ex : Nat → Features F} {c : Call F}
    {S' : Session F} {o : Option (Prediction F)}
    (h : Session.step dbg ⟨⟨.squareCb m eps gs ge r, (n, s)⟩, ex⟩ c = .ok (S', o)) :
    ∃ s' ex', S' = ⟨⟨.squareCb m eps gs ge r, (n + (if c.isUpdate then 1 else 0), s')⟩, ex'⟩ := by
  cases c with
  | predict i =>
    simp only [Session.step] at h
    obtain ⟨⟨p, ft⟩, _, h⟩ := bind_ok.1 h
    simp only [Except.ok.injEq, Prod.mk.injEq] at h
    obtain ⟨rfl, _⟩ := h
    exact ⟨s, _, rfl⟩
  | learn i l =>
    simp only [Session.step] at h
    obtain ⟨⟨w', ft⟩, h1, h⟩ := bind_ok.1 h
    simp only [Except.ok.injEq, Prod.mk.injEq] at h
    obtain ⟨rfl, _⟩ := h
    unfold Workspace.learn at h1
    obtain ⟨⟨s1, ft1, d1⟩, h2, h1⟩ := bind_ok.1 h1
    simp only [Except.ok.injEq, Prod.mk.injEq] at h1
    obtain ⟨rfl, _⟩ := h1
    unfold Red.learn at h2
    obtain ⟨_, _, _, h3, _, _⟩ := wrapCall_ok h2
    simp only [Red.learnImpl] at h3
    obtain ⟨_, _, h3⟩ := bind_ok.1 h3
    obtain ⟨⟨s2, _, _⟩, _, h3⟩ := bind_ok.1 h3
    simp only [Except.ok.injEq, Prod.mk.injEq] at h3
    obtain ⟨rfl, _⟩ := h3
    exact ⟨s2, _, rfl⟩
  | predictThenLearn i l =>
    simp only [Session.step] at h
    obtain ⟨⟨p, w', ft⟩, h1, h⟩ := bind_ok.1 h
    simp only [Except.ok.injEq, Prod.mk.injEq] at h
    obtain ⟨rfl, _⟩ := h
    unfold Workspace.predictThenLearn at h1
    obtain ⟨⟨⟨p1, s1⟩, ft1, d1⟩, h2, h1⟩ := bind_ok.1 h1
    simp only [Except.ok.injEq, Prod.mk.injEq] at h1
    obtain ⟨rfl, rfl, _⟩ := h1
    unfold Red.predictThenLearn at h2
    obtain ⟨_, _, _, h3, _, _⟩ := wrapCall_ok h2
    simp only [Red.predictThenLearnImpl] at h3
    obtain ⟨_, _, _, _, h3⟩ := defaultPtl_ok h3
    simp only [Red.learnImpl] at h3
    obtain ⟨_, _, h3⟩ := bind_ok.1 h3
    obtain ⟨⟨s2, _, _⟩, _, h3⟩ := bind_ok.1 h3
    simp only [Except.ok.injEq, Prod.mk.injEq] at h3
    obtain ⟨rfl, _⟩ := h3
    exact ⟨s2, _, rfl⟩

theorem square_run {dbg : Bool} {m : Meta} {eps gs ge : F} {r : Red F} (cs : List (Call F)) : ∀ {n : Nat} {s : r.State}
    {ex : Nat → Features F} {S' : Session F} {outs : List (Call F × Option (Prediction F))},
    Session.run dbg ⟨⟨.squareCb m eps gs ge r, (n, s)⟩, ex⟩ cs = .ok (S', outs) →
    ∃ s' ex', S' = ⟨⟨.squareCb m eps gs ge r, (n + cs.countP Call.isUpdate, s')⟩, ex'⟩ := by
  induction cs with
  | nil => intro n s ex S' outs h; simp [Session.run] at h; exact ⟨s, ex, h.1.symm⟩
  | cons c cs ih =>
    intro n s ex S' outs h
    unfold Session.run at h
    obtain ⟨⟨S1, o⟩, h1, h⟩ := bind_ok.1 h
    obtain ⟨⟨S2, os⟩, h2, h⟩ := bind_ok.1 h
    simp only [Except.ok.injEq, Prod.mk.injEq] at h
    obtain ⟨rfl, _⟩ := h
    obtain ⟨s1, ex1, rfl⟩ := square_step h1
    obtain ⟨s2, ex2, rfl⟩ := ih h2
    refine ⟨s2, ex2, ?_⟩
    rw [List.countP_cons, Nat.add_assoc, Nat.add_comm (List.countP _ _)]

/-- C23: after any history of calls on a new SquareCB workspace, a prediction explores with
`gamma = gammaScale * n ^ gammaExponent`, where `n` is the number of `learn` and `predict_then_learn` calls in the history; `base` is
the stack below SquareCB in its current state. -/
theorem C23_schedule (dbg : Bool) (hash : HashFn) (g : GlobalConfig) (eps gs ge : F) (rc : RedConfig F) (w : Workspace F)
    (hw : Workspace.new hash g (.squareCb eps gs ge rc) = .ok w) (ex : Nat → Features F) (calls : List (Call F)) (S : Session F)
    (outs : List (Call F × Option (Prediction F))) (hrun : Session.run dbg ⟨w, ex⟩ calls = .ok (S, outs))
    (ft ft' : Features F) (p : Prediction F) (hp : S.w.predict dbg ft = .ok (p, ft')) :
    ∃ (m : Meta) (n : Nat) (base : Workspace F) (scores probs : List (Nat × F)) (ft1 : Features F),
      S.w = ⟨.squareCb m eps gs ge base.red, (n, base.st)⟩ ∧ base.predict dbg ft = .ok (.actionScores scores, ft1) ∧
      squareCbProbs (Flt.mul gs (Flt.powf (Flt.ofNat (calls.countP Call.isUpdate)) ge)) eps scores = .ok probs ∧
      p = .actionProbs probs := by
  have hb := built_of_new hw
  obtain ⟨red, st⟩ := w
  simp only at hb
  cases hb with
  | squareCb hsq hb hc =>
    obtain ⟨s, ex', rfl⟩ := square_run calls hrun
    unfold Workspace.predict Red.predict at hp
    obtain ⟨⟨p1, ft1, d1⟩, h1, hp⟩ := bind_ok.1 hp
    simp only [Except.ok.injEq, Prod.mk.injEq] at hp
    obtain ⟨rfl, rfl⟩ := hp
    obtain ⟨d1, d2, h2, h3, _, _⟩ := wrapCall_ok h1
    simp only at h2
    rw [(C27_no_overflow dbg _ 0 (by decide)).1] at h2
    simp only [Except.ok.injEq] at h2
    subst h2
    simp only [Red.predictImpl] at h3
    obtain ⟨⟨p2, ft2, d3⟩, h4, h3⟩ := bind_ok.1 h3
    obtain ⟨sc, h5, h3⟩ := bind_ok.1 h3
    obtain ⟨pr, h6, h3⟩ := bind_ok.1 h3
    simp only [Except.ok.injEq, Prod.mk.injEq] at h3
    obtain ⟨rfl, _⟩ := h3
    have := asScores_ok h5
    simp only at this
    subst this
    refine ⟨_, _, ⟨_, s⟩, sc, pr, ft2, rfl, ?_, ?_, rfl⟩
    · unfold Workspace.predict Red.predict
      simp only
      rw [h4, ok_bind]
    · rw [Nat.zero_add] at h6
      exact h6

/-- C23: the logged probability of a label does not influence learning. -/
theorem C23_probability_ignored (dbg : Bool) (hash : HashFn) (g : GlobalConfig) (eps gs ge : F) (rc : RedConfig F) (w w0 : Workspace F)
    (hw : Workspace.new hash g (.squareCb eps gs ge rc) = .ok w0) (hred : w.red = w0.red) (ft : Features F) (action : Nat)
    (cost p p' : F) :
    w.learn dbg ft (.cb ⟨action, cost, p⟩) = w.learn dbg ft (.cb ⟨action, cost, p'⟩) ∧
    w.predictThenLearn dbg ft (.cb ⟨action, cost, p⟩) = w.predictThenLearn dbg ft (.cb ⟨action, cost, p'⟩) := by
  have hb := built_of_new hw
  obtain ⟨red0, st0⟩ := w0
  obtain ⟨red, st⟩ := w
  simp only at hb hred
  subst hred
  cases hb with
  | squareCb hsq hb hc => exact ⟨rfl, rfl⟩

section examples
attribute [local instance] intFlt

/-- The hypotheses of C23 are met: a new workspace, a history with two updates, a prediction. -/
example : ∃ w : Workspace Int, Workspace.new tinyHash tinyGlobal tinySquare = .ok w ∧ ∃ S outs,
    Session.run true ⟨w, fun _ => tinyCb⟩ [.predict 0, .learn 0 (.cb ⟨1, 3, 1⟩), .predictThenLearn 1 (.cb ⟨0, 2, 1⟩)] = .ok (S, outs) ∧
    returned (S.w.predict true tinyCb) = true := by
  refine ⟨_, rfl, ?_⟩
  have h : ∀ (x : M (Session Int × List (Call Int × Option (Prediction Int)))),
      (match x with | .ok y => returned (y.1.w.predict true tinyCb) | .error _ => false) = true →
      ∃ S outs, x = .ok (S, outs) ∧ returned (S.w.predict true tinyCb) = true := by
    intro x hx
    cases x with
    | error e => simp at hx
    | ok y => exact ⟨y.1, y.2, rfl, hx⟩
  exact h _ (by decide +kernel)

end examples

end Rml
