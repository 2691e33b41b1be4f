import Verif.Lemmas.SerdeSim
import Verif.Lemmas.Create
import Verif.SpecRelabel

/-! Helper lemmas: relations between regressors and between features lift to whole stacks (release profile). -/

set_option linter.unusedSectionVars false

namespace Rml
variable {F : Type} [Flt F]

/-- If the first returns, then the second returns something related. -/
def Fwd {α β : Type} (Q : α → β → Prop) (x : M α) (y : M β) : Prop := ∀ a, x = .ok a → ∃ b, y = .ok b ∧ Q a b

theorem Fwd.bind {α β γ δ : Type} {Q : α → β → Prop} {R : γ → δ → Prop} {x : M α} {y : M β} {f : α → M γ} {g : β → M δ} (h : Fwd Q x y)
    (hf : ∀ a b, x = .ok a → Q a b → Fwd R (f a) (g b)) : Fwd R (x >>= f) (y >>= g) := by
  intro c hc
  obtain ⟨a, ha, hc⟩ := bind_ok.1 hc
  obtain ⟨b, hb, hq⟩ := h a ha
  obtain ⟨d, hd, hr⟩ := hf a b ha hq c hc
  exact ⟨d, bind_ok.2 ⟨b, hb, hd⟩, hr⟩

theorem Fwd.refl {α : Type} (x : M α) : Fwd Eq x x := fun a h => ⟨a, h, rfl⟩

theorem Fwd.ok {α β : Type} {Q : α → β → Prop} {a : α} {b : β} (h : Q a b) : Fwd Q (.ok a) (.ok b) := by
  intro c hc
  cases hc
  exact ⟨b, rfl, h⟩

theorem Fwd.err {α β : Type} {Q : α → β → Prop} {e : Panic} {y : M β} : Fwd Q (.error e : M α) y := fun _ h => nomatch h

/-- What regressors and features have to satisfy. -/
structure Lift (RC : Coin F → Coin F → Prop) (RF : SparseFeatures F → SparseFeatures F → Prop) : Prop where
  predict : ∀ {c c' f f'}, RC c c' → RF f f' → Fwd Eq (Coin.predict false c f) (Coin.predict false c' f')
  learn : ∀ {c c' f f' l w}, RC c c' → RF f f' → Fwd RC (Coin.learn false c f l w) (Coin.learn false c' f' l w)
  add : ∀ {a a' s s' a1}, RF a a' → RF s s' → a.append s = .ok a1 → ∃ a1', a'.append s' = .ok a1' ∧ RF a1 a1' ∧ Fwd RF (a1.remove s) (a1'.remove s')

/-- Related examples. -/
def RelFt (RF : SparseFeatures F → SparseFeatures F → Prop) : Features F → Features F → Prop
  | .simple f, .simple f' => RF f f'
  | .cbAdf f, .cbAdf f' => Option.Rel RF f.shared f'.shared ∧ List.Forall₂ RF f.actions f'.actions
  | _, _ => False

/-- Related results. -/
def LiftRes {α β : Type} (RF : SparseFeatures F → SparseFeatures F → Prop) (Q : α → β → Prop) (x : α × Features F × Depth) (y : β × Features F × Depth) :
    Prop := Q x.1 y.1 ∧ RelFt RF x.2.1 y.2.1 ∧ x.2.2 = y.2.2

variable {RC : Coin F → Coin F → Prop} {RF : SparseFeatures F → SparseFeatures F → Prop}

theorem wrapCall_lift {α β : Type} {Q : α → β → Prop} {m : Meta} {d : Depth} {off : Nat} {ft ft' : Features F}
    {body : Features F → Depth → M (α × Features F × Depth)} {body' : Features F → Depth → M (β × Features F × Depth)}
    (h : ∀ d, Fwd (LiftRes RF Q) (body ft d) (body' ft' d)) : Fwd (LiftRes RF Q) (wrapCall false m ft d off body) (wrapCall false m ft' d off body') := by
  unfold wrapCall
  refine Fwd.bind (.refl _) ?_
  rintro d1 _ _ rfl
  refine Fwd.bind (h d1) ?_
  rintro ⟨a, gt, d2⟩ ⟨a', gt', d2'⟩ _ ⟨h1, h2, h3⟩
  simp only at h3
  subst h3
  refine Fwd.bind (.refl _) ?_
  rintro d3 _ _ rfl
  exact Fwd.ok ⟨h1, h2, rfl⟩

theorem wrapCall_ret {α : Type} {dbg : Bool} {m : Meta} {d : Depth} {off : Nat} {ft : Features F}
    {body : Features F → Depth → M (α × Features F × Depth)} {P : Features F → Prop} (h : ∀ d r, body ft d = .ok r → P r.2.1) {r}
    (hr : wrapCall dbg m ft d off body = .ok r) : P r.2.1 := by
  unfold wrapCall at hr
  obtain ⟨d1, _, hr⟩ := bind_ok.1 hr
  obtain ⟨⟨a, gt, d2⟩, h1, hr⟩ := bind_ok.1 hr
  obtain ⟨d3, _, hr⟩ := bind_ok.1 hr
  obtain ⟨_, _, hr⟩ := bind_ok.1 hr
  cases hr
  exact h _ (a, gt, d2) h1

/-- Simple features come back as they were. -/
theorem predictImpl_simple (r : Red F) (hn : r.NoElementwise) : ∀ (dbg : Bool) (s : r.State) (f : SparseFeatures F) (d : Depth) (x),
    r.predictImpl dbg s (.simple f) d = .ok x → x.2.1 = .simple f := by
  induction r with
  | coin m =>
    intro dbg s f d x h
    unfold Red.predictImpl at h
    obtain ⟨_, _, h⟩ := bind_ok.1 h
    obtain ⟨_, _, h⟩ := bind_ok.1 h
    cases h; rfl
  | binary m r ih =>
    intro dbg s f d x h
    unfold Red.predictImpl at h
    obtain ⟨y, h1, h⟩ := bind_ok.1 h
    obtain ⟨_, _, h⟩ := bind_ok.1 h
    cases h
    exact wrapCall_ret (r := y) (P := (· = .simple f)) (fun d r h => ih hn dbg s f d r h) h1
  | cbAdf m ty r ih => intro dbg s f d x h; unfold Red.predictImpl at h; cases h
  | greedy m e r ih =>
    intro dbg s f d x h
    unfold Red.predictImpl at h
    obtain ⟨y, h1, h⟩ := bind_ok.1 h
    obtain ⟨_, _, h⟩ := bind_ok.1 h
    obtain ⟨_, _, h⟩ := bind_ok.1 h
    cases h
    exact wrapCall_ret (r := y) (P := (· = .simple f)) (fun d r h => ih hn dbg s f d r h) h1
  | softmax m e la r ih =>
    intro dbg s f d x h
    unfold Red.predictImpl at h
    obtain ⟨y, h1, h⟩ := bind_ok.1 h
    obtain ⟨_, _, h⟩ := bind_ok.1 h
    obtain ⟨_, _, h⟩ := bind_ok.1 h
    cases h
    exact wrapCall_ret (r := y) (P := (· = .simple f)) (fun d r h => ih hn dbg s.2 f d r h) h1
  | squareCb m e a b r ih =>
    intro dbg s f d x h
    unfold Red.predictImpl at h
    obtain ⟨y, h1, h⟩ := bind_ok.1 h
    obtain ⟨_, _, h⟩ := bind_ok.1 h
    obtain ⟨_, _, h⟩ := bind_ok.1 h
    cases h
    exact wrapCall_ret (r := y) (P := (· = .simple f)) (fun d r h => ih hn dbg s.2 f d r h) h1
  | debug m r ih =>
    intro dbg s f d x h
    unfold Red.predictImpl at h
    exact wrapCall_ret (P := (· = .simple f)) (fun d r h => ih hn dbg s f d r h) h
  | elementwise m p k n r ih => exact hn.elim

theorem learnImpl_simple (r : Red F) (hn : r.NoElementwise) : ∀ (dbg : Bool) (s : r.State) (f : SparseFeatures F) (l : Label F) (d : Depth) (x),
    r.learnImpl dbg s (.simple f) l d = .ok x → x.2.1 = .simple f := by
  induction r with
  | coin m =>
    intro dbg s f l d x h
    unfold Red.learnImpl at h
    obtain ⟨_, _, h⟩ := bind_ok.1 h
    obtain ⟨_, _, h⟩ := bind_ok.1 h
    obtain ⟨_, _, h⟩ := bind_ok.1 h
    cases h; rfl
  | binary m r ih =>
    intro dbg s f l d x h
    unfold Red.learnImpl at h
    obtain ⟨_, _, h⟩ := bind_ok.1 h
    exact wrapCall_ret (P := (· = .simple f)) (fun d r h => ih hn dbg s f _ d r h) h
  | cbAdf m ty r ih => intro dbg s f l d x h; unfold Red.learnImpl at h; cases h
  | greedy m e r ih =>
    intro dbg s f l d x h
    unfold Red.learnImpl at h
    exact wrapCall_ret (P := (· = .simple f)) (fun d r h => ih hn dbg s f _ d r h) h
  | softmax m e la r ih =>
    intro dbg s f l d x h
    unfold Red.learnImpl at h
    obtain ⟨y, h1, h⟩ := bind_ok.1 h
    cases h
    exact wrapCall_ret (r := y) (P := (· = .simple f)) (fun d r h => ih hn dbg s.2 f _ d r h) h1
  | squareCb m e a b r ih =>
    intro dbg s f l d x h
    unfold Red.learnImpl at h
    obtain ⟨_, _, h⟩ := bind_ok.1 h
    obtain ⟨y, h1, h⟩ := bind_ok.1 h
    cases h
    exact wrapCall_ret (r := y) (P := (· = .simple f)) (fun d r h => ih hn dbg s.2 f _ d r h) h1
  | debug m r ih =>
    intro dbg s f l d x h
    unfold Red.learnImpl at h
    exact wrapCall_ret (P := (· = .simple f)) (fun d r h => ih hn dbg s f _ d r h) h
  | elementwise m p k n r ih => exact hn.elim

theorem asSimple_lift {ft ft' : Features F} (h : RelFt RF ft ft') : Fwd RF ft.asSimple ft'.asSimple := by
  cases ft <;> cases ft'
  · exact Fwd.ok h
  · exact h.elim
  · exact h.elim
  · exact .err

theorem asCb_lift {ft ft' : Features F} (h : RelFt RF ft ft') :
    Fwd (fun f f' => Option.Rel RF f.shared f'.shared ∧ List.Forall₂ RF f.actions f'.actions) ft.asCb ft'.asCb := by
  cases ft <;> cases ft'
  · exact .err
  · exact h.elim
  · exact h.elim
  · exact Fwd.ok h

/-- Append, call, remove. -/
theorem shared_lift (L : Lift RC RF) {sh sh' : Option (SparseFeatures F)} (hs : Option.Rel RF sh sh') {a a' a1 : SparseFeatures F} (ha : RF a a')
    (h : appendShared sh a = .ok a1) :
    ∃ a1', appendShared sh' a' = .ok a1' ∧ RF a1 a1' ∧ Fwd RF (removeShared sh a1) (removeShared sh' a1') := by
  cases hs with
  | none => cases h; exact ⟨a', rfl, ha, Fwd.ok ha⟩
  | some hs => exact L.add ha hs h

theorem cbPredictLoop_lift (L : Lift RC RF) {c c' : Features F → Depth → M (Prediction F × Features F × Depth)}
    (h : ∀ f f' d, RF f f' → Fwd (LiftRes RF Eq) (c (.simple f) d) (c' (.simple f') d))
    (hr : ∀ f d r, c (.simple f) d = .ok r → r.2.1 = .simple f) (hr' : ∀ f d r, c' (.simple f) d = .ok r → r.2.1 = .simple f)
    {sh sh' : Option (SparseFeatures F)} (hs : Option.Rel RF sh sh') {as as' : List (SparseFeatures F)} (ha : List.Forall₂ RF as as') : ∀ i d,
    Fwd (fun x y => x.1 = y.1 ∧ List.Forall₂ RF x.2.1 y.2.1 ∧ x.2.2 = y.2.2) (cbPredictLoop c sh i as d) (cbPredictLoop c' sh' i as' d) := by
  induction ha with
  | nil => intro i d; exact Fwd.ok ⟨rfl, .nil, rfl⟩
  | cons hab _ ih =>
    intro i d
    unfold cbPredictLoop
    rw [Fwd]
    intro x hx
    obtain ⟨a1, h1, hx⟩ := bind_ok.1 hx
    obtain ⟨⟨p, ft, d1⟩, h2, hx⟩ := bind_ok.1 hx
    obtain ⟨⟨y, raw⟩, h3, hx⟩ := bind_ok.1 hx
    obtain ⟨a2, h4, hx⟩ := bind_ok.1 hx
    obtain ⟨a3, h5, hx⟩ := bind_ok.1 hx
    obtain ⟨⟨ps, as1, d2⟩, h6, hx⟩ := bind_ok.1 hx
    cases hx
    have e := hr _ _ _ h2
    simp only at e
    subst e
    cases h4
    obtain ⟨a1', k1, k2, k3⟩ := shared_lift L hs hab h1
    obtain ⟨⟨p', ft', d1'⟩, k4, q1, q2, q3⟩ := h _ _ _ k2 _ h2
    simp only at q1 q3
    subst q1 q3
    have e := hr' _ _ _ k4
    simp only at e
    subst e
    obtain ⟨a3', k5, k6⟩ := k3 _ h5
    obtain ⟨⟨ps', as1', d2'⟩, k7, r1, r2, r3⟩ := ih _ _ _ h6
    simp only at r1 r3
    subst r1 r3
    refine ⟨((i, raw) :: ps, a3' :: as1', d2), ?_, rfl, .cons k6 r2, rfl⟩
    refine bind_ok.2 ⟨a1', k1, bind_ok.2 ⟨_, k4, bind_ok.2 ⟨_, h3, bind_ok.2 ⟨a1', rfl, bind_ok.2 ⟨a3', k5, bind_ok.2 ⟨_, k7, rfl⟩⟩⟩⟩⟩⟩

theorem cbIpsLoop_lift (L : Lift RC RF) {S : Type} {Q : S → S → Prop} {c c' : S → Features F → Label F → Depth → M (S × Features F × Depth)}
    (h : ∀ s s' f f' l d, Q s s' → RF f f' → Fwd (LiftRes RF Q) (c s (.simple f) l d) (c' s' (.simple f') l d))
    (hr : ∀ s f l d r, c s (.simple f) l d = .ok r → r.2.1 = .simple f) (hr' : ∀ s f l d r, c' s (.simple f) l d = .ok r → r.2.1 = .simple f)
    {sh sh' : Option (SparseFeatures F)} (hs : Option.Rel RF sh sh') (label : CBLabel F) {as as' : List (SparseFeatures F)} (ha : List.Forall₂ RF as as') :
    ∀ i s s' d, Q s s' →
    Fwd (fun x y => Q x.1 y.1 ∧ List.Forall₂ RF x.2.1 y.2.1 ∧ x.2.2 = y.2.2) (cbIpsLoop false c sh label i as s d) (cbIpsLoop false c' sh' label i as' s' d) := by
  induction ha with
  | nil => intro i s s' d hq; exact Fwd.ok ⟨hq, .nil, rfl⟩
  | cons hab _ ih =>
    intro i s s' d hq
    unfold cbIpsLoop
    rw [Fwd]
    intro x hx
    obtain ⟨a1, h1, hx⟩ := bind_ok.1 hx
    obtain ⟨y, h3, hx⟩ := bind_ok.1 hx
    obtain ⟨⟨s1, ft, d1⟩, h2, hx⟩ := bind_ok.1 hx
    obtain ⟨a2, h4, hx⟩ := bind_ok.1 hx
    obtain ⟨a3, h5, hx⟩ := bind_ok.1 hx
    obtain ⟨⟨s2, as1, d2⟩, h6, hx⟩ := bind_ok.1 hx
    cases hx
    have e := hr _ _ _ _ _ h2
    simp only at e
    subst e
    cases h4
    obtain ⟨a1', k1, k2, k3⟩ := shared_lift L hs hab h1
    obtain ⟨⟨s1', ft', d1'⟩, k4, q1, q2, q3⟩ := h _ _ _ _ _ _ hq k2 _ h2
    simp only at q1 q3
    subst q3
    have e := hr' _ _ _ _ _ k4
    simp only at e
    subst e
    obtain ⟨a3', k5, k6⟩ := k3 _ h5
    obtain ⟨⟨s2', as1', d2'⟩, k7, r1, r2, r3⟩ := ih _ _ _ _ q1 _ h6
    simp only at r1 r3
    subst r3
    refine ⟨(s2', a3' :: as1', d2), ?_, r1, .cons k6 r2, rfl⟩
    exact bind_ok.2 ⟨a1', k1, bind_ok.2 ⟨_, h3, bind_ok.2 ⟨_, k4, bind_ok.2 ⟨a1', rfl, bind_ok.2 ⟨a3', k5, bind_ok.2 ⟨_, k7, rfl⟩⟩⟩⟩⟩⟩

theorem cbMtrLearn_lift (L : Lift RC RF) {S : Type} {Q : S → S → Prop} {c c' : S → Features F → Label F → Depth → M (S × Features F × Depth)}
    (h : ∀ s s' f f' l d, Q s s' → RF f f' → Fwd (LiftRes RF Q) (c s (.simple f) l d) (c' s' (.simple f') l d))
    (hr : ∀ s f l d r, c s (.simple f) l d = .ok r → r.2.1 = .simple f) (hr' : ∀ s f l d r, c' s (.simple f) l d = .ok r → r.2.1 = .simple f)
    {f f' : CBAdfFeatures F} (hs : Option.Rel RF f.shared f'.shared) (ha : List.Forall₂ RF f.actions f'.actions) (label : CBLabel F) (mt : MtrState)
    (s s' : S) (d : Depth) (hq : Q s s') :
    Fwd (fun x y => (x.1.1 = y.1.1 ∧ Q x.1.2 y.1.2) ∧ (Option.Rel RF x.2.1.shared y.2.1.shared ∧ List.Forall₂ RF x.2.1.actions y.2.1.actions) ∧ x.2.2 = y.2.2)
      (cbMtrLearn c f label mt s d) (cbMtrLearn c' f' label mt s' d) := by
  obtain ⟨fs, fa⟩ := f
  obtain ⟨fs', fa'⟩ := f'
  simp only at hs ha
  unfold cbMtrLearn
  dsimp only
  cases hs with
  | none => exact .err
  | some hs =>
    rw [Fwd]
    intro x hx
    obtain ⟨a, h0, hx⟩ := bind_ok.1 hx
    obtain ⟨a1, h1, hx⟩ := bind_ok.1 hx
    obtain ⟨⟨s1, ft, d1⟩, h2, hx⟩ := bind_ok.1 hx
    obtain ⟨a2, h4, hx⟩ := bind_ok.1 hx
    obtain ⟨a3, h5, hx⟩ := bind_ok.1 hx
    cases hx
    have e := hr _ _ _ _ _ h2
    simp only at e
    subst e
    cases h4
    obtain ⟨a', k0, kr⟩ : ∃ a', unwrapOpt fa'[label.action]? = .ok a' ∧ RF a a' := by
      cases hx : fa[label.action]? with
      | none => rw [hx] at h0; cases h0
      | some b =>
        rw [hx] at h0
        cases h0
        have hl := List.getElem?_eq_some_iff.1 hx
        obtain ⟨hl1, hl2⟩ := hl
        have hl' : label.action < fa'.length := by rw [← ha.length_eq]; exact hl1
        refine ⟨fa'[label.action], by rw [List.getElem?_eq_getElem hl']; rfl, ?_⟩
        rw [← hl2]
        exact (List.forall₂_iff_get.1 ha).2 _ hl1 hl'
    obtain ⟨a1', k1, k2, k3⟩ := L.add hs kr h1
    obtain ⟨⟨s1', ft', d1'⟩, k4, q1, q2, q3⟩ := h _ _ _ _ _ _ hq k2 _ h2
    simp only at q1 q3
    subst q3
    have e := hr' _ _ _ _ _ k4
    simp only at e
    subst e
    obtain ⟨a3', k5, k6⟩ := k3 _ h5
    have hlen : fa'.length = fa.length := ha.length_eq.symm
    refine ⟨((⟨mt.actionSum + fa'.length, mt.eventSum + 1⟩, s1'), ⟨some a3', fa'⟩, d1), ?_, ⟨by rw [hlen], q1⟩, ⟨.some k6, ha⟩, rfl⟩
    rw [← hlen] at k4
    exact bind_ok.2 ⟨a', k0, bind_ok.2 ⟨a1', k1, bind_ok.2 ⟨_, k4, bind_ok.2 ⟨a1', rfl, bind_ok.2 ⟨a3', k5, rfl⟩⟩⟩⟩⟩

theorem predictImpl_lift (L : Lift RC RF) (r : Red F) (hn : r.NoElementwise) : ∀ s s' ft ft' d, SimSt RC r s s' → RelFt RF ft ft' →
    Fwd (LiftRes RF Eq) (r.predictImpl false s ft d) (r.predictImpl false s' ft' d) := by
  induction r with
  | coin m =>
    intro s s' ft ft' d h hf
    unfold Red.predictImpl
    refine Fwd.bind (asSimple_lift hf) fun f f' _ h1 => Fwd.bind (L.predict h h1) ?_
    rintro p _ _ rfl
    exact Fwd.ok ⟨rfl, hf, rfl⟩
  | binary m r ih =>
    intro s s' ft ft' d h hf
    unfold Red.predictImpl
    refine Fwd.bind (wrapCall_lift fun d => ih hn s s' ft ft' d h hf) ?_
    rintro ⟨p, gt, d1⟩ ⟨p', gt', d1'⟩ _ ⟨h1, h2, h3⟩
    simp only at h1 h3
    subst h1 h3
    refine Fwd.bind (.refl _) ?_
    rintro _ _ _ rfl
    exact Fwd.ok ⟨rfl, h2, rfl⟩
  | cbAdf m ty r ih =>
    intro s s' ft ft' d h hf
    unfold Red.predictImpl
    refine Fwd.bind (asCb_lift hf) fun f f' _ h1 => ?_
    refine Fwd.bind (cbPredictLoop_lift L (fun f f' d hf => wrapCall_lift fun d => ih hn s.2 s'.2 (.simple f) (.simple f') d h.2 hf) (fun f d x h => ?_)
      (fun f d x h => ?_) h1.1 h1.2 0 d) ?_
    · exact wrapCall_ret (P := (· = .simple f)) (fun d x h => predictImpl_simple r hn _ _ f d x h) h
    · exact wrapCall_ret (P := (· = .simple f)) (fun d x h => predictImpl_simple r hn _ _ f d x h) h
    · rintro ⟨ps, as, d1⟩ ⟨ps', as', d1'⟩ _ ⟨h2, h3, h4⟩
      simp only at h2 h4
      subst h2 h4
      exact Fwd.ok ⟨rfl, ⟨h1.1, h3⟩, rfl⟩
  | greedy m e r ih =>
    intro s s' ft ft' d h hf
    unfold Red.predictImpl
    refine Fwd.bind (wrapCall_lift fun d => ih hn s s' ft ft' d h hf) ?_
    rintro ⟨p, gt, d1⟩ ⟨p', gt', d1'⟩ _ ⟨h1, h2, h3⟩
    simp only at h1 h3
    subst h1 h3
    refine Fwd.bind (.refl _) ?_
    rintro _ _ _ rfl
    refine Fwd.bind (.refl _) ?_
    rintro _ _ _ rfl
    exact Fwd.ok ⟨rfl, h2, rfl⟩
  | softmax m e la r ih =>
    intro s s' ft ft' d h hf
    unfold Red.predictImpl
    refine Fwd.bind (wrapCall_lift fun d => ih hn s.2 s'.2 ft ft' d h.2 hf) ?_
    rintro ⟨p, gt, d1⟩ ⟨p', gt', d1'⟩ _ ⟨h1, h2, h3⟩
    simp only at h1 h3
    subst h1 h3
    refine Fwd.bind (.refl _) ?_
    rintro _ _ _ rfl
    refine Fwd.bind (.refl _) ?_
    rintro _ _ _ rfl
    exact Fwd.ok ⟨rfl, h2, rfl⟩
  | squareCb m e a b r ih =>
    intro s s' ft ft' d h hf
    unfold Red.predictImpl
    refine Fwd.bind (wrapCall_lift fun d => ih hn s.2 s'.2 ft ft' d h.2 hf) ?_
    rintro ⟨p, gt, d1⟩ ⟨p', gt', d1'⟩ _ ⟨h1, h2, h3⟩
    simp only at h1 h3
    subst h1 h3
    rw [h.1]
    refine Fwd.bind (.refl _) ?_
    rintro _ _ _ rfl
    refine Fwd.bind (.refl _) ?_
    rintro _ _ _ rfl
    exact Fwd.ok ⟨rfl, h2, rfl⟩
  | debug m r ih =>
    intro s s' ft ft' d h hf
    unfold Red.predictImpl
    exact wrapCall_lift fun d => ih hn s s' ft ft' d h hf
  | elementwise m p k n r ih => exact hn.elim

theorem learnImpl_lift (L : Lift RC RF) (r : Red F) (hn : r.NoElementwise) : ∀ s s' ft ft' l d, SimSt RC r s s' → RelFt RF ft ft' →
    Fwd (LiftRes RF (SimSt RC r)) (r.learnImpl false s ft l d) (r.learnImpl false s' ft' l d) := by
  induction r with
  | coin m =>
    intro s s' ft ft' l d h hf
    unfold Red.learnImpl
    refine Fwd.bind (asSimple_lift hf) fun f f' _ h1 => ?_
    refine Fwd.bind (.refl _) ?_
    rintro y _ _ rfl
    exact Fwd.bind (L.learn h h1) fun c c' _ hc => Fwd.ok ⟨hc, hf, rfl⟩
  | binary m r ih =>
    intro s s' ft ft' l d h hf
    unfold Red.learnImpl
    refine Fwd.bind (.refl _) ?_
    rintro y _ _ rfl
    exact wrapCall_lift fun d => ih hn s s' ft ft' _ d h hf
  | cbAdf m ty r ih =>
    intro s s' ft ft' l d h hf
    unfold Red.learnImpl
    refine Fwd.bind (asCb_lift hf) fun f f' _ h1 => ?_
    refine Fwd.bind (.refl _) ?_
    rintro l _ _ rfl
    have hch : ∀ (s s' : r.State) f f' l d, SimSt RC r s s' → RF f f' →
        Fwd (LiftRes RF (SimSt RC r)) (wrapCall false r.meta (.simple f) d 0 (fun ft d => r.learnImpl false s ft l d))
          (wrapCall false r.meta (.simple f') d 0 (fun ft d => r.learnImpl false s' ft l d)) :=
      fun s s' f f' l d h hf => wrapCall_lift fun d => ih hn s s' (.simple f) (.simple f') l d h hf
    have hret : ∀ (s : r.State) f l d x, wrapCall false r.meta (.simple f) d 0 (fun ft d => r.learnImpl false s ft l d) = .ok x → x.2.1 = .simple f :=
      fun s f l d x h => wrapCall_ret (P := (· = .simple f)) (fun d x h => learnImpl_simple r hn _ _ f l d x h) h
    cases ty with
    | ips =>
      refine Fwd.bind (cbIpsLoop_lift L hch hret hret h1.1 l h1.2 0 s.2 s'.2 d h.2) ?_
      rintro ⟨s1, as, d1⟩ ⟨s1', as', d1'⟩ _ ⟨h2, h3, h4⟩
      simp only at h4
      subst h4
      exact Fwd.ok ⟨⟨h.1, h2⟩, ⟨h1.1, h3⟩, rfl⟩
    | mtr =>
      dsimp only
      rw [← h.1]
      refine Fwd.bind (cbMtrLearn_lift L (c := fun s ft l d => wrapCall false r.meta ft d 0 (fun ft d => r.learnImpl false s ft l d))
        (c' := fun s ft l d => wrapCall false r.meta ft d 0 (fun ft d => r.learnImpl false s ft l d)) hch hret hret h1.1 h1.2 l s.1 s.2 s'.2 d h.2) ?_
      rintro ⟨s1, as, d1⟩ ⟨s1', as', d1'⟩ _ ⟨h2, h3, h4⟩
      simp only at h4
      subst h4
      exact Fwd.ok ⟨h2, h3, rfl⟩
  | greedy m e r ih =>
    intro s s' ft ft' l d h hf
    unfold Red.learnImpl
    exact wrapCall_lift fun d => ih hn s s' ft ft' _ d h hf
  | softmax m e la r ih =>
    intro s s' ft ft' l d h hf
    unfold Red.learnImpl
    refine Fwd.bind (wrapCall_lift fun d => ih hn s.2 s'.2 ft ft' _ d h.2 hf) ?_
    rintro ⟨s1, gt, d1⟩ ⟨s1', gt', d1'⟩ _ ⟨h2, h3, h4⟩
    simp only at h4
    subst h4
    exact Fwd.ok ⟨⟨h.1, h2⟩, h3, rfl⟩
  | squareCb m e a b r ih =>
    intro s s' ft ft' l d h hf
    unfold Red.learnImpl
    refine Fwd.bind (.refl _) ?_
    rintro y _ _ rfl
    refine Fwd.bind (wrapCall_lift fun d => ih hn s.2 s'.2 ft ft' _ d h.2 hf) ?_
    rintro ⟨s1, gt, d1⟩ ⟨s1', gt', d1'⟩ _ ⟨h2, h3, h4⟩
    simp only at h4
    subst h4
    exact Fwd.ok ⟨⟨congrArg (· + 1) h.1, h2⟩, h3, rfl⟩
  | debug m r ih =>
    intro s s' ft ft' l d h hf
    unfold Red.learnImpl
    exact wrapCall_lift fun d => ih hn s s' ft ft' _ d h hf
  | elementwise m p k n r ih => exact hn.elim

theorem defaultPtl_lift {S : Type} {Q : S → S → Prop} {ft ft' : Features F} {d : Depth} {p p' : Features F → Depth → M (Prediction F × Features F × Depth)}
    (hp : Fwd (LiftRes RF Eq) (p ft d) (p' ft' d)) {l l' : Features F → Depth → M (S × Features F × Depth)}
    (hl : ∀ ft ft' d, RelFt RF ft ft' → Fwd (LiftRes RF Q) (l ft d) (l' ft' d)) :
    Fwd (LiftRes RF (fun x y => x.1 = y.1 ∧ Q x.2 y.2)) (defaultPredictThenLearn p l ft d) (defaultPredictThenLearn p' l' ft' d) := by
  unfold defaultPredictThenLearn
  refine Fwd.bind hp ?_
  rintro ⟨q, gt, d1⟩ ⟨q', gt', d1'⟩ _ ⟨h1, h2, h3⟩
  simp only at h1 h3
  subst h1 h3
  refine Fwd.bind (hl _ _ _ h2) ?_
  rintro ⟨s1, gt, d2⟩ ⟨s1', gt', d2'⟩ _ ⟨h1, h2, h3⟩
  simp only at h3
  subst h3
  refine Fwd.bind (.refl _) ?_
  rintro _ _ _ rfl
  exact Fwd.ok ⟨⟨rfl, h1⟩, h2, rfl⟩

theorem ptlImpl_lift (L : Lift RC RF) (r : Red F) (hn : r.NoElementwise) : ∀ s s' ft ft' l d off, SimSt RC r s s' → RelFt RF ft ft' →
    Fwd (LiftRes RF (fun x y => x.1 = y.1 ∧ SimSt RC r x.2 y.2)) (r.predictThenLearnImpl false s ft l d off) (r.predictThenLearnImpl false s' ft' l d off) := by
  induction r with
  | coin m =>
    intro s s' ft ft' l d off h hf
    unfold Red.predictThenLearnImpl
    exact defaultPtl_lift (predictImpl_lift L (.coin m) hn s s' ft ft' d h hf) fun ft ft' d hf => learnImpl_lift L (.coin m) hn s s' ft ft' l d h hf
  | cbAdf m ty r ih =>
    intro s s' ft ft' l d off h hf
    unfold Red.predictThenLearnImpl
    exact defaultPtl_lift (predictImpl_lift L (.cbAdf m ty r) hn s s' ft ft' d h hf) fun ft ft' d hf => learnImpl_lift L (.cbAdf m ty r) hn s s' ft ft' l d h hf
  | greedy m e r ih =>
    intro s s' ft ft' l d off h hf
    unfold Red.predictThenLearnImpl
    exact defaultPtl_lift (predictImpl_lift L (.greedy m e r) hn s s' ft ft' d h hf) fun ft ft' d hf => learnImpl_lift L (.greedy m e r) hn s s' ft ft' l d h hf
  | softmax m e la r ih =>
    intro s s' ft ft' l d off h hf
    unfold Red.predictThenLearnImpl
    exact defaultPtl_lift (predictImpl_lift L (.softmax m e la r) hn s s' ft ft' d h hf) fun ft ft' d hf => learnImpl_lift L (.softmax m e la r) hn s s' ft ft' l d h hf
  | squareCb m e a b r ih =>
    intro s s' ft ft' l d off h hf
    unfold Red.predictThenLearnImpl
    exact defaultPtl_lift (predictImpl_lift L (.squareCb m e a b r) hn s s' ft ft' d h hf) fun ft ft' d hf =>
      learnImpl_lift L (.squareCb m e a b r) hn s s' ft ft' l d h hf
  | binary m r ih =>
    intro s s' ft ft' l d off h hf
    unfold Red.predictThenLearnImpl
    refine Fwd.bind (.refl _) ?_
    rintro y _ _ rfl
    refine Fwd.bind (wrapCall_lift fun d => ih hn s s' ft ft' _ d 0 h hf) ?_
    rintro ⟨⟨p, s1⟩, gt, d1⟩ ⟨⟨p', s1'⟩, gt', d1'⟩ _ ⟨⟨h0, h1⟩, h2, h3⟩
    simp only at h0 h3
    subst h0 h3
    refine Fwd.bind (.refl _) ?_
    rintro _ _ _ rfl
    exact Fwd.ok ⟨⟨rfl, h1⟩, h2, rfl⟩
  | debug m r ih =>
    intro s s' ft ft' l d off h hf
    unfold Red.predictThenLearnImpl
    exact wrapCall_lift fun d => ih hn s s' ft ft' l d off h hf
  | elementwise m p k n r ih => exact hn.elim

/-- Related sessions. -/
def LiftSession (RC : Coin F → Coin F → Prop) (RF : SparseFeatures F → SparseFeatures F → Prop) (S S' : Session F) : Prop :=
  SimWs RC S.w S'.w ∧ ∀ i, RelFt RF (S.ex i) (S'.ex i)

theorem step_lift (L : Lift RC RF) {S S' : Session F} (hn : S.w.red.NoElementwise) (h : LiftSession RC RF S S') (c : Call F) :
    Fwd (fun x y => LiftSession RC RF x.1 y.1 ∧ x.1.w.red = S.w.red ∧ x.2 = y.2) (S.step false c) (S'.step false c) := by
  obtain ⟨⟨st', hw, hs⟩, he⟩ := h
  obtain ⟨w', ex'⟩ := S'
  obtain ⟨w, ex⟩ := S
  simp only at hw he hn hs
  subst hw
  have hput : ∀ (w1 w1' : Workspace F) i ft ft', SimWs RC w1 w1' → RelFt RF ft ft' →
      LiftSession RC RF (Session.put ⟨w, ex⟩ w1 i ft) (Session.put ⟨⟨w.red, st'⟩, ex'⟩ w1' i ft') := by
    intro w1 w1' i ft ft' h1 h2
    refine ⟨h1, fun j => ?_⟩
    unfold Session.put
    dsimp only
    split
    · exact h2
    · exact he j
  cases c with
  | predict i =>
    unfold Session.step Workspace.predict Red.predict
    refine Fwd.bind (Fwd.bind (wrapCall_lift fun d => predictImpl_lift L w.red hn w.st st' (ex i) (ex' i) d hs (he i))
      (R := fun x y => x.1 = y.1 ∧ RelFt RF x.2 y.2) ?_) ?_
    · rintro ⟨p, gt, d1⟩ ⟨p', gt', d1'⟩ _ ⟨h1, h2, h3⟩
      exact Fwd.ok ⟨h1, h2⟩
    · rintro ⟨p, gt⟩ ⟨p', gt'⟩ _ ⟨h1, h2⟩
      simp only at h1
      subst h1
      exact Fwd.ok ⟨hput _ _ _ _ _ ⟨st', rfl, hs⟩ h2, rfl, rfl⟩
  | learn i l =>
    unfold Session.step Workspace.learn Red.learn
    refine Fwd.bind (Fwd.bind (wrapCall_lift fun d => learnImpl_lift L w.red hn w.st st' (ex i) (ex' i) l d hs (he i))
      (R := fun x y => SimWs RC x.1 y.1 ∧ x.1.red = w.red ∧ RelFt RF x.2 y.2) ?_) ?_
    · rintro ⟨s1, gt, d1⟩ ⟨s1', gt', d1'⟩ _ ⟨h1, h2, h3⟩
      exact Fwd.ok ⟨⟨s1', rfl, h1⟩, rfl, h2⟩
    · rintro ⟨p, gt⟩ ⟨p', gt'⟩ _ ⟨h1, h2, h3⟩
      exact Fwd.ok ⟨hput _ _ _ _ _ h1 h3, h2, rfl⟩
  | predictThenLearn i l =>
    unfold Session.step Workspace.predictThenLearn Red.predictThenLearn
    refine Fwd.bind (Fwd.bind (wrapCall_lift fun d => ptlImpl_lift L w.red hn w.st st' (ex i) (ex' i) l d 0 hs (he i))
      (R := fun x y => x.1 = y.1 ∧ SimWs RC x.2.1 y.2.1 ∧ x.2.1.red = w.red ∧ RelFt RF x.2.2 y.2.2) ?_) ?_
    · rintro ⟨⟨p, s1⟩, gt, d1⟩ ⟨⟨p', s1'⟩, gt', d1'⟩ _ ⟨⟨h0, h1⟩, h2, h3⟩
      exact Fwd.ok ⟨h0, ⟨s1', rfl, h1⟩, rfl, h2⟩
    · rintro ⟨p, w1, gt⟩ ⟨p', w1', gt'⟩ _ ⟨h0, h1, h2, h3⟩
      simp only at h0
      subst h0
      exact Fwd.ok ⟨hput _ _ _ _ _ h1 h3, h2, rfl⟩

theorem run_lift (L : Lift RC RF) (calls : List (Call F)) : ∀ {S S' : Session F}, S.w.red.NoElementwise → LiftSession RC RF S S' →
    Fwd (fun x y => LiftSession RC RF x.1 y.1 ∧ x.2 = y.2) (S.run false calls) (S'.run false calls) := by
  induction calls with
  | nil => intro S S' hn h; exact Fwd.ok ⟨h, rfl⟩
  | cons c cs ih =>
    intro S S' hn h
    unfold Session.run
    refine Fwd.bind (step_lift L hn h c) ?_
    rintro ⟨S1, o⟩ ⟨S1', o'⟩ _ ⟨h1, h2, h3⟩
    simp only at h1 h2 h3
    subst h3
    refine Fwd.bind (ih (by rw [h2]; exact hn) h1) ?_
    rintro ⟨S2, os⟩ ⟨S2', os'⟩ _ ⟨h4, h5⟩
    simp only at h5
    subst h5
    exact Fwd.ok ⟨h4, rfl⟩

/-- Two stacks with the same configuration. -/
theorem built_lift {hash hash' : HashFn} {g g' : GlobalConfig} {n : Nat}
    (hb : ∀ cfg c c', Coin.new hash cfg g n = .ok c → Coin.new hash' cfg g' n = .ok c' → RC c c') {c : RedConfig F} {x : (r : Red F) × r.State}
    (h : Built hash g n c x) : c.NoElementwise → ∀ {x' : (r : Red F) × r.State}, Built hash' g' n c x' →
      x.1.NoElementwise ∧ ∃ s', x' = ⟨x.1, s'⟩ ∧ SimSt RC x.1 x.2 s' := by
  induction h with
  | coin h1 => intro _ x' h'; cases h' with | coin h2 => exact ⟨trivial, _, rfl, hb _ _ _ h1 h2⟩
  | binary _ _ ih => intro hn x' h'; cases h' with | binary h2 _ => obtain ⟨e, s', rfl, h3⟩ := ih hn h2; exact ⟨e, s', rfl, h3⟩
  | cbAdf _ _ ih => intro hn x' h'; cases h' with | cbAdf h2 _ => obtain ⟨e, s', rfl, h3⟩ := ih hn h2; exact ⟨e, (_, s'), rfl, rfl, h3⟩
  | greedy _ _ ih => intro hn x' h'; cases h' with | greedy h2 _ => obtain ⟨e, s', rfl, h3⟩ := ih hn h2; exact ⟨e, s', rfl, h3⟩
  | softmax _ _ ih => intro hn x' h'; cases h' with | softmax h2 _ => obtain ⟨e, s', rfl, h3⟩ := ih hn h2; exact ⟨e, (_, s'), rfl, rfl, h3⟩
  | squareCb _ _ _ ih => intro hn x' h'; cases h' with | squareCb _ h2 _ => obtain ⟨e, s', rfl, h3⟩ := ih hn h2; exact ⟨e, (_, s'), rfl, rfl, h3⟩
  | debug _ _ ih => intro hn x' h'; cases h' with | debug h2 _ => obtain ⟨e, s', rfl, h3⟩ := ih hn h2; exact ⟨e, s', rfl, h3⟩
  | elementwise _ _ _ => intro hn; exact hn.elim

/-- Two models with the same configuration. -/
theorem new_lift {hash hash' : HashFn} {g g' : GlobalConfig}
    (hb : ∀ cfg c c', Coin.new hash cfg g 1 = .ok c → Coin.new hash' cfg g' 1 = .ok c' → RC c c') {c : RedConfig F} (hc : c.NoElementwise)
    {w w' : Workspace F} (h : Workspace.new hash g c = .ok w) (h' : Workspace.new hash' g' c = .ok w') : w.red.NoElementwise ∧ SimWs RC w w' := by
  obtain ⟨h1, s', h2, h3⟩ := built_lift hb (built_of_new h) hc (built_of_new h')
  refine ⟨h1, s', ?_, h3⟩
  obtain ⟨r', st'⟩ := w'
  cases h2
  rfl

end Rml
