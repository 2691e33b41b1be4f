import Verif.Lemmas.CoinStack
import Verif.Lemmas.Serde
import Verif.SpecSerde

/-! Helper lemmas: two stacks that differ only in the sign of zeros stored as weights behave identically. -/

set_option linter.unusedSectionVars false

namespace Rml

theorem RelM.foldlM {α β γ : Type} {R : α → β → Prop} {f : α → γ → M α} {g : β → γ → M β} (l : List γ)
    (h : ∀ a b c, R a b → RelM R (f a c) (g b c)) : ∀ a b, R a b → RelM R (l.foldlM f a) (l.foldlM g b) := by
  induction l with
  | nil => intro a b hab; exact hab
  | cons c l ih =>
    intro a b hab
    rw [List.foldlM_cons, List.foldlM_cons]
    exact RelM.bind (h a b c hab) (fun a' b' _ _ h' => ih a' b' h')

theorem RelM.eq {α : Type} {x y : M α} (h : RelM Eq x y) : x = y := by
  cases x <;> cases y
  · exact congrArg Except.error h
  · exact h.elim
  · exact h.elim
  · exact congrArg Except.ok h

theorem RelM.of_eq' {α : Type} {x y : M α} (h : x = y) : RelM Eq x y := h ▸ RelM.refl x

variable {F : Type} [Flt F]

section lift
variable (R : Coin F → Coin F → Prop)

/-- The regressors are related, all other state is the same. -/
def SimSt : (r : Red F) → r.State → r.State → Prop
  | .coin _, c, c' => R c c'
  | .binary _ r, s, s' => SimSt r s s'
  | .cbAdf _ _ r, s, s' => s.1 = s'.1 ∧ SimSt r s.2 s'.2
  | .greedy _ _ r, s, s' => SimSt r s s'
  | .softmax _ _ _ r, s, s' => s.1 = s'.1 ∧ SimSt r s.2 s'.2
  | .squareCb _ _ _ _ r, s, s' => s.1 = s'.1 ∧ SimSt r s.2 s'.2
  | .debug _ r, s, s' => SimSt r s s'
  | .elementwise _ _ _ _ r, s, s' => SimSt r s s'

variable {R} {dbg : Bool}

theorem predictImpl_sim (hp : ∀ c c' f, R c c' → Coin.predict dbg c f = Coin.predict dbg c' f) (r : Red F) :
    ∀ s s', SimSt R r s s' → r.predictImpl dbg s = r.predictImpl dbg s' := by
  induction r with
  | coin m => intro s s' h; funext ft d; unfold Red.predictImpl; simp only [hp s s' _ h]
  | binary m r ih => intro s s' h; funext ft d; unfold Red.predictImpl; simp only [ih s s' h]
  | cbAdf m ty r ih => intro s s' h; funext ft d; unfold Red.predictImpl; simp only [ih s.2 s'.2 h.2]
  | greedy m e r ih => intro s s' h; funext ft d; unfold Red.predictImpl; simp only [ih s s' h]
  | softmax m e la r ih => intro s s' h; funext ft d; unfold Red.predictImpl; simp only [ih s.2 s'.2 h.2]
  | squareCb m e a b r ih => intro s s' h; funext ft d; unfold Red.predictImpl; simp only [ih s.2 s'.2 h.2, h.1]
  | debug m r ih => intro s s' h; funext ft d; unfold Red.predictImpl; simp only [ih s s' h]
  | elementwise m p k n r ih => intro s s' h; funext ft d; unfold Red.predictImpl; simp only [ih s s' h]

/-- Results with related first parts and otherwise the same. -/
def SimRes {α β : Type} (Q : α → β → Prop) (x : α × Features F × Depth) (y : β × Features F × Depth) : Prop := Q x.1 y.1 ∧ x.2 = y.2

theorem wrapCall_sim {α β : Type} {Q : α → β → Prop} {m : Meta} {ft : Features F} {d : Depth} {off : Nat}
    {body : Features F → Depth → M (α × Features F × Depth)} {body' : Features F → Depth → M (β × Features F × Depth)}
    (h : ∀ ft d, RelM (SimRes Q) (body ft d) (body' ft d)) : RelM (SimRes Q) (wrapCall dbg m ft d off body) (wrapCall dbg m ft d off body') := by
  unfold wrapCall
  refine RelM.bind (RelM.refl _) ?_
  rintro d1 _ _ _ rfl
  refine RelM.bind (h ft d1) ?_
  rintro ⟨a, ft', d2⟩ ⟨a', gt', d2'⟩ _ _ ⟨h1, h2⟩
  simp only [Prod.mk.injEq] at h2
  obtain ⟨rfl, rfl⟩ := h2
  refine RelM.bind (RelM.refl _) ?_
  rintro d3 _ _ _ rfl
  refine RelM.bind (RelM.refl _) ?_
  rintro _ _ _ _ rfl
  exact ⟨h1, rfl⟩

theorem elementwiseWith_sim {α β : Type} {Q : α → β → Prop} {nb : Nat} {p : Namespace × Namespace} {keep : Bool} {ft : Features F} {d : Depth}
    {body : Features F → Depth → M (α × Features F × Depth)} {body' : Features F → Depth → M (β × Features F × Depth)}
    (h : ∀ ft d, RelM (SimRes Q) (body ft d) (body' ft d)) :
    RelM (SimRes Q) (elementwiseWith dbg nb p keep body ft d) (elementwiseWith dbg nb p keep body' ft d) := by
  unfold elementwiseWith
  refine RelM.bind (RelM.refl _) ?_
  rintro f _ _ _ rfl
  refine RelM.bind (RelM.refl _) ?_
  rintro ⟨cns, dest⟩ _ _ _ rfl
  dsimp only
  cases keep with
  | true =>
    refine RelM.bind (h _ d) ?_
    rintro ⟨a, ft', d2⟩ ⟨a', gt', d2'⟩ _ _ ⟨h1, h2⟩
    simp only [Prod.mk.injEq] at h2
    obtain ⟨rfl, rfl⟩ := h2
    refine RelM.bind (RelM.refl _) ?_
    rintro _ _ _ _ rfl
    exact ⟨h1, rfl⟩
  | false =>
    refine RelM.bind (RelM.refl _) ?_
    rintro n1 _ _ _ rfl
    refine RelM.bind (RelM.refl _) ?_
    rintro n2 _ _ _ rfl
    refine RelM.bind (h _ d) ?_
    rintro ⟨a, ft', d2⟩ ⟨a', gt', d2'⟩ _ _ ⟨h1, h2⟩
    simp only [Prod.mk.injEq] at h2
    obtain ⟨rfl, rfl⟩ := h2
    refine RelM.bind (RelM.refl _) ?_
    rintro _ _ _ _ rfl
    exact ⟨h1, rfl⟩

theorem cbIpsLoop_sim {S : Type} {Q : S → S → Prop} {childL : S → Features F → Label F → Depth → M (S × Features F × Depth)}
    (h : ∀ s s' ft l d, Q s s' → RelM (SimRes Q) (childL s ft l d) (childL s' ft l d)) {sh : Option (SparseFeatures F)} {label : CBLabel F}
    (as : List (SparseFeatures F)) : ∀ (i : Nat) (s s' : S) (d : Depth), Q s s' →
    RelM (fun x y => Q x.1 y.1 ∧ x.2 = y.2) (cbIpsLoop dbg childL sh label i as s d) (cbIpsLoop dbg childL sh label i as s' d) := by
  induction as with
  | nil => intro i s s' d hs; exact ⟨hs, rfl⟩
  | cons a as ih =>
    intro i s s' d hs
    unfold cbIpsLoop
    refine RelM.bind (RelM.refl _) ?_
    rintro a1 _ _ _ rfl
    refine RelM.bind (RelM.refl _) ?_
    rintro l _ _ _ rfl
    refine RelM.bind (h s s' _ _ d hs) ?_
    rintro ⟨s1, ft, d1⟩ ⟨s1', ft', d1'⟩ _ _ ⟨h1, h2⟩
    simp only [Prod.mk.injEq] at h2
    obtain ⟨rfl, rfl⟩ := h2
    refine RelM.bind (RelM.refl _) ?_
    rintro a2 _ _ _ rfl
    refine RelM.bind (RelM.refl _) ?_
    rintro a3 _ _ _ rfl
    refine RelM.bind (ih (i + 1) s1 s1' d1 h1) ?_
    rintro ⟨s2, as', d2⟩ ⟨s2', as'', d2'⟩ _ _ ⟨h3, h4⟩
    simp only [Prod.mk.injEq] at h4
    obtain ⟨rfl, rfl⟩ := h4
    exact ⟨h3, rfl⟩

theorem learnImpl_sim (hl : ∀ c c' f l w, R c c' → RelM R (Coin.learn dbg c f l w) (Coin.learn dbg c' f l w)) (r : Red F) :
    ∀ s s' ft l d, SimSt R r s s' → RelM (SimRes (SimSt R r)) (r.learnImpl dbg s ft l d) (r.learnImpl dbg s' ft l d) := by
  induction r with
  | coin m =>
    intro s s' ft l d h
    unfold Red.learnImpl
    refine RelM.bind (RelM.refl _) ?_
    rintro f _ _ _ rfl
    refine RelM.bind (RelM.refl _) ?_
    rintro y _ _ _ rfl
    refine RelM.bind (hl _ _ _ _ _ h) ?_
    intro c1 c2 _ _ h1
    exact ⟨h1, rfl⟩
  | binary m r ih =>
    intro s s' ft l d h
    unfold Red.learnImpl
    refine RelM.bind (RelM.refl _) ?_
    rintro b _ _ _ rfl
    exact wrapCall_sim (fun ft d => ih s s' ft _ d h)
  | cbAdf m ty r ih =>
    intro s s' ft l d h
    unfold Red.learnImpl
    refine RelM.bind (RelM.refl _) ?_
    rintro f _ _ _ rfl
    refine RelM.bind (RelM.refl _) ?_
    rintro l _ _ _ rfl
    have hch : ∀ (s s' : r.State) ft l d, SimSt R r s s' →
        RelM (SimRes (SimSt R r)) (wrapCall dbg r.meta ft d 0 (fun ft d => r.learnImpl dbg s ft l d))
          (wrapCall dbg r.meta ft d 0 (fun ft d => r.learnImpl dbg s' ft l d)) :=
      fun s s' ft l d h => wrapCall_sim (fun ft d => ih s s' ft l d h)
    cases ty with
    | ips =>
      refine RelM.bind (cbIpsLoop_sim hch f.actions 0 s.2 s'.2 d h.2) ?_
      rintro ⟨s2, as', d2⟩ ⟨s2', as'', d2'⟩ _ _ ⟨h3, h4⟩
      simp only [Prod.mk.injEq] at h4
      obtain ⟨rfl, rfl⟩ := h4
      exact ⟨⟨h.1, h3⟩, rfl⟩
    | mtr =>
      have hm : RelM (fun x y => (x.1.1 = y.1.1 ∧ SimSt R r x.1.2 y.1.2) ∧ x.2 = y.2)
          (cbMtrLearn (fun s ft l d => wrapCall dbg r.meta ft d 0 (fun ft d => r.learnImpl dbg s ft l d)) f l s.1 s.2 d)
          (cbMtrLearn (fun s ft l d => wrapCall dbg r.meta ft d 0 (fun ft d => r.learnImpl dbg s ft l d)) f l s'.1 s'.2 d) := by
        rw [← h.1]
        unfold cbMtrLearn
        dsimp only
        cases f.shared with
        | none => exact rfl
        | some sh =>
          refine RelM.bind (RelM.refl _) ?_
          rintro a _ _ _ rfl
          refine RelM.bind (RelM.refl _) ?_
          rintro sh1 _ _ _ rfl
          refine RelM.bind (hch s.2 s'.2 _ _ d h.2) ?_
          rintro ⟨s1, ft, d1⟩ ⟨s1', ft', d1'⟩ _ _ ⟨h1, h2⟩
          simp only [Prod.mk.injEq] at h2
          obtain ⟨rfl, rfl⟩ := h2
          refine RelM.bind (RelM.refl _) ?_
          rintro a2 _ _ _ rfl
          refine RelM.bind (RelM.refl _) ?_
          rintro a3 _ _ _ rfl
          exact ⟨⟨rfl, h1⟩, rfl⟩
      refine RelM.bind hm ?_
      rintro ⟨s2, as', d2⟩ ⟨s2', as'', d2'⟩ _ _ ⟨h3, h4⟩
      simp only [Prod.mk.injEq] at h4
      obtain ⟨rfl, rfl⟩ := h4
      exact ⟨h3, rfl⟩
  | greedy m e r ih =>
    intro s s' ft l d h
    unfold Red.learnImpl
    exact wrapCall_sim (fun ft d => ih s s' ft _ d h)
  | softmax m e la r ih =>
    intro s s' ft l d h
    unfold Red.learnImpl
    refine RelM.bind (wrapCall_sim (fun ft d => ih s.2 s'.2 ft _ d h.2)) ?_
    rintro ⟨s1, ft, d1⟩ ⟨s1', ft', d1'⟩ _ _ ⟨h1, h2⟩
    simp only [Prod.mk.injEq] at h2
    obtain ⟨rfl, rfl⟩ := h2
    exact ⟨⟨h.1, h1⟩, rfl⟩
  | squareCb m e a b r ih =>
    intro s s' ft l d h
    unfold Red.learnImpl
    refine RelM.bind (RelM.refl _) ?_
    rintro l _ _ _ rfl
    refine RelM.bind (wrapCall_sim (fun ft d => ih s.2 s'.2 ft _ d h.2)) ?_
    rintro ⟨s1, ft, d1⟩ ⟨s1', ft', d1'⟩ _ _ ⟨h1, h2⟩
    simp only [Prod.mk.injEq] at h2
    obtain ⟨rfl, rfl⟩ := h2
    exact ⟨⟨congrArg (· + 1) h.1, h1⟩, rfl⟩
  | debug m r ih =>
    intro s s' ft l d h
    unfold Red.learnImpl
    exact wrapCall_sim (fun ft d => ih s s' ft _ d h)
  | elementwise m p k n r ih =>
    intro s s' ft l d h
    unfold Red.learnImpl
    exact elementwiseWith_sim (fun ft d => wrapCall_sim (fun ft d => ih s s' ft _ d h))

theorem defaultPtl_sim {S : Type} {Q : S → S → Prop} {p p' : Features F → Depth → M (Prediction F × Features F × Depth)} (hp : p = p')
    {l l' : Features F → Depth → M (S × Features F × Depth)} (hl : ∀ ft d, RelM (SimRes Q) (l ft d) (l' ft d)) (ft : Features F) (d : Depth) :
    RelM (SimRes (fun x y => x.1 = y.1 ∧ Q x.2 y.2)) (defaultPredictThenLearn p l ft d) (defaultPredictThenLearn p' l' ft d) := by
  subst hp
  unfold defaultPredictThenLearn
  refine RelM.bind (RelM.refl _) ?_
  rintro ⟨q, ft1, d1⟩ _ _ _ rfl
  refine RelM.bind (hl _ _) ?_
  rintro ⟨s1, ft2, d2⟩ ⟨s1', ft', d1'⟩ _ _ ⟨h1, h2⟩
  simp only [Prod.mk.injEq] at h2
  obtain ⟨rfl, rfl⟩ := h2
  refine RelM.bind (RelM.refl _) ?_
  rintro _ _ _ _ rfl
  exact ⟨⟨rfl, h1⟩, rfl⟩

theorem ptlImpl_sim (hp : ∀ c c' f, R c c' → Coin.predict dbg c f = Coin.predict dbg c' f)
    (hl : ∀ c c' f l w, R c c' → RelM R (Coin.learn dbg c f l w) (Coin.learn dbg c' f l w)) (r : Red F) :
    ∀ s s' ft l d off, SimSt R r s s' →
      RelM (SimRes (fun x y => x.1 = y.1 ∧ SimSt R r x.2 y.2)) (r.predictThenLearnImpl dbg s ft l d off)
        (r.predictThenLearnImpl dbg s' ft l d off) := by
  induction r with
  | coin m =>
    intro s s' ft l d off h
    unfold Red.predictThenLearnImpl
    exact defaultPtl_sim (predictImpl_sim hp _ s s' h) (fun ft d => learnImpl_sim hl (.coin m) s s' ft l d h) ft d
  | cbAdf m ty r ih =>
    intro s s' ft l d off h
    unfold Red.predictThenLearnImpl
    exact defaultPtl_sim (predictImpl_sim hp _ s s' h) (fun ft d => learnImpl_sim hl (.cbAdf m ty r) s s' ft l d h) ft d
  | greedy m e r ih =>
    intro s s' ft l d off h
    unfold Red.predictThenLearnImpl
    exact defaultPtl_sim (predictImpl_sim hp (.greedy m e r) s s' h) (fun ft d => learnImpl_sim hl (.greedy m e r) s s' ft l d h) ft d
  | softmax m e la r ih =>
    intro s s' ft l d off h
    unfold Red.predictThenLearnImpl
    exact defaultPtl_sim (predictImpl_sim hp _ s s' h) (fun ft d => learnImpl_sim hl (.softmax m e la r) s s' ft l d h) ft d
  | squareCb m e a b r ih =>
    intro s s' ft l d off h
    unfold Red.predictThenLearnImpl
    exact defaultPtl_sim (predictImpl_sim hp _ s s' h) (fun ft d => learnImpl_sim hl (.squareCb m e a b r) s s' ft l d h) ft d
  | binary m r ih =>
    intro s s' ft l d off h
    unfold Red.predictThenLearnImpl
    refine RelM.bind (RelM.refl _) ?_
    rintro b _ _ _ rfl
    refine RelM.bind (wrapCall_sim (fun ft d => ih s s' ft _ d 0 h)) ?_
    rintro ⟨⟨p, s1⟩, ft, d1⟩ ⟨⟨p', s1'⟩, ft', d1'⟩ _ _ ⟨⟨h0, h1⟩, h2⟩
    simp only [Prod.mk.injEq] at h2 h0
    obtain ⟨rfl, rfl⟩ := h2
    subst h0
    refine RelM.bind (RelM.refl _) ?_
    rintro ⟨pred, _⟩ _ _ _ rfl
    exact ⟨⟨rfl, h1⟩, rfl⟩
  | debug m r ih =>
    intro s s' ft l d off h
    unfold Red.predictThenLearnImpl
    exact wrapCall_sim (fun ft d => ih s s' ft _ d off h)
  | elementwise m p k n r ih =>
    intro s s' ft l d off h
    unfold Red.predictThenLearnImpl
    exact elementwiseWith_sim (fun ft d => wrapCall_sim (fun ft d => ih s s' ft _ d 0 h))

/-- Related workspaces: the same stack, related state. -/
def SimWs (R : Coin F → Coin F → Prop) (w w' : Workspace F) : Prop := ∃ st', w' = ⟨w.red, st'⟩ ∧ SimSt R w.red w.st st'

theorem step_sim (hp : ∀ c c' f, R c c' → Coin.predict dbg c f = Coin.predict dbg c' f)
    (hl : ∀ c c' f l w, R c c' → RelM R (Coin.learn dbg c f l w) (Coin.learn dbg c' f l w)) {w w' : Workspace F} (h : SimWs R w w')
    (ex : Nat → Features F) (c : Call F) :
    RelM (fun x y => SimWs R x.1.w y.1.w ∧ x.1.ex = y.1.ex ∧ x.2 = y.2) (Session.step dbg ⟨w, ex⟩ c) (Session.step dbg ⟨w', ex⟩ c) := by
  obtain ⟨st', rfl, hs⟩ := h
  cases c with
  | predict i =>
    unfold Session.step
    have he : Workspace.predict dbg w (ex i) = Workspace.predict dbg ⟨w.red, st'⟩ (ex i) := by
      unfold Workspace.predict Red.predict
      rw [predictImpl_sim hp _ _ _ hs]
    refine RelM.bind (RelM.of_eq' he) ?_
    rintro ⟨p, ft⟩ _ _ _ rfl
    exact ⟨⟨st', rfl, hs⟩, rfl, rfl⟩
  | learn i l =>
    unfold Session.step
    have he : RelM (fun x y => SimWs R x.1 y.1 ∧ x.2 = y.2) (Workspace.learn dbg w (ex i) l)
        (Workspace.learn dbg ⟨w.red, st'⟩ (ex i) l) := by
      unfold Workspace.learn Red.learn
      refine RelM.bind (wrapCall_sim (fun ft d => learnImpl_sim hl _ _ _ ft l d hs)) ?_
      rintro ⟨s1, ft, d1⟩ ⟨s1', ft', d1'⟩ _ _ ⟨h1, h2⟩
      simp only [Prod.mk.injEq] at h2
      obtain ⟨rfl, rfl⟩ := h2
      exact ⟨⟨s1', rfl, h1⟩, rfl⟩
    refine RelM.bind he ?_
    rintro ⟨w1, ft⟩ ⟨w2, ft'⟩ _ _ ⟨h1, h2⟩
    simp only at h2
    subst h2
    exact ⟨h1, rfl, rfl⟩
  | predictThenLearn i l =>
    unfold Session.step
    have he : RelM (fun x y => x.1 = y.1 ∧ SimWs R x.2.1 y.2.1 ∧ x.2.2 = y.2.2) (Workspace.predictThenLearn dbg w (ex i) l)
        (Workspace.predictThenLearn dbg ⟨w.red, st'⟩ (ex i) l) := by
      unfold Workspace.predictThenLearn Red.predictThenLearn
      refine RelM.bind (wrapCall_sim (fun ft d => ptlImpl_sim hp hl _ _ _ ft l d 0 hs)) ?_
      rintro ⟨⟨p, s1⟩, ft, d1⟩ ⟨⟨p', s1'⟩, ft', d1'⟩ _ _ ⟨⟨h0, h1⟩, h2⟩
      simp only [Prod.mk.injEq] at h2 h0
      obtain ⟨rfl, rfl⟩ := h2
      subst h0
      exact ⟨rfl, ⟨s1', rfl, h1⟩, rfl⟩
    refine RelM.bind he ?_
    rintro ⟨p, w1, ft⟩ ⟨p', w2, ft'⟩ _ _ ⟨h0, h1, h2⟩
    simp only at h2 h0
    subst h2 h0
    exact ⟨h1, rfl, rfl⟩

theorem run_sim (hp : ∀ c c' f, R c c' → Coin.predict dbg c f = Coin.predict dbg c' f)
    (hl : ∀ c c' f l w, R c c' → RelM R (Coin.learn dbg c f l w) (Coin.learn dbg c' f l w)) (calls : List (Call F)) :
    ∀ (w w' : Workspace F) (ex : Nat → Features F), SimWs R w w' →
    RelM (fun x y => SimWs R x.1.w y.1.w ∧ x.1.ex = y.1.ex ∧ x.2 = y.2) (Session.run dbg ⟨w, ex⟩ calls) (Session.run dbg ⟨w', ex⟩ calls) := by
  induction calls with
  | nil => intro w w' ex h; exact ⟨h, rfl, rfl⟩
  | cons c cs ih =>
    intro w w' ex h
    unfold Session.run
    refine RelM.bind (step_sim hp hl h ex c) ?_
    rintro ⟨⟨w1, ex1⟩, o⟩ ⟨⟨w2, ex2⟩, o'⟩ _ _ ⟨h1, h2, h3⟩
    simp only at h1 h2 h3
    subst h2 h3
    refine RelM.bind (ih w1 w2 ex1 h1) ?_
    rintro ⟨S, os⟩ ⟨S', os'⟩ _ _ ⟨h4, h5, h6⟩
    simp only at h4 h5 h6
    subst h6
    exact ⟨h4, h5, rfl⟩

end lift

section coins

/-- The same weight, except that `xt` may be a zero of either sign. -/
structure SimS (s s' : Coin.WState F) : Prop where
  xt : s.xt = s'.xt ∨ Flt.eq s.xt Flt.zero = true ∧ Flt.eq s'.xt Flt.zero = true
  zt : s.zt = s'.zt
  g2 : s.g2 = s'.g2
  mx : s.mx = s'.mx
  we : s.we = s'.we
  mg : s.mg = s'.mg

theorem SimS.refl (s : Coin.WState F) : SimS s s := ⟨.inl rfl, rfl, rfl, rfl, rfl, rfl⟩

/-- Tables of the same dimensions with the same weights up to signs of zeros. -/
structure SimT (nb : Nat) (w w' : DenseWeights F) : Prop where
  tbl : w.CoinTable nb
  tbl' : w'.CoinTable nb
  dims : w' = { w with weights := w'.weights }
  states : ∀ i, i < 2 ^ nb → SimS (w.wst i) (w'.wst i)

theorem SimT.convert {nb : Nat} {w w' : DenseWeights F} (h : SimT nb w w') (dbg : Bool) (i m : Nat) :
    w'.convertIndex dbg i m = w.convertIndex dbg i m := by rw [h.dims]; rfl

theorem SimT.stateAt {nb : Nat} {w w' : DenseWeights F} (h : SimT nb w w') (dbg : Bool) (i : Nat) :
    RelM (fun a b => i < 2 ^ nb ∧ a = (w.wst i).toList ∧ b = (w'.wst i).toList) (w.stateAt dbg i 0) (w'.stateAt dbg i 0) := by
  by_cases hi : i < 2 ^ nb
  · rw [DenseWeights.stateAt_wst h.tbl dbg hi, DenseWeights.stateAt_wst h.tbl' dbg hi]
    exact ⟨hi, rfl, rfl⟩
  · have h1 := DenseWeights.slot_out h.tbl hi
    have h2 := DenseWeights.slot_out h.tbl' hi
    have hd : w'.slot i 0 = w.slot i 0 := by rw [h.dims]; rfl
    unfold DenseWeights.stateAt
    rw [h.convert]
    refine RelM.bind (RelM.refl _) ?_
    rintro j _ hj _ rfl
    have hj := DenseWeights.convertIndex_val hj
    rw [h.tbl.state, h.tbl'.state, if_neg (by omega), if_neg (by omega)]
    exact rfl

theorem SimT.weightAt {nb : Nat} {w w' : DenseWeights F} (h : SimT nb w w') (dbg : Bool) (i : Nat) :
    RelM (fun a b => a = b ∨ Flt.eq a Flt.zero = true ∧ Flt.eq b Flt.zero = true) (w.weightAt dbg i 0) (w'.weightAt dbg i 0) := by
  by_cases hi : i < 2 ^ nb
  · rw [DenseWeights.weightAt_wst h.tbl dbg hi, DenseWeights.weightAt_wst h.tbl' dbg hi]
    exact (h.states i hi).xt
  · have h1 := DenseWeights.slot_out h.tbl hi
    have h2 := DenseWeights.slot_out h.tbl' hi
    have hd : w'.slot i 0 = w.slot i 0 := by rw [h.dims]; rfl
    unfold DenseWeights.weightAt
    rw [h.convert]
    refine RelM.bind (RelM.refl _) ?_
    rintro j _ hj _ rfl
    have hj := DenseWeights.convertIndex_val hj
    rw [List.getElem?_eq_none (by omega), List.getElem?_eq_none (by omega)]
    exact rfl

theorem SimT.set {nb : Nat} {w w' : DenseWeights F} (h : SimT nb w w') (dbg : Bool) {i : Nat} (hi : i < 2 ^ nb) (s : Coin.WState F) :
    RelM (SimT nb) (w.setStateAt dbg i 0 s.toList) (w'.setStateAt dbg i 0 s.toList) := by
  rw [DenseWeights.setStateAt_eq dbg w h.tbl.wf (by rw [h.tbl.feat]; exact hi) h.tbl.model (by rw [h.tbl.state]; rfl),
    DenseWeights.setStateAt_eq dbg w' h.tbl'.wf (by rw [h.tbl'.feat]; exact hi) h.tbl'.model (by rw [h.tbl'.state]; rfl)]
  refine ⟨DenseWeights.putState_table h.tbl hi s, DenseWeights.putState_table h.tbl' hi s, ?_, ?_⟩
  · rw [h.dims]; rfl
  · intro j hj
    rw [DenseWeights.putState_wst h.tbl hi hj, DenseWeights.putState_wst h.tbl' hi hj]
    split
    · exact SimS.refl s
    · exact h.states j hj

theorem SimS.innerPredict {s s' : Coin.WState F} (h : SimS s s') (alpha : F) (acc : F × F) (x : F) :
    Coin.innerPredict alpha acc x s = Coin.innerPredict alpha acc x s' := by
  unfold Coin.innerPredict Coin.betWeight
  simp only [h.zt, h.g2, h.mx, h.we, h.mg]

theorem SimS.innerUpdate {s s' : Coin.WState F} (h : SimS s s') (a b c u x : F) : Coin.innerUpdate a b c u x s = Coin.innerUpdate a b c u x s' := by
  unfold Coin.innerUpdate Coin.betWeight
  simp only [h.zt, h.g2, h.mx, h.we, h.mg]

/-- Regressors that differ only in signs of zeros of weights. -/
structure SimC (nb : Nat) (c c' : Coin F) : Prop where
  tables : SimT nb c.weights c'.weights
  same : c' = { c with weights := c'.weights }

theorem predict_sim [SignedZero F] (dbg : Bool) {nb : Nat} {c c' : Coin F} (h : SimC nb c c') (f : SparseFeatures F) :
    c.predict dbg f = c'.predict dbg f := by
  have hs : RelM (fun x y => x = y ∧ Flt.Plain x ∨ Flt.isNaN x = true ∧ Flt.isNaN y = true) (c.rawSum dbg f) (c'.rawSum dbg f) := by
    unfold Coin.rawSum foreachFeature
    have hpass : c'.pass = c.pass := by rw [h.same]
    rw [hpass]
    refine RelM.foldlM _ ?_ _ _ (.inl ⟨rfl, fun _ => rfl⟩)
    intro a b iv hab
    refine RelM.bind (h.tables.weightAt dbg iv.1.toNat) ?_
    intro x y _ _ hxy
    show _ ∨ _
    rcases hab with ⟨rfl, hp⟩ | ⟨h1, h2⟩
    · rcases hxy with rfl | ⟨h1, h2⟩
      · exact .inl ⟨rfl, SignedZero.add_plain _ _ hp⟩
      · have q1 := SignedZero.add_mul_zero a iv.2 x hp h1
        have q2 := SignedZero.add_mul_zero a iv.2 y hp h2
        rcases q1 with q1 | ⟨q1, q1'⟩
        · rcases q2 with q2 | ⟨q2, q2'⟩
          · exact .inl ⟨q1.trans q2.symm, SignedZero.add_plain _ _ hp⟩
          · exact .inr ⟨(congrArg Flt.isNaN q1).trans q2', q2⟩
        · rcases q2 with q2 | ⟨q2, q2'⟩
          · exact .inr ⟨q1, (congrArg Flt.isNaN q2).trans q1'⟩
          · exact .inr ⟨q1, q2⟩
    · exact .inr ⟨SignedZero.add_nan _ _ h1, SignedZero.add_nan _ _ h2⟩
  apply RelM.eq
  unfold Coin.predict
  refine RelM.bind hs ?_
  intro x y _ _ hxy
  have e : (if Flt.isNaN x then Flt.zero else x) = (if Flt.isNaN y then (Flt.zero : F) else y) := by
    rcases hxy with ⟨rfl, _⟩ | ⟨h1, h2⟩
    · rfl
    · rw [if_pos h1, if_pos h2]
  simp only [e]
  have e1 : c'.minLabel = c.minLabel := by rw [h.same]
  have e2 : c'.maxLabel = c.maxLabel := by rw [h.same]
  have e3 : c'.config = c.config := by rw [h.same]
  rw [e1, e2, e3]
  exact RelM.refl _

theorem bettingPredict_sim (dbg : Bool) {nb : Nat} {c c' : Coin F} (h : SimC nb c c') (f : SparseFeatures F) (w : F) :
    RelM (fun x y => x.1 = y.1 ∧ SimC nb x.2 y.2) (c.bettingPredict dbg f w) (c'.bettingPredict dbg f w) := by
  obtain ⟨ht, hs⟩ := h
  unfold Coin.bettingPredict foreachFeatureWithState
  have e0 : c'.pass = c.pass := by rw [hs]
  have e1 : c'.minLabel = c.minLabel := by rw [hs]
  have e2 : c'.maxLabel = c.maxLabel := by rw [hs]
  have e3 : c'.config = c.config := by rw [hs]
  have e4 : c'.modelStates = c.modelStates := by rw [hs]
  have e5 : c'.averageSquaredNormX = c.averageSquaredNormX := by rw [hs]
  have e6 : c'.lossFunction = c.lossFunction := by rw [hs]
  rw [e0, e3, e4]
  have hf : RelM Eq
      ((visited c.pass f).foldlM (m := Except Panic) (fun s iv => do
        let st ← c.weights.stateAt dbg iv.1.toNat 0
        (do
          let s1 ← Coin.WState.ofList st
          .ok (Coin.innerPredict c.config.alpha s iv.2 s1) : M (F × F))) (Flt.zero, Flt.zero))
      ((visited c.pass f).foldlM (m := Except Panic) (fun s iv => do
        let st ← c'.weights.stateAt dbg iv.1.toNat 0
        (do
          let s1 ← Coin.WState.ofList st
          .ok (Coin.innerPredict c.config.alpha s iv.2 s1) : M (F × F))) (Flt.zero, Flt.zero)) := by
    refine RelM.foldlM _ ?_ _ _ rfl
    rintro a _ iv rfl
    refine RelM.bind (ht.stateAt dbg iv.1.toNat) ?_
    rintro _ _ _ _ ⟨hi, rfl, rfl⟩
    rw [DenseWeights.ofList_toList, DenseWeights.ofList_toList]
    exact (ht.states _ hi).innerPredict _ _ _
  refine RelM.bind hf ?_
  rintro ⟨p, n⟩ _ _ _ rfl
  dsimp only
  cases c.modelStates with
  | nil => exact rfl
  | cons ms rest =>
    dsimp only
    rw [e1, e2]
    refine RelM.bind (RelM.refl _) ?_
    rintro q _ _ _ rfl
    refine ⟨rfl, ht, ?_⟩
    simp only [e0, e1, e2, e3, e6]

theorem learn_sim (dbg : Bool) {nb : Nat} {c c' : Coin F} (h : SimC nb c c') (f : SparseFeatures F) (l w : F) :
    RelM (SimC nb) (c.learn dbg f l w) (c'.learn dbg f l w) := by
  rw [Coin.learn_def, Coin.learn_def]
  have h0 : SimC nb (c.seen l) (c'.seen l) := by
    refine ⟨h.tables, ?_⟩
    have := h.same
    unfold Coin.seen
    rw [this]
  refine RelM.bind (bettingPredict_sim dbg h0 f w) ?_
  rintro ⟨p, c1⟩ ⟨p', c2⟩ _ _ ⟨hp, h1⟩
  simp only at hp h1
  subst hp
  obtain ⟨ht, hs⟩ := h1
  simp only
  unfold Coin.updateAfterPredict foreachFeatureWithStateMut
  have e0 : c2.pass = c1.pass := by rw [hs]
  have e1 : c2.minLabel = c1.minLabel := by rw [hs]
  have e2 : c2.maxLabel = c1.maxLabel := by rw [hs]
  have e3 : c2.config = c1.config := by rw [hs]
  have e4 : c2.modelStates = c1.modelStates := by rw [hs]
  have e5 : c2.averageSquaredNormX = c1.averageSquaredNormX := by rw [hs]
  have e6 : c2.lossFunction = c1.lossFunction := by rw [hs]
  have eu : c2.updateOf p l w = c1.updateOf p l w := by unfold Coin.updateOf; rw [e1, e2, e6]
  rw [e0, e3, e5, eu]
  have hf : RelM (fun (x y : Unit × DenseWeights F) => SimT nb x.2 y.2)
      ((visited c1.pass f).foldlM (m := Except Panic) (fun (sw : Unit × DenseWeights F) iv => do
        let st ← sw.2.stateAt dbg iv.1.toNat 0
        let (s', st') ← (do
          let s ← Coin.WState.ofList st
          .ok ((), (Coin.innerUpdate c1.config.alpha c1.config.beta c1.averageSquaredNormX (c1.updateOf p l w) iv.2 s).toList) :
            M (Unit × List F))
        let w' ← sw.2.setStateAt dbg iv.1.toNat 0 st'
        .ok (s', w')) ((), c1.weights))
      ((visited c1.pass f).foldlM (m := Except Panic) (fun (sw : Unit × DenseWeights F) iv => do
        let st ← sw.2.stateAt dbg iv.1.toNat 0
        let (s', st') ← (do
          let s ← Coin.WState.ofList st
          .ok ((), (Coin.innerUpdate c1.config.alpha c1.config.beta c1.averageSquaredNormX (c1.updateOf p l w) iv.2 s).toList) :
            M (Unit × List F))
        let w' ← sw.2.setStateAt dbg iv.1.toNat 0 st'
        .ok (s', w')) ((), c2.weights)) := by
    refine RelM.foldlM _ ?_ _ _ ht
    rintro ⟨_, a⟩ ⟨_, b⟩ iv hab
    refine RelM.bind (SimT.stateAt hab dbg iv.1.toNat) ?_
    rintro _ _ _ _ ⟨hi, rfl, rfl⟩
    rw [DenseWeights.ofList_toList, DenseWeights.ofList_toList]
    simp only [bind, Except.bind]
    rw [← (hab.states _ hi).innerUpdate]
    exact RelM.bind (hab.set dbg hi _) (fun x y _ _ hxy => hxy)
  refine RelM.bind hf ?_
  rintro ⟨_, a⟩ ⟨_, b⟩ _ _ hab
  refine ⟨hab, ?_⟩
  simp only [e0, e1, e2, e3, e4, e5, e6]

/-- No stored statistic but `xt` is a negative zero. -/
structure PlainS (s : Coin.WState F) : Prop where
  zt : Flt.Plain s.zt
  g2 : Flt.Plain s.g2
  mx : Flt.Plain s.mx
  we : Flt.Plain s.we
  mg : Flt.Plain s.mg
  mg0 : Flt.lt s.mg Flt.zero = false

theorem plain_zero : Flt.Plain (Flt.zero : F) := fun _ => rfl

theorem lt_of_between [LawfulCmp F] {m g b : F} (h1 : Flt.lt m g = true) (h2 : Flt.le b m = true) : Flt.lt b g = true := by
  rw [LawfulCmp.lt_eq] at h1 ⊢
  simp only [Bool.and_eq_true, Bool.not_eq_true'] at h1 ⊢
  obtain ⟨⟨_, hg⟩, hgm⟩ := h1
  refine ⟨⟨(LawfulCmp.le_num _ _ h2).1, hg⟩, ?_⟩
  by_contra hc
  have := LawfulCmp.le_trans _ _ _ (by simpa using hc) h2
  rw [this] at hgm
  exact absurd hgm (by simp)

theorem zero_le_of [LawfulCmp F] {m : F} (hn : Flt.isNaN m = false) (h : Flt.lt m Flt.zero = false) : Flt.le Flt.zero m = true := by
  rw [LawfulCmp.lt_eq, hn, LawfulCmp.zero_num] at h
  simpa using h

theorem PlainS.update [LawfulCmp F] [SignedZero F] {s : Coin.WState F} (h : PlainS s) (a b c u x : F) :
    PlainS (Coin.innerUpdate a b c u x s) := by
  have hmg : Flt.Plain (if Flt.lt s.mg (Flt.abs u) then (if Flt.lt b (Flt.abs u) then Flt.abs u else b) else s.mg) ∧
      Flt.lt (if Flt.lt s.mg (Flt.abs u) then (if Flt.lt b (Flt.abs u) then Flt.abs u else b) else s.mg) Flt.zero = false := by
    split
    · rename_i h1
      split
      · exact ⟨SignedZero.abs_plain _, SignedZero.abs_nonneg _⟩
      · rename_i h2
        have hn : Flt.isNaN s.mg = false := by
          rw [LawfulCmp.lt_eq] at h1
          simp only [Bool.and_eq_true, Bool.not_eq_true'] at h1
          exact h1.1.1
        have hz := zero_le_of hn h.mg0
        constructor
        · intro he
          exact absurd (lt_of_between h1 (LawfulCmp.le_trans _ _ _ (SignedZero.eq_le _ _ he) hz)) h2
        · by_contra hc
          simp only [Bool.not_eq_false] at hc
          apply h2
          refine lt_of_between h1 (LawfulCmp.le_trans _ _ _ ?_ hz)
          rw [LawfulCmp.lt_eq] at hc
          simp only [Bool.and_eq_true, Bool.not_eq_true'] at hc
          rcases LawfulCmp.le_total b (Flt.zero : F) hc.1.1 hc.1.2 with h3 | h3
          · exact h3
          · rw [h3] at hc; exact absurd hc.2 (by simp)
    · exact ⟨h.mg, h.mg0⟩
  refine ⟨SignedZero.add_plain _ _ h.zt, SignedZero.add_plain _ _ h.g2, ?_, SignedZero.add_plain _ _ h.we, hmg.1, hmg.2⟩
  show Flt.Plain (if Flt.lt s.mx (Flt.abs x) then Flt.abs x else s.mx)
  split
  · exact SignedZero.abs_plain _
  · exact h.mx

/-- An updating pass keeps the table in shape. -/
theorem updatePass_good (dbg : Bool) (nb : Nat) (g : F → Coin.WState F → Coin.WState F) (vs : List (U32 × F)) : ∀ (w : DenseWeights F),
    w.CoinTable nb → w.Good → ∀ r, vs.foldlM (m := Except Panic) (fun (sw : Unit × DenseWeights F) iv => do
        let st ← sw.2.stateAt dbg iv.1.toNat 0
        let (s', st') ← (do
          let s ← Coin.WState.ofList st
          .ok ((), (g iv.2 s).toList) : M (Unit × List F))
        let w' ← sw.2.setStateAt dbg iv.1.toNat 0 st'
        .ok (s', w')) ((), w) = .ok r → r.2.Good ∧ r.2.modelIndexSize = w.modelIndexSize := by
  induction vs with
  | nil =>
    intro w _ hg r hr
    simp only [List.foldlM_nil, pure, Except.pure, Except.ok.injEq] at hr
    subst hr
    exact ⟨hg, rfl⟩
  | cons iv vs ih =>
    intro w h hg r hr
    rw [List.foldlM_cons] at hr
    obtain ⟨⟨u, w1⟩, h1, hr⟩ := bind_ok.1 hr
    obtain ⟨st, h2, h1⟩ := bind_ok.1 h1
    have hi := DenseWeights.stateAt_lt h h2
    have hi' : iv.1.toNat < w.featureIndexSize := by rw [h.feat]; exact hi
    rw [DenseWeights.stateAt_wst h dbg hi] at h2
    simp only [Except.ok.injEq] at h2
    subst h2
    simp only [DenseWeights.ofList_toList, bind, Except.bind] at h1
    rw [DenseWeights.setStateAt_eq dbg w h.wf hi' h.model (by rw [h.state]; rfl)] at h1
    simp only [Except.ok.injEq, Prod.mk.injEq, true_and] at h1
    subst h1
    exact ih _ (DenseWeights.putState_table h hi _) (DenseWeights.putState_good hg hi' h.model (by rw [h.state]; rfl)) r hr

theorem learn_good {dbg : Bool} {c c' : Coin F} {nb : Nat} (hc : c.Ok nb) (hg : c.weights.Good) {f : SparseFeatures F} {l w : F}
    (h : c.learn dbg f l w = .ok c') : c'.weights.Good ∧ c'.weights.modelIndexSize = c.weights.modelIndexSize := by
  rw [Coin.learn_def] at h
  obtain ⟨⟨p, c1⟩, h1, h⟩ := bind_ok.1 h
  obtain ⟨e1, e2, e3, e4, e5, e6, e7, _⟩ := Coin.bettingPredict_inv h1
  simp only at e1 e2 e3 e4 e5 e6 e7 h
  unfold Coin.updateAfterPredict at h
  obtain ⟨⟨u, wt⟩, h2, h⟩ := bind_ok.1 h
  simp only [Except.ok.injEq] at h
  have e1 : c1.weights = c.weights := e1
  have ht : c1.weights.CoinTable nb := by rw [e1]; exact hc.table
  unfold foreachFeatureWithStateMut at h2
  have := updatePass_good dbg nb (Coin.innerUpdate c1.config.alpha c1.config.beta c1.averageSquaredNormX (c1.updateOf p l w))
    (visited c1.pass f) c1.weights ht (by rw [e1]; exact hg) _ h2
  subst h
  rw [← e1]
  exact this

/-- What holds of every trained regressor. -/
structure CoinInv (nb nma : Nat) (c : Coin F) : Prop where
  ok : c.Ok nb
  good : c.weights.Good
  models : c.weights.modelIndexSize = nma

theorem trained_inv {dbg : Bool} {nb nma : Nat} (es : List (TrainEx F)) : ∀ {c c' : Coin F}, CoinInv nb nma c → c.trainAll dbg es = .ok c' →
    CoinInv nb nma c' := by
  induction es with
  | nil => intro c c' h ht; simp only [Coin.trainAll, Except.ok.injEq] at ht; subst ht; exact h
  | cons e es ih =>
    intro c c' h ht
    unfold Coin.trainAll at ht
    obtain ⟨c1, h1, ht⟩ := bind_ok.1 ht
    obtain ⟨_, _, _, _, hok, _⟩ := Coin.learn_inv h.ok h1
    have := learn_good h.ok h.good h1
    exact ih ⟨hok, this.1, this.2.trans h.models⟩ ht

theorem new_inv {hash : HashFn} {cfg : CoinConfig F} {g : GlobalConfig} {nma : Nat} {c : Coin F} (hn : 0 < nma)
    (h : Coin.new hash cfg g nma = .ok c) : CoinInv g.numBits nma c := by
  have hok := (Coin.new_ok hn h).1
  unfold Coin.new at h
  obtain ⟨⟨pairs, triples⟩, _, h⟩ := bind_ok.1 h
  simp only at h
  split at h
  · obtain ⟨w, hw, h⟩ := bind_ok.1 h
    simp only [Except.ok.injEq] at h
    subst h
    exact ⟨hok, DenseWeights.new_good hw, (DenseWeights.new_wf hw).2.2.1⟩
  · simp at h

theorem trained_plain [LawfulCmp F] [SignedZero F] {dbg : Bool} {nb : Nat} (es : List (TrainEx F)) : ∀ {c c' : Coin F}, c.Ok nb →
    (∀ i, i < 2 ^ nb → PlainS (c.weights.wst i)) → c.trainAll dbg es = .ok c' → ∀ i, i < 2 ^ nb → PlainS (c'.weights.wst i) := by
  induction es with
  | nil => intro c c' _ h ht; simp only [Coin.trainAll, Except.ok.injEq] at ht; subst ht; exact h
  | cons e es ih =>
    intro c c' hok h ht
    unfold Coin.trainAll at ht
    obtain ⟨c1, h1, ht⟩ := bind_ok.1 ht
    obtain ⟨p, c2, _, _, hok', _, _, _, _, _, _, hw⟩ := Coin.learn_inv hok h1
    refine ih hok' ?_ ht
    intro i hi
    rw [hw i hi]
    generalize c.visitsAt e.feats i = vs
    have h0 := h i hi
    generalize c.weights.wst i = s at h0
    induction vs generalizing s with
    | nil => exact h0
    | cons v vs ihv => exact ihv _ (h0.update _ _ _ _ _)

theorem canon_wst {w : DenseWeights F} {nb : Nat} (h : w.CoinTable nb) {i : Nat} (hi : i < 2 ^ nb) :
    w.canon.wst i = ⟨canonZ (w.wst i).xt, canonZ (w.wst i).zt, canonZ (w.wst i).g2, canonZ (w.wst i).mx, canonZ (w.wst i).we,
      canonZ (w.wst i).mg⟩ := by
  have h1 := DenseWeights.wst_toList h hi
  have h2 : (w.canon.weights.drop (w.canon.slot i 0)).take 6 = (w.wst i).toList.map canonZ := by
    rw [h1, List.map_take, List.map_drop]; rfl
  unfold DenseWeights.wst at h2 ⊢
  rw [h2]
  rfl

theorem canon_table {w : DenseWeights F} {nb : Nat} (h : w.CoinTable nb) : w.canon.CoinTable nb := by
  have hl : w.canon.weights.length = w.weights.length := by simp [DenseWeights.canon]
  exact ⟨⟨h.wf.model_le, h.wf.state_le, by rw [hl]; exact h.wf.len⟩, h.feat, h.model, h.state, by rw [hl]; exact h.len⟩

theorem canonZ_plain {x : F} (h : Flt.Plain x) : canonZ x = x := by
  unfold canonZ
  split
  · rename_i he; exact (h he).symm
  · rfl

theorem canonZ_sim [SignedZero F] (x : F) : x = canonZ x ∨ Flt.eq x Flt.zero = true ∧ Flt.eq (canonZ x) Flt.zero = true := by
  unfold canonZ
  split
  · rename_i h; exact .inr ⟨h, SignedZero.zero_eq⟩
  · exact .inl rfl

theorem canon_sim [SignedZero F] {nb : Nat} {c : Coin F} (hok : c.Ok nb) (hp : ∀ i, i < 2 ^ nb → PlainS (c.weights.wst i)) :
    SimC nb c c.canon := by
  refine ⟨⟨hok.table, canon_table hok.table, rfl, ?_⟩, rfl⟩
  intro i hi
  have h := hp i hi
  show SimS _ (c.weights.canon.wst i)
  rw [canon_wst hok.table hi]
  exact ⟨canonZ_sim _, (canonZ_plain h.zt).symm, (canonZ_plain h.g2).symm, (canonZ_plain h.mx).symm, (canonZ_plain h.we).symm,
    (canonZ_plain h.mg).symm⟩

theorem canonRed_sim {R : Coin F → Coin F → Prop} (r : Red F) : ∀ s : r.State, R (r.coinOf s) (r.coinOf s).canon → SimSt R r s (canonRed r s) := by
  induction r with
  | coin m => intro s h; exact h
  | binary m r ih => intro s h; exact ih s h
  | cbAdf m ty r ih => intro s h; exact ⟨rfl, ih s.2 h⟩
  | greedy m e r ih => intro s h; exact ih s h
  | softmax m e la r ih => intro s h; exact ⟨rfl, ih s.2 h⟩
  | squareCb m e a b r ih => intro s h; exact ⟨rfl, ih s.2 h⟩
  | debug m r ih => intro s h; exact ih s h
  | elementwise m p k n r ih => intro s h; exact ih s h

theorem canonRed_id (r : Red F) : ∀ s : r.State, (r.coinOf s).canon = r.coinOf s → canonRed r s = s := by
  induction r with
  | coin m => intro s h; exact h
  | binary m r ih => intro s h; exact ih s h
  | cbAdf m ty r ih => intro s h; exact Prod.ext rfl (ih s.2 h)
  | greedy m e r ih => intro s h; exact ih s h
  | softmax m e la r ih => intro s h; exact Prod.ext rfl (ih s.2 h)
  | squareCb m e a b r ih => intro s h; exact Prod.ext rfl (ih s.2 h)
  | debug m r ih => intro s h; exact ih s h
  | elementwise m p k n r ih => intro s h; exact ih s h

end coins
end Rml
