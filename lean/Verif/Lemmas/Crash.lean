import Verif.Model.Crash
import Verif.Lemmas.Stack

/-! Helper lemmas for C99: the version of the calls that keeps the objects of a panicking call returns what the other version returns. -/

set_option linter.unusedSectionVars false

namespace Rml
variable {F : Type} [Flt F]

namespace Cr
variable {σ τ α β : Type}

/-- What a call returns, with the object. -/
def ret : M α × σ → M (α × σ)
  | (.ok a, s) => .ok (a, s)
  | (.error e, _) => .error e

theorem bind_def (x : Cr σ α) (f : α → Cr σ β) : (x >>= f) = Cr.bind x f := rfl

theorem ret_bind (x : Cr σ α) (f : α → Cr σ β) (s : σ) : ret ((x >>= f) s) = ret (x s) >>= fun p => ret (f p.1 p.2) := by
  show ret (Cr.bind x f s) = _
  unfold Cr.bind
  rcases x s with ⟨a | a, s'⟩ <;> rfl

theorem ret_pure (a : α) (s : σ) : ret (Cr.pure a s) = .ok (a, s) := rfl

theorem ret_lift (m : M α) (s : σ) : ret (Cr.lift m s) = m >>= fun a => .ok (a, s) := by
  cases m <;> rfl

theorem ret_get (s : σ) : ret (Cr.get s) = .ok (s, s) := rfl

theorem ret_set (s t : σ) : ret (Cr.set t s) = .ok ((), t) := rfl

theorem ret_on (part : σ → τ) (put : τ → σ → σ) (x : Cr τ α) (s : σ) :
    ret (Cr.on part put x s) = ret (x (part s)) >>= fun p => .ok (p.1, put p.2 s) := by
  unfold Cr.on
  rcases x (part s) with ⟨a | a, s'⟩ <;> rfl

theorem ok_bind' {α β : Type} (a : α) (f : α → M β) : ((Except.ok a : M α) >>= f) = f a := rfl

theorem bind_assoc' {α β γ : Type} (x : M α) (f : α → M β) (g : β → M γ) : (x >>= f) >>= g = x >>= fun a => f a >>= g := by
  cases x <;> rfl

theorem error_bind' {α β : Type} (e : Panic) (f : α → M β) : ((Except.error e : M α) >>= f) = .error e := rfl

theorem ret_forEach {β : Type} (step : β → Cr σ Unit) (stepM : σ → β → M σ)
    (h : ∀ b s, ret (step b s) = stepM s b >>= fun s' => .ok ((), s')) (l : List β) :
    ∀ s, ret (forEach step l s) = l.foldlM stepM s >>= fun s' => .ok ((), s') := by
  induction l with
  | nil => intro s; rfl
  | cons b bs ih =>
    intro s
    unfold forEach
    rw [ret_bind, h, bind_assoc', List.foldlM_cons, bind_assoc']
    congr 1
    funext s'
    exact ih s'

end Cr

open Cr

theorem ret_append (o f : SparseFeatures F) : ret (o.appendCr f) = f.append o >>= fun f' => .ok ((), f') := by
  unfold SparseFeatures.appendCr SparseFeatures.append
  apply ret_forEach
  intro b s
  unfold SparseFeatures.appendStepCr SparseFeatures.appendStep
  split
  · simp only [ret_bind, ret_get, ok_bind', ret_set, ret_lift, bind_assoc']
  · rfl

theorem ret_remove (o f : SparseFeatures F) : ret (o.removeCr f) = f.remove o >>= fun f' => .ok ((), f') := by
  unfold SparseFeatures.removeCr SparseFeatures.remove
  apply ret_forEach
  intro b s
  unfold SparseFeatures.removeStepCr SparseFeatures.removeStep
  split
  · simp only [ret_bind, ret_get, ok_bind', ret_set]
    split
    · rfl
    · rfl
  · rfl

theorem ret_foreachMut (dbg : Bool) (model : Nat) (f : SparseFeatures F) (c : PassCfg) (func : F → List F → M (List F)) (w : DenseWeights F) :
    ret (foreachMutCr dbg model f c func w) = foreachFeatureWithStateMut dbg model f w c (fun (_ : Unit) x st => do
      let st' ← func x st
      .ok ((), st')) () := by
  unfold foreachMutCr foreachFeatureWithStateMut
  generalize visited c f = l
  induction l generalizing w with
  | nil => rfl
  | cons b bs ih =>
    unfold forEach
    simp only [ret_bind, ret_get, ok_bind', ret_set, ret_lift, bind_assoc', List.foldlM_cons]
    congr 1
    funext st
    congr 1
    funext st'
    congr 1
    funext w'
    simp only [bind_assoc', ok_bind'] at ih
    exact ih w'

theorem ret_bettingPredict (dbg : Bool) (f : SparseFeatures F) (weight : F) (c : Coin F) :
    ret (Coin.bettingPredictCr dbg f weight c) = Coin.bettingPredict dbg c f weight := by
  unfold Coin.bettingPredictCr Coin.bettingPredict
  simp only [ret_bind, ret_get, ok_bind', ret_lift, bind_assoc']
  congr 1
  funext p
  obtain ⟨pred, nsn⟩ := p
  simp only
  cases c.modelStates with
  | nil => rfl
  | cons ms rest => simp only [ret_bind, ret_set, ok_bind', ret_lift]

theorem ret_updateAfterPredict (dbg : Bool) (f : SparseFeatures F) (p l w : F) (c : Coin F) :
    ret (Coin.updateAfterPredictCr dbg f p l w c) = Coin.updateAfterPredict dbg c f p l w >>= fun c' => .ok ((), c') := by
  unfold Coin.updateAfterPredictCr Coin.updateAfterPredict
  simp only [ret_bind, ret_get, ok_bind', ret_on, ret_foreachMut, bind_assoc']

theorem ret_coinLearn (dbg : Bool) (f : SparseFeatures F) (l w : F) (c : Coin F) :
    ret (Coin.learnCr dbg f l w c) = Coin.learn dbg c f l w >>= fun c' => .ok ((), c') := by
  unfold Coin.learnCr Coin.learn
  simp only [ret_bind, ret_get, ok_bind', ret_set, ret_bettingPredict, ret_updateAfterPredict, bind_assoc']

theorem ret_onSimple {σ α : Type} (x : Cr (σ × Features F) α) (s : σ) (f : SparseFeatures F) :
    ret (onSimple x (s, f)) = ret (x (s, .simple f)) >>= fun p => p.2.2.asSimple >>= fun f' => .ok (p.1, (p.2.1, f')) := by
  unfold onSimple
  simp only
  rcases x (s, .simple f) with ⟨a | a, s', f' | f'⟩ <;> rfl

theorem ret_wrap {α σ : Type} (dbg : Bool) (m : Meta) (d : Depth) (off : Nat) (body : Depth → Cr (σ × Features F) (α × Depth))
    (bodyM : Features F → Depth → M ((α × σ) × Features F × Depth)) (s : σ)
    (h : ∀ ft d, ret (body d (s, ft)) = bodyM ft d >>= fun p => .ok ((p.1.1, p.2.2), (p.1.2, p.2.1))) (ft : Features F) :
    ret (wrapCr dbg m d off body (s, ft)) = wrapCall dbg m ft d off bodyM >>= fun p => .ok ((p.1.1, p.2.2), (p.1.2, p.2.1)) := by
  unfold wrapCr wrapCall
  simp only [ret_bind, ret_get, ok_bind', ret_lift, bind_assoc', h, ret_pure]

/-- A child with its own result shape. -/
theorem wrapCall_map {α β : Type} (dbg : Bool) (m : Meta) (ft : Features F) (d : Depth) (off : Nat)
    (body : Features F → Depth → M (α × Features F × Depth)) (g : α → β) :
    wrapCall dbg m ft d off (fun ft d => body ft d >>= fun p => .ok (g p.1, p.2)) =
      wrapCall dbg m ft d off body >>= fun p => .ok (g p.1, p.2) := by
  unfold wrapCall
  simp only [bind_assoc', ok_bind']

theorem ret_elementwise {α σ : Type} (dbg : Bool) (nb : Nat) (pair : Namespace × Namespace) (keep : Bool)
    (body : Depth → Cr (σ × Features F) (α × Depth)) (bodyM : Features F → Depth → M ((α × σ) × Features F × Depth)) (s : σ)
    (h : ∀ ft d, ret (body d (s, ft)) = bodyM ft d >>= fun p => .ok ((p.1.1, p.2.2), (p.1.2, p.2.1))) (ft : Features F) (d : Depth) :
    ret (elementwiseCr dbg nb pair keep body d (s, ft)) =
      elementwiseWith dbg nb pair keep bodyM ft d >>= fun p => .ok ((p.1.1, p.2.2), (p.1.2, p.2.1)) := by
  unfold elementwiseCr elementwiseWith
  simp only [ret_bind, ret_get, ok_bind', ret_lift, bind_assoc', ret_set]
  congr 1
  funext f
  congr 1
  funext p
  cases keep with
  | true => simp only [if_true, ret_bind, ret_get, ok_bind', ret_lift, bind_assoc', ret_set, h, ret_pure]
  | false =>
    simp only [Bool.false_eq_true, if_false, ret_bind, ret_get, ok_bind', ret_lift, bind_assoc', ret_set, h, ret_pure]

theorem ret_appendShared {σ : Type} (shared : Option (SparseFeatures F)) (s : σ) (a : SparseFeatures F) :
    ret (appendSharedCr shared (s, a)) = appendShared shared a >>= fun a' => .ok ((), (s, a')) := by
  cases shared with
  | none => rfl
  | some x => simp only [appendSharedCr, appendShared, ret_on, ret_append, bind_assoc', ok_bind']

theorem ret_removeShared {σ : Type} (shared : Option (SparseFeatures F)) (s : σ) (a : SparseFeatures F) :
    ret (removeSharedCr shared (s, a)) = removeShared shared a >>= fun a' => .ok ((), (s, a')) := by
  cases shared with
  | none => rfl
  | some x => simp only [removeSharedCr, removeShared, ret_on, ret_remove, bind_assoc', ok_bind']

theorem ret_next {σ α β : Type} (q : M α × (σ × SparseFeatures F)) (as : List (SparseFeatures F)) (rest : α → σ → M β × (σ × List (SparseFeatures F))) :
    ret (nextAction q as rest) = ret q >>= fun p => ret (rest p.1 p.2.1) >>= fun r => .ok (r.1, (r.2.1, p.2.2 :: r.2.2)) := by
  rcases q with ⟨e | x, s, a⟩
  · rfl
  · simp only [nextAction, ret, ok_bind']
    rcases rest x s with ⟨e | y, s', l⟩ <;> rfl

theorem ret_map {σ α β : Type} (r : M α × σ) (g : α → β) : ret (r.1.map g, r.2) = ret r >>= fun p => .ok (g p.1, p.2) := by
  rcases r with ⟨e | y, s⟩ <;> rfl

theorem ret_cbPredictLoop (childP : Depth → Cr (Unit × Features F) (Prediction F × Depth))
    (childM : Features F → Depth → M (Prediction F × Features F × Depth))
    (h : ∀ ft d, ret (childP d ((), ft)) = childM ft d >>= fun p => .ok ((p.1, p.2.2), ((), p.2.1)))
    (shared : Option (SparseFeatures F)) (as : List (SparseFeatures F)) : ∀ (i : Nat) (d : Depth),
    ret (cbPredictLoopCr childP shared i as d ()) = cbPredictLoop childM shared i as d >>= fun p => .ok ((p.1, p.2.2), ((), p.2.1)) := by
  induction as with
  | nil => intro i d; rfl
  | cons a as ih =>
    intro i d
    have hs : ret (cbPredictStepCr childP shared d ((), a)) = (do
        let a1 ← appendShared shared a
        let (p, ft, d1) ← childM (.simple a1) d
        let (_, raw) ← p.asScalar
        let a2 ← ft.asSimple
        let a3 ← removeShared shared a2
        .ok ((raw, d1), ((), a3))) := by
      unfold cbPredictStepCr
      simp only [ret_bind, ret_appendShared, ok_bind', ret_onSimple, bind_assoc', h, ret_lift, ret_removeShared, ret_pure]
      congr 1
      funext a1
      congr 1
      funext p
      obtain ⟨p, ft, d1⟩ := p
      simp only
      cases p <;> cases ft <;> rfl
    unfold cbPredictLoopCr cbPredictLoop
    simp only [ret_next, hs, ret_map, ih, bind_assoc', ok_bind']

theorem ret_cbIpsLoop {σ : Type} (dbg : Bool) (childL : Label F → Depth → Cr (σ × Features F) (Unit × Depth))
    (childM : σ → Features F → Label F → Depth → M (σ × Features F × Depth))
    (h : ∀ s ft l d, ret (childL l d (s, ft)) = childM s ft l d >>= fun p => .ok (((), p.2.2), (p.1, p.2.1)))
    (shared : Option (SparseFeatures F)) (label : CBLabel F) (as : List (SparseFeatures F)) : ∀ (i : Nat) (d : Depth) (s : σ),
    ret (cbIpsLoopCr dbg childL shared label i as d s) =
      cbIpsLoop dbg childM shared label i as s d >>= fun p => .ok (p.2.2, (p.1, p.2.1)) := by
  induction as with
  | nil => intro i d s; rfl
  | cons a as ih =>
    intro i d s
    unfold cbIpsLoopCr cbIpsLoop cbIpsStepCr
    simp only [ret_next, ret_bind, ret_appendShared, ok_bind', ret_onSimple, bind_assoc', h, ret_lift, ret_removeShared, ret_pure, ih]

theorem ret_cbMtrLearn {σ : Type} (childL : Label F → Depth → Cr (σ × Features F) (Unit × Depth))
    (childM : σ → Features F → Label F → Depth → M (σ × Features F × Depth))
    (h : ∀ s ft l d, ret (childL l d (s, ft)) = childM s ft l d >>= fun p => .ok (((), p.2.2), (p.1, p.2.1)))
    (f : CBAdfFeatures F) (label : CBLabel F) (mtr : MtrState) (s : σ) (d : Depth) :
    ret (cbMtrLearnCr childL label d ((mtr, s), f)) = cbMtrLearn childM f label mtr s d >>= fun p => .ok (p.2.2, (p.1, p.2.1)) := by
  unfold cbMtrLearnCr cbMtrLearn
  simp only [ret_bind, ret_get, ok_bind', ret_set]
  cases hs : f.shared with
  | none => rfl
  | some sh =>
    simp only [ret_bind, ret_lift, ret_on, ret_append, ret_remove, ret_onSimple, ok_bind', bind_assoc', h, ret_pure]

theorem ret_onCb {σ α : Type} (x : Cr (σ × CBAdfFeatures F) α) (s : σ) (ft : Features F) :
    ret (onCb x (s, ft)) = ft.asCb >>= fun f => ret (x (s, f)) >>= fun p => .ok (p.1, (p.2.1, .cbAdf p.2.2)) := by
  unfold onCb
  cases ft with
  | simple f => rfl
  | cbAdf f =>
    simp only [Features.asCb, ok_bind']
    rcases x (s, f) with ⟨a | a, s'⟩ <;> rfl

theorem ret_onActions {σ α : Type} (x : Option (SparseFeatures F) → List (SparseFeatures F) → σ → M α × (σ × List (SparseFeatures F))) (s : σ)
    (f : CBAdfFeatures F) : ret (onActions x (s, f)) = ret (x f.shared f.actions s) >>= fun p => .ok (p.1, (p.2.1, ⟨f.shared, p.2.2⟩)) := by
  unfold onActions
  simp only
  rcases x f.shared f.actions s with ⟨a | a, s'⟩ <;> rfl

theorem ret_onChild {σ κ α : Type} (x : Cr (σ × Features F) α) (k : κ) (s : σ) (ft : Features F) :
    ret (onChild x ((k, s), ft)) = ret (x (s, ft)) >>= fun p => .ok (p.1, ((k, p.2.1), p.2.2)) := by
  unfold onChild
  rw [ret_on]

theorem ret_predict (dbg : Bool) (r : Red F) : ∀ (s : r.State) (ft : Features F) (d : Depth),
    ret (r.predictCr dbg s d ((), ft)) = r.predictImpl dbg s ft d >>= fun p => .ok ((p.1, p.2.2), ((), p.2.1)) := by
  have hw : ∀ (r : Red F), (∀ (s : r.State) (ft : Features F) (d : Depth),
      ret (r.predictCr dbg s d ((), ft)) = r.predictImpl dbg s ft d >>= fun p => .ok ((p.1, p.2.2), ((), p.2.1))) → ∀ (s : r.State) (ft : Features F) (d : Depth),
      ret (wrapCr dbg r.meta d 0 (r.predictCr dbg s) ((), ft)) =
        wrapCall dbg r.meta ft d 0 (r.predictImpl dbg s) >>= fun p => .ok ((p.1, p.2.2), ((), p.2.1)) := by
    intro r ih s ft d
    rw [ret_wrap dbg r.meta d 0 _ (fun ft d => r.predictImpl dbg s ft d >>= fun p => .ok ((p.1, ()), p.2)) () (by
      intro ft d
      rw [ih, bind_assoc']
      rfl), wrapCall_map dbg r.meta ft d 0 (r.predictImpl dbg s) (fun p => (p, ())), bind_assoc']
    rfl
  induction r with
  | coin m =>
    intro s ft d
    unfold Red.predictCr Red.predictImpl
    simp only [ret_bind, ret_get, ok_bind', ret_lift, bind_assoc', ret_pure]
  | binary m r ih =>
    intro s ft d
    unfold Red.predictCr Red.predictImpl
    simp only [ret_bind, ok_bind', ret_lift, bind_assoc', ret_pure, hw r ih]
  | cbAdf m ty r ih =>
    intro s ft d
    unfold Red.predictCr Red.predictImpl
    simp only [ret_bind, ok_bind', ret_onCb, ret_onActions, bind_assoc', ret_pure]
    congr 1
    funext f
    rw [ret_cbPredictLoop _ (fun ft d => wrapCall dbg r.meta ft d 0 (r.predictImpl dbg s.2)) (fun ft d => hw r ih s.2 ft d), bind_assoc']
    rfl
  | greedy m e r ih =>
    intro s ft d
    unfold Red.predictCr Red.predictImpl
    simp only [ret_bind, ok_bind', ret_lift, bind_assoc', ret_pure, hw r ih]
  | softmax m e lm r ih =>
    intro s ft d
    unfold Red.predictCr Red.predictImpl
    simp only [ret_bind, ok_bind', ret_lift, bind_assoc', ret_pure, hw r ih]
  | squareCb m e gs ge r ih =>
    intro s ft d
    unfold Red.predictCr Red.predictImpl
    simp only [ret_bind, ok_bind', ret_lift, bind_assoc', ret_pure, hw r ih]
  | debug m r ih =>
    intro s ft d
    unfold Red.predictCr Red.predictImpl
    exact hw r ih s ft d
  | elementwise m pair keep bits r ih =>
    intro s ft d
    unfold Red.predictCr Red.predictImpl
    have hmap : ∀ ft d, elementwiseWith dbg bits pair keep (fun ft d => wrapCall dbg r.meta ft d 0 (r.predictImpl dbg s) >>= fun p => .ok ((p.1, ()), p.2)) ft d =
        elementwiseWith dbg bits pair keep (fun ft d => wrapCall dbg r.meta ft d 0 (r.predictImpl dbg s)) ft d >>= fun p => .ok ((p.1, ()), p.2) := by
      intro ft d
      unfold elementwiseWith
      cases keep <;> simp only [bind_assoc', ok_bind', if_true, Bool.false_eq_true, if_false]
    rw [ret_elementwise dbg bits pair keep _ (fun ft d => wrapCall dbg r.meta ft d 0 (r.predictImpl dbg s) >>= fun p => .ok ((p.1, ()), p.2)) () (by
      intro ft d
      rw [hw r ih, bind_assoc']
      rfl), hmap, bind_assoc']
    rfl

theorem ret_learn (dbg : Bool) (r : Red F) : ∀ (s : r.State) (ft : Features F) (l : Label F) (d : Depth),
    ret (r.learnCr dbg l d (s, ft)) = r.learnImpl dbg s ft l d >>= fun p => .ok (((), p.2.2), (p.1, p.2.1)) := by
  have hw : ∀ (r : Red F), (∀ (s : r.State) (ft : Features F) (l : Label F) (d : Depth),
      ret (r.learnCr dbg l d (s, ft)) = r.learnImpl dbg s ft l d >>= fun p => .ok (((), p.2.2), (p.1, p.2.1))) →
      ∀ (s : r.State) (ft : Features F) (l : Label F) (d : Depth), ret (wrapCr dbg r.meta d 0 (r.learnCr dbg l) (s, ft)) =
        wrapCall dbg r.meta ft d 0 (fun ft d => r.learnImpl dbg s ft l d) >>= fun p => .ok (((), p.2.2), (p.1, p.2.1)) := by
    intro r ih s ft l d
    rw [ret_wrap dbg r.meta d 0 _ (fun ft d => r.learnImpl dbg s ft l d >>= fun p => .ok (((), p.1), p.2)) s (by
      intro ft d
      rw [ih, bind_assoc']
      rfl), wrapCall_map dbg r.meta ft d 0 (fun ft d => r.learnImpl dbg s ft l d) (fun p => ((), p)), bind_assoc']
    rfl
  induction r with
  | coin m =>
    intro s ft l d
    unfold Red.learnCr Red.learnImpl
    simp only [ret_bind, ret_get, ok_bind', ret_lift, bind_assoc', ret_pure, ret_on, ret_coinLearn]
  | binary m r ih =>
    intro s ft l d
    unfold Red.learnCr Red.learnImpl
    simp only [ret_bind, ok_bind', ret_lift, bind_assoc', hw r ih]
  | cbAdf m ty r ih =>
    intro s ft l d
    cases ty with
    | ips =>
      unfold Red.learnCr Red.learnImpl
      simp only [ret_bind, ret_get, ok_bind', ret_lift, bind_assoc', ret_pure]
      cases ft with
      | simple f => rfl
      | cbAdf f =>
        simp only [Features.asCb, ok_bind']
        congr 1
        funext cl
        obtain ⟨k, s⟩ := s
        rw [ret_onChild, ret_onCb]
        simp only [Features.asCb, ok_bind']
        rw [ret_onActions]
        rw [ret_cbIpsLoop dbg _ (fun s ft l d => wrapCall dbg r.meta ft d 0 (fun ft d => r.learnImpl dbg s ft l d)) (fun s ft l d => hw r ih s ft l d)]
        simp only [bind_assoc', ok_bind']
    | mtr =>
      unfold Red.learnCr Red.learnImpl
      simp only [ret_bind, ret_get, ok_bind', ret_lift, bind_assoc', ret_pure]
      cases ft with
      | simple f => rfl
      | cbAdf f =>
        simp only [Features.asCb, ok_bind']
        congr 1
        funext cl
        obtain ⟨k, s⟩ := s
        rw [ret_onCb]
        simp only [Features.asCb, ok_bind']
        rw [ret_cbMtrLearn _ (fun s ft l d => wrapCall dbg r.meta ft d 0 (fun ft d => r.learnImpl dbg s ft l d)) (fun s ft l d => hw r ih s ft l d)]
        simp only [bind_assoc', ok_bind']
  | greedy m e r ih =>
    intro s ft l d
    unfold Red.learnCr Red.learnImpl
    exact hw r ih s ft l d
  | softmax m e lm r ih =>
    intro s ft l d
    obtain ⟨k, s⟩ := s
    unfold Red.learnCr Red.learnImpl
    rw [ret_onChild, hw r ih]
    simp only [bind_assoc', ok_bind']
  | squareCb m e gs ge r ih =>
    intro s ft l d
    obtain ⟨k, s⟩ := s
    unfold Red.learnCr Red.learnImpl
    simp only [ret_bind, ok_bind', ret_lift, bind_assoc', ret_onChild, hw r ih, ret_get, ret_set, ret_pure]
  | debug m r ih =>
    intro s ft l d
    unfold Red.learnCr Red.learnImpl
    exact hw r ih s ft l d
  | elementwise m pair keep bits r ih =>
    intro s ft l d
    unfold Red.learnCr Red.learnImpl
    have hmap : ∀ ft d, elementwiseWith dbg bits pair keep
          (fun ft d => wrapCall dbg r.meta ft d 0 (fun ft d => r.learnImpl dbg s ft l d) >>= fun p => .ok (((), p.1), p.2)) ft d =
        elementwiseWith dbg bits pair keep (fun ft d => wrapCall dbg r.meta ft d 0 (fun ft d => r.learnImpl dbg s ft l d)) ft d >>=
          fun p => .ok (((), p.1), p.2) := by
      intro ft d
      unfold elementwiseWith
      cases keep <;> simp only [bind_assoc', ok_bind', if_true, Bool.false_eq_true, if_false]
    rw [ret_elementwise dbg bits pair keep _
      (fun ft d => wrapCall dbg r.meta ft d 0 (fun ft d => r.learnImpl dbg s ft l d) >>= fun p => .ok (((), p.1), p.2)) s (by
        intro ft d
        rw [hw r ih, bind_assoc']
        rfl), hmap, bind_assoc']
    rfl

theorem ret_predictIn (dbg : Bool) (r : Red F) (s : r.State) (ft : Features F) (d : Depth) :
    ret (r.predictIn dbg d (s, ft)) = r.predictImpl dbg s ft d >>= fun p => .ok ((p.1, p.2.2), (s, p.2.1)) := by
  have := ret_predict dbg r s ft d
  unfold Red.predictIn
  simp only
  rcases hq : r.predictCr dbg s d ((), ft) with ⟨e | x, y⟩ <;> rw [hq] at this
  · cases hm : r.predictImpl dbg s ft d with
    | error e' => rw [hm] at this; simp only [ret, error_bind', Except.error.injEq] at this; subst this; rfl
    | ok q => rw [hm] at this; simp [ret, ok_bind'] at this
  · cases hm : r.predictImpl dbg s ft d with
    | error e' => rw [hm] at this; simp [ret, error_bind'] at this
    | ok q =>
      rw [hm] at this
      simp only [ret, ok_bind', Except.ok.injEq, Prod.mk.injEq] at this
      simp only [ret, ok_bind', Except.ok.injEq, Prod.mk.injEq, true_and]
      exact ⟨this.1, by rw [this.2]⟩

theorem ret_default (dbg : Bool) (r : Red F) (s : r.State) (ft : Features F) (l : Label F) (d : Depth) :
    ret (r.defaultCr dbg l d (s, ft)) =
      defaultPredictThenLearn (r.predictImpl dbg s) (fun ft d => r.learnImpl dbg s ft l d) ft d >>= fun p => .ok ((p.1.1, p.2.2), (p.1.2, p.2.1)) := by
  unfold Red.defaultCr defaultPredictThenLearn
  simp only [ret_bind, ok_bind', ret_lift, bind_assoc', ret_predictIn, ret_learn, ret_pure]

theorem ret_predictThenLearn (dbg : Bool) (r : Red F) : ∀ (s : r.State) (ft : Features F) (l : Label F) (d : Depth) (off : Nat),
    ret (r.predictThenLearnCr dbg l d off (s, ft)) =
      r.predictThenLearnImpl dbg s ft l d off >>= fun p => .ok ((p.1.1, p.2.2), (p.1.2, p.2.1)) := by
  induction r with
  | coin m => intro s ft l d off; unfold Red.predictThenLearnCr Red.predictThenLearnImpl; exact ret_default dbg _ s ft l d
  | cbAdf m ty r ih => intro s ft l d off; unfold Red.predictThenLearnCr Red.predictThenLearnImpl; exact ret_default dbg _ s ft l d
  | greedy m e r ih => intro s ft l d off; unfold Red.predictThenLearnCr Red.predictThenLearnImpl; exact ret_default dbg _ s ft l d
  | softmax m e lm r ih => intro s ft l d off; unfold Red.predictThenLearnCr Red.predictThenLearnImpl; exact ret_default dbg _ s ft l d
  | squareCb m e gs ge r ih => intro s ft l d off; unfold Red.predictThenLearnCr Red.predictThenLearnImpl; exact ret_default dbg _ s ft l d
  | binary m r ih =>
    intro s ft l d off
    unfold Red.predictThenLearnCr Red.predictThenLearnImpl
    simp only [ret_bind, ok_bind', ret_lift, bind_assoc']
    congr 1
    funext b
    rw [ret_wrap dbg r.meta d 0 _ (fun ft d => r.predictThenLearnImpl dbg s ft (.simple (binaryToSimple b)) d 0) s (fun ft d => ih s ft _ d 0)]
    simp only [bind_assoc', ok_bind', ret_pure]
  | debug m r ih =>
    intro s ft l d off
    unfold Red.predictThenLearnCr Red.predictThenLearnImpl
    exact ret_wrap dbg r.meta d off _ (fun ft d => r.predictThenLearnImpl dbg s ft l d off) s (fun ft d => ih s ft l d off) ft
  | elementwise m pair keep bits r ih =>
    intro s ft l d off
    unfold Red.predictThenLearnCr Red.predictThenLearnImpl
    refine ret_elementwise dbg bits pair keep _ (fun ft d => wrapCall dbg r.meta ft d 0 (fun ft d => r.predictThenLearnImpl dbg s ft l d 0)) s ?_ ft d
    intro ft d
    exact ret_wrap dbg r.meta d 0 _ (fun ft d => r.predictThenLearnImpl dbg s ft l d 0) s (fun ft d => ih s ft l d 0) ft

/-! ### The workspace -/

theorem ret_ok {σ α : Type} {q : M α × σ} {a : α} {s : σ} (h : ret q = .ok (a, s)) : q = (.ok a, s) := by
  rcases q with ⟨e | x, y⟩
  · simp [ret] at h
  · simp only [ret, Except.ok.injEq, Prod.mk.injEq] at h
    obtain ⟨rfl, rfl⟩ := h
    rfl

theorem ret_error {σ α : Type} {q : M α × σ} {e : Panic} (h : ret q = .error e) : q.1 = .error e := by
  rcases q with ⟨e | x, y⟩
  · simpa [ret] using h
  · simp [ret] at h

theorem predictCr_ok (dbg : Bool) (w : Workspace F) (ft : Features F) {p : Prediction F} {ft' : Features F} (h : w.predict dbg ft = .ok (p, ft')) :
    w.predictCr dbg ft = (.ok p, ft') := by
  have e := ret_wrap dbg w.red.meta 0 0 (fun d => w.red.predictCr dbg w.st d) (fun ft d => w.red.predictImpl dbg w.st ft d >>= fun p => .ok ((p.1, ()), p.2)) ()
    (by intro ft d; rw [ret_predict, bind_assoc']; rfl) ft
  rw [wrapCall_map dbg w.red.meta ft 0 0 (w.red.predictImpl dbg w.st) (fun p => (p, ()))] at e
  unfold Workspace.predict Red.predict at h
  obtain ⟨⟨p1, ft1, d1⟩, h1, h2⟩ := bind_ok.1 h
  simp only [Except.ok.injEq, Prod.mk.injEq] at h2
  obtain ⟨rfl, rfl⟩ := h2
  rw [h1] at e
  unfold Workspace.predictCr
  rw [ret_ok e]
  rfl

theorem predictCr_error (dbg : Bool) (w : Workspace F) (ft : Features F) {e : Panic} (h : w.predict dbg ft = .error e) :
    (w.predictCr dbg ft).1 = .error e := by
  have q := ret_wrap dbg w.red.meta 0 0 (fun d => w.red.predictCr dbg w.st d) (fun ft d => w.red.predictImpl dbg w.st ft d >>= fun p => .ok ((p.1, ()), p.2)) ()
    (by intro ft d; rw [ret_predict, bind_assoc']; rfl) ft
  rw [wrapCall_map dbg w.red.meta ft 0 0 (w.red.predictImpl dbg w.st) (fun p => (p, ()))] at q
  unfold Workspace.predict Red.predict at h
  cases h1 : wrapCall dbg w.red.meta ft 0 0 (w.red.predictImpl dbg w.st) with
  | ok p => rw [h1] at h; simp [ok_bind'] at h
  | error e' =>
    rw [h1] at h q
    simp only [error_bind', Except.error.injEq] at h q
    subst h
    unfold Workspace.predictCr
    simp only
    rw [ret_error q]
    rfl

theorem learnCr_ok (dbg : Bool) (w : Workspace F) (ft : Features F) (l : Label F) {w' : Workspace F} {ft' : Features F}
    (h : w.learn dbg ft l = .ok (w', ft')) : w.learnCr dbg ft l = (.ok (), w', ft') := by
  have e := ret_wrap dbg w.red.meta 0 0 (fun d => w.red.learnCr dbg l d) (fun ft d => w.red.learnImpl dbg w.st ft l d >>= fun p => .ok (((), p.1), p.2)) w.st
    (by intro ft d; rw [ret_learn, bind_assoc']; rfl) ft
  rw [wrapCall_map dbg w.red.meta ft 0 0 (fun ft d => w.red.learnImpl dbg w.st ft l d) (fun p => ((), p))] at e
  unfold Workspace.learn Red.learn at h
  obtain ⟨⟨p1, ft1, d1⟩, h1, h2⟩ := bind_ok.1 h
  simp only [Except.ok.injEq, Prod.mk.injEq] at h2
  obtain ⟨rfl, rfl⟩ := h2
  rw [h1] at e
  unfold Workspace.learnCr
  rw [ret_ok e]
  rfl

theorem learnCr_error (dbg : Bool) (w : Workspace F) (ft : Features F) (l : Label F) {e : Panic} (h : w.learn dbg ft l = .error e) :
    (w.learnCr dbg ft l).1 = .error e := by
  have q := ret_wrap dbg w.red.meta 0 0 (fun d => w.red.learnCr dbg l d) (fun ft d => w.red.learnImpl dbg w.st ft l d >>= fun p => .ok (((), p.1), p.2)) w.st
    (by intro ft d; rw [ret_learn, bind_assoc']; rfl) ft
  rw [wrapCall_map dbg w.red.meta ft 0 0 (fun ft d => w.red.learnImpl dbg w.st ft l d) (fun p => ((), p))] at q
  unfold Workspace.learn Red.learn at h
  cases h1 : wrapCall dbg w.red.meta ft 0 0 (fun ft d => w.red.learnImpl dbg w.st ft l d) with
  | ok p => rw [h1] at h; simp [ok_bind'] at h
  | error e' =>
    rw [h1] at h q
    simp only [error_bind', Except.error.injEq] at h q
    subst h
    unfold Workspace.learnCr
    simp only
    rw [ret_error q]
    rfl

theorem predictThenLearnCr_ok (dbg : Bool) (w : Workspace F) (ft : Features F) (l : Label F) {p : Prediction F} {w' : Workspace F} {ft' : Features F}
    (h : w.predictThenLearn dbg ft l = .ok (p, w', ft')) : w.predictThenLearnCr dbg ft l = (.ok p, w', ft') := by
  have e := ret_wrap dbg w.red.meta 0 0 (fun d => w.red.predictThenLearnCr dbg l d 0) (fun ft d => w.red.predictThenLearnImpl dbg w.st ft l d 0) w.st
    (fun ft d => ret_predictThenLearn dbg w.red w.st ft l d 0) ft
  unfold Workspace.predictThenLearn Red.predictThenLearn at h
  obtain ⟨⟨⟨p1, s1⟩, ft1, d1⟩, h1, h2⟩ := bind_ok.1 h
  simp only [Except.ok.injEq, Prod.mk.injEq] at h2
  obtain ⟨rfl, rfl, rfl⟩ := h2
  rw [h1] at e
  unfold Workspace.predictThenLearnCr
  rw [ret_ok e]
  rfl

theorem predictThenLearnCr_error (dbg : Bool) (w : Workspace F) (ft : Features F) (l : Label F) {e : Panic}
    (h : w.predictThenLearn dbg ft l = .error e) : (w.predictThenLearnCr dbg ft l).1 = .error e := by
  have q := ret_wrap dbg w.red.meta 0 0 (fun d => w.red.predictThenLearnCr dbg l d 0) (fun ft d => w.red.predictThenLearnImpl dbg w.st ft l d 0) w.st
    (fun ft d => ret_predictThenLearn dbg w.red w.st ft l d 0) ft
  unfold Workspace.predictThenLearn Red.predictThenLearn at h
  cases h1 : wrapCall dbg w.red.meta ft 0 0 (fun ft d => w.red.predictThenLearnImpl dbg w.st ft l d 0) with
  | ok p => rw [h1] at h; simp [ok_bind'] at h
  | error e' =>
    rw [h1] at h q
    simp only [error_bind', Except.error.injEq] at h q
    subst h
    unfold Workspace.predictThenLearnCr
    simp only
    rw [ret_error q]
    rfl

end Rml
