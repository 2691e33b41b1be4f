import Verif.Lemmas.Coin
import Verif.Lemmas.Create

/-! Helper lemmas: whatever a stack does, the regressor at its bottom is only ever trained. -/

set_option linter.unusedSectionVars false

namespace Rml
variable {F : Type} [Flt F]

/-- `c'` comes from `c` by training. -/
def Trains (dbg : Bool) (c c' : Coin F) : Prop := ∃ es, c.trainAll dbg es = .ok c'

theorem Trains.refl (dbg : Bool) (c : Coin F) : Trains dbg c c := ⟨[], rfl⟩

theorem Trains.trans {dbg : Bool} {a b c : Coin F} (h1 : Trains dbg a b) (h2 : Trains dbg b c) : Trains dbg a c := by
  obtain ⟨e1, h1⟩ := h1
  obtain ⟨e2, h2⟩ := h2
  exact ⟨e1 ++ e2, by rw [Coin.trainAll_append, h1]; exact h2⟩

theorem cbIpsLoop_trains' {S : Type} {dbg : Bool} {childL : S → Features F → Label F → Depth → M (S × Features F × Depth)}
    (co : S → Coin F) (hc : ∀ s ft l d r, childL s ft l d = .ok r → Trains dbg (co s) (co r.1)) {sh : Option (SparseFeatures F)}
    {label : CBLabel F} (as : List (SparseFeatures F)) : ∀ (i : Nat) (s : S) (d : Depth) r,
    cbIpsLoop dbg childL sh label i as s d = .ok r → Trains dbg (co s) (co r.1) := by
  induction as with
  | nil =>
    intro i s d r h
    simp only [cbIpsLoop, Except.ok.injEq] at h
    subst h
    exact Trains.refl _ _
  | cons a as ih =>
    intro i s d r h
    unfold cbIpsLoop at h
    obtain ⟨_, _, h⟩ := bind_ok.1 h
    obtain ⟨_, _, h⟩ := bind_ok.1 h
    obtain ⟨⟨s1, ft, d1⟩, h1, h⟩ := bind_ok.1 h
    obtain ⟨_, _, h⟩ := bind_ok.1 h
    obtain ⟨_, _, h⟩ := bind_ok.1 h
    obtain ⟨⟨s2, as', d2⟩, h2, h⟩ := bind_ok.1 h
    simp only [Except.ok.injEq] at h
    subst h
    have q1 := hc _ _ _ _ _ h1
    have q2 := ih _ _ _ _ h2
    exact Trains.trans q1 q2

theorem learnImpl_trains (dbg : Bool) (r : Red F) : ∀ (s : r.State) (ft : Features F) (l : Label F) (d : Depth) x,
    r.learnImpl dbg s ft l d = .ok x → Trains dbg (r.coinOf s) (r.coinOf x.1) := by
  induction r with
  | coin m =>
    intro s ft l d x h
    unfold Red.learnImpl at h
    obtain ⟨f, _, h⟩ := bind_ok.1 h
    obtain ⟨y, _, h⟩ := bind_ok.1 h
    obtain ⟨c', h1, h⟩ := bind_ok.1 h
    simp only [Except.ok.injEq] at h
    subst h
    refine ⟨[⟨f, y.value, y.weight⟩], ?_⟩
    simp only [Coin.trainAll, Red.coinOf]
    rw [h1]
    rfl
  | binary m r ih =>
    intro s ft l d x h
    unfold Red.learnImpl at h
    obtain ⟨b, _, h⟩ := bind_ok.1 h
    obtain ⟨d1, d2, _, h, _⟩ := wrapCall_ok h
    have q := ih _ _ _ _ _ h
    exact q
  | cbAdf m ty r ih =>
    intro s ft l d x h
    have hch : ∀ (s : r.State) ft l d y, wrapCall dbg r.meta ft d 0 (fun ft d => r.learnImpl dbg s ft l d) = .ok y →
        Trains dbg (r.coinOf s) (r.coinOf y.1) := by
      intro s ft l d y hy
      obtain ⟨d1, d2, _, hy, _⟩ := wrapCall_ok hy
      have q := ih _ _ _ _ _ hy
      exact q
    unfold Red.learnImpl at h
    obtain ⟨f, _, h⟩ := bind_ok.1 h
    obtain ⟨lb, _, h⟩ := bind_ok.1 h
    cases ty with
    | ips =>
      obtain ⟨⟨s', as, d'⟩, h1, h⟩ := bind_ok.1 h
      simp only [Except.ok.injEq] at h
      subst h
      exact cbIpsLoop_trains' (r.coinOf) hch _ _ _ _ _ h1
    | mtr =>
      obtain ⟨⟨s', f', d'⟩, h1, h⟩ := bind_ok.1 h
      simp only [Except.ok.injEq] at h
      subst h
      unfold cbMtrLearn at h1
      simp only at h1
      split at h1
      · obtain ⟨_, _, h1⟩ := bind_ok.1 h1
        obtain ⟨_, _, h1⟩ := bind_ok.1 h1
        obtain ⟨⟨s2, ft2, d2⟩, h2, h1⟩ := bind_ok.1 h1
        obtain ⟨_, _, h1⟩ := bind_ok.1 h1
        obtain ⟨_, _, h1⟩ := bind_ok.1 h1
        simp only [Except.ok.injEq, Prod.mk.injEq] at h1
        obtain ⟨rfl, _, _⟩ := h1
        have q := hch _ _ _ _ _ h2
        exact q
      · simp at h1
  | greedy m e r ih =>
    intro s ft l d x h
    unfold Red.learnImpl at h
    obtain ⟨d1, d2, _, h, _⟩ := wrapCall_ok h
    have q := ih _ _ _ _ _ h
    exact q
  | softmax m e lm r ih =>
    intro s ft l d x h
    unfold Red.learnImpl at h
    obtain ⟨⟨s', ft', d'⟩, h1, h⟩ := bind_ok.1 h
    simp only [Except.ok.injEq] at h
    subst h
    obtain ⟨d1, d2, _, h1, _⟩ := wrapCall_ok h1
    have q := ih _ _ _ _ _ h1
    exact q
  | squareCb m e a b r ih =>
    intro s ft l d x h
    unfold Red.learnImpl at h
    obtain ⟨_, _, h⟩ := bind_ok.1 h
    obtain ⟨⟨s', ft', d'⟩, h1, h⟩ := bind_ok.1 h
    simp only [Except.ok.injEq] at h
    subst h
    obtain ⟨d1, d2, _, h1, _⟩ := wrapCall_ok h1
    have q := ih _ _ _ _ _ h1
    exact q
  | debug m r ih =>
    intro s ft l d x h
    unfold Red.learnImpl at h
    obtain ⟨d1, d2, _, h, _⟩ := wrapCall_ok h
    have q := ih _ _ _ _ _ h
    exact q
  | elementwise m p k n r ih =>
    intro s ft l d x h
    unfold Red.learnImpl at h
    obtain ⟨ft1, ft2, h⟩ := elementwiseWith_ok h
    obtain ⟨d1, d2, _, h, _⟩ := wrapCall_ok h
    have q := ih _ _ _ _ _ h
    exact q

theorem defaultPtl_trains {S : Type} {dbg : Bool} (co : S → Coin F) {pred : Features F → Depth → M (Prediction F × Features F × Depth)}
    {lrn : Features F → Depth → M (S × Features F × Depth)} {c : Coin F} (hl : ∀ ft d y, lrn ft d = .ok y → Trains dbg c (co y.1))
    {ft : Features F} {d : Depth} {x} (h : defaultPredictThenLearn pred lrn ft d = .ok x) : Trains dbg c (co x.1.2) := by
  unfold defaultPredictThenLearn at h
  obtain ⟨⟨p, ft1, d1⟩, _, h⟩ := bind_ok.1 h
  obtain ⟨⟨s, ft2, d2⟩, h2, h⟩ := bind_ok.1 h
  obtain ⟨_, _, h⟩ := bind_ok.1 h
  simp only [Except.ok.injEq] at h
  subst h
  exact hl _ _ _ h2

theorem ptlImpl_trains (dbg : Bool) (r : Red F) : ∀ (s : r.State) (ft : Features F) (l : Label F) (d : Depth) (off : Nat) x,
    r.predictThenLearnImpl dbg s ft l d off = .ok x → Trains dbg (r.coinOf s) (r.coinOf x.1.2) := by
  induction r with
  | coin m =>
    intro s ft l d off x h
    unfold Red.predictThenLearnImpl at h
    exact defaultPtl_trains (Red.coinOf (.coin m)) (fun ft d y hy => learnImpl_trains dbg _ _ _ _ _ _ hy) h
  | cbAdf m ty r ih =>
    intro s ft l d off x h
    unfold Red.predictThenLearnImpl at h
    exact defaultPtl_trains (Red.coinOf (.cbAdf m ty r)) (fun ft d y hy => learnImpl_trains dbg _ _ _ _ _ _ hy) h
  | greedy m e r ih =>
    intro s ft l d off x h
    unfold Red.predictThenLearnImpl at h
    exact defaultPtl_trains (Red.coinOf (.greedy m e r)) (fun ft d y hy => learnImpl_trains dbg _ _ _ _ _ _ hy) h
  | softmax m e lm r ih =>
    intro s ft l d off x h
    unfold Red.predictThenLearnImpl at h
    exact defaultPtl_trains (Red.coinOf (.softmax m e lm r)) (fun ft d y hy => learnImpl_trains dbg _ _ _ _ _ _ hy) h
  | squareCb m e a b r ih =>
    intro s ft l d off x h
    unfold Red.predictThenLearnImpl at h
    exact defaultPtl_trains (Red.coinOf (.squareCb m e a b r)) (fun ft d y hy => learnImpl_trains dbg _ _ _ _ _ _ hy) h
  | binary m r ih =>
    intro s ft l d off x h
    unfold Red.predictThenLearnImpl at h
    obtain ⟨b, _, h⟩ := bind_ok.1 h
    obtain ⟨⟨⟨p, s'⟩, ft', d'⟩, h1, h⟩ := bind_ok.1 h
    obtain ⟨⟨q, _⟩, _, h⟩ := bind_ok.1 h
    simp only [Except.ok.injEq] at h
    subst h
    obtain ⟨d1, d2, _, h1, _⟩ := wrapCall_ok h1
    have q := ih _ _ _ _ _ _ h1
    exact q
  | debug m r ih =>
    intro s ft l d off x h
    unfold Red.predictThenLearnImpl at h
    obtain ⟨d1, d2, _, h, _⟩ := wrapCall_ok h
    have q := ih _ _ _ _ _ _ h
    exact q
  | elementwise m p k n r ih =>
    intro s ft l d off x h
    unfold Red.predictThenLearnImpl at h
    obtain ⟨ft1, ft2, h⟩ := elementwiseWith_ok h
    obtain ⟨d1, d2, _, h, _⟩ := wrapCall_ok h
    have q := ih _ _ _ _ _ _ h
    exact q

theorem step_trains {dbg : Bool} {S : Session F} {c : Call F} {r} (h : Session.step dbg S c = .ok r) : Trains dbg S.w.coin r.1.w.coin := by
  cases c with
  | predict i =>
    unfold Session.step at h
    obtain ⟨⟨p, ft⟩, _, h⟩ := bind_ok.1 h
    simp only [Except.ok.injEq] at h
    subst h
    exact Trains.refl _ _
  | learn i l =>
    unfold Session.step at h
    obtain ⟨⟨w, ft⟩, h1, h⟩ := bind_ok.1 h
    simp only [Except.ok.injEq] at h
    subst h
    unfold Workspace.learn Red.learn at h1
    obtain ⟨⟨s, ft', d⟩, h2, h1⟩ := bind_ok.1 h1
    simp only [Except.ok.injEq, Prod.mk.injEq] at h1
    obtain ⟨rfl, _⟩ := h1
    obtain ⟨d1, d2, _, h2, _⟩ := wrapCall_ok h2
    have q := learnImpl_trains dbg _ _ _ _ _ _ h2
    exact q
  | predictThenLearn i l =>
    unfold Session.step at h
    obtain ⟨⟨p, w, ft⟩, h1, h⟩ := bind_ok.1 h
    simp only [Except.ok.injEq] at h
    subst h
    unfold Workspace.predictThenLearn Red.predictThenLearn at h1
    obtain ⟨⟨⟨q, s⟩, ft', d⟩, h2, h1⟩ := bind_ok.1 h1
    simp only [Except.ok.injEq, Prod.mk.injEq] at h1
    obtain ⟨_, rfl, _⟩ := h1
    obtain ⟨d1, d2, _, h2, _⟩ := wrapCall_ok h2
    have q := ptlImpl_trains dbg _ _ _ _ _ _ _ h2
    exact q

theorem run_trains {dbg : Bool} (calls : List (Call F)) : ∀ {S : Session F} {r}, Session.run dbg S calls = .ok r →
    Trains dbg S.w.coin r.1.w.coin := by
  induction calls with
  | nil =>
    intro S r h
    simp only [Session.run, Except.ok.injEq] at h
    subst h
    exact Trains.refl _ _
  | cons c cs ih =>
    intro S r h
    unfold Session.run at h
    obtain ⟨⟨S1, o⟩, h1, h⟩ := bind_ok.1 h
    obtain ⟨⟨S2, os⟩, h2, h⟩ := bind_ok.1 h
    simp only [Except.ok.injEq] at h
    subst h
    have q1 := step_trains h1
    have q2 := ih h2
    exact Trains.trans q1 q2

theorem Built.coin_new {hash : HashFn} {g : GlobalConfig} {nma : Nat} {c : RedConfig F} {x : (r : Red F) × r.State}
    (h : Built hash g nma c x) : ∃ cfg, Coin.new hash cfg g nma = .ok (x.1.coinOf x.2) := by
  induction h with
  | coin h => exact ⟨_, h⟩
  | binary _ _ ih => exact ih
  | cbAdf _ _ ih => exact ih
  | greedy _ _ ih => exact ih
  | softmax _ _ ih => exact ih
  | squareCb _ _ _ ih => exact ih
  | debug _ _ ih => exact ih
  | elementwise _ _ ih => exact ih

/-- The regressor of a stack is trained by whatever history of calls the stack sees. -/
theorem run_reached {dbg : Bool} {hash : HashFn} {g : GlobalConfig} {c : RedConfig F} {w : Workspace F} (hw : Workspace.new hash g c = .ok w)
    {ex : Nat → Features F} {calls : List (Call F)} {r} (h : Session.run dbg ⟨w, ex⟩ calls = .ok r) :
    ∃ cfg es, Coin.Reached dbg hash cfg g es r.1.w.coin := by
  obtain ⟨cfg, h1⟩ := (built_of_new hw).coin_new
  obtain ⟨es, h2⟩ := run_trains calls h
  exact ⟨cfg, es, 1, _, by omega, h1, h2⟩

end Rml
