import Verif.Lemmas.CrashBandit

/-! Helper lemmas for C99: what a failing learn call leaves of a model in ips mode. -/

set_option linter.unusedSectionVars false

namespace Rml
open Cr
variable {F : Type} [Flt F]

/-- Without ElementwiseInteraction, a stack with CbAdf takes bandit labels. -/
theorem cb_label {hash : HashFn} {g : GlobalConfig} {nma : Nat} {c : RedConfig F} {x : (r : Red F) × r.State} (hb : Built hash g nma c x)
    (hn : c.NoElementwise) {t : CBType} (hm : c.cbMode = some t) : x.1.meta.types.inLabel = .cb := by
  induction hb with
  | coin _ => simp [RedConfig.cbMode] at hm
  | binary hb hc ih =>
    have h := ih hn hm
    simp only [TypeDesc.checkOk, binaryTypes, Bool.and_eq_true] at hc
    have h1 := of_decide_eq_true hc.1.1
    rw [h] at h1
    cases h1
  | cbAdf => rfl
  | greedy => rfl
  | softmax => rfl
  | squareCb => rfl
  | debug hb hc ih => exact ih hn hm
  | elementwise => exact hn.elim

theorem ips_step_left {σ : Type} {childL : Label F → Depth → Cr (σ × Features F) (Unit × Depth)} (R : σ → σ → Prop)
    {shared : Option (SparseFeatures F)} (hs : ∀ s, shared = some s → s.Clean) {a : SparseFeatures F} (ha : a.Clean) (label : CBLabel F) (i : Nat) (d : Depth) (s : σ)
    (h : ∀ l g, (∃ s', childL l d (s, .simple g) = (.ok ((), d), (s', .simple g))) ∨ ∃ e s', childL l d (s, .simple g) = (.error e, (s', .simple g)) ∧ R s' s) :
    (∃ p, cbIpsStepCr false childL shared label i d (s, a) = (.ok d, p)) ∨
      ∃ e s' f', cbIpsStepCr false childL shared label i d (s, a) = (.error e, (s', f')) ∧ R s' s := by
  obtain ⟨sl, hl⟩ : ∃ sl, ipsLabel false label i = .ok sl := by
    unfold ipsLabel
    split
    · exact ⟨_, rfl⟩
    · exact ⟨_, rfl⟩
  have hx : ∀ (g : SparseFeatures F), (∃ s', (do
      let (_, d1) ← onSimple (childL (.simple sl) d)
      Cr.pure d1 : Cr (σ × SparseFeatures F) Depth) (s, g) = (.ok d, (s', g))) ∨ ∃ e s', (do
      let (_, d1) ← onSimple (childL (.simple sl) d)
      Cr.pure d1 : Cr (σ × SparseFeatures F) Depth) (s, g) = (.error e, (s', g)) ∧ R s' s := by
    intro g
    rcases h (.simple sl) g with ⟨s', h1⟩ | ⟨e, s', h1, h2⟩
    · have : onSimple (childL (.simple sl) d) (s, g) = (.ok ((), d), (s', g)) := by
        unfold onSimple
        simp only [h1]
      exact .inl ⟨s', run_ok this⟩
    · have : onSimple (childL (.simple sl) d) (s, g) = (.error e, (s', g)) := by
        unfold onSimple
        simp only [h1]
      exact .inr ⟨e, s', run_error this, h2⟩
  have h1 := around_left (shared := shared) ha hs R hx id
  have hq : cbIpsStepCr false childL shared label i d = (do
      appendSharedCr shared
      let y ← (do
        let (_, d1) ← onSimple (childL (.simple sl) d)
        Cr.pure d1 : Cr (σ × SparseFeatures F) Depth)
      removeSharedCr shared
      Cr.pure (id y) : Cr (σ × SparseFeatures F) Depth) := by
    unfold cbIpsStepCr
    refine congrArg (fun k => appendSharedCr shared >>= k) (funext fun _ => ?_)
    rw [hl, cr_assoc]
    funext p
    rw [run_lift_ok]
    rfl
  rw [hq]
  exact h1

theorem ips_step_keeps {σ : Type} {P : σ → Prop} {dbg : Bool} {childL : Label F → Depth → Cr (σ × Features F) (Unit × Depth)}
    (h : ∀ l d, Keeps (fun p => P p.1) (childL l d)) (shared : Option (SparseFeatures F)) (label : CBLabel F) (i : Nat) (d : Depth) :
    Keeps (fun p : σ × SparseFeatures F => P p.1) (cbIpsStepCr dbg childL shared label i d) := by
  unfold cbIpsStepCr
  refine Keeps.bind (Keeps.appendShared _) (fun _ => ?_)
  refine Keeps.bind (Keeps.lift _) (fun l => ?_)
  refine Keeps.bind (Keeps.onSimple (h _ _)) (fun r => ?_)
  exact Keeps.bind (Keeps.removeShared _) (fun _ => Keeps.pure _)

/-- The loop over the actions returns, or fails at an action `k`, in the state that the loop over the first `k` actions ends in, up to `R`. -/
theorem ips_left {σ : Type} {childL : Label F → Depth → Cr (σ × Features F) (Unit × Depth)} (I : σ → Prop) (R : σ → σ → Prop)
    (hk : ∀ l d, Keeps (fun p => I p.1) (childL l d)) {shared : Option (SparseFeatures F)} (hs : ∀ s, shared = some s → s.Clean) (label : CBLabel F) (d : Depth)
    (h : ∀ s, I s → ∀ l g, (∃ s', childL l d (s, .simple g) = (.ok ((), d), (s', .simple g))) ∨
      ∃ e s', childL l d (s, .simple g) = (.error e, (s', .simple g)) ∧ R s' s) :
    ∀ (as : List (SparseFeatures F)), (∀ a ∈ as, a.Clean) → ∀ (i : Nat) (s : σ), I s →
    (∃ p, cbIpsLoopCr false childL shared label i as d s = (.ok d, p)) ∨
      ∃ k, k < as.length ∧ ∃ sk ak, cbIpsLoopCr false childL shared label i (as.take k) d s = (.ok d, (sk, ak)) ∧
        ∃ e s' as', cbIpsLoopCr false childL shared label i as d s = (.error e, (s', as')) ∧ R s' sk := by
  intro as
  induction as with
  | nil => intro _ i s _; exact .inl ⟨_, rfl⟩
  | cons a as ih =>
    intro hc i s hi
    have hkeep := ips_step_keeps (dbg := false) (P := I) hk shared label i d (s, a) hi
    rcases ips_step_left R hs (hc a (by simp)) label i d s (h s hi) with ⟨⟨s1, a1⟩, h1⟩ | ⟨e, s', f', h1, h2⟩
    · rw [h1] at hkeep
      rcases ih (fun b hb => hc b (by simp [hb])) (i + 1) s1 hkeep with ⟨p, h2⟩ | ⟨k, hk', sk, ak, h2, e, s', as', h3, h4⟩
      · left
        unfold cbIpsLoopCr nextAction
        simp only [h1, h2]
        exact ⟨_, rfl⟩
      · right
        refine ⟨k + 1, by simp only [List.length_cons]; omega, sk, a1 :: ak, ?_, e, s', a1 :: as', ?_, h4⟩
        · rw [List.take_succ_cons]
          unfold cbIpsLoopCr nextAction
          simp only [h1, h2]
        · unfold cbIpsLoopCr nextAction
          simp only [h1, h3]
    · right
      refine ⟨0, by simp, s, [], by simp [cbIpsLoopCr], e, s', f' :: as, ?_, h2⟩
      unfold cbIpsLoopCr nextAction
      simp only [h1]

/-- The state of a bandit model up to the range of labels, the sums of the mtr mode and the counters of SquareCB. -/
def Red.NearSq : (r : Red F) → r.State → r.State → Prop
  | .coin _, s', s => s' = s
  | .binary _ r, s', s => r.NearSq s' s
  | .cbAdf _ _ r, s', s => s'.2 = s.2 ∨ ∃ v, r.coinOf s'.2 = (r.coinOf s.2).seen v
  | .greedy _ _ r, s', s => r.NearSq s' s
  | .softmax _ _ _ r, s', s => s'.1 = s.1 ∧ r.NearSq s'.2 s.2
  | .squareCb _ _ _ _ r, s', s => r.NearSq s'.2 s.2
  | .debug _ r, s', s => r.NearSq s' s
  | .elementwise _ _ _ _ r, s', s => r.NearSq s' s

theorem Red.NearSq.coin {r : Red F} : ∀ {s' s : r.State}, r.NearSq s' s → r.coinOf s' = r.coinOf s ∨ ∃ v, r.coinOf s' = (r.coinOf s).seen v := by
  induction r with
  | coin _ => intro s' s h; exact .inl h
  | binary _ r ih => exact ih
  | cbAdf _ _ r ih =>
    intro s' s h
    rcases h with h | h
    · exact .inl (congrArg r.coinOf h)
    · exact .inr h
  | greedy _ _ r ih => exact ih
  | softmax _ _ _ r ih => intro s' s h; exact ih h.2
  | squareCb _ _ _ _ r ih => intro s' s h; exact ih h
  | debug _ r ih => exact ih
  | elementwise _ _ _ _ r ih => exact ih

/-- Without SquareCB there are no such counters. -/
theorem Red.NearSq.near {hash : HashFn} {g : GlobalConfig} {nma : Nat} {c : RedConfig F} {x : (r : Red F) × r.State} (hb : Built hash g nma c x)
    (hq : c.NoSquareCb) : ∀ {s' s : x.1.State}, x.1.NearSq s' s → x.1.Near s' s := by
  induction hb with
  | coin _ => exact id
  | binary hb hc ih => exact ih hq
  | cbAdf hb hc ih => exact id
  | greedy hb hc ih => exact ih hq
  | softmax hb hc ih => exact fun h => ⟨h.1, ih hq h.2⟩
  | squareCb => exact hq.elim
  | debug hb hc ih => exact ih hq
  | elementwise hb hc ih => exact ih hq

/-- What a learn call of a model in ips mode may leave in the release profile. -/
def IpsLeft (r : Red F) (l : Label F) (f : CBAdfFeatures F) (s : r.State) (d : Depth) : Prop :=
  (∃ p, r.learnCr false l d (s, .cbAdf f) = (.ok ((), d), p)) ∨
    ∃ k, k < f.actions.length ∧ ∃ sk fk, r.learnCr false l d (s, .cbAdf ⟨f.shared, f.actions.take k⟩) = (.ok ((), d), (sk, fk)) ∧
      ∃ e s' ft, r.learnCr false l d (s, .cbAdf f) = (.error e, (s', ft)) ∧ r.NearSq s' sk

section lawful
variable [LawfulCmp F]

theorem wrap_ips {r : Red F} {l : Label F} {f : CBAdfFeatures F} {s : r.State} {d : Depth} (hd : d < 256) (h : IpsLeft r l f s d) :
    (∃ p, wrapCr false r.meta d 0 (r.learnCr false l) (s, .cbAdf f) = (.ok ((), d), p)) ∨
    ∃ k, k < f.actions.length ∧ ∃ sk fk, wrapCr false r.meta d 0 (r.learnCr false l) (s, .cbAdf ⟨f.shared, f.actions.take k⟩) = (.ok ((), d), (sk, fk)) ∧
      ∃ e s' ft, wrapCr false r.meta d 0 (r.learnCr false l) (s, .cbAdf f) = (.error e, (s', ft)) ∧ r.NearSq s' sk := by
  rcases h with ⟨p, h1⟩ | ⟨k, hk, sk, fk, h1, e, s', ft, h2, h3⟩
  · exact .inl ⟨p, wrap_release hd h1⟩
  · exact .inr ⟨k, hk, sk, fk, wrap_release hd h1, e, s', ft, wrap_failed hd h2, h3⟩

theorem learn_ips_left {hash : HashFn} {g : GlobalConfig} {nma nb : Nat} {c : RedConfig F} {x : (r : Red F) × r.State} (hb : Built hash g nma c x)
    (hn : c.NoElementwise) (hm : c.cbMode = some .ips) (f : CBAdfFeatures F) (hf : CbGood f) : ∀ (cl : CBLabel F) (s : x.1.State) (d : Depth), d < 256 →
    CoinGood nb (x.1.coinOf s) → IpsLeft x.1 (.cb cl) f s d := by
  induction hb with
  | coin _ => simp [RedConfig.cbMode] at hm
  | binary hb hc ih =>
    have h := cb_label hb hn hm
    simp only [TypeDesc.checkOk, binaryTypes, Bool.and_eq_true] at hc
    have h1 := of_decide_eq_true hc.1.1
    rw [h] at h1
    cases h1
  | @cbAdf ty rc x hb hc ih =>
    intro cl s d hd hg
    have hty : ty = .ips := by simpa [RedConfig.cbMode] using hm
    subst hty
    have hreg := cb_child_regression hb hn hc
    have hl := ips_left (childL := fun l d => wrapCr false x.1.meta d 0 (x.1.learnCr false l)) (fun s => CoinGood nb (x.1.coinOf s))
      (fun s' s => s' = s ∨ ∃ v, x.1.coinOf s' = (x.1.coinOf s).seen v)
      (fun l d => Keeps.wrap (P := fun s => CoinGood nb (x.1.coinOf s)) (fun d => learn_keeps nb false x.1 l d)) hf.shared cl d (by
        intro s hi l g
        rcases regression_learn hb hreg false (.simple g) rfl l s d hd hi with ⟨s', h1⟩ | ⟨e, s', h1, h2⟩
        · exact .inl ⟨s', wrap_release hd h1⟩
        · refine .inr ⟨e, s', wrap_failed hd h1, ?_⟩
          rcases h2 with h2 | ⟨v, _, h2⟩
          · exact .inl h2
          · exact .inr ⟨v, h2⟩) f.actions hf.actions 0 s.2 hg
    have hrun : ∀ (as : List (SparseFeatures F)) q, cbIpsLoopCr false (fun l d => wrapCr false x.1.meta d 0 (x.1.learnCr false l)) f.shared cl 0 as d s.2 = q →
        onChild (onCb (onActions (fun shared as s' =>
          cbIpsLoopCr false (fun l d => wrapCr false x.1.meta d 0 (x.1.learnCr false l)) shared cl 0 as d s'))) (s, .cbAdf ⟨f.shared, as⟩) =
          (q.1, ((s.1, q.2.1), .cbAdf ⟨f.shared, q.2.2⟩)) := by
      intro as q hq
      subst hq
      rfl
    unfold IpsLeft
    unfold Red.learnCr
    rw [run_get]
    simp only
    rw [show (Features.cbAdf f : Features F).asCb = .ok f from rfl, run_lift_ok, show (Label.cb cl : Label F).asCb = .ok cl from rfl, run_lift_ok]
    rcases hl with ⟨p, h1⟩ | ⟨k, hk, sk, ak, h1, e, s', as', h2, h3⟩
    · exact .inl ⟨_, run_ok (hrun _ _ h1)⟩
    · refine .inr ⟨k, hk, (s.1, sk), .cbAdf ⟨f.shared, ak⟩, ?_, e, (s.1, s'), _, run_error (hrun _ _ h2), h3⟩
      rw [run_get]
      simp only
      rw [show (Features.cbAdf ⟨f.shared, f.actions.take k⟩ : Features F).asCb = .ok ⟨f.shared, f.actions.take k⟩ from rfl, run_lift_ok, run_lift_ok]
      exact run_ok (hrun _ _ h1)
  | greedy hb hc ih =>
    intro cl s d hd hg
    have h := wrap_ips hd (ih hn hm cl s d hd hg)
    unfold IpsLeft
    unfold Red.learnCr
    exact h
  | debug hb hc ih =>
    intro cl s d hd hg
    have h := wrap_ips hd (ih hn hm cl s d hd hg)
    unfold IpsLeft
    unfold Red.learnCr
    exact h
  | @softmax _ _ _ x hb hc ih =>
    intro cl s d hd hg
    have h := wrap_ips hd (ih hn hm cl s.2 d hd hg)
    unfold IpsLeft
    unfold Red.learnCr onChild Cr.on
    rcases h with ⟨p, h1⟩ | ⟨k, hk, sk, fk, h1, e, s', ft, h2, h3⟩
    · left
      simp only [h1]
      exact ⟨_, rfl⟩
    · right
      refine ⟨k, hk, (s.1, sk), fk, ?_, e, (s.1, s'), ft, ?_, rfl, h3⟩
      · simp only [h1]
      · simp only [h2]
  | @squareCb _ _ _ _ x hk hb hc ih =>
    intro cl s d hd hg
    have h := wrap_ips hd (ih hn hm { cl with probability := Flt.one } s.2 d hd hg)
    unfold IpsLeft
    unfold Red.learnCr
    rw [show (Label.cb cl : Label F).asCb = .ok cl from rfl, run_lift_ok]
    have hrun : ∀ ft q, wrapCr false x.1.meta d 0 (x.1.learnCr false (.cb { cl with probability := Flt.one })) (s.2, ft) = q →
        onChild (wrapCr false x.1.meta d 0 (x.1.learnCr false (.cb { cl with probability := Flt.one }))) (s, ft) = (q.1, ((s.1, q.2.1), q.2.2)) := by
      intro ft q hq
      subst hq
      rfl
    rcases h with ⟨p, h1⟩ | ⟨k, hk, sk, fk, h1, e, s', ft, h2, h3⟩
    · left
      rw [run_ok (hrun _ _ h1)]
      exact ⟨_, rfl⟩
    · right
      refine ⟨k, hk, (s.1 + 1, sk), fk, ?_, e, (s.1, s'), ft, run_error (hrun _ _ h2), h3⟩
      rw [run_lift_ok, run_ok (hrun _ _ h1)]
      rfl
  | elementwise => exact hn.elim

end lawful
end Rml
