import Verif.Lemmas.CrashFeatures

/-! Helper lemmas for C99: what a failing learn call leaves of a model in mtr mode. -/

set_option linter.unusedSectionVars false

namespace Rml
open Cr
variable {F : Type} [Flt F]

/-- The state of a bandit model up to the range of labels and the sums of the mtr mode. -/
def Red.Near : (r : Red F) → r.State → r.State → Prop
  | .coin _, s', s => s' = s
  | .binary _ r, s', s => r.Near s' s
  | .cbAdf _ _ r, s', s => s'.2 = s.2 ∨ ∃ v, r.coinOf s'.2 = (r.coinOf s.2).seen v
  | .greedy _ _ r, s', s => r.Near s' s
  | .softmax _ _ _ r, s', s => s'.1 = s.1 ∧ r.Near s'.2 s.2
  | .squareCb _ _ _ _ r, s', s => s'.1 = s.1 ∧ r.Near s'.2 s.2
  | .debug _ r, s', s => r.Near s' s
  | .elementwise _ _ _ _ r, s', s => r.Near s' s

theorem Red.Near.refl (r : Red F) : ∀ s, r.Near s s := by
  induction r with
  | coin _ => intro s; rfl
  | binary _ r ih => exact ih
  | cbAdf _ _ r ih => intro s; exact .inl rfl
  | greedy _ _ r ih => exact ih
  | softmax _ _ _ r ih => intro s; exact ⟨rfl, ih _⟩
  | squareCb _ _ _ _ r ih => intro s; exact ⟨rfl, ih _⟩
  | debug _ r ih => exact ih
  | elementwise _ _ _ _ r ih => exact ih

theorem Red.Near.coin {r : Red F} : ∀ {s' s : r.State}, r.Near s' s → r.coinOf s' = r.coinOf s ∨ ∃ v, r.coinOf s' = (r.coinOf s).seen v := by
  induction r with
  | coin _ => intro s' s h; exact .inl h
  | binary _ r ih => exact ih
  | cbAdf _ _ r ih =>
    intro s' s h
    rcases h with h | h
    · exact .inl (congrArg r.coinOf h)
    · exact .inr h
  | greedy _ _ r ih => exact ih
  | softmax _ _ _ r ih => intro s' s h; exact ih h.2
  | squareCb _ _ _ _ r ih => intro s' s h; exact ih h.2
  | debug _ r ih => exact ih
  | elementwise _ _ _ _ r ih => exact ih

/-- Without ElementwiseInteraction, a stack that works with simple features is one for regression or classification. -/
theorem regression_of_simple {hash : HashFn} {g : GlobalConfig} {nma : Nat} {c : RedConfig F} {x : (r : Red F) × r.State} (hb : Built hash g nma c x)
    (hn : c.NoElementwise) (ht : x.1.meta.types.inFeatures = .sparseSimple) : c.Regression := by
  induction hb with
  | coin _ => trivial
  | binary hb hc ih => exact ih hn (by simpa [Red.meta, binaryTypes] using ht)
  | cbAdf => simp [Red.meta, cbAdfTypes] at ht
  | greedy => simp [Red.meta, exploreTypes] at ht
  | softmax => simp [Red.meta, exploreTypes] at ht
  | squareCb => simp [Red.meta, exploreTypes] at ht
  | debug hb hc ih => exact ih hn (by simpa [Red.meta, debugTypes] using ht)
  | elementwise => exact hn.elim

theorem cb_child_regression {hash : HashFn} {g : GlobalConfig} {nma : Nat} {c : RedConfig F} {x : (r : Red F) × r.State} (hb : Built hash g nma c x)
    (hn : c.NoElementwise) (hc : cbAdfTypes.checkOk x.1.meta.types = true) : c.Regression := by
  refine regression_of_simple hb hn ?_
  simp only [TypeDesc.checkOk, cbAdfTypes, Bool.and_eq_true] at hc
  have h := of_decide_eq_true hc.1.2
  simp only [Option.some.injEq] at h
  exact h.symm

theorem around_left {α β σ : Type} {shared : Option (SparseFeatures F)} {a : SparseFeatures F} (ha : a.Clean) (hs : ∀ s, shared = some s → s.Clean)
    {x : Cr (σ × SparseFeatures F) α} {s : σ} {b : α} (R : σ → σ → Prop)
    (hx : ∀ f, (∃ s', x (s, f) = (.ok b, (s', f))) ∨ ∃ e s', x (s, f) = (.error e, (s', f)) ∧ R s' s) (g : α → β) :
    (∃ p, (do
      appendSharedCr shared
      let y ← x
      removeSharedCr shared
      Cr.pure (g y) : Cr (σ × SparseFeatures F) β) (s, a) = (.ok (g b), p)) ∨
    ∃ e s' f', (do
      appendSharedCr shared
      let y ← x
      removeSharedCr shared
      Cr.pure (g y) : Cr (σ × SparseFeatures F) β) (s, a) = (.error e, (s', f')) ∧ R s' s := by
  obtain ⟨m, h1, h2⟩ := appendShared_merge (shared := shared) ha.wf (fun s hs' => (hs s hs').wf)
  rw [run_ok (appendShared_run h1 s)]
  rcases hx m with ⟨s', hy⟩ | ⟨e, s', hy, hr⟩
  · have : ∃ a3, removeShared shared m = .ok a3 := by
      cases hsh : shared with
      | none => exact ⟨m, rfl⟩
      | some sh =>
        obtain ⟨a1, g1, g2, _, _, g3⟩ := append_remove_clean ha (hs sh hsh)
        rw [hsh] at h1
        have : a1 = m := by
          have : a.append sh = .ok m := h1
          rw [g1] at this
          simpa using this
        subst this
        obtain ⟨a3, k, _⟩ := g3 a1 (Eqv.refl g2)
        exact ⟨a3, k⟩
    obtain ⟨a3, k1⟩ := this
    left
    rw [run_ok hy, run_ok (removeShared_run k1 s')]
    exact ⟨_, rfl⟩
  · right
    rw [run_error hy]
    exact ⟨e, s', m, rfl, hr⟩

theorem mtr_left {σ : Type} {childL : Label F → Depth → Cr (σ × Features F) (Unit × Depth)} (R : σ → σ → Prop) (hrefl : ∀ s, R s s)
    (label : CBLabel F) (d : Depth) (k : MtrState) (s : σ) (f : CBAdfFeatures F) (hf : CbGood f)
    (h : ∀ l g, (∃ s', childL l d (s, .simple g) = (.ok ((), d), (s', .simple g))) ∨ ∃ e s', childL l d (s, .simple g) = (.error e, (s', .simple g)) ∧ R s' s) :
    (∃ p, onCb (cbMtrLearnCr childL label d) ((k, s), .cbAdf f) = (.ok d, p)) ∨
      ∃ e k' s' ft, onCb (cbMtrLearnCr childL label d) ((k, s), .cbAdf f) = (.error e, ((k', s'), ft)) ∧ R s' s := by
  have key : ∀ q : M Depth × ((MtrState × σ) × CBAdfFeatures F), cbMtrLearnCr childL label d ((k, s), f) = q →
      q.1 = .ok d ∨ ∃ e, q.1 = .error e ∧ R q.2.1.2 s := by
    intro q hq
    subst hq
    unfold cbMtrLearnCr
    rw [run_get]
    simp only
    rw [run_set]
    cases hsh : f.shared with
    | none => exact .inr ⟨_, rfl, hrefl _⟩
    | some sh =>
      simp only
      cases hact : f.actions[label.action]? with
      | none => exact .inr ⟨_, rfl, hrefl _⟩
      | some action =>
        have hmem := List.mem_of_getElem? hact
        rw [show unwrapOpt (some action) = .ok action from rfl, run_lift_ok]
        have hx : ∀ (g : SparseFeatures F), (∃ s', (do
            let (_, d1) ← onSimple (childL (.simple ⟨label.cost, mtrWeight ⟨k.actionSum + f.actions.length, k.eventSum + 1⟩ label.probability⟩) d)
            Cr.pure d1 : Cr (σ × SparseFeatures F) Depth) (s, g) = (.ok d, (s', g))) ∨ ∃ e s', (do
            let (_, d1) ← onSimple (childL (.simple ⟨label.cost, mtrWeight ⟨k.actionSum + f.actions.length, k.eventSum + 1⟩ label.probability⟩) d)
            Cr.pure d1 : Cr (σ × SparseFeatures F) Depth) (s, g) = (.error e, (s', g)) ∧ R s' s := by
          intro g
          rcases h (.simple ⟨label.cost, mtrWeight ⟨k.actionSum + f.actions.length, k.eventSum + 1⟩ label.probability⟩) g with ⟨s', h1⟩ | ⟨e, s', h1, h2⟩
          · have : onSimple (childL (.simple ⟨label.cost, mtrWeight ⟨k.actionSum + f.actions.length, k.eventSum + 1⟩ label.probability⟩) d) (s, g) =
                (.ok ((), d), (s', g)) := by
              unfold onSimple
              simp only [h1]
            exact .inl ⟨s', run_ok this⟩
          · have : onSimple (childL (.simple ⟨label.cost, mtrWeight ⟨k.actionSum + f.actions.length, k.eventSum + 1⟩ label.probability⟩) d) (s, g) =
                (.error e, (s', g)) := by
              unfold onSimple
              simp only [h1]
            exact .inr ⟨e, s', run_error this, h2⟩
        have ha := around_left (shared := some action) (hf.shared sh hsh) (fun s' hs' => by cases hs'; exact hf.actions action hmem) R hx id
        have hq : (do
            Cr.on (·.2) (fun f p => (p.1, f)) action.appendCr
            let (_, d') ← onSimple (childL (.simple ⟨label.cost, mtrWeight ⟨k.actionSum + f.actions.length, k.eventSum + 1⟩ label.probability⟩) d)
            Cr.on (·.2) (fun f p => (p.1, f)) action.removeCr
            Cr.pure d' : Cr (σ × SparseFeatures F) Depth) = (do
            appendSharedCr (some action)
            let y ← (do
              let (_, d1) ← onSimple (childL (.simple ⟨label.cost, mtrWeight ⟨k.actionSum + f.actions.length, k.eventSum + 1⟩ label.probability⟩) d)
              Cr.pure d1 : Cr (σ × SparseFeatures F) Depth)
            removeSharedCr (some action)
            Cr.pure (id y) : Cr (σ × SparseFeatures F) Depth) := by
          refine congrArg (fun k => appendSharedCr (some action) >>= k) (funext fun _ => ?_)
          rw [cr_assoc]
          rfl
        rw [hq]
        revert ha
        generalize (do
            appendSharedCr (some action)
            let y ← (do
              let (_, d1) ← onSimple (childL (.simple ⟨label.cost, mtrWeight ⟨k.actionSum + f.actions.length, k.eventSum + 1⟩ label.probability⟩) d)
              Cr.pure d1 : Cr (σ × SparseFeatures F) Depth)
            removeSharedCr (some action)
            Cr.pure (id y) : Cr (σ × SparseFeatures F) Depth) = X
        intro ha
        unfold Cr.on
        rcases ha with ⟨p, ha⟩ | ⟨e, s', f', ha, hr⟩
        · left
          simp only [ha]
          rfl
        · right
          refine ⟨e, ?_, ?_⟩
          · simp only [ha]
          · simp only [ha]
            exact hr
  unfold onCb
  simp only
  rcases key _ rfl with h1 | ⟨e, h1, h2⟩
  · exact .inl ⟨_, Prod.ext h1 rfl⟩
  · exact .inr ⟨e, _, _, _, Prod.ext h1 rfl, h2⟩

theorem wrap_release {α σ : Type} {r : Red F} {d : Depth} (hd : d < 256) {body : Depth → Cr (σ × Features F) (α × Depth)} {p p' : σ × Features F}
    {a : α} (h : body d p = (.ok (a, d), p')) : wrapCr false r.meta d 0 body p = (.ok (a, d), p') := by
  unfold wrapCr
  rw [run_get]
  simp only
  rw [(C27_no_overflow false r d hd).1, run_lift_ok, run_ok h]
  simp only
  rw [(C27_no_overflow false r d hd).2, run_lift_ok, run_get]
  rfl

/-- What a learn call of a model in mtr mode may leave in the release profile. -/
def MtrLeft (r : Red F) (s : r.State) (d : Depth) (q : M (Unit × Depth) × (r.State × Features F)) : Prop :=
  (∃ p, q = (.ok ((), d), p)) ∨ ∃ e s' ft, q = (.error e, (s', ft)) ∧ r.Near s' s

section lawful
variable [LawfulCmp F]

theorem learn_left {hash : HashFn} {g : GlobalConfig} {nma nb : Nat} {c : RedConfig F} {x : (r : Red F) × r.State} (hb : Built hash g nma c x)
    (hn : c.NoElementwise) (hm : c.cbMode = some .mtr) (f : CBAdfFeatures F) (hf : CbGood f) : ∀ (l : Label F) (s : x.1.State) (d : Depth), d < 256 →
    CoinGood nb (x.1.coinOf s) → MtrLeft x.1 s d (x.1.learnCr false l d (s, .cbAdf f)) := by
  induction hb with
  | coin _ => simp [RedConfig.cbMode] at hm
  | @binary rc x hb hc ih =>
    intro l s d hd hg
    unfold Red.learnCr
    cases l.asBinary with
    | error e => exact .inr ⟨e, s, _, rfl, Red.Near.refl x.1 s⟩
    | ok b =>
      rw [run_lift_ok]
      rcases ih hn hm (.simple (binaryToSimple b)) s d hd hg with ⟨p, h1⟩ | ⟨e, s', ft, h1, h2⟩
      · exact .inl ⟨p, wrap_release hd h1⟩
      · exact .inr ⟨e, s', ft, wrap_failed hd h1, h2⟩
  | @cbAdf ty rc x hb hc ih =>
    intro l s d hd hg
    have hty : ty = .mtr := by simpa [RedConfig.cbMode] using hm
    subst hty
    have hreg := cb_child_regression hb hn hc
    unfold Red.learnCr
    rw [run_get]
    simp only
    rw [show (Features.cbAdf f : Features F).asCb = .ok f from rfl, run_lift_ok]
    cases l.asCb with
    | error e => exact .inr ⟨e, s, _, rfl, .inl rfl⟩
    | ok cl =>
      rw [run_lift_ok]
      have := mtr_left (childL := fun l d => wrapCr false x.1.meta d 0 (x.1.learnCr false l)) (fun s' s => s' = s ∨ ∃ v, x.1.coinOf s' = (x.1.coinOf s).seen v)
        (fun s => .inl rfl) cl d s.1 s.2 f hf (by
          intro l g
          rcases regression_learn hb hreg false (.simple g) rfl l s.2 d hd hg with ⟨s', h1⟩ | ⟨e, s', h1, h2⟩
          · exact .inl ⟨s', wrap_release hd h1⟩
          · refine .inr ⟨e, s', wrap_failed hd h1, ?_⟩
            rcases h2 with h2 | ⟨v, _, h2⟩
            · exact .inl h2
            · exact .inr ⟨v, h2⟩)
      rcases this with ⟨p, h1⟩ | ⟨e, k', s', ft, h1, h2⟩
      · exact .inl ⟨p, run_ok h1⟩
      · exact .inr ⟨e, (k', s'), ft, run_error h1, h2⟩
  | greedy hb hc ih =>
    intro l s d hd hg
    unfold Red.learnCr
    rcases ih hn hm l s d hd hg with ⟨p, h1⟩ | ⟨e, s', ft, h1, h2⟩
    · exact .inl ⟨p, wrap_release hd h1⟩
    · exact .inr ⟨e, s', ft, wrap_failed hd h1, h2⟩
  | debug hb hc ih =>
    intro l s d hd hg
    unfold Red.learnCr
    rcases ih hn hm l s d hd hg with ⟨p, h1⟩ | ⟨e, s', ft, h1, h2⟩
    · exact .inl ⟨p, wrap_release hd h1⟩
    · exact .inr ⟨e, s', ft, wrap_failed hd h1, h2⟩
  | @softmax _ _ _ x hb hc ih =>
    intro l s d hd hg
    unfold Red.learnCr onChild
    rcases ih hn hm l s.2 d hd hg with ⟨p, h1⟩ | ⟨e, s', ft, h1, h2⟩
    · left
      have := wrap_release (r := x.1) hd h1
      unfold Cr.on
      simp only [this]
      exact ⟨_, rfl⟩
    · right
      have := wrap_failed (dbg := false) (r := x.1) hd h1
      unfold Cr.on
      simp only [this]
      exact ⟨e, _, _, rfl, rfl, h2⟩
  | @squareCb _ _ _ _ x hk hb hc ih =>
    intro l s d hd hg
    unfold Red.learnCr
    cases l.asCb with
    | error e => exact .inr ⟨e, s, _, rfl, Red.Near.refl _ s⟩
    | ok cl =>
      rw [run_lift_ok]
      rcases ih hn hm (.cb { cl with probability := Flt.one }) s.2 d hd hg with ⟨p, h1⟩ | ⟨e, s', ft, h1, h2⟩
      · left
        have h3 := wrap_release (r := x.1) hd h1
        have : onChild (wrapCr false x.1.meta d 0 (x.1.learnCr false (.cb { cl with probability := Flt.one }))) (s, .cbAdf f) = (.ok ((), d), ((s.1, p.1), p.2)) := by
          unfold onChild Cr.on
          simp only [h3]
        rw [run_ok this]
        exact ⟨_, rfl⟩
      · right
        have h3 := wrap_failed (dbg := false) (r := x.1) hd h1
        have : onChild (wrapCr false x.1.meta d 0 (x.1.learnCr false (.cb { cl with probability := Flt.one }))) (s, .cbAdf f) = (.error e, ((s.1, s'), ft)) := by
          unfold onChild Cr.on
          simp only [h3]
        rw [run_error this]
        exact ⟨e, _, _, rfl, rfl, h2⟩
  | elementwise => exact hn.elim

theorem cbLoop_raw {p1 p2 : Features F → Depth → M (Prediction F × Features F × Depth)} (h : ∀ ft d, RelM SameRaw (p1 ft d) (p2 ft d))
    (shared : Option (SparseFeatures F)) : ∀ (as : List (SparseFeatures F)) (i : Nat) (d : Depth),
    cbPredictLoop p1 shared i as d = cbPredictLoop p2 shared i as d := by
  intro as
  induction as with
  | nil => intro i d; rfl
  | cons a as ih =>
    intro i d
    unfold cbPredictLoop
    refine congrArg (fun k => appendShared shared a >>= k) (funext fun a1 => ?_)
    have h1 := h (.simple a1) d
    revert h1
    cases p1 (.simple a1) d with
    | error e1 =>
      cases p2 (.simple a1) d with
      | error e2 => intro q; cases q; rfl
      | ok b => intro q; exact q.elim
    | ok a =>
      cases p2 (.simple a1) d with
      | error e2 => intro q; exact q.elim
      | ok b =>
        intro q
        obtain ⟨x1, x2, x3⟩ := a
        obtain ⟨y1, y2, y3⟩ := b
        obtain ⟨q1, q2⟩ := q
        simp only [Prod.mk.injEq] at q1 q2
        obtain ⟨rfl, rfl⟩ := q1
        simp only [ok_bind]
        have hs : x1.asScalar.map (·.2) = y1.asScalar.map (·.2) := by
          cases x1 <;> cases y1 <;> simp_all [Prediction.raw, Prediction.asScalar, Except.map]
        revert hs
        cases x1.asScalar with
        | error e1 =>
          cases y1.asScalar with
          | error e2 => intro q; cases q; rfl
          | ok b => intro q; cases q
        | ok a =>
          cases y1.asScalar with
          | error e2 => intro q; cases q
          | ok b =>
            intro q
            obtain ⟨a1, a2⟩ := a
            obtain ⟨b1, b2⟩ := b
            simp only [Except.map, Except.ok.injEq] at q
            subst q
            simp only [ok_bind, ih]

theorem near_predict {hash : HashFn} {g : GlobalConfig} {nma : Nat} {c : RedConfig F} {x : (r : Red F) × r.State} (hb : Built hash g nma c x)
    (hn : c.NoElementwise) {t : CBType} (hm : c.cbMode = some t) (dbg : Bool) : ∀ (s' s : x.1.State), (x.1.coinOf s).RangeOk → x.1.Near s' s →
    x.1.predictImpl dbg s' = x.1.predictImpl dbg s := by
  induction hb with
  | coin _ => simp [RedConfig.cbMode] at hm
  | binary hb hc ih =>
    intro s' s hg h
    funext ft d
    unfold Red.predictImpl
    rw [ih hn hm s' s hg h]
  | @cbAdf ty rc x hb hc ih =>
    intro s' s hg h
    have hreg := cb_child_regression hb hn hc
    funext ft d
    unfold Red.predictImpl
    refine congrArg (fun k => ft.asCb >>= k) (funext fun f => ?_)
    rcases h with h | ⟨v, h⟩
    · rw [h]
    · rw [cbLoop_raw (fun ft d => wrap_raw (dbg := dbg) (m := x.1.meta) (ft := ft) (d := d) (off := 0)
        (fun d => regression_predict hb hreg dbg ft v s.2 s'.2 d hg h)) f.shared f.actions 0 d]
  | greedy hb hc ih =>
    intro s' s hg h
    funext ft d
    unfold Red.predictImpl
    rw [ih hn hm s' s hg h]
  | softmax hb hc ih =>
    intro s' s hg h
    funext ft d
    unfold Red.predictImpl
    rw [ih hn hm s'.2 s.2 hg h.2]
  | squareCb hk hb hc ih =>
    intro s' s hg h
    funext ft d
    unfold Red.predictImpl
    rw [ih hn hm s'.2 s.2 hg h.2, h.1]
  | debug hb hc ih =>
    intro s' s hg h
    funext ft d
    unfold Red.predictImpl
    rw [ih hn hm s' s hg h]
  | elementwise => exact hn.elim

end lawful

end Rml
