import Verif.Lemmas.CrashState
import Verif.Lemmas.Cb

/-! Helper lemmas for C99: what a failing call leaves of a contextual bandit example. -/

set_option linter.unusedSectionVars false

namespace Rml
open Cr
variable {F : Type} [Flt F]

/-- One action has the shared features appended, the others are the same. -/
def OneMerged (shared : Option (SparseFeatures F)) (as' as : List (SparseFeatures F)) : Prop :=
  ∃ pre pre' a a' post post', as = pre ++ a :: post ∧ as' = pre' ++ a' :: post' ∧ List.Forall₂ Eqv pre' pre ∧ a'.MergeOf a shared ∧ List.Forall₂ Eqv post' post

/-- What may be left of an example. -/
def CbLeft (f' f : CBAdfFeatures F) : Prop :=
  (OptEqv f'.shared f.shared ∧ OneMerged f.shared f'.actions f.actions) ∨
    ∃ s s' a, f.shared = some s ∧ f'.shared = some s' ∧ a ∈ f.actions ∧ s'.MergeOf s (some a) ∧ List.Forall₂ Eqv f'.actions f.actions

/-- The features after a call: if it returns they are the same, and otherwise they are the same or as in `CbLeft`. -/
def Outcome {α σ : Type} (f : CBAdfFeatures F) (q : M α × (σ × Features F)) : Prop :=
  ∃ f', q.2.2 = .cbAdf f' ∧ (CbEqv f' f ∨ CbLeft f' f) ∧ ∀ a, q.1 = .ok a → CbEqv f' f

theorem SparseFeatures.Clean.wf {a : SparseFeatures F} (h : a.Clean) : a.WF :=
  ⟨h.inv, fun ns hns => by
    by_contra hx
    have := (h.visible ns).2 hx
    rw [hns] at this
    simp at this⟩

theorem Outcome.same {α σ : Type} {f : CBAdfFeatures F} (h : CbGood f) (m : M α) (s : σ) : Outcome f (m, (s, .cbAdf f)) :=
  ⟨f, rfl, .inl (CbEqv.refl h), fun _ _ => CbEqv.refl h⟩

/-- What follows does not change the features. -/
theorem Outcome.bind {α β σ : Type} {f : CBAdfFeatures F} {x : Cr (σ × Features F) α} {k : α → Cr (σ × Features F) β} {p : σ × Features F}
    (h : Outcome f (x p)) (hk : ∀ a q, (k a q).2.2 = q.2) : Outcome f ((x >>= k) p) := by
  obtain ⟨f', h1, h2, h3⟩ := h
  rw [bind_run]
  unfold Cr.bind
  rcases hx : x p with ⟨e | a, q⟩ <;> rw [hx] at h1 h3
  · exact ⟨f', h1, h2, fun a ha => by simp at ha⟩
  · refine ⟨f', (hk a q).trans h1, h2, fun _ _ => h3 a rfl⟩

theorem lifted_still {α β σ : Type} (m : M α) (k : α → Cr (σ × Features F) β) (hk : ∀ a q, (k a q).2.2 = q.2) (q : σ × Features F) : ((Cr.lift m >>= k) q).2.2 = q.2 := by
  cases m with
  | error e => rfl
  | ok a => exact hk a q

theorem cr_assoc {σ α β γ : Type} (x : Cr σ α) (f : α → Cr σ β) (g : β → Cr σ γ) : (x >>= f) >>= g = x >>= fun a => f a >>= g := by
  funext s
  simp only [bind_run]
  unfold Cr.bind
  rcases hx : x s with ⟨e | a, s'⟩
  · simp only [bind_run]; unfold Cr.bind; rw [hx]
  · simp only [bind_run]; unfold Cr.bind; rw [hx]

theorem Outcome.wrap {α σ : Type} {f : CBAdfFeatures F} (hf : CbGood f) {dbg : Bool} {m : Meta} {d : Depth} {off : Nat} {body : Depth → Cr (σ × Features F) (α × Depth)}
    {s : σ} (h : ∀ d, Outcome f (body d (s, .cbAdf f))) : Outcome f (wrapCr dbg m d off body (s, .cbAdf f)) := by
  unfold wrapCr
  rw [run_get]
  simp only
  cases d.increment dbg m.numModelsBelow off with
  | error e => exact Outcome.same hf _ _
  | ok d1 =>
    rw [run_lift_ok]
    refine (h d1).bind ?_
    rintro ⟨a, d2⟩ q
    simp only
    cases d2.decrement dbg m.numModelsBelow off with
    | error e => rfl
    | ok d3 =>
      rw [run_lift_ok, run_get]
      exact lifted_still _ _ (fun _ _ => rfl) q

/-! ### The base of CbAdf does not touch simple features -/

/-- The call leaves simple features as they are. -/
def Still {α σ : Type} (x : Cr (σ × Features F) α) : Prop := ∀ f, Keeps (fun p => p.2 = .simple f) x

theorem Still.wrap {α σ : Type} {dbg : Bool} {m : Meta} {d : Depth} {off : Nat} {body : Depth → Cr (σ × Features F) (α × Depth)} (h : ∀ d, Still (body d)) :
    Still (wrapCr dbg m d off body) := by
  intro f
  unfold wrapCr
  refine Keeps.bind Keeps.get (fun q => ?_)
  refine Keeps.bind (Keeps.lift _) (fun d1 => ?_)
  refine Keeps.bind (h d1 f) (fun r => ?_)
  refine Keeps.bind (Keeps.lift _) (fun d3 => ?_)
  refine Keeps.bind Keeps.get (fun q => ?_)
  exact Keeps.bind (Keeps.lift _) (fun _ => Keeps.pure _)

theorem predict_still (dbg : Bool) (r : Red F) (hn : r.NoElementwise) : ∀ (s : r.State) (d : Depth), Still (r.predictCr dbg s d) := by
  induction r with
  | coin m =>
    intro s d f
    unfold Red.predictCr
    refine Keeps.bind Keeps.get (fun q => ?_)
    refine Keeps.bind (Keeps.lift _) (fun f => ?_)
    exact Keeps.bind (Keeps.lift _) (fun _ => Keeps.pure _)
  | binary m r ih =>
    intro s d f
    unfold Red.predictCr
    refine Keeps.bind (Still.wrap (fun d => ih hn s d) f) (fun q => ?_)
    exact Keeps.bind (Keeps.lift _) (fun _ => Keeps.pure _)
  | cbAdf m ty r ih =>
    intro s d f
    unfold Red.predictCr
    refine Keeps.bind ?_ (fun _ => Keeps.pure _)
    rintro ⟨⟨⟩, ft⟩ hft
    simp only at hft
    subst hft
    rfl
  | greedy m e r ih =>
    intro s d f
    unfold Red.predictCr
    refine Keeps.bind (Still.wrap (fun d => ih hn s d) f) (fun q => ?_)
    refine Keeps.bind (Keeps.lift _) (fun _ => ?_)
    exact Keeps.bind (Keeps.lift _) (fun _ => Keeps.pure _)
  | softmax m e lm r ih =>
    intro s d f
    unfold Red.predictCr
    refine Keeps.bind (Still.wrap (fun d => ih hn s.2 d) f) (fun q => ?_)
    refine Keeps.bind (Keeps.lift _) (fun _ => ?_)
    exact Keeps.bind (Keeps.lift _) (fun _ => Keeps.pure _)
  | squareCb m e gs ge r ih =>
    intro s d f
    unfold Red.predictCr
    refine Keeps.bind (Still.wrap (fun d => ih hn s.2 d) f) (fun q => ?_)
    refine Keeps.bind (Keeps.lift _) (fun _ => ?_)
    exact Keeps.bind (Keeps.lift _) (fun _ => Keeps.pure _)
  | debug m r ih =>
    intro s d f
    unfold Red.predictCr
    exact Still.wrap (fun d => ih hn s d) f
  | elementwise m pair keep bits r ih => exact hn.elim

theorem learn_still (dbg : Bool) (r : Red F) (hn : r.NoElementwise) : ∀ (l : Label F) (d : Depth), Still (r.learnCr dbg l d) := by
  induction r with
  | coin m =>
    intro l d f
    unfold Red.learnCr
    refine Keeps.bind Keeps.get (fun q => ?_)
    refine Keeps.bind (Keeps.lift _) (fun f => ?_)
    refine Keeps.bind (Keeps.lift _) (fun sl => ?_)
    exact Keeps.bind (fun p hp => hp) (fun _ => Keeps.pure _)
  | binary m r ih =>
    intro l d f
    unfold Red.learnCr
    exact Keeps.bind (Keeps.lift _) (fun q => Still.wrap (fun d => ih hn _ d) f)
  | cbAdf m ty r ih =>
    intro l d f
    rintro ⟨s, ft⟩ hft
    simp only at hft
    subst hft
    cases ty <;> unfold Red.learnCr <;> rfl
  | greedy m e r ih =>
    intro l d f
    unfold Red.learnCr
    exact Still.wrap (fun d => ih hn _ d) f
  | softmax m e lm r ih =>
    intro l d f
    unfold Red.learnCr onChild
    exact Keeps.on (Q := fun p : r.State × Features F => p.2 = .simple f) (Still.wrap (fun d => ih hn _ d) f) (fun s h => h) (fun s t _ h => h)
  | squareCb m e gs ge r ih =>
    intro l d f
    unfold Red.learnCr onChild
    refine Keeps.bind (Keeps.lift _) (fun cl => ?_)
    refine Keeps.bind (Keeps.on (Q := fun p : r.State × Features F => p.2 = .simple f) (Still.wrap (fun d => ih hn _ d) f) (fun s h => h) (fun s t _ h => h)) (fun q => ?_)
    exact fun p hp => hp
  | debug m r ih =>
    intro l d f
    unfold Red.learnCr
    exact Still.wrap (fun d => ih hn _ d) f
  | elementwise m pair keep bits r ih => exact hn.elim

theorem onSimple_still {α σ : Type} {x : Cr (σ × Features F) α} (h : Still x) (s : σ) (f : SparseFeatures F) : (onSimple x (s, f)).2.2 = f := by
  have := h f (s, .simple f) rfl
  unfold onSimple
  simp only
  rcases hx : x (s, .simple f) with ⟨a | a, s', f' | f'⟩ <;> rw [hx] at this <;> simp_all

/-! ### One action -/

theorem appendShared_run {σ : Type} {shared : Option (SparseFeatures F)} {a m : SparseFeatures F} (h : appendShared shared a = .ok m) (s : σ) :
    appendSharedCr shared (s, a) = (.ok (), (s, m)) := by
  apply ret_ok
  rw [ret_appendShared, h]
  rfl

theorem removeShared_run {σ : Type} {shared : Option (SparseFeatures F)} {a m : SparseFeatures F} (h : removeShared shared a = .ok m) (s : σ) :
    removeSharedCr shared (s, a) = (.ok (), (s, m)) := by
  apply ret_ok
  rw [ret_removeShared, h]
  rfl

/-- Appending, asking the base, removing. -/
theorem around {α β σ : Type} {shared : Option (SparseFeatures F)} {a : SparseFeatures F} (ha : a.Clean) (hs : ∀ s, shared = some s → s.Clean)
    {x : Cr (σ × SparseFeatures F) α} (hx : ∀ s f, (x (s, f)).2.2 = f) (g : α → β) (s : σ) :
    let q := (do
      appendSharedCr shared
      let y ← x
      removeSharedCr shared
      Cr.pure (g y) : Cr (σ × SparseFeatures F) β) (s, a)
    (Eqv q.2.2 a ∨ q.2.2.MergeOf a shared) ∧ ∀ b, q.1 = .ok b → Eqv q.2.2 a := by
  obtain ⟨m, h1, h2⟩ := appendShared_merge (shared := shared) ha.wf (fun s hs' => (hs s hs').wf)
  intro q
  have hq : q = (do
      let y ← x
      removeSharedCr shared
      Cr.pure (g y) : Cr (σ × SparseFeatures F) β) (s, m) := run_ok (appendShared_run h1 s)
  have hxm := hx s m
  rcases hy : x (s, m) with ⟨e | y, s', m'⟩ <;> rw [hy] at hxm <;> simp only at hxm <;> subst hxm
  · rw [hq, run_error hy]
    exact ⟨.inr h2, fun b hb => by simp at hb⟩
  · have : ∃ a3, removeShared shared m' = .ok a3 ∧ Eqv a3 a := by
      cases hsh : shared with
      | none =>
        rw [hsh] at h1
        unfold appendShared at h1
        cases h1
        exact ⟨a, rfl, Eqv.refl ha.inv⟩
      | some sh =>
        obtain ⟨a1, g1, g2, _, _, g3⟩ := append_remove_clean ha (hs sh hsh)
        rw [hsh] at h1
        have : a1 = m' := by
          have : a.append sh = .ok m' := h1
          rw [g1] at this
          simpa using this
        subst this
        exact g3 a1 (Eqv.refl g2)
    obtain ⟨a3, k1, k2⟩ := this
    rw [hq, run_ok hy, run_ok (removeShared_run k1 s')]
    exact ⟨.inl k2, fun _ _ => k2⟩

theorem oneMerged_cons {shared : Option (SparseFeatures F)} {a a' : SparseFeatures F} {as as' : List (SparseFeatures F)} (h : Eqv a' a)
    (hm : OneMerged shared as' as) : OneMerged shared (a' :: as') (a :: as) := by
  obtain ⟨pre, pre', b, b', post, post', rfl, rfl, h1, h2, h3⟩ := hm
  exact ⟨a :: pre, a' :: pre', b, b', post, post', rfl, rfl, .cons h h1, h2, h3⟩

theorem forall₂_eqv_refl {as : List (SparseFeatures F)} (h : ∀ a ∈ as, a.Clean) : List.Forall₂ Eqv as as := by
  induction as with
  | nil => exact .nil
  | cons a as ih => exact .cons (Eqv.refl (h a (by simp)).inv) (ih (fun x hx => h x (by simp [hx])))

theorem next_outcome {σ α β : Type} {shared : Option (SparseFeatures F)} {q : M α × (σ × SparseFeatures F)} {a : SparseFeatures F} {as : List (SparseFeatures F)}
    {rest : α → σ → M β × (σ × List (SparseFeatures F))} (hq : (Eqv q.2.2 a ∨ q.2.2.MergeOf a shared) ∧ ∀ b, q.1 = .ok b → Eqv q.2.2 a)
    (has : List.Forall₂ Eqv as as)
    (hr : ∀ x s, (List.Forall₂ Eqv (rest x s).2.2 as ∨ OneMerged shared (rest x s).2.2 as) ∧ ∀ b, (rest x s).1 = .ok b → List.Forall₂ Eqv (rest x s).2.2 as) :
    let r := nextAction q as rest
    (List.Forall₂ Eqv r.2.2 (a :: as) ∨ OneMerged shared r.2.2 (a :: as)) ∧ ∀ b, r.1 = .ok b → List.Forall₂ Eqv r.2.2 (a :: as) := by
  obtain ⟨m, s, a'⟩ := q
  cases m with
  | error e =>
    refine ⟨?_, fun b hb => by simp [nextAction] at hb⟩
    rcases hq.1 with h | h
    · exact .inl (.cons h has)
    · exact .inr ⟨[], [], a, a', as, as, rfl, rfl, .nil, h, has⟩
  | ok x =>
    have h1 := hq.2 x rfl
    have h2 := hr x s
    refine ⟨?_, fun b hb => .cons h1 (h2.2 b hb)⟩
    rcases h2.1 with h | h
    · exact .inl (.cons h1 h)
    · exact .inr (oneMerged_cons h1 h)

theorem predictLoop_outcome {σ : Type} {childP : Depth → Cr (σ × Features F) (Prediction F × Depth)} (h : ∀ d, Still (childP d))
    {shared : Option (SparseFeatures F)} (hs : ∀ s, shared = some s → s.Clean) (as : List (SparseFeatures F)) (has : ∀ a ∈ as, a.Clean) :
    ∀ (i : Nat) (d : Depth) (s : σ), let r := cbPredictLoopCr childP shared i as d s
      (List.Forall₂ Eqv r.2.2 as ∨ OneMerged shared r.2.2 as) ∧ ∀ b, r.1 = .ok b → List.Forall₂ Eqv r.2.2 as := by
  induction as with
  | nil => intro i d s; exact ⟨.inl .nil, fun _ _ => .nil⟩
  | cons a as ih =>
    intro i d s
    have hrest := fun x hx => has x (List.mem_cons_of_mem _ hx)
    unfold cbPredictLoopCr
    refine next_outcome (shared := shared) ?_ (forall₂_eqv_refl hrest) ?_
    · have hx : ∀ (s : σ) (f : SparseFeatures F), ((do
          let (p, d1) ← onSimple (childP d)
          let (_, raw) ← Cr.lift p.asScalar
          Cr.pure (raw, d1) : Cr (σ × SparseFeatures F) (F × Depth)) (s, f)).2.2 = f := by
        intro s f
        have h1 := onSimple_still (h d) s f
        rcases hy : onSimple (childP d) (s, f) with ⟨e | ⟨p, d1⟩, s', f'⟩ <;> rw [hy] at h1 <;> simp only at h1 <;> subst h1
        · rw [run_error hy]
        · rw [run_ok hy]
          simp only
          cases p.asScalar with
          | error e => rfl
          | ok y => rfl
      have := around (shared := shared) (has a (by simp)) hs hx id s
      have hq : cbPredictStepCr childP shared d (s, a) = (do
          appendSharedCr shared
          let y ← (do
            let (p, d1) ← onSimple (childP d)
            let (_, raw) ← Cr.lift p.asScalar
            Cr.pure (raw, d1) : Cr (σ × SparseFeatures F) (F × Depth))
          removeSharedCr shared
          Cr.pure (id y) : Cr (σ × SparseFeatures F) (F × Depth)) (s, a) := by
        unfold cbPredictStepCr
        refine congrFun (congrArg (fun k => appendSharedCr shared >>= k) (funext fun _ => ?_)) _
        rw [cr_assoc]
        congr 1
        funext y
        obtain ⟨p, d1⟩ := y
        simp only
        rw [cr_assoc]
        rfl
      rw [hq]
      exact this
    · intro x s1
      have := ih hrest (i + 1) x.2 s1
      refine ⟨this.1, fun b hb => ?_⟩
      simp only at hb
      cases hz : (cbPredictLoopCr childP shared (i + 1) as x.2 s1).1 with
      | error e => rw [hz] at hb; simp [Except.map] at hb
      | ok y => exact this.2 y hz

theorem ipsLoop_outcome {σ : Type} {dbg : Bool} {childL : Label F → Depth → Cr (σ × Features F) (Unit × Depth)} (h : ∀ l d, Still (childL l d))
    {shared : Option (SparseFeatures F)} (hs : ∀ s, shared = some s → s.Clean) (label : CBLabel F) (as : List (SparseFeatures F)) (has : ∀ a ∈ as, a.Clean) :
    ∀ (i : Nat) (d : Depth) (s : σ), let r := cbIpsLoopCr dbg childL shared label i as d s
      (List.Forall₂ Eqv r.2.2 as ∨ OneMerged shared r.2.2 as) ∧ ∀ b, r.1 = .ok b → List.Forall₂ Eqv r.2.2 as := by
  induction as with
  | nil => intro i d s; exact ⟨.inl .nil, fun _ _ => .nil⟩
  | cons a as ih =>
    intro i d s
    have hrest := fun x hx => has x (List.mem_cons_of_mem _ hx)
    unfold cbIpsLoopCr
    refine next_outcome (shared := shared) ?_ (forall₂_eqv_refl hrest) (fun x s1 => ih hrest (i + 1) x s1)
    have hx : ∀ (s : σ) (f : SparseFeatures F), ((do
        let l ← Cr.lift (ipsLabel dbg label i)
        let (_, d1) ← onSimple (childL (.simple l) d)
        Cr.pure d1 : Cr (σ × SparseFeatures F) Depth) (s, f)).2.2 = f := by
      intro s f
      cases ipsLabel dbg label i with
      | error e => rfl
      | ok l =>
        rw [run_lift_ok]
        have h1 := onSimple_still (h (.simple l) d) s f
        rcases hy : onSimple (childL (.simple l) d) (s, f) with ⟨e | ⟨p, d1⟩, s', f'⟩ <;> rw [hy] at h1 <;> simp only at h1 <;> subst h1
        · rw [run_error hy]
        · rw [run_ok hy]; rfl
    have := around (shared := shared) (has a (by simp)) hs hx id s
    have hq : cbIpsStepCr dbg childL shared label i d (s, a) = (do
        appendSharedCr shared
        let y ← (do
          let l ← Cr.lift (ipsLabel dbg label i)
          let (_, d1) ← onSimple (childL (.simple l) d)
          Cr.pure d1 : Cr (σ × SparseFeatures F) Depth)
        removeSharedCr shared
        Cr.pure (id y) : Cr (σ × SparseFeatures F) Depth) (s, a) := by
      unfold cbIpsStepCr
      refine congrFun (congrArg (fun k => appendSharedCr shared >>= k) (funext fun _ => ?_)) _
      rw [cr_assoc]
      congr 1
      funext l
      rw [cr_assoc]
      rfl
    rw [hq]
    exact this

theorem mtr_outcome {σ : Type} {childL : Label F → Depth → Cr (σ × Features F) (Unit × Depth)} (h : ∀ l d, Still (childL l d)) (label : CBLabel F) (d : Depth)
    (k : MtrState) (s : σ) (f : CBAdfFeatures F) (hf : CbGood f) : Outcome f (onCb (cbMtrLearnCr childL label d) ((k, s), .cbAdf f)) := by
  unfold onCb
  simp only
  have key : ∀ q : M Depth × ((MtrState × σ) × CBAdfFeatures F), cbMtrLearnCr childL label d ((k, s), f) = q →
      (CbEqv q.2.2 f ∨ CbLeft q.2.2 f) ∧ ∀ a, q.1 = .ok a → CbEqv q.2.2 f := by
    intro q hq
    subst hq
    unfold cbMtrLearnCr
    rw [run_get]
    simp only
    rw [run_set]
    cases hsh : f.shared with
    | none => exact ⟨.inl (CbEqv.refl hf), fun _ _ => CbEqv.refl hf⟩
    | some sh =>
      simp only
      cases hact : f.actions[label.action]? with
      | none => exact ⟨.inl (CbEqv.refl hf), fun _ _ => CbEqv.refl hf⟩
      | some action =>
        have hmem := List.mem_of_getElem? hact
        rw [show unwrapOpt (some action) = .ok action from rfl, run_lift_ok]
        have hx : ∀ (s : σ) (g : SparseFeatures F), ((do
            let (_, d1) ← onSimple (childL (.simple ⟨label.cost, mtrWeight ⟨k.actionSum + f.actions.length, k.eventSum + 1⟩ label.probability⟩) d)
            Cr.pure d1 : Cr (σ × SparseFeatures F) Depth) (s, g)).2.2 = g := by
          intro s g
          have h1 := onSimple_still (h (.simple ⟨label.cost, mtrWeight ⟨k.actionSum + f.actions.length, k.eventSum + 1⟩ label.probability⟩) d) s g
          rcases hy : onSimple (childL (.simple ⟨label.cost, mtrWeight ⟨k.actionSum + f.actions.length, k.eventSum + 1⟩ label.probability⟩) d) (s, g) with
            ⟨e | ⟨p, d1⟩, s', f'⟩ <;> rw [hy] at h1 <;> simp only at h1 <;> subst h1
          · rw [run_error hy]
          · rw [run_ok hy]; rfl
        have ha := around (shared := some action) (hf.shared sh hsh) (fun s' hs' => by cases hs'; exact hf.actions action hmem) hx id s
        have hq : (do
            Cr.on (·.2) (fun f p => (p.1, f)) action.appendCr
            let (_, d') ← onSimple (childL (.simple ⟨label.cost, mtrWeight ⟨k.actionSum + f.actions.length, k.eventSum + 1⟩ label.probability⟩) d)
            Cr.on (·.2) (fun f p => (p.1, f)) action.removeCr
            Cr.pure d' : Cr (σ × SparseFeatures F) Depth) = (do
            appendSharedCr (some action)
            let y ← (do
              let (_, d1) ← onSimple (childL (.simple ⟨label.cost, mtrWeight ⟨k.actionSum + f.actions.length, k.eventSum + 1⟩ label.probability⟩) d)
              Cr.pure d1 : Cr (σ × SparseFeatures F) Depth)
            removeSharedCr (some action)
            Cr.pure (id y) : Cr (σ × SparseFeatures F) Depth) := by
          refine congrArg (fun k => appendSharedCr (some action) >>= k) (funext fun _ => ?_)
          rw [cr_assoc]
          rfl
        rw [hq]
        revert ha
        generalize (do
            appendSharedCr (some action)
            let y ← (do
              let (_, d1) ← onSimple (childL (.simple ⟨label.cost, mtrWeight ⟨k.actionSum + f.actions.length, k.eventSum + 1⟩ label.probability⟩) d)
              Cr.pure d1 : Cr (σ × SparseFeatures F) Depth)
            removeSharedCr (some action)
            Cr.pure (id y) : Cr (σ × SparseFeatures F) Depth) = X
        intro ha
        unfold Cr.on
        rcases hz : X (s, sh) with ⟨m, s', sh'⟩
        rw [hz] at ha
        simp only [hz] at ha ⊢
        have hsame : Eqv sh' sh → CbEqv { f with shared := some sh' } f := by
          intro he
          refine ⟨?_, (CbEqv.refl hf).actions⟩
          rw [hsh]
          exact .some he
        refine ⟨?_, fun a hm => hsame (ha.2 a hm)⟩
        rcases ha.1 with he | he
        · exact .inl (hsame he)
        · exact .inr (.inr ⟨sh, sh', action, hsh, rfl, hmem, he, (CbEqv.refl hf).actions⟩)
  have := key _ rfl
  exact ⟨_, rfl, this⟩

theorem predict_outcome (dbg : Bool) (r : Red F) (hn : r.NoElementwise) (f : CBAdfFeatures F) (hf : CbGood f) : ∀ (s : r.State) (d : Depth),
    Outcome f (r.predictCr dbg s d ((), .cbAdf f)) := by
  induction r with
  | coin m => intro s d; exact Outcome.same hf _ _
  | binary m r ih =>
    intro s d
    unfold Red.predictCr
    exact (Outcome.wrap hf (fun d => ih hn s d)).bind (fun a q => lifted_still _ _ (fun _ _ => rfl) q)
  | cbAdf m ty r ih =>
    intro s d
    unfold Red.predictCr
    refine Outcome.bind ?_ (fun _ _ => rfl)
    have := predictLoop_outcome (childP := fun d => wrapCr dbg r.meta d 0 (r.predictCr dbg s.2)) (fun d => Still.wrap (fun d => predict_still dbg r hn s.2 d)) hf.shared
      f.actions hf.actions 0 d ()
    refine ⟨_, rfl, ?_, fun a ha => ⟨(CbEqv.refl hf).shared, this.2 a ha⟩⟩
    rcases this.1 with h | h
    · exact .inl ⟨(CbEqv.refl hf).shared, h⟩
    · exact .inr (.inl ⟨(CbEqv.refl hf).shared, h⟩)
  | greedy m e r ih =>
    intro s d
    unfold Red.predictCr
    exact (Outcome.wrap hf (fun d => ih hn s d)).bind (fun a q => lifted_still _ _ (fun _ q => lifted_still _ _ (fun _ _ => rfl) q) q)
  | softmax m e lm r ih =>
    intro s d
    unfold Red.predictCr
    exact (Outcome.wrap hf (fun d => ih hn s.2 d)).bind (fun a q => lifted_still _ _ (fun _ q => lifted_still _ _ (fun _ _ => rfl) q) q)
  | squareCb m e gs ge r ih =>
    intro s d
    unfold Red.predictCr
    exact (Outcome.wrap hf (fun d => ih hn s.2 d)).bind (fun a q => lifted_still _ _ (fun _ q => lifted_still _ _ (fun _ _ => rfl) q) q)
  | debug m r ih =>
    intro s d
    unfold Red.predictCr
    exact Outcome.wrap hf (fun d => ih hn s d)
  | elementwise m pair keep bits r ih => exact hn.elim

theorem learn_outcome (dbg : Bool) (r : Red F) (hn : r.NoElementwise) (f : CBAdfFeatures F) (hf : CbGood f) : ∀ (l : Label F) (s : r.State) (d : Depth),
    Outcome f (r.learnCr dbg l d (s, .cbAdf f)) := by
  induction r with
  | coin m => intro l s d; exact Outcome.same hf _ _
  | binary m r ih =>
    intro l s d
    unfold Red.learnCr
    cases l.asBinary with
    | error e => exact Outcome.same hf _ _
    | ok b => exact Outcome.wrap hf (fun d => ih hn _ s d)
  | cbAdf m ty r ih =>
    intro l s d
    have hst : ∀ l d, Still (wrapCr dbg r.meta d 0 (r.learnCr dbg l)) := fun l d => Still.wrap (fun d => learn_still dbg r hn l d)
    cases ty with
    | ips =>
      unfold Red.learnCr
      rw [run_get]
      simp only
      rw [show (Features.cbAdf f : Features F).asCb = .ok f from rfl, run_lift_ok]
      cases l.asCb with
      | error e => exact Outcome.same hf _ _
      | ok cl =>
        rw [run_lift_ok]
        refine Outcome.bind ?_ (fun _ _ => rfl)
        have := ipsLoop_outcome (dbg := dbg) hst hf.shared cl f.actions hf.actions 0 d s.2
        refine ⟨_, rfl, ?_, fun a ha => ⟨(CbEqv.refl hf).shared, this.2 a ha⟩⟩
        rcases this.1 with h | h
        · exact .inl ⟨(CbEqv.refl hf).shared, h⟩
        · exact .inr (.inl ⟨(CbEqv.refl hf).shared, h⟩)
    | mtr =>
      unfold Red.learnCr
      rw [run_get]
      simp only
      rw [show (Features.cbAdf f : Features F).asCb = .ok f from rfl, run_lift_ok]
      cases l.asCb with
      | error e => exact Outcome.same hf _ _
      | ok cl =>
        rw [run_lift_ok]
        refine Outcome.bind ?_ (fun _ _ => rfl)
        exact mtr_outcome hst cl d s.1 s.2 f hf
  | greedy m e r ih =>
    intro l s d
    unfold Red.learnCr
    exact Outcome.wrap hf (fun d => ih hn l s d)
  | softmax m e lm r ih =>
    intro l s d
    unfold Red.learnCr
    exact Outcome.wrap (s := s.2) hf (fun d => ih hn l s.2 d)
  | squareCb m e gs ge r ih =>
    intro l s d
    unfold Red.learnCr
    cases l.asCb with
    | error e => exact Outcome.same hf _ _
    | ok cl =>
      rw [run_lift_ok]
      refine Outcome.bind ?_ (fun _ _ => rfl)
      exact Outcome.wrap (s := s.2) hf (fun d => ih hn _ s.2 d)
  | debug m r ih =>
    intro l s d
    unfold Red.learnCr
    exact Outcome.wrap hf (fun d => ih hn l s d)
  | elementwise m pair keep bits r ih => exact hn.elim

theorem forall₂_split (pre : List (SparseFeatures F)) : ∀ (post l : List (SparseFeatures F)), List.Forall₂ Eqv (pre ++ post) l →
    ∃ l1 l2, List.Forall₂ Eqv pre l1 ∧ List.Forall₂ Eqv post l2 ∧ l = l1 ++ l2 := by
  induction pre with
  | nil => intro post l h; exact ⟨[], l, .nil, h, rfl⟩
  | cons a pre ih =>
    intro post l h
    cases h with
    | cons h1 h2 =>
      obtain ⟨l1, l2, e1, e2, rfl⟩ := ih _ _ h2
      exact ⟨_ :: l1, l2, .cons h1 e1, e2, rfl⟩

/-- Only what is observable counts. -/
theorem CbLeft.of_eqv {f2 f1 f : CBAdfFeatures F} (h : CbLeft f2 f1) (he : CbEqv f1 f) : CbLeft f2 f := by
  have merge : ∀ {m a b : SparseFeatures F} {s t : Option (SparseFeatures F)}, m.MergeOf a s → Eqv a b → OptEqv s t → m.MergeOf b t := by
    intro m a b s t hm hab hst
    refine hm.congr (sameAs_of_vw hab.left hab.right hab.view) ?_
    cases hst with
    | none => trivial
    | some e => exact sameAs_of_vw e.left e.right e.view
  rcases h with ⟨h1, pre, pre', a, a', post, post', h2, h3, h4, h5, h6⟩ | ⟨s, s', a, h1, h2, h3, h4, h5⟩
  · left
    refine ⟨h1.trans he.shared, ?_⟩
    have hac := he.actions
    rw [h2] at hac
    obtain ⟨l1, l2, e1, e2, e3⟩ : ∃ l1 l2, List.Forall₂ Eqv pre l1 ∧ List.Forall₂ Eqv (a :: post) l2 ∧ f.actions = l1 ++ l2 := by
      exact forall₂_split pre _ _ hac
    cases e2 with
    | cons e4 e5 => exact ⟨l1, pre', _, a', _, post', e3, h3, forall₂_trans h4 e1, merge h5 e4 he.shared, forall₂_trans h6 e5⟩
  · right
    have hsh := he.shared
    rw [h1] at hsh
    cases hf : f.shared with
    | none => rw [hf] at hsh; cases hsh
    | some t =>
      rw [hf] at hsh
      cases hsh with
      | some e =>
        obtain ⟨b, hb, hab⟩ : ∃ b ∈ f.actions, Eqv a b := by
          have := he.actions
          generalize f1.actions = l at this h3
          generalize f.actions = l' at this
          induction this with
          | nil => simp at h3
          | cons h _ ih =>
            rcases List.mem_cons.1 h3 with rfl | h3
            · exact ⟨_, by simp, h⟩
            · obtain ⟨b, hb, hab⟩ := ih h3
              exact ⟨b, by simp [hb], hab⟩
        exact ⟨t, s', b, rfl, h2, hb, merge h4 e (.some hab), forall₂_trans h5 he.actions⟩

theorem cbGood_of_eqv {f g : CBAdfFeatures F} (h : CbGood f) (he : CbEqv g f) : CbGood g := by
  have := OkEx.of_eqv (ft := .cbAdf f) (gt := .cbAdf g) h (.cb he.symm)
  exact this

theorem default_outcome (dbg : Bool) (r : Red F) (hn : r.NoElementwise) (f : CBAdfFeatures F) (hf : CbGood f) (l : Label F) (s : r.State) (d : Depth) :
    Outcome f (r.defaultCr dbg l d (s, .cbAdf f)) := by
  unfold Red.defaultCr
  have hp := predict_outcome dbg r hn f hf s d
  obtain ⟨f1, h1, h2, h3⟩ := hp
  have hin : r.predictIn dbg d (s, .cbAdf f) = ((r.predictCr dbg s d ((), .cbAdf f)).1, (s, (r.predictCr dbg s d ((), .cbAdf f)).2.2)) := rfl
  cases hr : (r.predictCr dbg s d ((), .cbAdf f)).1 with
  | error e =>
    have : r.predictIn dbg d (s, .cbAdf f) = (.error e, (s, .cbAdf f1)) := by rw [hin, hr, h1]
    rw [run_error this]
    exact ⟨f1, rfl, h2, fun a ha => by simp at ha⟩
  | ok x =>
    obtain ⟨p, d1⟩ := x
    have : r.predictIn dbg d (s, .cbAdf f) = (.ok (p, d1), (s, .cbAdf f1)) := by rw [hin, hr, h1]
    rw [run_ok this]
    have he := h3 (p, d1) hr
    simp only
    have hl := (learn_outcome dbg r hn f1 (cbGood_of_eqv hf he) l s d1).bind (k := fun x => match x with
      | (_, d2) => do
        Cr.lift (massert (decide (d2 = d)))
        Cr.pure (p, d2)) (fun a q => lifted_still _ _ (fun _ _ => rfl) q)
    obtain ⟨f2, k1, k2, k3⟩ := hl
    refine ⟨f2, k1, ?_, fun a ha => (k3 a ha).trans he⟩
    rcases k2 with k2 | k2
    · exact .inl (k2.trans he)
    · exact .inr (k2.of_eqv he)

theorem predictThenLearn_outcome (dbg : Bool) (r : Red F) (hn : r.NoElementwise) (f : CBAdfFeatures F) (hf : CbGood f) : ∀ (l : Label F) (s : r.State) (d : Depth) (off : Nat),
    Outcome f (r.predictThenLearnCr dbg l d off (s, .cbAdf f)) := by
  induction r with
  | coin m => intro l s d off; unfold Red.predictThenLearnCr; exact default_outcome dbg _ hn f hf l s d
  | cbAdf m ty r ih => intro l s d off; unfold Red.predictThenLearnCr; exact default_outcome dbg _ hn f hf l s d
  | greedy m e r ih => intro l s d off; unfold Red.predictThenLearnCr; exact default_outcome dbg _ hn f hf l s d
  | softmax m e lm r ih => intro l s d off; unfold Red.predictThenLearnCr; exact default_outcome dbg _ hn f hf l s d
  | squareCb m e gs ge r ih => intro l s d off; unfold Red.predictThenLearnCr; exact default_outcome dbg _ hn f hf l s d
  | binary m r ih =>
    intro l s d off
    unfold Red.predictThenLearnCr
    cases l.asBinary with
    | error e => exact Outcome.same hf _ _
    | ok b =>
      rw [run_lift_ok]
      exact (Outcome.wrap hf (fun d => ih hn _ s d 0)).bind (fun a q => lifted_still _ _ (fun _ _ => rfl) q)
  | debug m r ih =>
    intro l s d off
    unfold Red.predictThenLearnCr
    exact Outcome.wrap hf (fun d => ih hn l s d off)
  | elementwise m pair keep bits r ih => exact hn.elim

end Rml
