import Verif.SpecCrash
import Verif.Lemmas.Crash
import Verif.Props.Safe

/-! Helper lemmas for C99: what a failing call leaves of the regressor and of the features. -/

set_option linter.unusedSectionVars false

namespace Rml
open Cr
variable {F : Type} [Flt F]

theorem bind_run {σ α β : Type} (x : Cr σ α) (f : α → Cr σ β) (s : σ) : (x >>= f) s = Cr.bind x f s := rfl

theorem run_ok {σ α β : Type} {x : Cr σ α} {f : α → Cr σ β} {s s' : σ} {a : α} (h : x s = (.ok a, s')) : (x >>= f) s = f a s' := by
  rw [bind_run]; unfold Cr.bind; rw [h]

theorem run_error {σ α β : Type} {x : Cr σ α} {f : α → Cr σ β} {s s' : σ} {e : Panic} (h : x s = (.error e, s')) : (x >>= f) s = (.error e, s') := by
  rw [bind_run]; unfold Cr.bind; rw [h]

theorem run_get {σ β : Type} {f : σ → Cr σ β} {s : σ} : (Cr.get >>= f) s = f s s := rfl
theorem run_set {σ β : Type} {f : Unit → Cr σ β} {s t : σ} : (Cr.set t >>= f) s = f () t := rfl
theorem run_lift_ok {σ α β : Type} {f : α → Cr σ β} {s : σ} (a : α) : (Cr.lift (.ok a) >>= f) s = f a s := rfl
theorem run_lift_error {σ α β : Type} {f : α → Cr σ β} {s : σ} (e : Panic) : (Cr.lift (.error e) >>= f) s = (.error e, s) := rfl

/-! ### A property of the objects that a call keeps, whether it returns or not -/

/-- The call keeps the property. -/
def Keeps {σ α : Type} (P : σ → Prop) (x : Cr σ α) : Prop := ∀ s, P s → P (x s).2

theorem Keeps.bind {σ α β : Type} {P : σ → Prop} {x : Cr σ α} {f : α → Cr σ β} (hx : Keeps P x) (hf : ∀ a, Keeps P (f a)) : Keeps P (x >>= f) := by
  intro s hs
  rw [bind_run]
  unfold Cr.bind
  have := hx s hs
  rcases h : x s with ⟨e | a, s'⟩ <;> rw [h] at this
  · exact this
  · exact hf a s' this

theorem Keeps.pure {σ α : Type} {P : σ → Prop} (a : α) : Keeps P (Cr.pure a : Cr σ α) := fun _ h => h
theorem Keeps.lift {σ α : Type} {P : σ → Prop} (m : M α) : Keeps P (Cr.lift m : Cr σ α) := fun _ h => h
theorem Keeps.get {σ : Type} {P : σ → Prop} : Keeps P (Cr.get : Cr σ σ) := fun _ h => h
theorem Keeps.on {σ τ α : Type} {P : σ → Prop} {Q : τ → Prop} {part : σ → τ} {put : τ → σ → σ} {x : Cr τ α} (hx : Keeps Q x)
    (h1 : ∀ s, P s → Q (part s)) (h2 : ∀ s t, P s → Q t → P (put t s)) : Keeps P (Cr.on part put x) :=
  fun s hs => h2 s _ hs (hx _ (h1 s hs))

/-- A computation that begins by reading the object. -/
theorem Keeps.getBind {σ α : Type} {P : σ → Prop} {f : σ → Cr σ α} (h : ∀ s, P s → P (f s s).2) : Keeps P (Cr.get >>= f) := fun s hs => h s hs

theorem Keeps.wrap {α σ : Type} {P : σ → Prop} {dbg : Bool} {m : Meta} {d : Depth} {off : Nat} {body : Depth → Cr (σ × Features F) (α × Depth)}
    (h : ∀ d, Keeps (fun p => P p.1) (body d)) : Keeps (fun p => P p.1) (wrapCr dbg m d off body) := by
  unfold wrapCr
  refine Keeps.bind Keeps.get (fun q => ?_)
  refine Keeps.bind (Keeps.lift _) (fun d1 => ?_)
  refine Keeps.bind (h d1) (fun r => ?_)
  refine Keeps.bind (Keeps.lift _) (fun d3 => ?_)
  refine Keeps.bind Keeps.get (fun q => ?_)
  exact Keeps.bind (Keeps.lift _) (fun _ => Keeps.pure _)

theorem Keeps.elementwise {α σ : Type} {P : σ → Prop} {dbg : Bool} {nb : Nat} {pair : Namespace × Namespace} {keep : Bool}
    {body : Depth → Cr (σ × Features F) (α × Depth)} {d : Depth} (h : ∀ d, Keeps (fun p => P p.1) (body d)) :
    Keeps (fun p => P p.1) (elementwiseCr dbg nb pair keep body d) := by
  have key : ∀ {β : Type} (s : σ) (x : Cr (σ × Features F) β), P s → Keeps (fun p => P p.1) x → ∀ ft p, P p.1 → P ((Cr.set (s, ft) >>= fun _ => x) p).2.1 := by
    intro β s x hs hx ft p _
    exact hx (s, ft) hs
  have tail : ∀ (cns : Namespace) (r : α × Depth) (g : SparseFeatures F → SparseFeatures F), Keeps (fun p : σ × Features F => P p.1) (do
      let (s', ft') ← Cr.get
      let f' ← Cr.lift ft'.asSimple
      Cr.set (s', .simple (g f'))
      Cr.pure r) := by
    intro cns r g p hp
    obtain ⟨s', ft'⟩ := p
    rw [run_get]
    cases ft' with
    | simple f => exact hp
    | cbAdf f => exact hp
  rintro ⟨s, ft⟩ hs
  unfold elementwiseCr
  rw [run_get]
  simp only
  cases ft with
  | cbAdf f => exact hs
  | simple f =>
    rw [show (Features.simple f : Features F).asSimple = .ok f from rfl, run_lift_ok]
    cases hm : elementwiseMultiply dbg nb f pair.1 pair.2 with
    | error e => exact hs
    | ok p =>
      obtain ⟨cns, dest⟩ := p
      rw [run_lift_ok]
      simp only
      rw [run_set]
      cases keep with
      | true =>
        simp only [if_true]
        exact (Keeps.bind (h d) (fun r => tail cns r (fun f' => (f'.removeNamespace cns).2))) _ hs
      | false =>
        simp only [Bool.false_eq_true, if_false]
        rw [run_set]
        cases (SparseFeatures.removeNamespace (f.setNamespace cns dest) pair.1).1 with
        | none => exact hs
        | some n1 =>
          rw [show unwrapOpt (some n1) = .ok n1 from rfl, run_lift_ok, run_set]
          cases (SparseFeatures.removeNamespace (SparseFeatures.removeNamespace (f.setNamespace cns dest) pair.1).2 pair.2).1 with
          | none => exact hs
          | some n2 =>
            rw [show unwrapOpt (some n2) = .ok n2 from rfl, run_lift_ok]
            exact (Keeps.bind (h d) (fun r => tail cns r (fun f' => ((f'.removeNamespace cns).2.setNamespace pair.1 n1).setNamespace pair.2 n2))) _ hs

theorem Keeps.onSimple {α σ : Type} {P : σ → Prop} {x : Cr (σ × Features F) α} (h : Keeps (fun p => P p.1) x) :
    Keeps (fun p : σ × SparseFeatures F => P p.1) (Rml.onSimple x) := by
  rintro ⟨s, f⟩ hs
  have := h (s, .simple f) hs
  unfold Rml.onSimple
  simp only
  rcases hx : x (s, .simple f) with ⟨a | a, s', f' | f'⟩ <;> rw [hx] at this <;> exact this

theorem Keeps.second {σ τ α : Type} {P : σ → Prop} (x : Cr τ α) : Keeps (fun p : σ × τ => P p.1) (Cr.on (·.2) (fun f p => (p.1, f)) x) := fun _ h => h

theorem Keeps.appendShared {σ : Type} {P : σ → Prop} (shared : Option (SparseFeatures F)) : Keeps (fun p : σ × SparseFeatures F => P p.1) (appendSharedCr shared) := by
  unfold appendSharedCr
  cases shared with
  | none => exact Keeps.pure _
  | some s => exact Keeps.second _

theorem Keeps.removeShared {σ : Type} {P : σ → Prop} (shared : Option (SparseFeatures F)) : Keeps (fun p : σ × SparseFeatures F => P p.1) (removeSharedCr shared) := by
  unfold removeSharedCr
  cases shared with
  | none => exact Keeps.pure _
  | some s => exact Keeps.second _

theorem cbIpsLoop_keeps {σ : Type} {P : σ → Prop} {dbg : Bool} {childL : Label F → Depth → Cr (σ × Features F) (Unit × Depth)}
    (h : ∀ l d, Keeps (fun p => P p.1) (childL l d)) (shared : Option (SparseFeatures F)) (label : CBLabel F) (as : List (SparseFeatures F)) :
    ∀ (i : Nat) (d : Depth) (s : σ), P s → P (cbIpsLoopCr dbg childL shared label i as d s).2.1 := by
  induction as with
  | nil => intro i d s hs; exact hs
  | cons a as ih =>
    intro i d s hs
    unfold cbIpsLoopCr
    have hk : Keeps (fun p : σ × SparseFeatures F => P p.1) (cbIpsStepCr dbg childL shared label i d) := by
      unfold cbIpsStepCr
      refine Keeps.bind (Keeps.appendShared _) (fun _ => ?_)
      refine Keeps.bind (Keeps.lift _) (fun l => ?_)
      refine Keeps.bind (Keeps.onSimple (h _ _)) (fun r => ?_)
      exact Keeps.bind (Keeps.removeShared _) (fun _ => Keeps.pure _)
    have := hk (s, a) hs
    rcases hx : cbIpsStepCr dbg childL shared label i d (s, a) with ⟨e | d1, s1, a1⟩ <;> rw [hx] at this
    · exact this
    · exact ih (i + 1) d1 s1 this

theorem cbMtrLearn_keeps {σ : Type} {P : σ → Prop} {childL : Label F → Depth → Cr (σ × Features F) (Unit × Depth)}
    (h : ∀ l d, Keeps (fun p => P p.1) (childL l d)) (label : CBLabel F) (d : Depth) :
    Keeps (fun p : (MtrState × σ) × CBAdfFeatures F => P p.1.2) (cbMtrLearnCr childL label d) := by
  rintro ⟨⟨mtr, s⟩, f⟩ hs
  unfold cbMtrLearnCr
  rw [run_get]
  simp only
  rw [run_set]
  cases f.shared with
  | none => exact hs
  | some sh =>
    simp only
    cases unwrapOpt f.actions[label.action]? with
    | error e => exact hs
    | ok action =>
      rw [run_lift_ok]
      have hk : Keeps (fun p : σ × SparseFeatures F => P p.1) (do
          Cr.on (·.2) (fun f p => (p.1, f)) action.appendCr
          let (_, d') ← onSimple (childL (.simple ⟨label.cost, mtrWeight ⟨mtr.actionSum + f.actions.length, mtr.eventSum + 1⟩ label.probability⟩) d)
          Cr.on (·.2) (fun f p => (p.1, f)) action.removeCr
          Cr.pure d') := by
        refine Keeps.bind (Keeps.second _) (fun _ => ?_)
        refine Keeps.bind (Keeps.onSimple (h _ _)) (fun r => ?_)
        exact Keeps.bind (Keeps.second _) (fun _ => Keeps.pure _)
      exact hk (s, sh) hs

/-! ### The regressor -/

/-- A read pass that succeeds visits only weights in range. -/
theorem readPass_range {S : Type} (dbg : Bool) (nb : Nat) (g : S → F → List F → M S) (vs : List (U32 × F)) (w : DenseWeights F) (h : w.CoinTable nb) :
    ∀ (s r : S), vs.foldlM (m := Except Panic) (fun s iv => do
      let st ← w.stateAt dbg iv.1.toNat 0
      g s iv.2 st) s = .ok r → ∀ iv ∈ vs, iv.1.toNat < 2 ^ nb := by
  induction vs with
  | nil => intro s r _; simp
  | cons iv vs ih =>
    intro s r hr
    rw [List.foldlM_cons] at hr
    obtain ⟨s1, h1, hr⟩ := bind_ok.1 hr
    obtain ⟨st, h2, _⟩ := bind_ok.1 h1
    intro x hx
    rcases List.mem_cons.1 hx with rfl | hx
    · exact DenseWeights.stateAt_lt h h2
    · exact ih s1 r hr x hx

section coin
variable [LawfulCmp F]

/-- What a learn call of the regressor leaves: everything it should have done, or only the new range of labels. -/
theorem coinLearn_left {nb : Nat} {c : Coin F} (h : CoinGood nb c) (dbg : Bool) (f : SparseFeatures F) (l w : F) :
    (∃ c', c.learn dbg f l w = .ok c' ∧ Coin.learnCr dbg f l w c = (.ok (), c')) ∨
      ∃ e, c.learn dbg f l w = .error e ∧ Coin.learnCr dbg f l w c = (.error e, c.seen l) := by
  cases hl : c.learn dbg f l w with
  | ok c' =>
    left
    refine ⟨c', rfl, ret_ok ?_⟩
    rw [ret_coinLearn, hl]
    rfl
  | error e =>
    right
    refine ⟨e, rfl, ?_⟩
    have hret := ret_coinLearn dbg f l w c
    rw [hl] at hret
    have hfst := ret_error hret
    have hsnd : (Coin.learnCr dbg f l w c).2 = c.seen l := by
      unfold Coin.learnCr
      rw [run_get, run_set]
      unfold Coin.bettingPredictCr
      cases hr : foreachFeatureWithState dbg 0 f (c.seen l).weights (c.seen l).pass (fun acc x st => do
          let s ← Coin.WState.ofList st
          .ok (Coin.innerPredict (c.seen l).config.alpha acc x s)) ((Flt.zero : F), (Flt.zero : F)) with
      | error e' =>
        have : Coin.bettingPredictCr dbg f w (c.seen l) = (.error e', c.seen l) := by
          unfold Coin.bettingPredictCr
          rw [run_get, hr]
          rfl
        exact congrArg Prod.snd (run_error this)
      | ok q =>
        exfalso
        unfold foreachFeatureWithState at hr
        have hv := readPass_range dbg nb (fun (acc : F × F) x st => do
          let s ← Coin.WState.ofList st
          .ok (Coin.innerPredict (c.seen l).config.alpha acc x s)) (visited c.pass f) c.weights h.ok.table _ _ hr
        obtain ⟨c', hc'⟩ := Coin.learn_succeeds (dbg := dbg) h.ok hv (rangeOk_seen h.range l) (w := w)
        rw [hl] at hc'
        simp at hc'
    rw [← hsnd, ← hfst]

theorem seen_good {nb : Nat} {c : Coin F} (h : CoinGood nb c) (l : F) : CoinGood nb (c.seen l) := by
  refine ⟨⟨h.ok.table, h.ok.bits, h.ok.le31, h.ok.models⟩, ?_⟩
  have h1 := fmin_props l c.minLabel h.range.min_num
  have h2 := fmax_props l c.maxLabel h.range.max_num
  exact ⟨h1.1, h2.1, rangeOk_seen h.range l⟩

theorem coinLearn_good {nb : Nat} {c : Coin F} (h : CoinGood nb c) (dbg : Bool) (f : SparseFeatures F) (l w : F) :
    CoinGood nb (Coin.learnCr dbg f l w c).2 := by
  rcases coinLearn_left h dbg f l w with ⟨c', h1, h2⟩ | ⟨e, h1, h2⟩
  · rw [h2]
    refine h.trains (dbg := dbg) ⟨[⟨f, l, w⟩], ?_⟩
    unfold Coin.trainAll
    rw [h1]
    rfl
  · rw [h2]
    exact seen_good h l

/-- Every learn call, whether it returns or not, keeps the regressor in order. -/
theorem learn_keeps (nb : Nat) (dbg : Bool) (r : Red F) : ∀ (l : Label F) (d : Depth), Keeps (fun p => CoinGood nb (r.coinOf p.1)) (r.learnCr dbg l d) := by
  induction r with
  | coin m =>
    rintro l d ⟨c, ft⟩ hs
    unfold Red.learnCr
    rw [run_get]
    simp only
    cases ft with
    | cbAdf f => exact hs
    | simple f =>
      rw [show (Features.simple f : Features F).asSimple = .ok f from rfl, run_lift_ok]
      cases l.asSimple with
      | error e => exact hs
      | ok sl =>
        rw [run_lift_ok]
        have hk : Keeps (fun p : Coin F × Features F => CoinGood nb p.1) (do
            Cr.on (·.1) (fun c p => (c, p.2)) (Coin.learnCr dbg f sl.value sl.weight)
            Cr.pure ((), d)) :=
          Keeps.bind (Keeps.on (Q := CoinGood nb) (fun c hc => coinLearn_good hc dbg f _ _) (fun s h => h) (fun s t _ h => h)) (fun _ => Keeps.pure _)
        exact hk (c, .simple f) hs
  | binary m r ih =>
    intro l d
    unfold Red.learnCr
    exact Keeps.bind (Keeps.lift _) (fun b => Keeps.wrap (P := fun s => CoinGood nb (r.coinOf s)) (fun d => ih _ d))
  | cbAdf m ty r ih =>
    intro l d
    have hw : ∀ l d, Keeps (fun p : r.State × Features F => CoinGood nb (r.coinOf p.1)) (wrapCr dbg r.meta d 0 (r.learnCr dbg l)) :=
      fun l d => Keeps.wrap (P := fun s => CoinGood nb (r.coinOf s)) (fun d => ih l d)
    cases ty with
    | ips =>
      unfold Red.learnCr
      refine Keeps.bind Keeps.get (fun q => ?_)
      refine Keeps.bind (Keeps.lift _) (fun f => ?_)
      refine Keeps.bind (Keeps.lift _) (fun cl => ?_)
      refine Keeps.bind ?_ (fun _ => Keeps.pure _)
      rintro ⟨⟨k, s⟩, ft⟩ hs
      cases ft with
      | simple f => exact hs
      | cbAdf f => exact cbIpsLoop_keeps (P := fun s => CoinGood nb (r.coinOf s)) hw f.shared cl f.actions 0 d s hs
    | mtr =>
      unfold Red.learnCr
      refine Keeps.bind Keeps.get (fun q => ?_)
      refine Keeps.bind (Keeps.lift _) (fun f => ?_)
      refine Keeps.bind (Keeps.lift _) (fun cl => ?_)
      refine Keeps.bind ?_ (fun _ => Keeps.pure _)
      rintro ⟨⟨k, s⟩, ft⟩ hs
      cases ft with
      | simple f => exact hs
      | cbAdf f => exact cbMtrLearn_keeps (P := fun s => CoinGood nb (r.coinOf s)) hw cl d ((k, s), f) hs
  | greedy m e r ih =>
    intro l d
    unfold Red.learnCr
    exact Keeps.wrap (P := fun s => CoinGood nb (r.coinOf s)) (fun d => ih _ d)
  | softmax m e lm r ih =>
    intro l d
    unfold Red.learnCr onChild
    exact Keeps.on (Keeps.wrap (P := fun s => CoinGood nb (r.coinOf s)) (fun d => ih _ d)) (fun s h => h) (fun s t _ h => h)
  | squareCb m e gs ge r ih =>
    intro l d
    unfold Red.learnCr onChild
    refine Keeps.bind (Keeps.lift _) (fun cl => ?_)
    refine Keeps.bind (Keeps.on (Keeps.wrap (P := fun s => CoinGood nb (r.coinOf s)) (fun d => ih _ d)) (fun s h => h) (fun s t _ h => h)) (fun q => ?_)
    exact fun p hp => hp
  | debug m r ih =>
    intro l d
    unfold Red.learnCr
    exact Keeps.wrap (P := fun s => CoinGood nb (r.coinOf s)) (fun d => ih _ d)
  | elementwise m pair keep bits r ih =>
    intro l d
    unfold Red.learnCr
    exact Keeps.elementwise (P := fun s => CoinGood nb (r.coinOf s)) (fun d => Keeps.wrap (P := fun s => CoinGood nb (r.coinOf s)) (fun d => ih _ d))

theorem default_keeps (nb : Nat) (dbg : Bool) (r : Red F) (l : Label F) (d : Depth) :
    Keeps (fun p => CoinGood nb (r.coinOf p.1)) (r.defaultCr dbg l d) := by
  unfold Red.defaultCr
  refine Keeps.bind (fun p hp => hp) (fun q => ?_)
  refine Keeps.bind (learn_keeps nb dbg r l _) (fun q => ?_)
  exact Keeps.bind (Keeps.lift _) (fun _ => Keeps.pure _)

theorem predictThenLearn_keeps (nb : Nat) (dbg : Bool) (r : Red F) : ∀ (l : Label F) (d : Depth) (off : Nat),
    Keeps (fun p => CoinGood nb (r.coinOf p.1)) (r.predictThenLearnCr dbg l d off) := by
  induction r with
  | coin m => intro l d off; unfold Red.predictThenLearnCr; exact default_keeps nb dbg _ l d
  | cbAdf m ty r ih => intro l d off; unfold Red.predictThenLearnCr; exact default_keeps nb dbg _ l d
  | greedy m e r ih => intro l d off; unfold Red.predictThenLearnCr; exact default_keeps nb dbg _ l d
  | softmax m e lm r ih => intro l d off; unfold Red.predictThenLearnCr; exact default_keeps nb dbg _ l d
  | squareCb m e gs ge r ih => intro l d off; unfold Red.predictThenLearnCr; exact default_keeps nb dbg _ l d
  | binary m r ih =>
    intro l d off
    unfold Red.predictThenLearnCr
    refine Keeps.bind (Keeps.lift _) (fun b => ?_)
    refine Keeps.bind (Keeps.wrap (P := fun s => CoinGood nb (r.coinOf s)) (fun d => ih _ d 0)) (fun q => ?_)
    exact Keeps.bind (Keeps.lift _) (fun _ => Keeps.pure _)
  | debug m r ih =>
    intro l d off
    unfold Red.predictThenLearnCr
    exact Keeps.wrap (P := fun s => CoinGood nb (r.coinOf s)) (fun d => ih _ d off)
  | elementwise m pair keep bits r ih =>
    intro l d off
    unfold Red.predictThenLearnCr
    exact Keeps.elementwise (P := fun s => CoinGood nb (r.coinOf s)) (fun d => Keeps.wrap (P := fun s => CoinGood nb (r.coinOf s)) (fun d => ih _ d 0))

end coin

/-! ### Mistaken kinds -/

theorem wrap_unchanged {α σ : Type} {dbg : Bool} {m : Meta} {d : Depth} {off : Nat} {body : Depth → Cr (σ × Features F) (α × Depth)} {p : σ × Features F}
    (h : ∀ d, ∃ e, body d p = (.error e, p)) : ∃ e, wrapCr dbg m d off body p = (.error e, p) := by
  unfold wrapCr
  rw [run_get]
  simp only
  cases d.increment dbg m.numModelsBelow off with
  | error e => exact ⟨e, rfl⟩
  | ok d1 =>
    obtain ⟨e, he⟩ := h d1
    rw [run_lift_ok]
    exact ⟨e, run_error he⟩

/-- The call fails and leaves the state as it was, and the features as well if `strict`. -/
def FailsSame {α σ : Type} (strict : Prop) (x : Cr (σ × Features F) α) (p : σ × Features F) : Prop :=
  ∃ e ft, x p = (.error e, (p.1, ft)) ∧ (strict → ft = p.2)

theorem FailsSame.bind {α β σ : Type} {strict : Prop} {x : Cr (σ × Features F) α} {f : α → Cr (σ × Features F) β} {p : σ × Features F} (h : FailsSame strict x p) :
    FailsSame strict (x >>= f) p := by
  obtain ⟨e, ft, h1, h2⟩ := h
  exact ⟨e, ft, run_error h1, h2⟩

theorem FailsSame.wrap {α σ : Type} {strict : Prop} {dbg : Bool} {m : Meta} {d : Depth} {off : Nat} {body : Depth → Cr (σ × Features F) (α × Depth)} {p : σ × Features F}
    (h : ∀ d, FailsSame strict (body d) p) : FailsSame strict (wrapCr dbg m d off body) p := by
  unfold wrapCr
  unfold FailsSame
  rw [run_get]
  simp only
  cases d.increment dbg m.numModelsBelow off with
  | error e => exact ⟨e, p.2, rfl, fun _ => rfl⟩
  | ok d1 =>
    rw [run_lift_ok]
    exact (h d1).bind

theorem asSimple_error {ft : Features F} (h : ft.ty ≠ .sparseSimple) : ∃ e, ft.asSimple = .error e := by
  cases ft with
  | simple f => exact absurd rfl h
  | cbAdf f => exact ⟨_, rfl⟩

theorem asCb_error {ft : Features F} (h : ft.ty ≠ .sparseCBAdf) : ∃ e, ft.asCb = .error e := by
  cases ft with
  | cbAdf f => exact absurd rfl h
  | simple f => exact ⟨_, rfl⟩

theorem label_asSimple_error {l : Label F} (h : l.ty ≠ .simple) : ∃ e, l.asSimple = .error e := by
  cases l <;> first | exact absurd rfl h | exact ⟨_, rfl⟩

theorem label_asBinary_error {l : Label F} (h : l.ty ≠ .binary) : ∃ e, l.asBinary = .error e := by
  cases l <;> first | exact absurd rfl h | exact ⟨_, rfl⟩

theorem label_asCb_error {l : Label F} (h : l.ty ≠ .cb) : ∃ e, l.asCb = .error e := by
  cases l <;> first | exact absurd rfl h | exact ⟨_, rfl⟩

theorem kinds_predict {hash : HashFn} {g : GlobalConfig} {nma : Nat} {c : RedConfig F} {x : (r : Red F) × r.State} (hb : Built hash g nma c x)
    (dbg : Bool) (ft : Features F) (hk : ft.ty ≠ x.1.meta.types.inFeatures) : ∀ (s : x.1.State) (d : Depth),
    ∃ e, x.1.predictCr dbg s d ((), ft) = (.error e, ((), ft)) := by
  induction hb with
  | coin _ =>
    intro s d
    obtain ⟨e, he⟩ := asSimple_error hk
    refine ⟨e, ?_⟩
    unfold Red.predictCr
    rw [run_get]
    simp only
    rw [he]
    rfl
  | binary hb hc ih =>
    intro s d
    obtain ⟨e, he⟩ := wrap_unchanged (dbg := dbg) (d := d) (off := 0) (ih hk s)
    refine ⟨e, ?_⟩
    unfold Red.predictCr
    exact run_error he
  | cbAdf hb hc ih =>
    intro s d
    refine ⟨.typeMismatch, ?_⟩
    unfold Red.predictCr
    cases ft with
    | cbAdf f => exact absurd rfl hk
    | simple f => rfl
  | greedy hb hc ih =>
    intro s d
    have hc := checkOk_iff.1 hc
    simp only [exploreTypes, Option.some.injEq] at hc
    obtain ⟨e, he⟩ := wrap_unchanged (dbg := dbg) (d := d) (off := 0) (ih (by rw [← hc.2.1]; exact hk) s)
    refine ⟨e, ?_⟩
    unfold Red.predictCr
    exact run_error he
  | softmax hb hc ih =>
    intro s d
    have hc := checkOk_iff.1 hc
    simp only [exploreTypes, Option.some.injEq] at hc
    obtain ⟨e, he⟩ := wrap_unchanged (dbg := dbg) (d := d) (off := 0) (ih (by rw [← hc.2.1]; exact hk) s.2)
    refine ⟨e, ?_⟩
    unfold Red.predictCr
    exact run_error he
  | squareCb _ hb hc ih =>
    intro s d
    have hc := checkOk_iff.1 hc
    simp only [exploreTypes, Option.some.injEq] at hc
    obtain ⟨e, he⟩ := wrap_unchanged (dbg := dbg) (d := d) (off := 0) (ih (by rw [← hc.2.1]; exact hk) s.2)
    refine ⟨e, ?_⟩
    unfold Red.predictCr
    exact run_error he
  | debug hb hc ih =>
    intro s d
    unfold Red.predictCr
    exact wrap_unchanged (ih hk s)
  | elementwise hb hc ih =>
    intro s d
    obtain ⟨e, he⟩ := asSimple_error (ft := ft) hk
    refine ⟨e, ?_⟩
    unfold Red.predictCr elementwiseCr
    rw [run_get]
    simp only
    rw [he]
    rfl

theorem kinds_learn {hash : HashFn} {g : GlobalConfig} {nma : Nat} {c : RedConfig F} {x : (r : Red F) × r.State} (hb : Built hash g nma c x)
    (hn : c.NoElementwise) (dbg : Bool) (ft : Features F) : ∀ (l : Label F), ft.ty ≠ x.1.meta.types.inFeatures ∨ l.ty ≠ x.1.meta.types.inLabel →
    ∀ (s : x.1.State) (d : Depth), ∃ e, x.1.learnCr dbg l d (s, ft) = (.error e, (s, ft)) := by
  induction hb with
  | coin _ =>
    intro l hk s d
    unfold Red.learnCr
    rw [run_get]
    cases ft with
    | cbAdf f => exact ⟨_, rfl⟩
    | simple f =>
      obtain ⟨e, he⟩ := label_asSimple_error (hk.resolve_left (fun h => h rfl))
      refine ⟨e, ?_⟩
      simp only
      rw [show (Features.simple f : Features F).asSimple = .ok f from rfl, run_lift_ok, he]
      rfl
  | binary hb hc ih =>
    intro l hk s d
    unfold Red.learnCr
    cases l with
    | simple _ => exact ⟨_, rfl⟩
    | cb _ => exact ⟨_, rfl⟩
    | binary b =>
      exact wrap_unchanged (ih hn (.simple (binaryToSimple b)) (.inl (hk.resolve_right (fun h => h rfl))) s)
  | @cbAdf ty rc x hb hc ih =>
    intro l hk s d
    cases ty <;> unfold Red.learnCr <;> rw [run_get] <;> cases ft with
    | simple f => exact ⟨_, rfl⟩
    | cbAdf f =>
      obtain ⟨e, he⟩ := label_asCb_error (hk.resolve_left (fun h => h rfl))
      refine ⟨e, ?_⟩
      simp only
      rw [show (Features.cbAdf f : Features F).asCb = .ok f from rfl, run_lift_ok, he]
      rfl
  | greedy hb hc ih =>
    intro l hk s d
    have hc := checkOk_iff.1 hc
    simp only [exploreTypes, Option.some.injEq] at hc
    unfold Red.learnCr
    exact wrap_unchanged (ih hn l (by rw [← hc.2.1, ← hc.1]; exact hk) s)
  | softmax hb hc ih =>
    intro l hk s d
    have hc := checkOk_iff.1 hc
    simp only [exploreTypes, Option.some.injEq] at hc
    obtain ⟨e, he⟩ := wrap_unchanged (dbg := dbg) (d := d) (off := 0) (ih hn l (by rw [← hc.2.1, ← hc.1]; exact hk) s.2)
    refine ⟨e, ?_⟩
    unfold Red.learnCr onChild Cr.on
    rw [he]
  | squareCb _ hb hc ih =>
    intro l hk s d
    have hc := checkOk_iff.1 hc
    simp only [exploreTypes, Option.some.injEq] at hc
    unfold Red.learnCr
    cases l with
    | simple _ => exact ⟨_, rfl⟩
    | binary _ => exact ⟨_, rfl⟩
    | cb cl =>
      obtain ⟨e, he⟩ := wrap_unchanged (dbg := dbg) (d := d) (off := 0) (ih hn (.cb { cl with probability := Flt.one }) (by rw [← hc.2.1, ← hc.1]; exact hk.imp id (fun h => h)) s.2)
      refine ⟨e, ?_⟩
      rw [show (Label.cb cl : Label F).asCb = .ok cl from rfl, run_lift_ok]
      apply run_error
      unfold onChild Cr.on
      rw [he]
  | debug hb hc ih =>
    intro l hk s d
    unfold Red.learnCr
    exact wrap_unchanged (ih hn l hk s)
  | elementwise hb hc ih => exact absurd hn (by simp [RedConfig.NoElementwise])

theorem default_fails {hash : HashFn} {g : GlobalConfig} {nma : Nat} {c : RedConfig F} {x : (r : Red F) × r.State} (hb : Built hash g nma c x)
    (hn : c.NoElementwise) (dbg : Bool) (ft : Features F) (l : Label F) (hk : ft.ty ≠ x.1.meta.types.inFeatures ∨ l.ty ≠ x.1.meta.types.inLabel)
    (s : x.1.State) (d : Depth) : FailsSame (ft.ty ≠ x.1.meta.types.inFeatures) (x.1.defaultCr dbg l d) (s, ft) := by
  unfold Red.defaultCr
  by_cases hf : ft.ty = x.1.meta.types.inFeatures
  · have hl := hk.resolve_left (fun h => h hf)
    rcases hp : x.1.predictCr dbg s d ((), ft) with ⟨e | ⟨p, d1⟩, ⟨⟩, ft1⟩
    · refine ⟨e, ft1, run_error ?_, fun h => absurd hf h⟩
      unfold Red.predictIn
      simp only [hp]
    · obtain ⟨e, he⟩ := kinds_learn hb hn dbg ft1 l (.inr hl) s d1
      refine ⟨e, ft1, ?_, fun h => absurd hf h⟩
      rw [run_ok (a := (p, d1)) (s' := (s, ft1)) (by unfold Red.predictIn; simp only [hp])]
      exact run_error he
  · obtain ⟨e, he⟩ := kinds_predict hb dbg ft hf s d
    refine ⟨e, ft, run_error ?_, fun _ => rfl⟩
    unfold Red.predictIn
    simp only [he]

theorem kinds_predictThenLearn {hash : HashFn} {g : GlobalConfig} {nma : Nat} {c : RedConfig F} {x : (r : Red F) × r.State} (hb : Built hash g nma c x)
    (hn : c.NoElementwise) (dbg : Bool) (ft : Features F) : ∀ (l : Label F), ft.ty ≠ x.1.meta.types.inFeatures ∨ l.ty ≠ x.1.meta.types.inLabel →
    ∀ (s : x.1.State) (d : Depth) (off : Nat), FailsSame (ft.ty ≠ x.1.meta.types.inFeatures) (x.1.predictThenLearnCr dbg l d off) (s, ft) := by
  induction hb with
  | coin h => intro l hk s d off; unfold Red.predictThenLearnCr; exact default_fails (Built.coin h) hn dbg ft l hk s d
  | cbAdf hb hc ih => intro l hk s d off; unfold Red.predictThenLearnCr; exact default_fails (Built.cbAdf hb hc) hn dbg ft l hk s d
  | greedy hb hc ih => intro l hk s d off; unfold Red.predictThenLearnCr; exact default_fails (Built.greedy hb hc) hn dbg ft l hk s d
  | softmax hb hc ih => intro l hk s d off; unfold Red.predictThenLearnCr; exact default_fails (Built.softmax hb hc) hn dbg ft l hk s d
  | squareCb h hb hc ih => intro l hk s d off; unfold Red.predictThenLearnCr; exact default_fails (Built.squareCb h hb hc) hn dbg ft l hk s d
  | @binary rc x hb hc ih =>
    intro l hk s d off
    unfold Red.predictThenLearnCr
    cases l with
    | simple _ => exact ⟨_, ft, rfl, fun _ => rfl⟩
    | cb _ => exact ⟨_, ft, rfl, fun _ => rfl⟩
    | binary b =>
      have hf := hk.resolve_right (fun h => h rfl)
      have key : FailsSame (ft.ty ≠ _) _ (s, ft) := FailsSame.wrap (dbg := dbg) (m := x.1.meta) (d := d) (off := 0) (fun d => ih hn (.simple (binaryToSimple b)) (.inl hf) s d 0)
      unfold FailsSame
      rw [show (Label.binary b : Label F).asBinary = .ok b from rfl, run_lift_ok]
      exact FailsSame.bind key
  | debug hb hc ih =>
    intro l hk s d off
    unfold Red.predictThenLearnCr
    exact FailsSame.wrap (fun d => ih hn l hk s d off)
  | elementwise hb hc ih => exact absurd hn (by simp [RedConfig.NoElementwise])

/-! ### Regression stacks -/

section regression
variable [LawfulCmp F]

theorem wrap_after {α σ : Type} {dbg : Bool} {r : Red F} {d : Depth} (hd : d < 256) {body : Depth → Cr (σ × Features F) (α × Depth)} {s s' : σ} {ft : Features F}
    (hs : SelfOk dbg ft) {a : α} (h : body d (s, ft) = (.ok (a, d), (s', ft))) : wrapCr dbg r.meta d 0 body (s, ft) = (.ok (a, d), (s', ft)) := by
  unfold wrapCr
  rw [run_get]
  simp only
  rw [(C27_no_overflow dbg r d hd).1, run_lift_ok, run_ok h]
  simp only
  rw [(C27_no_overflow dbg r d hd).2, run_lift_ok, run_get]
  simp only
  rw [show debugAssert dbg (ft.absDiffEq ft Flt.epsilon) = .ok () from hs, run_lift_ok]
  rfl

theorem wrap_failed {α σ : Type} {dbg : Bool} {r : Red F} {d : Depth} (hd : d < 256) {body : Depth → Cr (σ × Features F) (α × Depth)} {p p' : σ × Features F}
    {e : Panic} (h : body d p = (.error e, p')) : wrapCr dbg r.meta d 0 body p = (.error e, p') := by
  unfold wrapCr
  rw [run_get]
  simp only
  rw [(C27_no_overflow dbg r d hd).1, run_lift_ok]
  exact run_error h

/-- A learn call of a regression stack returns, or it leaves the example and at most a new range of labels. -/
theorem regression_learn {hash : HashFn} {g : GlobalConfig} {nma nb : Nat} {c : RedConfig F} {x : (r : Red F) × r.State} (hb : Built hash g nma c x)
    (hr : c.Regression) (dbg : Bool) (ft : Features F) (hs : SelfOk dbg ft) : ∀ (l : Label F) (s : x.1.State) (d : Depth), d < 256 →
    CoinGood nb (x.1.coinOf s) → (∃ s', x.1.learnCr dbg l d (s, ft) = (.ok ((), d), (s', ft))) ∨
      ∃ e s', x.1.learnCr dbg l d (s, ft) = (.error e, (s', ft)) ∧
        (s' = s ∨ ∃ v, Target l v ∧ x.1.coinOf s' = (x.1.coinOf s).seen v) := by
  induction hb with
  | coin _ =>
    intro l s d hd hg
    unfold Red.learnCr
    rw [run_get]
    simp only
    cases ft with
    | cbAdf f => exact .inr ⟨_, s, rfl, .inl rfl⟩
    | simple f =>
      rw [show (Features.simple f : Features F).asSimple = .ok f from rfl, run_lift_ok]
      cases l with
      | binary _ => exact .inr ⟨_, s, rfl, .inl rfl⟩
      | cb _ => exact .inr ⟨_, s, rfl, .inl rfl⟩
      | simple sl =>
        rw [show (Label.simple sl : Label F).asSimple = .ok sl from rfl, run_lift_ok]
        rcases coinLearn_left hg dbg f sl.value sl.weight with ⟨c', _, h2⟩ | ⟨e, _, h2⟩
        · refine .inl ⟨c', run_ok (a := ()) (s' := (c', Features.simple f)) ?_⟩
          unfold Cr.on
          exact congrArg₂ Prod.mk (congrArg Prod.fst h2) (congrArg (fun z => (z.2, Features.simple f)) h2)
        · refine .inr ⟨e, s.seen sl.value, run_error ?_, .inr ⟨sl.value, .simple sl, rfl⟩⟩
          unfold Cr.on
          exact congrArg₂ Prod.mk (congrArg Prod.fst h2) (congrArg (fun z => (z.2, Features.simple f)) h2)
  | @binary rc x hb hc ih =>
    intro l s d hd hg
    unfold Red.learnCr
    cases l with
    | simple _ => exact .inr ⟨_, s, rfl, .inl rfl⟩
    | cb _ => exact .inr ⟨_, s, rfl, .inl rfl⟩
    | binary b =>
      rw [show (Label.binary b : Label F).asBinary = .ok b from rfl, run_lift_ok]
      rcases ih hr (.simple (binaryToSimple b)) s d hd hg with ⟨s', h1⟩ | ⟨e, s', h1, h2⟩
      · exact .inl ⟨s', wrap_after hd hs h1⟩
      · refine .inr ⟨e, s', wrap_failed hd h1, ?_⟩
        rcases h2 with h2 | ⟨v, h2, h3⟩
        · exact .inl h2
        · refine .inr ⟨v, ?_, h3⟩
          cases h2
          cases b
          · exact .no
          · exact .yes
  | debug hb hc ih =>
    intro l s d hd hg
    unfold Red.learnCr
    rcases ih hr l s d hd hg with ⟨s', h1⟩ | ⟨e, s', h1, h2⟩
    · exact .inl ⟨s', wrap_after hd hs h1⟩
    · exact .inr ⟨e, s', wrap_failed hd h1, h2⟩
  | cbAdf => exact absurd hr (by simp [RedConfig.Regression])
  | greedy => exact absurd hr (by simp [RedConfig.Regression])
  | softmax => exact absurd hr (by simp [RedConfig.Regression])
  | squareCb => exact absurd hr (by simp [RedConfig.Regression])
  | elementwise => exact absurd hr (by simp [RedConfig.Regression])

/-- The state of a regression stack is its regressor. -/
theorem regression_state {hash : HashFn} {g : GlobalConfig} {nma : Nat} {c : RedConfig F} {x : (r : Red F) × r.State} (hb : Built hash g nma c x)
    (hr : c.Regression) : ∀ s s' : x.1.State, x.1.coinOf s' = x.1.coinOf s → s' = s := by
  induction hb with
  | coin _ => intro s s' h; exact h
  | binary hb hc ih => exact ih hr
  | debug hb hc ih => exact ih hr
  | cbAdf => exact absurd hr (by simp [RedConfig.Regression])
  | greedy => exact absurd hr (by simp [RedConfig.Regression])
  | softmax => exact absurd hr (by simp [RedConfig.Regression])
  | squareCb => exact absurd hr (by simp [RedConfig.Regression])
  | elementwise => exact absurd hr (by simp [RedConfig.Regression])

/-- A label inside the range of labels, or NaN, does not change it. -/
theorem seen_inside {c : Coin F} (h : c.RangeOk) {v : F}
    (hv : Flt.isNaN v = true ∨ (v = c.minLabel ∨ Flt.lt c.minLabel v = true) ∧ (v = c.maxLabel ∨ Flt.lt v c.maxLabel = true)) : c.seen v = c := by
  have key : Flt.fmin v c.minLabel = c.minLabel ∧ Flt.fmax v c.maxLabel = c.maxLabel := by
    rcases hv with hv | ⟨h1, h2⟩
    · exact ⟨LawfulCmp.fmin_nan _ _ hv h.min_num, LawfulCmp.fmax_nan _ _ hv h.max_num⟩
    · constructor
      · rcases h1 with h1 | h1
        · rw [h1]
          rcases (fmin_props c.minLabel c.minLabel h.min_num).2.2 with q | q <;> exact q
        · rw [LawfulCmp.lt_eq] at h1
          simp only [Bool.and_eq_true, Bool.not_eq_true'] at h1
          obtain ⟨q, _, q3⟩ := LawfulCmp.fmin_num v c.minLabel h1.1.2 h1.1.1
          rcases q with q | q
          · rw [q, h1.2] at q3; simp at q3
          · exact q
      · rcases h2 with h2 | h2
        · rw [h2]
          rcases (fmax_props c.maxLabel c.maxLabel h.max_num).2.2 with q | q <;> exact q
        · rw [LawfulCmp.lt_eq] at h2
          simp only [Bool.and_eq_true, Bool.not_eq_true'] at h2
          obtain ⟨q, _, q3⟩ := LawfulCmp.fmax_num v c.maxLabel h2.1.1 h2.1.2
          rcases q with q | q
          · rw [q, h2.2] at q3; simp at q3
          · exact q
  unfold Coin.seen
  rw [key.1, key.2]

/-- The range of labels does not enter the raw predictions. -/
theorem predict_seen {c : Coin F} (h : c.RangeOk) (v : F) (dbg : Bool) (f : SparseFeatures F) :
    RelM (fun a b => a.2 = b.2) ((c.seen v).predict dbg f) (c.predict dbg f) := by
  unfold Coin.predict
  refine RelM.bind (R := Eq) (RelM.refl (c.rawSum dbg f)) ?_
  rintro a _ _ _ rfl
  simp only
  have h1 : Flt.le (c.seen v).minLabel (c.seen v).maxLabel = true := rangeOk_seen h v
  have hc : ∀ (x lo hi : F), Flt.le lo hi = true → ∃ y, Flt.clamp x lo hi = .ok y := by
    intro x lo hi hle
    unfold Flt.clamp
    rw [if_pos hle]
    exact ⟨_, rfl⟩
  obtain ⟨y1, e1⟩ := hc (if Flt.isNaN a then Flt.zero else a) _ _ h1
  obtain ⟨y2, e2⟩ := hc (if Flt.isNaN a then Flt.zero else a) _ _ h.le
  rw [e1, e2]
  exact rfl

/-- Predictions with the same raw prediction. -/
def SameRaw (p q : Prediction F × Features F × Depth) : Prop := p.2 = q.2 ∧ p.1.raw = q.1.raw

theorem wrap_raw {dbg : Bool} {m : Meta} {ft : Features F} {d : Depth} {off : Nat} {b1 b2 : Features F → Depth → M (Prediction F × Features F × Depth)}
    (h : ∀ d, RelM SameRaw (b1 ft d) (b2 ft d)) : RelM SameRaw (wrapCall dbg m ft d off b1) (wrapCall dbg m ft d off b2) := by
  unfold wrapCall
  refine RelM.bind (R := Eq) (RelM.refl _) ?_
  rintro d1 _ _ _ rfl
  refine RelM.bind (h d1) ?_
  rintro ⟨p, ft1, d2⟩ ⟨q, ft2, d3⟩ _ _ ⟨h1, h2⟩
  simp only [Prod.mk.injEq] at h1
  obtain ⟨rfl, rfl⟩ := h1
  simp only
  refine RelM.bind (R := Eq) (RelM.refl _) ?_
  rintro d4 _ _ _ rfl
  refine RelM.bind (R := Eq) (RelM.refl _) ?_
  rintro _ _ _ _ _
  exact ⟨rfl, h2⟩

theorem regression_predict {hash : HashFn} {g : GlobalConfig} {nma : Nat} {c : RedConfig F} {x : (r : Red F) × r.State} (hb : Built hash g nma c x)
    (hr : c.Regression) (dbg : Bool) (ft : Features F) (v : F) : ∀ (s s' : x.1.State) (d : Depth), (x.1.coinOf s).RangeOk →
    x.1.coinOf s' = (x.1.coinOf s).seen v → RelM SameRaw (x.1.predictImpl dbg s' ft d) (x.1.predictImpl dbg s ft d) := by
  induction hb with
  | coin _ =>
    intro s s' d hg h
    unfold Red.predictImpl
    refine RelM.bind (R := Eq) (RelM.refl _) ?_
    rintro f _ _ _ rfl
    have h' : s' = Coin.seen s v := h
    rw [h']
    refine RelM.bind (predict_seen hg v dbg f) ?_
    rintro ⟨p, raw⟩ ⟨q, raw'⟩ _ _ hh
    simp only at hh
    subst hh
    exact ⟨rfl, rfl⟩
  | binary hb hc ih =>
    intro s s' d hg h
    unfold Red.predictImpl
    refine RelM.bind (wrap_raw (fun d => ih hr s s' d hg h)) ?_
    rintro ⟨p, ft1, d2⟩ ⟨q, ft2, d3⟩ _ _ ⟨h1, h2⟩
    simp only [Prod.mk.injEq] at h1
    obtain ⟨rfl, rfl⟩ := h1
    simp only
    have : RelM (fun _ _ => True) p.asScalar q.asScalar := by
      cases p <;> cases q <;> simp_all [Prediction.raw] <;> first | exact rfl | trivial
    refine RelM.bind this ?_
    rintro ⟨a, _⟩ ⟨b, _⟩ _ _ _
    exact ⟨rfl, rfl⟩
  | debug hb hc ih =>
    intro s s' d hg h
    unfold Red.predictImpl
    exact wrap_raw (fun d => ih hr s s' d hg h)
  | cbAdf => exact absurd hr (by simp [RedConfig.Regression])
  | greedy => exact absurd hr (by simp [RedConfig.Regression])
  | softmax => exact absurd hr (by simp [RedConfig.Regression])
  | squareCb => exact absurd hr (by simp [RedConfig.Regression])
  | elementwise => exact absurd hr (by simp [RedConfig.Regression])

end regression

end Rml
