import Verif.Lemmas.CrashFeatures

/-! Helper lemmas for C107: every call keeps the feature objects well-formed, whether it returns or not. -/

set_option linter.unusedSectionVars false

namespace Rml
open Cr SparseFeatures
variable {F : Type} [Flt F]

/-- All feature objects are well-formed. -/
def FtInv : Features F → Prop
  | .simple f => f.Inv0
  | .cbAdf f => (∀ s, f.shared = some s → s.Inv0) ∧ ∀ a ∈ f.actions, a.Inv0

theorem OkEx.ftInv {ft : Features F} (h : OkEx ft) : FtInv ft := by
  cases ft with
  | simple f => exact h.1
  | cbAdf f => exact ⟨fun s hs => (CbGood.shared h s hs).inv, fun a ha => (CbGood.actions h a ha).inv⟩

theorem forEach_keeps {σ β : Type} {P : σ → Prop} {step : β → Cr σ Unit} : ∀ (l : List β), (∀ b ∈ l, Keeps P (step b)) → Keeps P (Cr.forEach step l)
  | [], _ => Keeps.pure _
  | b :: bs, h => Keeps.bind (h b (by simp)) (fun _ => forEach_keeps bs (fun x hx => h x (by simp [hx])))

theorem appendCr_inv {s : SparseFeatures F} (hs : s.Inv0) : Keeps Inv0 s.appendCr := by
  unfold appendCr
  refine forEach_keeps _ (fun e he => ?_)
  intro f hf
  unfold appendStepCr
  cases e.2.active with
  | false => exact hf
  | true =>
    simp only [if_true]
    rw [run_get]
    obtain ⟨c1, c2, c3, c4⟩ := getOrCreateWithCapacity_spec hf e.1 e.2.size
    have hl := vw_lens hf e.1
    rw [← c1, ← c2] at hl
    rw [run_set, NsFeats.addFeatures, if_pos (hs.lens e he), run_lift_ok]
    refine setNamespace_inv0 hf ?_ c4
    simp only [RVec.extend, List.length_append]
    rw [hl, hs.lens e he]

theorem removeCr_inv (s : SparseFeatures F) : Keeps Inv0 s.removeCr := by
  unfold removeCr
  refine forEach_keeps _ (fun e _ => ?_)
  intro f hf
  unfold removeStepCr
  cases e.2.active with
  | false => exact hf
  | true =>
    simp only [if_true]
    rw [run_get]
    obtain ⟨c1, c2, c3, c4⟩ := getOrCreate_spec hf e.1
    have hl := vw_lens hf e.1
    rw [← c1, ← c2] at hl
    rw [run_set]
    split
    · exact setNamespace_inv0 hf hl c4
    · refine setNamespace_inv0 hf ?_ ?_
      · split <;> (simp only [RVec.truncate, List.length_take]; rw [hl])
      · split <;> exact c4

theorem FtInv.wrap {α σ : Type} {dbg : Bool} {m : Meta} {d : Depth} {off : Nat} {body : Depth → Cr (σ × Features F) (α × Depth)}
    (h : ∀ d, Keeps (fun p => FtInv p.2) (body d)) : Keeps (fun p => FtInv p.2) (wrapCr dbg m d off body) := by
  unfold wrapCr
  refine Keeps.bind Keeps.get (fun q => ?_)
  refine Keeps.bind (Keeps.lift _) (fun d1 => ?_)
  refine Keeps.bind (h d1) (fun r => ?_)
  refine Keeps.bind (Keeps.lift _) (fun d3 => ?_)
  refine Keeps.bind Keeps.get (fun q => ?_)
  exact Keeps.bind (Keeps.lift _) (fun _ => Keeps.pure _)

theorem removed_ok {f : SparseFeatures F} (hf : f.Inv0) {ns : Namespace} {n : NsFeats F} (h : (f.removeNamespace ns).1 = some n) :
    n.idx.data.length = n.vals.data.length ∧ n.namespace_ = ns := by
  have : lookup f.entries ns = some n := h
  exact ⟨hf.lens _ (lookup_mem this), hf.keys _ (lookup_mem this)⟩

theorem FtInv.elementwise {α σ : Type} {dbg : Bool} {nb : Nat} {pair : Namespace × Namespace} {keep : Bool}
    {body : Depth → Cr (σ × Features F) (α × Depth)} {d : Depth} (h : ∀ d, Keeps (fun p => FtInv p.2) (body d)) :
    Keeps (fun p => FtInv p.2) (elementwiseCr dbg nb pair keep body d) := by
  have tail : ∀ (r : α × Depth) (g : SparseFeatures F → SparseFeatures F), (∀ f, f.Inv0 → (g f).Inv0) → Keeps (fun p : σ × Features F => FtInv p.2) (do
      let (s', ft') ← Cr.get
      let f' ← Cr.lift ft'.asSimple
      Cr.set (s', .simple (g f'))
      Cr.pure r) := by
    intro r g hg p hp
    obtain ⟨s', ft'⟩ := p
    rw [run_get]
    cases ft' with
    | simple f => exact hg f hp
    | cbAdf f => exact hp
  rintro ⟨s, ft⟩ hs
  unfold elementwiseCr
  rw [run_get]
  simp only
  cases ft with
  | cbAdf f => exact hs
  | simple f =>
    rw [show (Features.simple f : Features F).asSimple = .ok f from rfl, run_lift_ok]
    cases hm : elementwiseMultiply dbg nb f pair.1 pair.2 with
    | error e => exact hs
    | ok p =>
      obtain ⟨cns, dest⟩ := p
      obtain ⟨-, m1, m2, -⟩ := elementwiseMultiply_ok hm
      have h1 : (f.setNamespace cns dest).Inv0 := setNamespace_inv0 hs m1 m2
      rw [run_lift_ok]
      simp only
      rw [run_set]
      cases keep with
      | true =>
        simp only [if_true]
        exact (Keeps.bind (h d) (fun r => tail r (fun f' => (f'.removeNamespace cns).2) (fun f hf => removeNamespace_inv0 hf cns))) (_, .simple _) h1
      | false =>
        simp only [Bool.false_eq_true, if_false]
        rw [run_set]
        have h2 := removeNamespace_inv0 h1 pair.1
        cases hn1 : (SparseFeatures.removeNamespace (f.setNamespace cns dest) pair.1).1 with
        | none => exact h2
        | some n1 =>
          rw [show unwrapOpt (some n1) = .ok n1 from rfl, run_lift_ok, run_set]
          have h3 := removeNamespace_inv0 h2 pair.2
          cases hn2 : (SparseFeatures.removeNamespace (SparseFeatures.removeNamespace (f.setNamespace cns dest) pair.1).2 pair.2).1 with
          | none => exact h3
          | some n2 =>
            rw [show unwrapOpt (some n2) = .ok n2 from rfl, run_lift_ok]
            have o1 := removed_ok h1 hn1
            have o2 := removed_ok h2 hn2
            exact (Keeps.bind (h d) (fun r => tail r (fun f' => ((f'.removeNamespace cns).2.setNamespace pair.1 n1).setNamespace pair.2 n2)
              (fun f hf => setNamespace_inv0 (setNamespace_inv0 (removeNamespace_inv0 hf cns) o1.1 o1.2) o2.1 o2.2))) (_, .simple _) h3

theorem FtInv.onSimple {α σ : Type} {x : Cr (σ × Features F) α} (h : Keeps (fun p => FtInv p.2) x) :
    Keeps (fun p : σ × SparseFeatures F => p.2.Inv0) (Rml.onSimple x) := by
  rintro ⟨s, f⟩ hs
  have := h (s, .simple f) hs
  unfold Rml.onSimple
  simp only
  rcases hx : x (s, .simple f) with ⟨a | a, s', f' | f'⟩ <;> rw [hx] at this <;> first | exact this | exact hs

theorem FtInv.second {σ α : Type} {x : Cr (SparseFeatures F) α} (h : Keeps Inv0 x) :
    Keeps (fun p : σ × SparseFeatures F => p.2.Inv0) (Cr.on (·.2) (fun f p => (p.1, f)) x) := fun p hp => h p.2 hp

theorem FtInv.appendShared {σ : Type} {shared : Option (SparseFeatures F)} (hs : ∀ s, shared = some s → s.Inv0) :
    Keeps (fun p : σ × SparseFeatures F => p.2.Inv0) (appendSharedCr shared) := by
  unfold appendSharedCr
  cases shared with
  | none => exact Keeps.pure _
  | some s => exact FtInv.second (appendCr_inv (hs s rfl))

theorem FtInv.removeShared {σ : Type} (shared : Option (SparseFeatures F)) : Keeps (fun p : σ × SparseFeatures F => p.2.Inv0) (removeSharedCr shared) := by
  unfold removeSharedCr
  cases shared with
  | none => exact Keeps.pure _
  | some s => exact FtInv.second (removeCr_inv s)

theorem nextAction_inv {σ α β : Type} {q : M α × (σ × SparseFeatures F)} {as : List (SparseFeatures F)}
    {rest : α → σ → M β × (σ × List (SparseFeatures F))} (h1 : q.2.2.Inv0) (h2 : ∀ a ∈ as, a.Inv0) (h3 : ∀ x s, ∀ a ∈ (rest x s).2.2, a.Inv0) :
    ∀ a ∈ (nextAction q as rest).2.2, a.Inv0 := by
  obtain ⟨e | x, s, a⟩ := q
  · intro b hb
    rcases List.mem_cons.1 hb with rfl | hb
    · exact h1
    · exact h2 b hb
  · intro b hb
    rcases List.mem_cons.1 hb with rfl | hb
    · exact h1
    · exact h3 _ _ b hb

theorem cbPredictLoop_inv {σ : Type} {childP : Depth → Cr (σ × Features F) (Prediction F × Depth)} (h : ∀ d, Keeps (fun p => FtInv p.2) (childP d))
    {shared : Option (SparseFeatures F)} (hsh : ∀ s, shared = some s → s.Inv0) (as : List (SparseFeatures F)) : (∀ a ∈ as, a.Inv0) →
    ∀ (i : Nat) (d : Depth) (s : σ), ∀ a ∈ (cbPredictLoopCr childP shared i as d s).2.2, a.Inv0 := by
  induction as with
  | nil => intro _ i d s a ha; simp [cbPredictLoopCr] at ha
  | cons a as ih =>
    intro hs i d s
    have hk : Keeps (fun p : σ × SparseFeatures F => p.2.Inv0) (cbPredictStepCr childP shared d) := by
      unfold cbPredictStepCr
      refine Keeps.bind (FtInv.appendShared hsh) (fun _ => ?_)
      refine Keeps.bind (FtInv.onSimple (h _)) (fun r => ?_)
      refine Keeps.bind (Keeps.lift _) (fun l => ?_)
      exact Keeps.bind (FtInv.removeShared _) (fun _ => Keeps.pure _)
    exact nextAction_inv (hk (s, a) (hs a (by simp))) (fun b hb => hs b (by simp [hb])) (fun x s1 => ih (fun b hb => hs b (by simp [hb])) (i + 1) x.2 s1)

theorem cbIpsLoop_inv {σ : Type} {dbg : Bool} {childL : Label F → Depth → Cr (σ × Features F) (Unit × Depth)}
    (h : ∀ l d, Keeps (fun p => FtInv p.2) (childL l d)) {shared : Option (SparseFeatures F)} (hsh : ∀ s, shared = some s → s.Inv0) (label : CBLabel F)
    (as : List (SparseFeatures F)) : (∀ a ∈ as, a.Inv0) →
    ∀ (i : Nat) (d : Depth) (s : σ), ∀ a ∈ (cbIpsLoopCr dbg childL shared label i as d s).2.2, a.Inv0 := by
  induction as with
  | nil => intro _ i d s a ha; simp [cbIpsLoopCr] at ha
  | cons a as ih =>
    intro hs i d s
    have hk : Keeps (fun p : σ × SparseFeatures F => p.2.Inv0) (cbIpsStepCr dbg childL shared label i d) := by
      unfold cbIpsStepCr
      refine Keeps.bind (FtInv.appendShared hsh) (fun _ => ?_)
      refine Keeps.bind (Keeps.lift _) (fun l => ?_)
      refine Keeps.bind (FtInv.onSimple (h _ _)) (fun r => ?_)
      exact Keeps.bind (FtInv.removeShared _) (fun _ => Keeps.pure _)
    exact nextAction_inv (hk (s, a) (hs a (by simp))) (fun b hb => hs b (by simp [hb])) (fun x s1 => ih (fun b hb => hs b (by simp [hb])) (i + 1) x s1)

theorem cbMtrLearn_inv {σ : Type} {childL : Label F → Depth → Cr (σ × Features F) (Unit × Depth)}
    (h : ∀ l d, Keeps (fun p => FtInv p.2) (childL l d)) (label : CBLabel F) (d : Depth) :
    Keeps (fun p : (MtrState × σ) × CBAdfFeatures F => FtInv (.cbAdf p.2)) (cbMtrLearnCr childL label d) := by
  rintro ⟨⟨mtr, s⟩, f⟩ hs
  unfold cbMtrLearnCr
  rw [run_get]
  simp only
  rw [run_set]
  cases hsh : f.shared with
  | none => exact hs
  | some sh =>
    simp only
    cases hu : f.actions[label.action]? with
    | none => exact hs
    | some action =>
      rw [show unwrapOpt (some action) = .ok action from rfl, run_lift_ok]
      have ha : action.Inv0 := hs.2 action (List.mem_of_getElem? hu)
      have hk : Keeps (fun p : σ × SparseFeatures F => p.2.Inv0) (do
          Cr.on (·.2) (fun f p => (p.1, f)) action.appendCr
          let (_, d') ← Rml.onSimple (childL (.simple ⟨label.cost, mtrWeight ⟨mtr.actionSum + f.actions.length, mtr.eventSum + 1⟩ label.probability⟩) d)
          Cr.on (·.2) (fun f p => (p.1, f)) action.removeCr
          Cr.pure d') := by
        refine Keeps.bind (FtInv.second (appendCr_inv ha)) (fun _ => ?_)
        refine Keeps.bind (FtInv.onSimple (h _ _)) (fun r => ?_)
        exact Keeps.bind (FtInv.second (removeCr_inv action)) (fun _ => Keeps.pure _)
      have := hk (s, sh) (hs.1 sh hsh)
      refine ⟨fun s' hs' => ?_, hs.2⟩
      cases hs'
      exact this

theorem FtInv.onCb {σ α : Type} {x : Cr (σ × CBAdfFeatures F) α} (h : Keeps (fun p => FtInv (.cbAdf p.2)) x) : Keeps (fun p => FtInv p.2) (Rml.onCb x) := by
  rintro ⟨s, ft⟩ hs
  cases ft with
  | simple f => exact hs
  | cbAdf f => exact h (s, f) hs

theorem FtInv.onActions {σ α : Type} {x : Option (SparseFeatures F) → List (SparseFeatures F) → σ → M α × (σ × List (SparseFeatures F))}
    (h : ∀ shared as s, (∀ t, shared = some t → t.Inv0) → (∀ a ∈ as, a.Inv0) → ∀ a ∈ (x shared as s).2.2, a.Inv0) :
    Keeps (fun p : σ × CBAdfFeatures F => FtInv (.cbAdf p.2)) (Rml.onActions x) := by
  rintro ⟨s, f⟩ hs
  exact ⟨hs.1, h _ _ _ hs.1 hs.2⟩

theorem FtInv.onChild {σ κ α : Type} {x : Cr (σ × Features F) α} (h : Keeps (fun p => FtInv p.2) x) :
    Keeps (fun p : (κ × σ) × Features F => FtInv p.2) (Rml.onChild x) := by
  rintro ⟨⟨k, s⟩, ft⟩ hs
  exact h (s, ft) hs

theorem predict_inv (dbg : Bool) (r : Red F) : ∀ (s : r.State) (d : Depth), Keeps (fun p => FtInv p.2) (r.predictCr dbg s d) := by
  induction r with
  | coin m =>
    intro s d
    unfold Red.predictCr
    refine Keeps.bind Keeps.get (fun q => ?_)
    refine Keeps.bind (Keeps.lift _) (fun f => ?_)
    exact Keeps.bind (Keeps.lift _) (fun _ => Keeps.pure _)
  | binary m r ih =>
    intro s d
    unfold Red.predictCr
    exact Keeps.bind (FtInv.wrap (fun d => ih s d)) (fun q => Keeps.bind (Keeps.lift _) (fun _ => Keeps.pure _))
  | cbAdf m ty r ih =>
    intro s d
    unfold Red.predictCr
    refine Keeps.bind (FtInv.onCb (FtInv.onActions (fun shared as s' hsh has => ?_))) (fun _ => Keeps.pure _)
    exact cbPredictLoop_inv (fun d => FtInv.wrap (fun d => ih s.2 d)) hsh as has 0 d s'
  | greedy m e r ih =>
    intro s d
    unfold Red.predictCr
    exact Keeps.bind (FtInv.wrap (fun d => ih s d)) (fun q => Keeps.bind (Keeps.lift _) (fun _ => Keeps.bind (Keeps.lift _) (fun _ => Keeps.pure _)))
  | softmax m e lm r ih =>
    intro s d
    unfold Red.predictCr
    exact Keeps.bind (FtInv.wrap (fun d => ih s.2 d)) (fun q => Keeps.bind (Keeps.lift _) (fun _ => Keeps.bind (Keeps.lift _) (fun _ => Keeps.pure _)))
  | squareCb m e gs ge r ih =>
    intro s d
    unfold Red.predictCr
    exact Keeps.bind (FtInv.wrap (fun d => ih s.2 d)) (fun q => Keeps.bind (Keeps.lift _) (fun _ => Keeps.bind (Keeps.lift _) (fun _ => Keeps.pure _)))
  | debug m r ih =>
    intro s d
    unfold Red.predictCr
    exact FtInv.wrap (fun d => ih s d)
  | elementwise m pair keep bits r ih =>
    intro s d
    unfold Red.predictCr
    exact FtInv.elementwise (fun d => FtInv.wrap (fun d => ih s d))

theorem learn_inv (dbg : Bool) (r : Red F) : ∀ (l : Label F) (d : Depth), Keeps (fun p => FtInv p.2) (r.learnCr dbg l d) := by
  induction r with
  | coin m =>
    intro l d
    unfold Red.learnCr
    refine Keeps.bind Keeps.get (fun q => ?_)
    refine Keeps.bind (Keeps.lift _) (fun f => ?_)
    refine Keeps.bind (Keeps.lift _) (fun sl => ?_)
    exact Keeps.bind (fun p hp => hp) (fun _ => Keeps.pure _)
  | binary m r ih =>
    intro l d
    unfold Red.learnCr
    exact Keeps.bind (Keeps.lift _) (fun b => FtInv.wrap (fun d => ih _ d))
  | cbAdf m ty r ih =>
    intro l d
    have hw : ∀ l d, Keeps (fun p : r.State × Features F => FtInv p.2) (wrapCr dbg r.meta d 0 (r.learnCr dbg l)) := fun l d => FtInv.wrap (fun d => ih l d)
    cases ty with
    | ips =>
      unfold Red.learnCr
      refine Keeps.bind Keeps.get (fun q => ?_)
      refine Keeps.bind (Keeps.lift _) (fun f => ?_)
      refine Keeps.bind (Keeps.lift _) (fun cl => ?_)
      refine Keeps.bind (FtInv.onChild (FtInv.onCb (FtInv.onActions (fun shared as s' hsh has => ?_)))) (fun _ => Keeps.pure _)
      exact cbIpsLoop_inv hw hsh cl as has 0 d s'
    | mtr =>
      unfold Red.learnCr
      refine Keeps.bind Keeps.get (fun q => ?_)
      refine Keeps.bind (Keeps.lift _) (fun f => ?_)
      refine Keeps.bind (Keeps.lift _) (fun cl => ?_)
      exact Keeps.bind (FtInv.onCb (cbMtrLearn_inv hw cl d)) (fun _ => Keeps.pure _)
  | greedy m e r ih =>
    intro l d
    unfold Red.learnCr
    exact FtInv.wrap (fun d => ih _ d)
  | softmax m e lm r ih =>
    intro l d
    unfold Red.learnCr
    exact FtInv.onChild (FtInv.wrap (fun d => ih _ d))
  | squareCb m e gs ge r ih =>
    intro l d
    unfold Red.learnCr
    refine Keeps.bind (Keeps.lift _) (fun cl => ?_)
    refine Keeps.bind (FtInv.onChild (FtInv.wrap (fun d => ih _ d))) (fun q => ?_)
    exact fun p hp => hp
  | debug m r ih =>
    intro l d
    unfold Red.learnCr
    exact FtInv.wrap (fun d => ih _ d)
  | elementwise m pair keep bits r ih =>
    intro l d
    unfold Red.learnCr
    exact FtInv.elementwise (fun d => FtInv.wrap (fun d => ih _ d))

theorem default_inv (dbg : Bool) (r : Red F) (l : Label F) (d : Depth) : Keeps (fun p => FtInv p.2) (r.defaultCr dbg l d) := by
  unfold Red.defaultCr
  refine Keeps.bind (fun p hp => predict_inv dbg r p.1 d ((), p.2) hp) (fun q => ?_)
  refine Keeps.bind (learn_inv dbg r l _) (fun q => ?_)
  exact Keeps.bind (Keeps.lift _) (fun _ => Keeps.pure _)

theorem predictThenLearn_inv (dbg : Bool) (r : Red F) : ∀ (l : Label F) (d : Depth) (off : Nat),
    Keeps (fun p => FtInv p.2) (r.predictThenLearnCr dbg l d off) := by
  induction r with
  | coin m => intro l d off; unfold Red.predictThenLearnCr; exact default_inv dbg _ l d
  | cbAdf m ty r ih => intro l d off; unfold Red.predictThenLearnCr; exact default_inv dbg _ l d
  | greedy m e r ih => intro l d off; unfold Red.predictThenLearnCr; exact default_inv dbg _ l d
  | softmax m e lm r ih => intro l d off; unfold Red.predictThenLearnCr; exact default_inv dbg _ l d
  | squareCb m e gs ge r ih => intro l d off; unfold Red.predictThenLearnCr; exact default_inv dbg _ l d
  | binary m r ih =>
    intro l d off
    unfold Red.predictThenLearnCr
    refine Keeps.bind (Keeps.lift _) (fun b => ?_)
    refine Keeps.bind (FtInv.wrap (fun d => ih _ d 0)) (fun q => ?_)
    exact Keeps.bind (Keeps.lift _) (fun _ => Keeps.pure _)
  | debug m r ih =>
    intro l d off
    unfold Red.predictThenLearnCr
    exact FtInv.wrap (fun d => ih _ d off)
  | elementwise m pair keep bits r ih =>
    intro l d off
    unfold Red.predictThenLearnCr
    exact FtInv.elementwise (fun d => FtInv.wrap (fun d => ih _ d 0))

theorem ws_predict_inv (dbg : Bool) (w : Workspace F) {ft : Features F} (h : FtInv ft) : FtInv (w.predictCr dbg ft).2 :=
  FtInv.wrap (fun d => predict_inv dbg w.red w.st d) ((), ft) h

theorem ws_learn_inv (dbg : Bool) (w : Workspace F) {ft : Features F} (h : FtInv ft) (l : Label F) : FtInv (w.learnCr dbg ft l).2.2 :=
  FtInv.wrap (fun d => learn_inv dbg w.red l d) (w.st, ft) h

theorem ws_ptl_inv (dbg : Bool) (w : Workspace F) {ft : Features F} (h : FtInv ft) (l : Label F) : FtInv (w.predictThenLearnCr dbg ft l).2.2 :=
  FtInv.wrap (fun d => predictThenLearn_inv dbg w.red l d 0) (w.st, ft) h

end Rml
