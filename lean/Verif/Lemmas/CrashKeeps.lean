import Verif.Lemmas.CrashInv

/-! Helper lemmas for C107: without ElementwiseInteraction every call leaves valid examples valid, whether it returns or not. -/

set_option linter.unusedSectionVars false

namespace Rml
open Cr SparseFeatures
variable {F : Type} [Flt F]

theorem merge_clean {m a s : SparseFeatures F} (ha : a.Clean) (hs : s.Clean) (h : m.MergeOf a (some s)) : m.Clean := by
  obtain ⟨m', h1, h2⟩ := append_merge ha.wf hs.wf
  obtain ⟨m'', h3, h4, h5⟩ := append_spec ha.inv hs.inv
  rw [h1] at h3
  cases h3
  refine SparseFeatures.Clean.of_eqv (f := m') ?_ (h2.eqv h)
  refine ⟨h4, fun ns => ?_, fun ns hr => ?_⟩
  · rw [h5]
    unfold vwAppend
    split
    · rename_i hb
      simp only [true_iff]
      have := (hs.visible ns).1 hb
      simp [this]
    · exact ha.visible ns
  · rw [h5]
    unfold vwAppend
    rw [hs.noRaw ns hr]
    exact ha.noRaw ns hr

theorem merge_clean' {m a : SparseFeatures F} {s : Option (SparseFeatures F)} (ha : a.Clean) (hs : ∀ t, s = some t → t.Clean) (h : m.MergeOf a s) : m.Clean := by
  cases s with
  | some t => exact merge_clean ha (hs t rfl) h
  | none =>
    refine ha.of_eqv (eqv_of_report ha.wf h.wf fun ns => ?_)
    rw [h.report]
    cases a.report ns <;> rfl

theorem Outcome.okEx {α σ : Type} {f : CBAdfFeatures F} (hf : CbGood f) {q : M α × (σ × Features F)} (h : Outcome f q) : OkEx q.2.2 := by
  obtain ⟨f', h1, h2, -⟩ := h
  rw [h1]
  rcases h2 with h2 | h2
  · exact cbGood_of_eqv hf h2
  · rcases h2 with ⟨e, pre, pre', a, a', post, post', e1, e2, e3, e4, e5⟩ | ⟨s, s', a, e1, e2, e3, e4, e5⟩
    · have hs : ∀ t, f'.shared = some t → t.Clean := by
        intro t ht
        have e' := e
        rw [ht] at e'
        generalize hfs : f.shared = b at e'
        cases e' with
        | some h => exact (hf.shared _ hfs).of_eqv h.symm
      refine CbGood.mk hs ?_
      have hp : ∀ x ∈ pre, x.Clean := fun x hx => hf.actions x (by rw [e1]; simp [hx])
      have hq : ∀ x ∈ post, x.Clean := fun x hx => hf.actions x (by rw [e1]; simp [hx])
      rw [e2]
      intro x hx
      rcases List.mem_append.1 hx with hx | hx
      · exact forall₂_clean (forall₂_symm e3) hp x hx
      · rcases List.mem_cons.1 hx with rfl | hx
        · exact merge_clean' (hf.actions a (by rw [e1]; simp)) hf.shared e4
        · exact forall₂_clean (forall₂_symm e5) hq x hx
    · refine CbGood.mk ?_ (forall₂_clean (forall₂_symm e5) hf.actions)
      intro t ht
      rw [e2] at ht
      cases ht
      exact merge_clean (hf.shared s e1) (hf.actions a e3) e4

theorem default_still (dbg : Bool) (r : Red F) (hn : r.NoElementwise) (l : Label F) (d : Depth) : Still (r.defaultCr dbg l d) := by
  intro f
  unfold Red.defaultCr
  refine Keeps.bind (fun p hp => ?_) (fun q => ?_)
  · exact predict_still dbg r hn p.1 d f ((), p.2) hp
  refine Keeps.bind (learn_still dbg r hn l _ f) (fun q => ?_)
  exact Keeps.bind (Keeps.lift _) (fun _ => Keeps.pure _)

theorem predictThenLearn_still (dbg : Bool) (r : Red F) (hn : r.NoElementwise) : ∀ (l : Label F) (d : Depth) (off : Nat),
    Still (r.predictThenLearnCr dbg l d off) := by
  induction r with
  | coin m => intro l d off; unfold Red.predictThenLearnCr; exact default_still dbg _ hn l d
  | cbAdf m ty r ih => intro l d off; unfold Red.predictThenLearnCr; exact default_still dbg _ hn l d
  | greedy m e r ih => intro l d off; unfold Red.predictThenLearnCr; exact default_still dbg _ hn l d
  | softmax m e lm r ih => intro l d off; unfold Red.predictThenLearnCr; exact default_still dbg _ hn l d
  | squareCb m e gs ge r ih => intro l d off; unfold Red.predictThenLearnCr; exact default_still dbg _ hn l d
  | binary m r ih =>
    intro l d off f
    unfold Red.predictThenLearnCr
    refine Keeps.bind (Keeps.lift _) (fun b => ?_)
    refine Keeps.bind (Still.wrap (fun d => ih hn _ d 0) f) (fun q => ?_)
    exact Keeps.bind (Keeps.lift _) (fun _ => Keeps.pure _)
  | debug m r ih =>
    intro l d off
    unfold Red.predictThenLearnCr
    exact Still.wrap (fun d => ih hn _ d off)
  | elementwise m pair keep bits r ih => exact hn.elim

theorem okEx_of {α σ : Type} {x : Cr (σ × Features F) α} (hs : Still x) (s : σ) (ho : ∀ f, CbGood f → Outcome f (x (s, .cbAdf f))) {ft : Features F} (h : OkEx ft) :
    OkEx (x (s, ft)).2.2 := by
  cases ft with
  | simple f => rw [show (x (s, .simple f)).2.2 = .simple f from hs f (s, .simple f) rfl]; exact h
  | cbAdf f => exact (ho f h).okEx h

theorem ws_predict_okEx (dbg : Bool) (w : Workspace F) (hn : w.red.NoElementwise) {ft : Features F} (h : OkEx ft) : OkEx (w.predictCr dbg ft).2 :=
  okEx_of (Still.wrap (fun d => predict_still dbg w.red hn w.st d)) () (fun f hf => Outcome.wrap hf (fun d => predict_outcome dbg w.red hn f hf w.st d)) h

theorem ws_learn_okEx (dbg : Bool) (w : Workspace F) (hn : w.red.NoElementwise) {ft : Features F} (h : OkEx ft) (l : Label F) : OkEx (w.learnCr dbg ft l).2.2 :=
  okEx_of (Still.wrap (fun d => learn_still dbg w.red hn l d)) w.st (fun f hf => Outcome.wrap hf (fun d => learn_outcome dbg w.red hn f hf l w.st d)) h

theorem ws_ptl_okEx (dbg : Bool) (w : Workspace F) (hn : w.red.NoElementwise) {ft : Features F} (h : OkEx ft) (l : Label F) :
    OkEx (w.predictThenLearnCr dbg ft l).2.2 :=
  okEx_of (Still.wrap (fun d => predictThenLearn_still dbg w.red hn l d 0)) w.st
    (fun f hf => Outcome.wrap hf (fun d => predictThenLearn_outcome dbg w.red hn f hf l w.st d 0)) h

end Rml
