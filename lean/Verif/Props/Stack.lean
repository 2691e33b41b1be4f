import Verif.Lemmas.Create

/-! C23 - C27: histories of calls, `predict_then_learn`, what calls leave behind. -/

set_option linter.unusedSectionVars false

namespace Rml
open SparseFeatures
variable {F : Type} [Flt F]

/-! ### A small stack for the examples: SquareCB over CbAdf (mtr) over Coin, with integers for numbers -/

section examples
attribute [local instance] intFlt

/-- Two index bits, a constant feature, no interactions. -/
def tinyGlobal : GlobalConfig := ⟨2, 0#32, true, []⟩
/-- A hash function for examples. -/
def tinyHash : HashFn := fun s _ => BitVec.ofNat 32 s.length
/-- One feature in the default namespace. -/
def tinyFeat (i : U32) (v : Int) : SparseFeatures Int :=
  (SparseFeatures.new : SparseFeatures Int).modifyOrCreate .default (fun n => n.addFeature i v)
/-- A contextual bandit example with two actions. -/
def tinyCb : Features Int := .cbAdf ⟨some (tinyFeat 1#32 1), [tinyFeat 2#32 1, tinyFeat 3#32 2]⟩
/-- SquareCB over CbAdf (mtr) over Coin. -/
def tinySquare : RedConfig Int := .squareCb 0 1 1 (.cbAdf .mtr (.coin CoinConfig.dflt))

theorem tinyFeat_wf (i : U32) (v : Int) : (tinyFeat i v).WF ∧ (tinyFeat i v).NoComposite ∧ (tinyFeat i v).NoEmpty := by
  refine ⟨⟨⟨by simp [tinyFeat, modifyOrCreate, setNamespace, SparseFeatures.insert, SparseFeatures.new, Sorted], ?_, ?_⟩, ?_⟩, ?_, ?_⟩
  · simp [tinyFeat, modifyOrCreate, setNamespace, SparseFeatures.insert, SparseFeatures.new, getOrCreate, lookup, NsFeats.addFeature, RVec.push, NsFeats.new,
      RVec.new]
  · simp [tinyFeat, modifyOrCreate, setNamespace, SparseFeatures.insert, SparseFeatures.new, getOrCreate, lookup, NsFeats.addFeature, NsFeats.new]
  · intro ns
    by_cases h : Namespace.default = ns <;>
      simp [tinyFeat, modifyOrCreate, setNamespace, SparseFeatures.insert, SparseFeatures.new, getOrCreate, lookup, NsFeats.addFeature, vw, h]
  · intro h; rfl
  · intro ns n hn
    by_cases h : Namespace.default = ns
    · simp [tinyFeat, modifyOrCreate, setNamespace, SparseFeatures.insert, SparseFeatures.new, getOrCreate, lookup, NsFeats.addFeature, getNamespace, h] at hn
      subst hn
      simp [NsFeats.size, RVec.push]
    · simp [tinyFeat, modifyOrCreate, setNamespace, SparseFeatures.insert, SparseFeatures.new, getOrCreate, lookup, NsFeats.addFeature, getNamespace, h] at hn

theorem tinyCb_valid : tinyCb.Valid := by
  refine ⟨?_, ?_⟩
  · intro s hs
    simp at hs
    subst hs
    exact tinyFeat_wf _ _
  · intro a ha
    simp at ha
    rcases ha with rfl | rfl <;> exact tinyFeat_wf _ _

end examples

/-- Whether a computation returned. -/
def returned {ε α : Type} : Except ε α → Bool
  | .ok _ => true
  | .error _ => false

/-! ### C24 -/

theorem run_erase (dbg : Bool) (cs : List (Call F)) : ∀ (S T : Session F) (S' : Session F) (outs : List (Call F × Option (Prediction F))),
    S.w = T.w → S.w.red.PairsOk → (∀ i, OkEx (S.ex i)) → (∀ i, FtEqv (S.ex i) (T.ex i)) → S.run dbg cs = .ok (S', outs) →
    ∃ T', T.run dbg (cs.filter Call.isUpdate) = .ok (T', outs.filter (fun o => o.1.isUpdate)) ∧ T'.w = S'.w ∧
      (∀ i, FtEqv (S'.ex i) (S.ex i)) := by
  induction cs with
  | nil =>
    intro S T S' outs hw hp hok he h
    simp [Session.run] at h
    obtain ⟨rfl, rfl⟩ := h
    exact ⟨T, rfl, hw.symm, fun i => (hok i).refl⟩
  | cons c cs ih =>
    intro S T S' outs hw hp hok he h
    unfold Session.run at h
    obtain ⟨⟨S1, o⟩, h1, h⟩ := bind_ok.1 h
    obtain ⟨⟨S2, os⟩, h2, h⟩ := bind_ok.1 h
    simp only [Except.ok.injEq, Prod.mk.injEq] at h
    obtain ⟨rfl, rfl⟩ := h
    cases c with
    | predict i =>
      unfold Session.step at h1
      obtain ⟨⟨p, ft⟩, h3, h1⟩ := bind_ok.1 h1
      simp only [Except.ok.injEq, Prod.mk.injEq] at h1
      obtain ⟨rfl, rfl⟩ := h1
      have hr := (ws_predict hp (hok i) (hok i).refl h3).1
      have hS1 : ∀ j, FtEqv ((S.put S.w i ft).ex j) (S.ex j) := by
        intro j
        simp only [Session.put]
        split
        · rename_i hj; subst hj; exact hr
        · exact (hok j).refl
      obtain ⟨T', g1, g2, g3⟩ := ih (S.put S.w i ft) T S2 os hw hp (fun j => (hok j).of_eqv (hS1 j).symm)
        (fun j => (hS1 j).trans (he j)) h2
      refine ⟨T', ?_, g2, fun j => (g3 j).trans (hS1 j)⟩
      simpa [Call.isUpdate] using g1
    | learn i l =>
      unfold Session.step at h1
      obtain ⟨⟨w', ft⟩, h3, h1⟩ := bind_ok.1 h1
      simp only [Except.ok.injEq, Prod.mk.injEq] at h1
      obtain ⟨rfl, rfl⟩ := h1
      obtain ⟨hred, hr, gt, h4, hr'⟩ := ws_learn hp (hok i) (he i) h3
      have hS1 : ∀ j, FtEqv ((S.put w' i ft).ex j) (S.ex j) := by
        intro j
        simp only [Session.put]
        split
        · rename_i hj; subst hj; exact hr
        · exact (hok j).refl
      have hT1 : ∀ j, FtEqv (S.ex j) ((T.put w' i gt).ex j) := by
        intro j
        simp only [Session.put]
        split
        · rename_i hj; subst hj; exact (he j).trans hr'.symm
        · exact he j
      obtain ⟨T', g1, g2, g3⟩ := ih (S.put w' i ft) (T.put w' i gt) S2 os rfl (by
        show w'.red.PairsOk
        rw [hred]; exact hp) (fun j => (hok j).of_eqv (hS1 j).symm)
        (fun j => (hS1 j).trans (hT1 j)) h2
      refine ⟨T', ?_, g2, fun j => (g3 j).trans (hS1 j)⟩
      rw [hw] at h4
      have hstep : T.step dbg (.learn i l) = .ok (T.put w' i gt, none) := by
        simp only [Session.step]
        rw [h4, ok_bind]
      rw [List.filter_cons_of_pos rfl, List.filter_cons_of_pos rfl]
      unfold Session.run
      rw [hstep, ok_bind]
      simp only
      rw [g1, ok_bind]
    | predictThenLearn i l =>
      unfold Session.step at h1
      obtain ⟨⟨p, w', ft⟩, h3, h1⟩ := bind_ok.1 h1
      simp only [Except.ok.injEq, Prod.mk.injEq] at h1
      obtain ⟨rfl, rfl⟩ := h1
      obtain ⟨hred, hr, gt, h4, hr'⟩ := ws_ptl hp (hok i) (he i) h3
      have hS1 : ∀ j, FtEqv ((S.put w' i ft).ex j) (S.ex j) := by
        intro j
        simp only [Session.put]
        split
        · rename_i hj; subst hj; exact hr
        · exact (hok j).refl
      have hT1 : ∀ j, FtEqv (S.ex j) ((T.put w' i gt).ex j) := by
        intro j
        simp only [Session.put]
        split
        · rename_i hj; subst hj; exact (he j).trans hr'.symm
        · exact he j
      obtain ⟨T', g1, g2, g3⟩ := ih (S.put w' i ft) (T.put w' i gt) S2 os rfl (by
        show w'.red.PairsOk
        rw [hred]; exact hp) (fun j => (hok j).of_eqv (hS1 j).symm)
        (fun j => (hS1 j).trans (hT1 j)) h2
      refine ⟨T', ?_, g2, fun j => (g3 j).trans (hS1 j)⟩
      rw [hw] at h4
      have hstep : T.step dbg (.predictThenLearn i l) = .ok (T.put w' i gt, some p) := by
        simp only [Session.step]
        rw [h4, ok_bind]
      rw [List.filter_cons_of_pos rfl, List.filter_cons_of_pos rfl]
      unfold Session.run
      rw [hstep, ok_bind]
      simp only
      rw [g1, ok_bind]

/-- C24: leaving all `predict` calls out of a history gives the same model and the same results of the other calls. -/
theorem C24_predictions_do_not_matter (dbg : Bool) (S : Session F) (hw : S.w.FromConfig) (hv : ∀ i, (S.ex i).Valid)
    (calls : List (Call F)) (S' : Session F) (outs : List (Call F × Option (Prediction F)))
    (h : S.run dbg calls = .ok (S', outs)) :
    ∃ S'' : Session F, S.run dbg (calls.filter Call.isUpdate) = .ok (S'', outs.filter (fun o => o.1.isUpdate)) ∧ S''.w = S'.w := by
  obtain ⟨T', h1, h2, _⟩ := run_erase dbg calls S S S' outs rfl hw.pairsOk (fun i => okEx_of_valid (hv i))
    (fun i => (okEx_of_valid (hv i)).refl) h
  exact ⟨T', h1, h2⟩

/-- C24, for one call: the model after `predict` is the model before (it is passed by shared reference), and predicting twice gives
the same answer. -/
theorem C24_predict_twice (dbg : Bool) (w : Workspace F) (hw : w.FromConfig) (ft ft1 : Features F) (p : Prediction F) (hv : ft.Valid)
    (h : w.predict dbg ft = .ok (p, ft1)) : ∃ ft2, w.predict dbg ft1 = .ok (p, ft2) := by
  have hok := okEx_of_valid hv
  obtain ⟨h1, _⟩ := ws_predict hw.pairsOk hok hok.refl h
  obtain ⟨_, gt, h2, _⟩ := ws_predict hw.pairsOk hok h1.symm h
  exact ⟨gt, h2⟩

/-! ### C25 -/

theorem runs_top {α : Type} {x : M (α × Features F × Depth)} {a : α} : Runs x a ↔ ∃ ft' d', x = .ok (a, ft', d') := Iff.rfl

/-- C25: `predict_then_learn` returns `p` and leaves the model `w'` exactly if `predict` returns `p` and learning afterwards on the
same example leaves the model `w'`. -/
theorem C25_predict_then_learn (dbg : Bool) (w : Workspace F) (hw : w.FromConfig) (ft : Features F) (hv : ft.Valid) (l : Label F)
    (p : Prediction F) (w' : Workspace F) :
    (∃ ft', w.predictThenLearn dbg ft l = .ok (p, w', ft')) ↔
      ∃ ft1, w.predict dbg ft = .ok (p, ft1) ∧ ∃ ft2, w.learn dbg ft1 l = .ok (w', ft2) := by
  have hp := hw.pairsOk
  have hok := okEx_of_valid hv
  have ha := (ptl_agree dbg w.red hp w.st l).wrap (predictImpl_nice dbg w.red hp w.st) (learnImpl_nice dbg w.red hp w.st l)
    (ptlImpl_nice dbg w.red hp w.st l 0) dbg w.red.meta 0
  constructor
  · rintro ⟨ft', h⟩
    unfold Workspace.predictThenLearn at h
    obtain ⟨⟨⟨p0, s0⟩, ft1, d1⟩, h1, h⟩ := bind_ok.1 h
    simp only [Except.ok.injEq, Prod.mk.injEq] at h
    obtain ⟨rfl, rfl, rfl⟩ := h
    obtain ⟨⟨ftp, dp, g1⟩, ftl, dl, g2⟩ := (ha ft 0 p0 s0 hok.good (by decide)).1 ⟨_, _, h1⟩
    simp only at g1 g2
    have e1 : w.predict dbg ft = .ok (p0, ftp) := by
      unfold Workspace.predict Red.predict
      rw [g1, ok_bind]
    have e2 : w.learn dbg ft l = .ok (⟨w.red, s0⟩, ftl) := by
      unfold Workspace.learn Red.learn
      rw [g2, ok_bind]
    have hr := (ws_predict hp hok hok.refl e1).1
    obtain ⟨_, _, gt, e3, _⟩ := ws_learn hp hok hr.symm e2
    exact ⟨ftp, e1, gt, e3⟩
  · rintro ⟨ft1, e1, ft2, e2⟩
    have hr := (ws_predict hp hok hok.refl e1).1
    obtain ⟨_, _, gt, e3, _⟩ := ws_learn hp (hok.of_eqv hr.symm) hr e2
    unfold Workspace.predict Red.predict at e1
    obtain ⟨⟨p0, fta, d1⟩, h1, e1⟩ := bind_ok.1 e1
    simp only [Except.ok.injEq, Prod.mk.injEq] at e1
    obtain ⟨rfl, rfl⟩ := e1
    unfold Workspace.learn Red.learn at e3
    obtain ⟨⟨s0, ftb, d2⟩, h2, e3⟩ := bind_ok.1 e3
    simp only [Except.ok.injEq, Prod.mk.injEq] at e3
    obtain ⟨rfl, rfl⟩ := e3
    obtain ⟨ft', d', g⟩ := (ha ft 0 p0 s0 hok.good (by decide)).2 ⟨⟨_, _, h1⟩, _, _, h2⟩
    simp only at g
    refine ⟨ft', ?_⟩
    unfold Workspace.predictThenLearn Red.predictThenLearn
    rw [g, ok_bind]

/-! ### C26 -/

/-- C26 (for valid examples): after each of the three calls the example is as before. Missing from the full property: contextual
bandit examples with a visible but empty namespace, where it is false (`C26_empty_namespace_false`), and examples with composite
namespaces. -/
theorem C26_examples_restored_partial (dbg : Bool) (w : Workspace F) (hw : w.FromConfig) (ft : Features F) (hv : ft.Valid) :
    (∀ p ft', w.predict dbg ft = .ok (p, ft') → ft'.SameAs ft) ∧
    (∀ l w' ft', w.learn dbg ft l = .ok (w', ft') → ft'.SameAs ft) ∧
    (∀ l p w' ft', w.predictThenLearn dbg ft l = .ok (p, w', ft') → ft'.SameAs ft) := by
  have hp := hw.pairsOk
  have hok := okEx_of_valid hv
  refine ⟨fun p ft' h => ?_, fun l w' ft' h => ?_, fun l p w' ft' h => ?_⟩
  · exact (ws_predict hp hok hok.refl h).1.sameAs
  · exact (ws_learn hp hok hok.refl h).2.1.sameAs
  · exact (ws_ptl hp hok hok.refl h).2.1.sameAs

/-- C26 over a whole history: the client's examples are the same at the end. -/
theorem C26_history_partial (dbg : Bool) (S : Session F) (hw : S.w.FromConfig) (hv : ∀ i, (S.ex i).Valid)
    (calls : List (Call F)) (S' : Session F) (outs : List (Call F × Option (Prediction F)))
    (h : S.run dbg calls = .ok (S', outs)) : ∀ i, (S'.ex i).SameAs (S.ex i) := by
  obtain ⟨_, _, _, h3⟩ := run_erase dbg calls S S S' outs rfl hw.pairsOk (fun i => okEx_of_valid (hv i))
    (fun i => (okEx_of_valid (hv i)).refl) h
  exact fun i => (h3 i).sameAs

section examples
attribute [local instance] intFlt

/-- The hypotheses of C24 - C26 are met by a workspace that is created, predicts and learns. -/
example : ∃ w : Workspace Int, Workspace.new tinyHash tinyGlobal tinySquare = .ok w ∧
    returned ((⟨w, fun _ => tinyCb⟩ : Session Int).run true
      [.predict 0, .learn 0 (.cb ⟨1, 3, 1⟩), .predict 1, .predictThenLearn 1 (.cb ⟨0, 2, 1⟩)]) = true ∧ tinyCb.Valid :=
  ⟨_, rfl, by decide +kernel, tinyCb_valid⟩

/-- An example with a namespace that is visible but empty. -/
def tinyEmpty : Features Int :=
  .cbAdf ⟨some (tinyFeat 1#32 1), [(SparseFeatures.new : SparseFeatures Int).modifyOrCreate .default id]⟩

/-- C26 fails for a contextual bandit example with a visible but empty namespace: in the release profile the namespace is gone
after predicting, in the debug profile predicting panics. -/
theorem C26_empty_namespace_false : ∃ w : Workspace Int, Workspace.new tinyHash tinyGlobal (.cbAdf .ips (.coin CoinConfig.dflt)) = .ok w ∧
    (∃ p ft', w.predict false tinyEmpty = .ok (p, ft') ∧ ¬ ft'.SameAs tinyEmpty) ∧ w.predict true tinyEmpty = .error .assert := by
  refine ⟨_, rfl, ⟨.actionScores [(0, 0)],
    .cbAdf ⟨some (tinyFeat 1#32 1), [⟨[(.default, ⟨.default, ⟨[], 4⟩, ⟨[], 4⟩, false⟩)]⟩]⟩, ?_, ?_⟩, ?_⟩
  · decide +kernel
  · rintro ⟨_, h⟩
    cases h with
    | cons h _ =>
      have := h.1 .default
      revert this
      decide
  · decide +kernel

end examples

/-! ### C27 -/

/-- C27: every call returns with the depth it was given. `d` and `off` are `u8` values. -/
theorem C27_depth_restored (dbg : Bool) (r : Red F) (s : r.State) (ft : Features F) (l : Label F) (d off : Nat) (hd : d < 256) :
    (∀ p ft' d', r.predict dbg s ft d off = .ok (p, ft', d') → d' = d) ∧
    (∀ s' ft' d', r.learn dbg s ft l d off = .ok (s', ft', d') → d' = d) ∧
    (∀ ps ft' d', r.predictThenLearn dbg s ft l d off = .ok (ps, ft', d') → d' = d) :=
  ⟨fun _ _ _ h => (predictImpl_depth dbg r s).wrap dbg r.meta off _ _ _ _ _ hd h,
   fun _ _ _ h => (learnImpl_depth dbg r s l).wrap dbg r.meta off _ _ _ _ _ hd h,
   fun _ _ _ h => (ptlImpl_depth dbg r s l off).wrap dbg r.meta off _ _ _ _ _ hd h⟩

/-- C27, the assertion of the default `predict_then_learn`: after predicting and learning the depth is the initial one, so
`assert_eq!` holds whenever it is reached. -/
theorem C27_assertion_holds (dbg : Bool) (r : Red F) (s : r.State) (ft ft1 ft2 : Features F) (l : Label F) (d d1 d2 : Nat) (hd : d < 256)
    (p : Prediction F) (s' : r.State) (hp : r.predictImpl dbg s ft d = .ok (p, ft1, d1))
    (hl : r.learnImpl dbg s ft1 l d1 = .ok (s', ft2, d2)) : d2 = d := by
  have h1 := predictImpl_depth dbg r s _ _ _ _ _ hd hp
  subst h1
  exact learnImpl_depth dbg r s l _ _ _ _ _ hd hl

/-- C27 is about calls that return: at offset 0 the bookkeeping itself never fails. -/
theorem C27_no_overflow (dbg : Bool) (r : Red F) (d : Nat) (hd : d < 256) :
    Depth.increment dbg d r.meta.numModelsBelow 0 = .ok d ∧ Depth.decrement dbg d r.meta.numModelsBelow 0 = .ok d := by
  unfold Depth.increment Depth.decrement u8Mul
  have h1 : ¬ (256 ≤ d) := by omega
  have h2 : d % 256 = d := Nat.mod_eq_of_lt hd
  have h3 : (d + 256) % 256 = d := by omega
  simp [bind, Except.bind, h1, h2]

end Rml
