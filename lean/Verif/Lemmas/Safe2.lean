import Verif.Lemmas.Safe
import Verif.SpecTrain

/-! Helper lemmas for C79: what calls leave of an example, and predict-then-learn. -/

set_option linter.unusedSectionVars false

namespace Rml
open SparseFeatures
variable {F : Type} [Flt F]

/-- What a call may leave of an example. -/
inductive FtLe : Features F → Features F → Prop
  | simple {f g} : Eqv f g → FtLe (.simple f) (.simple g)
  | cb {f g} : CbLe f g → FtLe (.cbAdf f) (.cbAdf g)

/-- What a call may leave of an example in each profile. -/
structure After (dbg : Bool) (ft gt : Features F) : Prop where
  le : FtLe ft gt
  eqv : dbg = true → FtEqv ft gt

theorem After.trans {dbg : Bool} {a b c : Features F} (h : After dbg a b) (h' : After dbg b c) : After dbg a c := by
  refine ⟨?_, fun hd => (h.eqv hd).trans (h'.eqv hd)⟩
  cases h.le with
  | simple e => cases h'.le with | simple e' => exact .simple (e.trans e')
  | cb e => cases h'.le with | cb e' => exact .cb (e.trans e')

theorem Ready.refl {dbg : Bool} {ft : Features F} (h : Ready dbg ft) : After dbg ft ft := by
  refine ⟨?_, fun hd => (h.ok hd).refl⟩
  cases ft with
  | simple f => exact .simple (Eqv.refl h.plain.1)
  | cbAdf f => exact .cb ⟨optLe_refl_plain h.plain.shared, forall₂_le_refl h.plain.actions⟩

theorem Ready.of_after {dbg : Bool} {ft gt : Features F} (h : Ready dbg gt) (ha : After dbg ft gt) : Ready dbg ft := by
  refine ⟨?_, fun hd => (h.ok hd).of_eqv (ha.eqv hd).symm⟩
  cases ha.le with
  | simple e => exact ⟨e.left, fun ns hns => by rw [e.view]; exact h.plain.2 ns hns⟩
  | cb e => exact CbPlain.of_le h.plain e

theorem Tame.of_le {dbg : Bool} {nb : Nat} {act : Namespace → Bool} {f g : SparseFeatures F} (h : Tame dbg nb g) (hl : LeAt act f g) : Tame dbg nb f := by
  have key : ∀ iv ∈ f.allFeatures, iv ∈ g.allFeatures := by
    intro iv hiv
    rw [mem_allFeatures hl.left] at hiv
    obtain ⟨ns, hiv⟩ := hiv
    rcases hl.view ns with q | ⟨_, q, _⟩
    · exact (mem_allFeatures hl.right iv).2 ⟨ns, by rw [← q]; exact hiv⟩
    · rw [q] at hiv; simp [noView] at hiv
  exact ⟨fun iv hiv => h.fits iv (key iv hiv), fun hd iv hiv => h.settled hd iv (key iv hiv)⟩

theorem forall₂_tame_le {dbg : Bool} {nb : Nat} {act : Namespace → Bool} {l l' : List (SparseFeatures F)} (h : List.Forall₂ (LeAt act) l l')
    (ht : ∀ a ∈ l', Tame dbg nb a) : ∀ a ∈ l, Tame dbg nb a := by
  induction h with
  | nil => intro a ha; simp at ha
  | cons h _ ih =>
    intro a ha
    rcases List.mem_cons.1 ha with rfl | ha
    · exact (ht _ (by simp)).of_le h
    · exact ih (fun x hx => ht x (by simp [hx])) a ha

theorem TameFt.of_after {dbg : Bool} {nb : Nat} {ft gt : Features F} (h : TameFt dbg nb gt) (ha : After dbg ft gt) : TameFt dbg nb ft := by
  cases ha.le with
  | simple e => exact h.of_eqv (FtEqv.simple e.symm)
  | @cb f g e =>
    intro x hx
    simp only [Features.objects, List.mem_append, Option.mem_toList] at hx
    rcases hx with hx | hx
    · have := e.shared
      rw [hx] at this
      revert this
      cases hf : g.shared with
      | none => intro this; cases this
      | some s =>
        intro this
        cases this with
        | some e => exact (h s (by simp [Features.objects, hf])).of_le e
    · exact forall₂_tame_le e.actions (fun a ha => h a (by simp [Features.objects, ha])) x hx

theorem After.ty {dbg : Bool} {ft gt : Features F} (h : After dbg ft gt) : ft.ty = gt.ty := by cases h.le <;> rfl

theorem After.actions {dbg : Bool} {ft gt : Features F} (h : After dbg ft gt) (hne : gt.actionList ≠ []) : ft.actionList ≠ [] := by
  cases h.le with
  | simple _ => exact hne
  | cb e =>
    intro h0
    have := e.actions.length_eq
    simp only [Features.actionList] at h0 hne
    rw [h0] at this
    exact hne (List.length_eq_zero_iff.1 this.symm)

theorem LabelFine.of_after {dbg : Bool} {mode : Option CBType} {ft gt : Features F} {l : Label F} (h : LabelFine dbg mode gt l)
    (ha : After dbg ft gt) : LabelFine dbg mode ft l := by
  refine ⟨h.positive, ?_⟩
  intro hm f cl hf hcl
  subst hf
  cases ha.le with
  | @cb f g e =>
    obtain ⟨h1, h2⟩ := h.chosen hm g cl rfl hcl
    refine ⟨?_, by rw [e.actions.length_eq]; exact h2⟩
    have := e.shared
    revert this
    generalize f.shared = a
    generalize hb : g.shared = b
    rw [hb] at h1
    intro this
    cases this with
    | none => simp at h1
    | some _ => rfl

/-- What a body leaves of an example. -/
theorem after_of {α : Type} {body : Features F → Depth → M (α × Features F × Depth)} (hn : Nice body) (hl : CallLe body) {dbg : Bool} {ft ft' : Features F}
    (hr : Ready dbg ft) {d d' : Depth} (hd : d < 256) {a : α} (hb : body ft d = .ok (a, ft', d')) : After dbg ft' ft := by
  refine ⟨?_, fun h => (hn.restoreOk (hr.ok h) hd hb).2⟩
  cases ft with
  | simple f =>
    obtain ⟨_, f', rfl, he⟩ := hn.restore hr.plain.1 hr.plain.2 hd hb
    exact .simple he
  | cbAdf f =>
    obtain ⟨_, f', rfl, he⟩ := hl f d a ft' d' hr.plain hd hb
    exact .cb he

theorem predict_le (dbg : Bool) (r : Red F) (hp : r.PairsOk) (s : r.State) : CallLe (r.predictImpl dbg s) := by
  intro f d a ft' d' hf hd h
  obtain ⟨h1, f', h2, h3⟩ := predict_loose dbg r hp s f d a ft' d' hf hd h
  exact ⟨h1, f', h2, h3.le⟩

/-- What `ptl_safe` shows of a stack. -/
def PtlSafe (G : Coin F → Prop) (R : List (Nat × F) → Prop) (dbg : Bool) (nb : Nat) (mode : Option CBType) (r : Red F) : Prop :=
  ∀ (s : r.State) (ft : Features F) (l : Label F) (d : Depth), G (r.coinOf s) → Ready dbg ft → TameFt dbg nb ft → ft.ty = r.meta.types.inFeatures →
    (r.meta.types.outPrediction = .actionProbs → ft.actionList ≠ []) → l.ty = r.meta.types.inLabel → LabelFine dbg mode ft l → d < 256 →
    ∃ p s' ft', r.predictThenLearnImpl dbg s ft l d 0 = .ok ((p, s'), ft', d) ∧ After dbg ft' ft ∧ ∀ ps, p = .actionProbs ps → R ps

section stack
variable [LawfulCmp F]

theorem default_safe {G : Coin F → Prop} {Q : F → Prop} {R : List (Nat × F) → Prop} {dbg : Bool} {nb : Nat} {hash : HashFn} {g : GlobalConfig} {nma : Nat} {c : RedConfig F} {x : (r : Red F) × r.State}
    (hb : Built hash g nma c x) (hgood : ∀ c, G c → CoinGood nb c) (hp : PredictSafe G Q R dbg nb x.1) (hl : LearnSafe dbg nb c.cbMode x.1) (s : x.1.State) (ft : Features F)
    (l : Label F) (d : Depth) (hg : G (x.1.coinOf s)) (hr : Ready dbg ft) (ht : TameFt dbg nb ft)
    (hty : ft.ty = x.1.meta.types.inFeatures) (hne : x.1.meta.types.outPrediction = .actionProbs → ft.actionList ≠ [])
    (hlt : l.ty = x.1.meta.types.inLabel) (hlf : LabelFine dbg c.cbMode ft l) (hd : d < 256) :
    ∃ p s' ft', defaultPredictThenLearn (x.1.predictImpl dbg s) (fun ft d => x.1.learnImpl dbg s ft l d) ft d = .ok ((p, s'), ft', d) ∧
      After dbg ft' ft ∧ ∀ ps, p = .actionProbs ps → R ps := by
  obtain ⟨p, ft1, h1, _, _, hR⟩ := hp s ft d hg hr ht hty hne hd
  have a1 := after_of (predictImpl_nice dbg x.1 hb.pairsOk s) (predict_le dbg x.1 hb.pairsOk s) hr hd h1
  have hr1 := hr.of_after a1
  obtain ⟨s', ft2, h2⟩ := hl s ft1 l d (hgood _ hg) hr1 (ht.of_after a1) (a1.ty.trans hty) hlt (hlf.of_after a1) hd
  have a2 := after_of (learnImpl_nice dbg x.1 hb.pairsOk s l) (learn_le dbg x.1 hb.pairsOk s l) hr1 hd h2
  refine ⟨p, s', ft2, ?_, a2.trans a1, hR⟩
  unfold defaultPredictThenLearn
  rw [h1, ok_bind]
  simp only
  rw [h2, ok_bind]
  simp [massert, bind, Except.bind]

theorem ptl_safe {G : Coin F → Prop} {Q : F → Prop} {R : List (Nat × F) → Prop} {dbg : Bool} {nb : Nat} (hgood : ∀ c, G c → CoinGood nb c)
    (hG : ∀ c f, G c → f.Fits nb → ∃ p raw, c.predict dbg f = .ok (p, raw) ∧ Q raw) (h01 : dbg = true → Flt.lt (Flt.zero : F) Flt.one = true) {hash : HashFn} {g : GlobalConfig} {nma : Nat}
    {c : RedConfig F} {x : (r : Red F) × r.State} (hb : Built hash g nma c x) (he : c.NoElementwise) (hp : c.ProbsOn Q R) :
    PtlSafe G R dbg nb c.cbMode x.1 := by
  have hps := predict_safe (dbg := dbg) (nb := nb) hG hb he hp
  have hls := learn_safe (nb := nb) h01 hb he
  induction hb with
  | coin h => intro s ft l d; exact default_safe (.coin h) hgood hps hls s ft l d
  | cbAdf h hc _ => intro s ft l d; exact default_safe (.cbAdf h hc) hgood hps hls s ft l d
  | greedy h hc _ => intro s ft l d; exact default_safe (.greedy h hc) hgood hps hls s ft l d
  | softmax h hc _ => intro s ft l d; exact default_safe (.softmax h hc) hgood hps hls s ft l d
  | squareCb h h2 hc _ => intro s ft l d; exact default_safe (.squareCb h h2 hc) hgood hps hls s ft l d
  | @binary rc x hb hc ih =>
    intro s ft l d hg hok ht hty _ hlt hl hd
    have hcc := checkOk_iff.1 hc
    simp only [binaryTypes, Option.some.injEq] at hcc
    cases l <;> simp [Label.ty, Red.meta, binaryTypes] at hlt
    rename_i b
    obtain ⟨p, s', ft', h1, h2, _⟩ := ih he hp (predict_safe hG hb he hp) (learn_safe h01 hb he) s ft (.simple (binaryToSimple b)) d hg hok ht hty
      (by rw [← hcc.2.2]; simp) hcc.1 labelFine_simple hd
    have hpt := ((hb.ptl_typed dbg s (.simple (binaryToSimple b)) 0 hcc.1) ft d hty).2 _ _ _ h1
    simp only at hpt
    rw [← hcc.2.2] at hpt
    obtain ⟨y, h3⟩ := asScalar_of_ty hpt.1
    refine ⟨.binary (Flt.lt Flt.zero y.1), s', ft', ?_, h2, fun ps h => by simp at h⟩
    unfold Red.predictThenLearnImpl
    simp only [Label.asBinary, ok_bind]
    rw [wrap_safe (ptlImpl_nice dbg x.1 hb.pairsOk s _ 0) x.1 hok ht hd h1, ok_bind]
    simp only
    rw [h3, ok_bind]
  | @debug rc x hb hc ih =>
    intro s ft l d hg hok ht hty hne hlt hl hd
    obtain ⟨p, s', ft', h1, h2, h3⟩ := ih he hp (predict_safe hG hb he hp) (learn_safe h01 hb he) s ft l d hg hok ht hty hne hlt hl hd
    refine ⟨p, s', ft', ?_, h2, h3⟩
    unfold Red.predictThenLearnImpl
    exact wrap_safe (ptlImpl_nice dbg x.1 hb.pairsOk s _ 0) x.1 hok ht hd h1
  | elementwise _ _ _ => exact he.elim

/-! ### Calls of a model -/

theorem ready_of {dbg : Bool} {ft : Features F} (h : ft.Formed) (hv : dbg = true → ft.Valid) : Ready dbg ft := by
  refine ⟨?_, fun hd => okEx_of_valid (hv hd)⟩
  have plain : ∀ f : SparseFeatures F, f.WF → f.NoComposite → f.Plain := by
    intro f h1 h2
    refine ⟨h1.toInv0, fun ns hns => ?_, noView_of_wf h1 h2⟩
    rw [h1.inactive_empty ns hns]
  cases ft with
  | simple f => exact ⟨h.1.toInv0, noView_of_wf h.1 h.2⟩
  | cbAdf f => exact ⟨fun s hs => plain s (h.1 s hs).1 (h.1 s hs).2, fun a ha => plain a (h.2 a ha).1 (h.2 a ha).2⟩

end stack

end Rml
