import Verif.SpecSafe
import Verif.Props.Coin
import Verif.Lemmas.Loose

/-! Helper lemmas for C79: every call on well-formed input succeeds. -/

set_option linter.unusedSectionVars false

namespace Rml
open SparseFeatures
variable {F : Type} [Flt F]

/-! ### Feature objects -/

theorem mem_allFeatures {f : SparseFeatures F} (h : f.Inv0) (iv : U32 × F) :
    iv ∈ f.allFeatures ↔ ∃ ns, iv ∈ (f.vw ns).1.zip (f.vw ns).2.1 := by
  rw [allFeatures_contents, List.mem_flatMap]
  constructor
  · rintro ⟨e, he, hiv⟩
    rw [mem_contents h] at he
    exact ⟨e.1, by rw [← he.1]; exact hiv⟩
  · rintro ⟨ns, hiv⟩
    exact ⟨(ns, _), (mem_contents h _).2 ⟨rfl, List.ne_nil_of_mem hiv⟩, hiv⟩

/-- A feature object with small indices and, in the debug profile, settled values. -/
structure Tame (dbg : Bool) (nb : Nat) (f : SparseFeatures F) : Prop where
  fits : f.Fits nb
  settled : dbg = true → ∀ iv ∈ f.allFeatures, Settled iv.2

theorem Tame.of_eqv {dbg : Bool} {nb : Nat} {f g : SparseFeatures F} (h : Tame dbg nb f) (he : Eqv f g) : Tame dbg nb g := by
  have hc := allFeatures_congr he.left he.right he.view
  exact ⟨by unfold Fits; rw [← hc]; exact h.fits, by rw [← hc]; exact h.settled⟩

theorem Tame.append {dbg : Bool} {nb : Nat} {a s a1 : SparseFeatures F} (ha : Tame dbg nb a) (hs : Tame dbg nb s) (ia : a.Inv0) (is : s.Inv0)
    (h : a.append s = .ok a1) : Tame dbg nb a1 := by
  obtain ⟨a2, h1, i1, v1⟩ := append_spec ia is
  rw [h] at h1
  simp only [Except.ok.injEq] at h1
  subst h1
  have key : ∀ iv ∈ a1.allFeatures, iv ∈ a.allFeatures ∨ iv ∈ s.allFeatures := by
    intro iv hiv
    rw [mem_allFeatures i1] at hiv
    obtain ⟨ns, hiv⟩ := hiv
    rw [v1] at hiv
    unfold vwAppend at hiv
    split at hiv
    · simp only at hiv
      rw [List.zip_append (vw_lens ia ns)] at hiv
      rcases List.mem_append.1 hiv with q | q
      · exact .inl ((mem_allFeatures ia iv).2 ⟨ns, q⟩)
      · exact .inr ((mem_allFeatures is iv).2 ⟨ns, q⟩)
    · exact .inl ((mem_allFeatures ia iv).2 ⟨ns, hiv⟩)
  refine ⟨fun iv hiv => ?_, fun hd iv hiv => ?_⟩
  · rcases key iv hiv with q | q
    · exact ha.fits iv q
    · exact hs.fits iv q
  · rcases key iv hiv with q | q
    · exact ha.settled hd iv q
    · exact hs.settled hd iv q

theorem zip_self_all {eps : F} (l : List F) (h : ∀ v ∈ l, Flt.absDiffEq v v eps = true) : (l.zip l).all (fun p => Flt.absDiffEq p.1 p.2 eps) = true := by
  induction l with
  | nil => rfl
  | cons a t ih =>
    rw [List.zip_cons_cons, List.all_cons, h a (by simp), ih (fun v hv => h v (by simp [hv]))]
    rfl

theorem Tame.self {nb : Nat} {f : SparseFeatures F} (h : Tame true nb f) (hi : f.Inv0) : f.absDiffEq f Flt.epsilon = true := by
  rw [absDiffEq_vw hi hi]
  simp only [decide_true, Bool.true_and, List.all_eq_true]
  intro ns _
  apply List.all_eq_true.1
  apply zip_self_all
  intro v hv
  obtain ⟨k, hk, rfl⟩ := List.mem_iff_getElem.1 hv
  have hl := vw_lens hi ns
  have hm : ((f.vw ns).1[k]'(by omega), (f.vw ns).2.1[k]) ∈ f.allFeatures := by
    rw [mem_allFeatures hi]
    refine ⟨ns, List.mem_iff_getElem.2 ⟨k, by simp; omega, by simp⟩⟩
  exact h.settled rfl _ hm

/-- The feature objects of an example are tame. -/
def TameFt (dbg : Bool) (nb : Nat) (ft : Features F) : Prop := ∀ f ∈ ft.objects, Tame dbg nb f

theorem forall₂_tame {dbg : Bool} {nb : Nat} {l l' : List (SparseFeatures F)} (h : List.Forall₂ Eqv l l') (ht : ∀ a ∈ l, Tame dbg nb a) :
    ∀ a ∈ l', Tame dbg nb a := by
  induction h with
  | nil => intro a ha; simp at ha
  | cons h _ ih =>
    intro a ha
    rcases List.mem_cons.1 ha with rfl | ha
    · exact (ht _ (by simp)).of_eqv h
    · exact ih (fun x hx => ht x (by simp [hx])) a ha

theorem TameFt.of_eqv {dbg : Bool} {nb : Nat} {ft gt : Features F} (h : TameFt dbg nb ft) (he : FtEqv ft gt) : TameFt dbg nb gt := by
  cases he with
  | simple he =>
    intro f hf
    simp only [Features.objects, List.mem_singleton] at hf
    subst hf
    exact (h _ (by simp [Features.objects])).of_eqv he
  | @cb f g he =>
    intro x hx
    simp only [Features.objects, List.mem_append, Option.mem_toList] at hx
    rcases hx with hx | hx
    · have := he.shared
      rw [hx] at this
      revert this
      cases hf : f.shared with
      | none => intro this; cases this
      | some s =>
        intro this
        cases this with
        | some e => exact (h s (by simp [Features.objects, hf])).of_eqv e
    · exact forall₂_tame he.actions (fun a ha => h a (by simp [Features.objects, ha])) x hx

theorem TameFt.selfOk {dbg : Bool} {nb : Nat} {ft : Features F} (h : TameFt dbg nb ft) (hok : OkEx ft) : SelfOk dbg ft := by
  unfold SelfOk
  cases dbg with
  | false => rfl
  | true =>
    have : ft.absDiffEq ft Flt.epsilon = true := by
      cases ft with
      | simple f => exact (h f (by simp [Features.objects])).self hok.1
      | cbAdf f =>
        simp only [Features.absDiffEq, CBAdfFeatures.absDiffEq, decide_true, Bool.and_true, Bool.and_eq_true]
        refine ⟨?_, ?_⟩
        · cases hs : f.shared with
          | none => rfl
          | some s => exact (h s (by simp [Features.objects, hs])).self (hok.shared s hs).inv
        · have ha : ∀ a ∈ f.actions, a.absDiffEq a Flt.epsilon = true :=
            fun a ha => (h a (by simp [Features.objects, ha])).self (hok.actions a ha).inv
          generalize f.actions = l at ha
          induction l with
          | nil => rfl
          | cons a t ih =>
            rw [List.zip_cons_cons, List.all_cons, ha a (by simp), ih (fun v hv => ha v (by simp [hv]))]
            rfl
    rw [this]
    rfl

/-- What an example must be like: in the debug profile, without visible but empty namespaces. -/
structure Ready (dbg : Bool) (ft : Features F) : Prop where
  plain : PlainEx ft
  ok : dbg = true → OkEx ft

theorem SparseFeatures.Clean.toPlain {f : SparseFeatures F} (h : f.Clean) : f.Plain := by
  refine ⟨h.inv, fun ns hv => ?_, h.noRaw⟩
  by_contra hx
  rw [(h.visible ns).2 hx] at hv
  simp at hv

theorem OkEx.ready {dbg : Bool} {ft : Features F} (h : OkEx ft) : Ready dbg ft := by
  refine ⟨?_, fun _ => h⟩
  cases ft with
  | simple f => exact h
  | cbAdf f => exact ⟨fun s hs => (h.shared s hs).toPlain, fun a ha => (h.actions a ha).toPlain⟩

theorem wrap_safe {α : Type} {dbg : Bool} {nb : Nat} {body : Features F → Depth → M (α × Features F × Depth)} (h : Nice body) (r : Red F)
    {ft : Features F} (hok : Ready dbg ft) (ht : TameFt dbg nb ft) {d : Depth} (hd : d < 256) {a : α} {ft' : Features F}
    (hb : body ft d = .ok (a, ft', d)) : wrapCall dbg r.meta ft d 0 body = .ok (a, ft', d) := by
  obtain ⟨h1, h2⟩ := C27_no_overflow dbg r d hd
  have h5 : debugAssert dbg (ft'.absDiffEq ft Flt.epsilon) = .ok () := by
    cases dbg with
    | false => rfl
    | true =>
      have hok := hok.ok rfl
      obtain ⟨_, h5⟩ := h.assert_eq hok.good hd hb Flt.epsilon
      have h4 := ht.selfOk hok
      unfold SelfOk at h4
      rw [h5, h4]
  unfold wrapCall
  rw [h1, ok_bind, hb, ok_bind]
  simp only
  rw [h2, ok_bind, h5, ok_bind]

/-! ### The regressor -/

/-- A created and trained regressor. -/
structure CoinGood (nb : Nat) (c : Coin F) : Prop where
  ok : c.Ok nb
  range : c.RangeOk

section coin
variable [LawfulCmp F]

theorem CoinGood.trains {nb : Nat} {dbg : Bool} {c c' : Coin F} (h : CoinGood nb c) (ht : Trains dbg c c') : CoinGood nb c' := by
  obtain ⟨es, ht⟩ := ht
  have := Coin.trainAll_induct (dbg := dbg) (nb := nb) (fun _ c => c.RangeOk) (by
    intro es c c' e hc h2 hl
    exact (rangeInv_step (ls := [c.minLabel, c.maxLabel]) e hc ⟨h2, by simp, by simp⟩ hl).ok) es [] c c' h.ok h.range ht
  exact ⟨this.1, this.2⟩

theorem CoinGood.predict {nb : Nat} {c : Coin F} (h : CoinGood nb c) (dbg : Bool) {f : SparseFeatures F} (hf : f.Fits nb) :
    ∃ p raw, c.predict dbg f = .ok (p, raw) ∧ Flt.isNaN raw = false := by
  have hv := C01_index_in_range c.pass f (by rw [h.ok.bits]; exact h.ok.le31) (by rw [h.ok.bits]; exact hf)
  rw [h.ok.bits] at hv
  unfold Coin.predict
  rw [Coin.rawSum_eq h.ok hv]
  simp only [bind, Except.bind, Flt.clamp, h.range.le, if_true]
  refine ⟨_, _, rfl, ?_⟩
  split
  · exact LawfulCmp.zero_num
  · rename_i hn; simpa using hn

theorem CoinGood.learn {nb : Nat} {c : Coin F} (h : CoinGood nb c) (dbg : Bool) {f : SparseFeatures F} (hf : f.Fits nb) (l w : F) :
    ∃ c', c.learn dbg f l w = .ok c' := by
  have hv := C01_index_in_range c.pass f (by rw [h.ok.bits]; exact h.ok.le31) (by rw [h.ok.bits]; exact hf)
  rw [h.ok.bits] at hv
  exact Coin.learn_succeeds h.ok hv (rangeOk_seen h.range l)

end coin

/-! ### Predicting -/

/-- The exploration reductions make probabilities with `R` of every list of scores with `Q`. -/
def RedConfig.ProbsOn (Q : F → Prop) (R : List (Nat × F) → Prop) : RedConfig F → Prop
  | .coin _ | .unknown _ => True
  | .softmax e lm c => (∀ sc : List (Nat × F), sc ≠ [] → sc.map (·.1) = List.range sc.length → (∀ x ∈ sc, Q x.2) →
      ∃ out, softmaxProbs lm e sc = .ok out ∧ R out) ∧ c.ProbsOn Q R
  | .squareCb e gs ge c => (∀ (n : Nat) (sc : List (Nat × F)), sc ≠ [] → sc.map (·.1) = List.range sc.length → (∀ x ∈ sc, Q x.2) →
      ∃ out, squareCbProbs (squareCbGamma gs ge n) e sc = .ok out ∧ R out) ∧ c.ProbsOn Q R
  | .greedy e c => (∀ sc : List (Nat × F), sc ≠ [] → sc.map (·.1) = List.range sc.length → (∀ x ∈ sc, Q x.2) →
      ∃ out, greedyProbs e sc = .ok out ∧ R out) ∧ c.ProbsOn Q R
  | .binary c | .cbAdf _ c | .debug c | .elementwise _ _ _ c => c.ProbsOn Q R

/-- What is known of a prediction: scores belong to the actions and satisfy `Q`. -/
def GoodScores (Q : F → Prop) (ft : Features F) (p : Prediction F) : Prop :=
  ∀ sc, p = .actionScores sc → sc.map (·.1) = List.range ft.actionList.length ∧ ∀ x ∈ sc, Q x.2

theorem asScalar_of_ty {p : Prediction F} (h : p.ty = .scalar) : ∃ x, p.asScalar = .ok x := by
  cases p <;> simp [Prediction.ty] at h
  exact ⟨_, rfl⟩

theorem asScores_of_ty {p : Prediction F} (h : p.ty = .actionScores) : ∃ sc, p = .actionScores sc := by
  cases p <;> simp [Prediction.ty] at h
  exact ⟨_, rfl⟩

/-- A child of CbAdf that predicts on tame features. -/
theorem cbPredictLoop_safe {Q : F → Prop} {dbg : Bool} {nb : Nat} {childP : Features F → Depth → M (Prediction F × Features F × Depth)} (hn : Nice childP)
    (hc : ∀ f d, OkEx (.simple f) → Tame dbg nb f → d < 256 → ∃ p raw ft', childP (.simple f) d = .ok (.scalar p raw, ft', d) ∧ Q raw)
    {shared : Option (SparseFeatures F)} (hs : ∀ s, shared = some s → s.Plain ∧ Tame dbg nb s) (as : List (SparseFeatures F)) :
    ∀ (i : Nat) (d : Depth), d < 256 → (∀ a ∈ as, a.Plain ∧ Tame dbg nb a) →
      ∃ sc as', cbPredictLoop childP shared i as d = .ok (sc, as', d) ∧ sc.map (·.1) = List.range' i as.length ∧ ∀ x ∈ sc, Q x.2 := by
  induction as with
  | nil => intro i d _ _; exact ⟨[], [], rfl, rfl, by simp⟩
  | cons a as ih =>
    intro i d hd ha
    obtain ⟨a1, h1, h2, h3, h4⟩ := shared_step_plain (fun s h => (hs s h).1) (ha a (by simp)).1
    have ht1 : Tame dbg nb a1 := by
      cases hsh : shared with
      | none => rw [hsh] at h1; simp only [appendShared, Except.ok.injEq] at h1; rw [← h1]; exact (ha a (by simp)).2
      | some s =>
        rw [hsh] at h1
        exact (ha a (by simp)).2.append (hs s hsh).2 (ha a (by simp)).1.inv (hs s hsh).1.inv h1
    obtain ⟨p, raw, ft', h5, h6⟩ := hc a1 d ⟨h2, h3⟩ ht1 hd
    obtain ⟨_, a2, rfl, he⟩ := hn.restore h2 h3 hd h5
    obtain ⟨a3, h7, _⟩ := h4 a2 he
    obtain ⟨sc, as', h8, h9, h10⟩ := ih (i + 1) d hd (fun x hx => ha x (by simp [hx]))
    refine ⟨(i, raw) :: sc, a3 :: as', ?_, ?_, ?_⟩
    · unfold cbPredictLoop
      rw [h1, ok_bind, h5, ok_bind]
      simp only [Prediction.asScalar, Features.asSimple, ok_bind]
      rw [h7, ok_bind, h8, ok_bind]
    · simp [h9, List.range'_succ]
    · intro x hx
      rcases List.mem_cons.1 hx with rfl | hx
      · exact h6
      · exact h10 x hx

theorem greedyProbs_ok (e : F) {sc : List (Nat × F)} (hne : sc ≠ []) : ∃ out, greedyProbs e sc = .ok out := by
  have hb : ∃ b, argMin (sc.map (·.2)) = some b ∧ b < sc.length := by
    cases sc with
    | nil => exact absurd rfl hne
    | cons x xs =>
      refine ⟨_, rfl, ?_⟩
      have : ∀ (l : List F) (i best : Nat) (bv : F), best < i → argMinFrom i best bv l < i + l.length := by
        intro l
        induction l with
        | nil => intro i best bv h; simpa [argMinFrom] using h
        | cons y ys ih =>
          intro i best bv h
          unfold argMinFrom
          split
          · have := ih (i + 1) i y (by omega); simp only [List.length_cons]; omega
          · have := ih (i + 1) best bv (by omega); simp only [List.length_cons]; omega
      have := this (xs.map (·.2)) 1 0 x.2 (by omega)
      simp only [List.length_map] at this
      simp only [List.length_cons]
      omega
  obtain ⟨b, hb, hlt⟩ := hb
  unfold greedyProbs
  rw [hb]
  simp only [unwrapOpt, ok_bind]
  rw [List.getElem?_map, List.getElem?_eq_getElem hlt]
  exact ⟨_, rfl⟩

section stack
variable [LawfulCmp F]

theorem simple_of_ty {ft : Features F} (h : ft.ty = .sparseSimple) : ∃ f, ft = .simple f := by
  cases ft <;> simp [Features.ty] at h
  exact ⟨_, rfl⟩

theorem cb_of_ty {ft : Features F} (h : ft.ty = .sparseCBAdf) : ∃ f, ft = .cbAdf f := by
  cases ft <;> simp [Features.ty] at h
  exact ⟨_, rfl⟩

/-- What `predict_safe` shows of a stack. -/
def PredictSafe (G : Coin F → Prop) (Q : F → Prop) (R : List (Nat × F) → Prop) (dbg : Bool) (nb : Nat) (r : Red F) : Prop :=
  ∀ (s : r.State) (ft : Features F) (d : Depth), G (r.coinOf s) → Ready dbg ft → TameFt dbg nb ft → ft.ty = r.meta.types.inFeatures →
    (r.meta.types.outPrediction = .actionProbs → ft.actionList ≠ []) → d < 256 →
    ∃ p ft', r.predictImpl dbg s ft d = .ok (p, ft', d) ∧ GoodScores Q ft p ∧ (∀ a b, p = .scalar a b → Q b) ∧ ∀ ps, p = .actionProbs ps → R ps

theorem explore_safe {G : Coin F → Prop} {Q : F → Prop} {R : List (Nat × F) → Prop} {dbg : Bool} {nb : Nat} {r : Red F} {hash : HashFn} {g : GlobalConfig} {nma : Nat} {c : RedConfig F} {s0 : r.State}
    (hb : Built hash g nma c ⟨r, s0⟩) (hc : exploreTypes.checkOk r.meta.types = true) (ih : PredictSafe G Q R dbg nb r) (s : r.State) {ft : Features F}
    {d : Depth} (hg : G (r.coinOf s)) (hok : Ready dbg ft) (ht : TameFt dbg nb ft) (hty : ft.ty = .sparseCBAdf) (hne : ft.actionList ≠ [])
    (hd : d < 256) (f : List (Nat × F) → M (List (Nat × F)))
    (hf : ∀ sc : List (Nat × F), sc ≠ [] → sc.map (·.1) = List.range sc.length → (∀ x ∈ sc, Q x.2) → ∃ out, f sc = .ok out ∧ R out) :
    ∃ sc out ft', wrapCall dbg r.meta ft d 0 (r.predictImpl dbg s) = .ok (.actionScores sc, ft', d) ∧ f sc = .ok out ∧ R out := by
  have hc := checkOk_iff.1 hc
  simp only [exploreTypes, Option.some.injEq] at hc
  obtain ⟨p, ft', h1, h2, _⟩ := ih s ft d hg hok ht (by rw [hty]; exact hc.2.1) (by rw [← hc.2.2]; simp) hd
  have hp := ((hb.predict_typed dbg s) ft d (by rw [hty]; exact hc.2.1)).2 _ _ _ h1
  simp only at hp
  rw [← hc.2.2] at hp
  obtain ⟨sc, rfl⟩ := asScores_of_ty hp.1
  obtain ⟨h3, h4⟩ := h2 sc rfl
  have hlen : sc.length = ft.actionList.length := by
    have := congrArg List.length h3
    simpa using this
  have hne' : sc ≠ [] := by
    intro h
    rw [h] at hlen
    exact hne (List.length_eq_zero_iff.1 hlen.symm)
  obtain ⟨out, h5, h6⟩ := hf sc hne' (by rw [hlen]; exact h3) h4
  exact ⟨sc, out, ft', wrap_safe (predictImpl_nice dbg r hb.pairsOk s) r hok ht hd h1, h5, h6⟩

theorem predict_safe {G : Coin F → Prop} {Q : F → Prop} {R : List (Nat × F) → Prop} {dbg : Bool} {nb : Nat}
    (hG : ∀ c f, G c → f.Fits nb → ∃ p raw, c.predict dbg f = .ok (p, raw) ∧ Q raw) {hash : HashFn} {g : GlobalConfig} {nma : Nat} {c : RedConfig F} {x : (r : Red F) × r.State}
    (hb : Built hash g nma c x) (he : c.NoElementwise) (hp : c.ProbsOn Q R) : PredictSafe G Q R dbg nb x.1 := by
  induction hb with
  | coin _ =>
    intro s ft d hg hok ht hty _ hd
    obtain ⟨f, rfl⟩ := simple_of_ty hty
    obtain ⟨p, raw, h1, h2⟩ := hG _ _ hg (ht f (by simp [Features.objects])).fits
    refine ⟨.scalar p raw, .simple f, ?_, fun sc h => by simp at h, ?_, fun ps h => by simp at h⟩
    · unfold Red.predictImpl
      simp only [Features.asSimple, ok_bind]
      simp only [Red.coinOf] at h1
      rw [h1, ok_bind]
    · intro a b h
      simp only [Prediction.scalar.injEq] at h
      rw [← h.2]
      exact h2
  | @binary rc x hb hc ih =>
    intro s ft d hg hok ht hty _ hd
    have hc := checkOk_iff.1 hc
    simp only [binaryTypes, Option.some.injEq] at hc
    obtain ⟨p, ft', h1, h2, _, _⟩ := ih he hp s ft d hg hok ht hty (by rw [← hc.2.2]; simp) hd
    have hpt := ((hb.predict_typed dbg s) ft d hty).2 _ _ _ h1
    simp only at hpt
    rw [← hc.2.2] at hpt
    obtain ⟨y, h3⟩ := asScalar_of_ty hpt.1
    refine ⟨.binary (Flt.lt Flt.zero y.1), ft', ?_, fun sc h => by simp at h, fun a b h => by simp at h, fun ps h => by simp at h⟩
    unfold Red.predictImpl
    rw [wrap_safe (predictImpl_nice dbg x.1 hb.pairsOk s) x.1 hok ht hd h1, ok_bind]
    simp only
    rw [h3, ok_bind]
  | @cbAdf ty rc x hb hc ih =>
    intro s ft d hg hok ht hty _ hd
    have hc := checkOk_iff.1 hc
    simp only [cbAdfTypes, Option.some.injEq] at hc
    obtain ⟨f, rfl⟩ := cb_of_ty hty
    have hn := (predictImpl_nice dbg x.1 hb.pairsOk s.2).wrap dbg x.1.meta 0
    have hchild : ∀ f d, OkEx (.simple f) → Tame dbg nb f → d < 256 → ∃ p raw ft', wrapCall dbg x.1.meta (.simple f) d 0
        (x.1.predictImpl dbg s.2) = .ok (.scalar p raw, ft', d) ∧ Q raw := by
      intro f d hok ht hd
      have htf : TameFt dbg nb (.simple f) := by
        intro y hy
        simp only [Features.objects, List.mem_singleton] at hy
        subst hy
        exact ht
      obtain ⟨p, ft', h1, _, h3, _⟩ := ih he hp s.2 (.simple f) d hg hok.ready htf hc.2.1 (by rw [← hc.2.2]; simp) hd
      have hpt := ((hb.predict_typed dbg s.2) (.simple f) d hc.2.1).2 _ _ _ h1
      simp only at hpt
      rw [← hc.2.2] at hpt
      cases p <;> simp [Prediction.ty] at hpt
      exact ⟨_, _, ft', wrap_safe (predictImpl_nice dbg x.1 hb.pairsOk s.2) x.1 hok.ready htf hd h1, h3 _ _ rfl⟩
    obtain ⟨sc, as', h1, h2, h3⟩ := cbPredictLoop_safe (dbg := dbg) (nb := nb) hn hchild (shared := f.shared)
      (fun s hs => ⟨hok.plain.shared s hs, ht s (by simp [Features.objects, hs])⟩) f.actions 0 d hd
      (fun a ha => ⟨hok.plain.actions a ha, ht a (by simp [Features.objects, ha])⟩)
    refine ⟨.actionScores sc, .cbAdf ⟨f.shared, as'⟩, ?_, ?_, fun a b h => by simp at h, fun ps h => by simp at h⟩
    · unfold Red.predictImpl
      simp only [Features.asCb, ok_bind]
      rw [h1, ok_bind]
    · intro sc' h
      simp only [Prediction.actionScores.injEq] at h
      subst h
      exact ⟨by rw [h2, List.range_eq_range']; rfl, h3⟩
  | @greedy e rc x hb hc ih =>
    intro s ft d hg hok ht hty hne hd
    obtain ⟨sc, out, ft', h1, h2, h3⟩ := explore_safe hb hc (ih he hp.2) s hg hok ht hty (hne rfl) hd (greedyProbs e) hp.1
    refine ⟨.actionProbs out, ft', ?_, fun sc h => by simp at h, fun a b h => by simp at h, fun ps h => by simp only [Prediction.actionProbs.injEq] at h; rw [← h]; exact h3⟩
    unfold Red.predictImpl
    rw [h1, ok_bind]
    simp only [Prediction.asScores, ok_bind]
    rw [h2, ok_bind]
  | @softmax e lm rc x hb hc ih =>
    intro s ft d hg hok ht hty hne hd
    obtain ⟨sc, out, ft', h1, h2, h3⟩ := explore_safe hb hc (ih he hp.2) s.2 hg hok ht hty (hne rfl) hd (softmaxProbs lm e) hp.1
    refine ⟨.actionProbs out, ft', ?_, fun sc h => by simp at h, fun a b h => by simp at h, fun ps h => by simp only [Prediction.actionProbs.injEq] at h; rw [← h]; exact h3⟩
    unfold Red.predictImpl
    rw [h1, ok_bind]
    simp only [Prediction.asScores, ok_bind]
    rw [h2, ok_bind]
  | @squareCb e gs ge rc x _ hb hc ih =>
    intro s ft d hg hok ht hty hne hd
    obtain ⟨sc, out, ft', h1, h2, h3⟩ := explore_safe hb hc (ih he hp.2) s.2 hg hok ht hty (hne rfl) hd (squareCbProbs (squareCbGamma gs ge s.1) e) (hp.1 s.1)
    refine ⟨.actionProbs out, ft', ?_, fun sc h => by simp at h, fun a b h => by simp at h, fun ps h => by simp only [Prediction.actionProbs.injEq] at h; rw [← h]; exact h3⟩
    unfold Red.predictImpl
    rw [h1, ok_bind]
    simp only [Prediction.asScores, ok_bind]
    rw [h2, ok_bind]
  | @debug rc x hb hc ih =>
    intro s ft d hg hok ht hty hne hd
    obtain ⟨p, ft', h1, h2, h3, h4⟩ := ih he hp s ft d hg hok ht hty hne hd
    refine ⟨p, ft', ?_, h2, h3, h4⟩
    unfold Red.predictImpl
    exact wrap_safe (predictImpl_nice dbg x.1 hb.pairsOk s) x.1 hok ht hd h1
  | elementwise _ _ _ => exact he.elim

/-! ### Learning -/

/-- The label is fine for the example. -/
structure LabelFine (dbg : Bool) (mode : Option CBType) (ft : Features F) (l : Label F) : Prop where
  positive : dbg = true → ∀ cl, l = .cb cl → Flt.lt Flt.zero cl.probability = true
  chosen : mode = some .mtr → ∀ f cl, ft = .cbAdf f → l = .cb cl → f.shared.isSome = true ∧ cl.action < f.actions.length

theorem cbIpsLoop_safe {S : Type} {dbg : Bool} {nb : Nat} {childL : S → Features F → Label F → Depth → M (S × Features F × Depth)}
    (good : S → Prop) (hn : ∀ s l, Nice (fun ft d => childL s ft l d))
    (hc : ∀ s f l d, good s → OkEx (.simple f) → Tame dbg nb f → d < 256 → ∃ s' ft', childL s (.simple f) (.simple l) d = .ok (s', ft', d) ∧ good s')
    {shared : Option (SparseFeatures F)} (hs : ∀ s, shared = some s → s.Plain ∧ Tame dbg nb s) {label : CBLabel F}
    (hl : dbg = true → Flt.lt Flt.zero label.probability = true) (as : List (SparseFeatures F)) :
    ∀ (i : Nat) (s : S) (d : Depth), good s → d < 256 → (∀ a ∈ as, a.Plain ∧ Tame dbg nb a) →
      ∃ s' as', cbIpsLoop dbg childL shared label i as s d = .ok (s', as', d) := by
  induction as with
  | nil => intro i s d _ _ _; exact ⟨s, [], rfl⟩
  | cons a as ih =>
    intro i s d hg hd ha
    obtain ⟨a1, h1, h2, h3, h4⟩ := shared_step_plain (fun s h => (hs s h).1) (ha a (by simp)).1
    have ht1 : Tame dbg nb a1 := by
      cases hsh : shared with
      | none => rw [hsh] at h1; simp only [appendShared, Except.ok.injEq] at h1; rw [← h1]; exact (ha a (by simp)).2
      | some s =>
        rw [hsh] at h1
        exact (ha a (by simp)).2.append (hs s hsh).2 (ha a (by simp)).1.inv (hs s hsh).1.inv h1
    obtain ⟨lb, hlb⟩ : ∃ lb, ipsLabel dbg label i = .ok lb := by
      unfold ipsLabel
      split
      · have : debugAssert dbg (Flt.lt Flt.zero label.probability) = .ok () := by
          cases dbg with
          | false => rfl
          | true => rw [hl rfl]; rfl
        rw [this]
        exact ⟨_, rfl⟩
      · exact ⟨_, rfl⟩
    obtain ⟨s1, ft', h5, h6⟩ := hc s a1 lb d hg ⟨h2, h3⟩ ht1 hd
    obtain ⟨_, a2, rfl, he⟩ := (hn s (.simple lb)).restore h2 h3 hd h5
    obtain ⟨a3, h7, _⟩ := h4 a2 he
    obtain ⟨s2, as', h8⟩ := ih (i + 1) s1 d h6 hd (fun x hx => ha x (by simp [hx]))
    refine ⟨s2, a3 :: as', ?_⟩
    unfold cbIpsLoop
    rw [h1, ok_bind, hlb, ok_bind, h5, ok_bind]
    simp only [Features.asSimple, ok_bind]
    rw [h7, ok_bind, h8, ok_bind]

/-- What `learn_safe` shows of a stack. -/
def LearnSafe (dbg : Bool) (nb : Nat) (mode : Option CBType) (r : Red F) : Prop :=
  ∀ (s : r.State) (ft : Features F) (l : Label F) (d : Depth), CoinGood nb (r.coinOf s) → Ready dbg ft → TameFt dbg nb ft → ft.ty = r.meta.types.inFeatures →
    l.ty = r.meta.types.inLabel → LabelFine dbg mode ft l → d < 256 → ∃ s' ft', r.learnImpl dbg s ft l d = .ok (s', ft', d)

theorem labelFine_simple {dbg : Bool} {mode : Option CBType} {ft : Features F} {l : SimpleLabel F} : LabelFine dbg mode ft (.simple l) :=
  ⟨fun _ cl h => by simp at h, fun _ f cl _ h => by simp at h⟩

theorem learn_safe {dbg : Bool} {nb : Nat} (h01 : dbg = true → Flt.lt (Flt.zero : F) Flt.one = true) {hash : HashFn} {g : GlobalConfig} {nma : Nat}
    {c : RedConfig F} {x : (r : Red F) × r.State} (hb : Built hash g nma c x) (he : c.NoElementwise) : LearnSafe dbg nb c.cbMode x.1 := by
  induction hb with
  | coin _ =>
    intro s ft l d hg hok ht hty hlt hl hd
    obtain ⟨f, rfl⟩ := simple_of_ty hty
    cases l <;> simp [Label.ty, Red.meta, coinTypes] at hlt
    rename_i l
    obtain ⟨c', h1⟩ := CoinGood.learn hg dbg (ht f (by simp [Features.objects])).fits l.value l.weight
    refine ⟨c', .simple f, ?_⟩
    unfold Red.learnImpl
    simp only [Features.asSimple, Label.asSimple, ok_bind]
    simp only [Red.coinOf] at h1
    rw [h1, ok_bind]
  | @binary rc x hb hc ih =>
    intro s ft l d hg hok ht hty hlt hl hd
    have hc := checkOk_iff.1 hc
    simp only [binaryTypes, Option.some.injEq] at hc
    cases l <;> simp [Label.ty, Red.meta, binaryTypes] at hlt
    rename_i b
    obtain ⟨s', ft', h1⟩ := ih he s ft (.simple (binaryToSimple b)) d hg hok ht hty hc.1 labelFine_simple hd
    refine ⟨s', ft', ?_⟩
    unfold Red.learnImpl
    simp only [Label.asBinary, ok_bind]
    exact wrap_safe (learnImpl_nice dbg x.1 hb.pairsOk s _) x.1 hok ht hd h1
  | @cbAdf ty rc x hb hc ih =>
    intro s ft l d hg hok ht hty hlt hl hd
    have hc := checkOk_iff.1 hc
    simp only [cbAdfTypes, Option.some.injEq] at hc
    obtain ⟨f, rfl⟩ := cb_of_ty hty
    cases l <;> simp [Label.ty, Red.meta, cbAdfTypes] at hlt
    rename_i l
    have hchild : ∀ (s : x.1.State) (f : SparseFeatures F) (l : SimpleLabel F) (d : Depth), CoinGood nb (x.1.coinOf s) → OkEx (.simple f) →
        Tame dbg nb f → d < 256 → ∃ s' ft', wrapCall dbg x.1.meta (.simple f) d 0 (fun ft d => x.1.learnImpl dbg s ft (.simple l) d) =
          .ok (s', ft', d) ∧ CoinGood nb (x.1.coinOf s') := by
      intro s f l d hg hok ht hd
      have htf : TameFt dbg nb (.simple f) := by
        intro y hy
        simp only [Features.objects, List.mem_singleton] at hy
        subst hy
        exact ht
      obtain ⟨s', ft', h1⟩ := ih he s (.simple f) (.simple l) d hg hok.ready htf hc.2.1 hc.1 labelFine_simple hd
      exact ⟨s', ft', wrap_safe (learnImpl_nice dbg x.1 hb.pairsOk s _) x.1 hok.ready htf hd h1, hg.trains (learnImpl_trains dbg x.1 _ _ _ _ _ h1)⟩
    have hn : ∀ (s : x.1.State) (l : Label F), Nice (fun ft d => wrapCall dbg x.1.meta ft d 0 (fun ft d => x.1.learnImpl dbg s ft l d)) :=
      fun s l => (learnImpl_nice dbg x.1 hb.pairsOk s l).wrap dbg x.1.meta 0
    cases ty with
    | ips =>
      obtain ⟨s', as', h1⟩ := cbIpsLoop_safe (dbg := dbg) (nb := nb) (fun s => CoinGood nb (x.1.coinOf s)) hn hchild
        (shared := f.shared) (fun s hs => ⟨hok.plain.shared s hs, ht s (by simp [Features.objects, hs])⟩) (label := l)
        (fun h => hl.positive h l rfl) f.actions 0 s.2 d hg hd (fun a ha => ⟨hok.plain.actions a ha, ht a (by simp [Features.objects, ha])⟩)
      refine ⟨(s.1, s'), .cbAdf ⟨f.shared, as'⟩, ?_⟩
      unfold Red.learnImpl
      simp only [Features.asCb, Label.asCb, ok_bind]
      rw [h1, ok_bind]
    | mtr =>
      obtain ⟨hsh, hact⟩ := hl.chosen rfl f l rfl rfl
      obtain ⟨sh, hsh⟩ := Option.isSome_iff_exists.1 hsh
      have hm : f.actions[l.action] ∈ f.actions := List.getElem_mem hact
      obtain ⟨a1, h1, h2, h3, _, h4⟩ := append_remove_plain (hok.plain.shared sh hsh) (hok.plain.actions _ hm)
      have hta := ht sh (by simp [Features.objects, hsh])
      have htb := ht _ (by simp only [Features.objects, List.mem_append]; exact .inr hm)
      have ht1 := hta.append htb (hok.plain.shared sh hsh).inv (hok.plain.actions _ hm).inv h1
      obtain ⟨s', ft', h5, _⟩ := hchild s.2 a1 ⟨l.cost, mtrWeight ⟨s.1.actionSum + f.actions.length, s.1.eventSum + 1⟩ l.probability⟩ d hg ⟨h2, h3⟩ ht1 hd
      obtain ⟨_, a2, rfl, he⟩ := (hn s.2 _).restore h2 h3 hd h5
      obtain ⟨a3, h6, _⟩ := h4 a2 he
      refine ⟨((⟨s.1.actionSum + f.actions.length, s.1.eventSum + 1⟩ : MtrState), s'), .cbAdf ⟨some a3, f.actions⟩, ?_⟩
      unfold Red.learnImpl
      simp only [Features.asCb, Label.asCb, ok_bind]
      unfold cbMtrLearn
      rw [hsh]
      simp only [List.getElem?_eq_getElem hact, unwrapOpt, ok_bind]
      rw [h1, ok_bind, h5, ok_bind]
      simp only [Features.asSimple, ok_bind]
      rw [h6, ok_bind, ok_bind]
  | @greedy e rc x hb hc ih =>
    intro s ft l d hg hok ht hty hlt hl hd
    have hc := checkOk_iff.1 hc
    simp only [exploreTypes, Option.some.injEq] at hc
    obtain ⟨s', ft', h1⟩ := ih he s ft l d hg hok ht (hty.trans hc.2.1) (hlt.trans hc.1) hl hd
    refine ⟨s', ft', ?_⟩
    unfold Red.learnImpl
    exact wrap_safe (learnImpl_nice dbg x.1 hb.pairsOk s _) x.1 hok ht hd h1
  | @softmax e lm rc x hb hc ih =>
    intro s ft l d hg hok ht hty hlt hl hd
    have hc := checkOk_iff.1 hc
    simp only [exploreTypes, Option.some.injEq] at hc
    obtain ⟨s', ft', h1⟩ := ih he s.2 ft l d hg hok ht (hty.trans hc.2.1) (hlt.trans hc.1) hl hd
    refine ⟨(s.1, s'), ft', ?_⟩
    unfold Red.learnImpl
    rw [wrap_safe (learnImpl_nice dbg x.1 hb.pairsOk s.2 _) x.1 hok ht hd h1, ok_bind]
  | @squareCb e gs ge rc x _ hb hc ih =>
    intro s ft l d hg hok ht hty hlt hl hd
    have hc := checkOk_iff.1 hc
    simp only [exploreTypes, Option.some.injEq] at hc
    cases l <;> simp [Label.ty, Red.meta, exploreTypes] at hlt
    rename_i l
    obtain ⟨s', ft', h1⟩ := ih he s.2 ft (.cb { l with probability := Flt.one }) d hg hok ht (hty.trans hc.2.1) hc.1
      ⟨fun h cl hcl => by simp only [Label.cb.injEq] at hcl; subst hcl; exact h01 h,
        fun hm f cl hf hcl => by simp only [Label.cb.injEq] at hcl; subst hcl; exact hl.chosen hm f l hf rfl⟩ hd
    refine ⟨(s.1 + 1, s'), ft', ?_⟩
    unfold Red.learnImpl
    simp only [Label.asCb, ok_bind]
    rw [wrap_safe (learnImpl_nice dbg x.1 hb.pairsOk s.2 _) x.1 hok ht hd h1, ok_bind]
  | @debug rc x hb hc ih =>
    intro s ft l d hg hok ht hty hlt hl hd
    obtain ⟨s', ft', h1⟩ := ih he s ft l d hg hok ht hty hlt hl hd
    refine ⟨s', ft', ?_⟩
    unfold Red.learnImpl
    exact wrap_safe (learnImpl_nice dbg x.1 hb.pairsOk s _) x.1 hok ht hd h1
  | elementwise _ _ _ => exact he.elim

end stack

end Rml
