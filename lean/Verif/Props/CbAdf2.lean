import Verif.Props.CbAdf
import Verif.Props.Visit
import Verif.Lemmas.Field
import Mathlib.Data.List.Perm.Basic
import Mathlib.Algebra.BigOperators.Group.List.Basic

/-! C32, C33: features used for learning and predicting, and examples without shared features. -/

set_option linter.unusedSectionVars false

namespace Rml
open SparseFeatures
variable {F : Type}

/-! ### C32 -/

theorem activeFeats_report (f : SparseFeatures F) (ns : Namespace) : activeFeats f ns = (f.report ns).getD [] := by
  unfold activeFeats SparseFeatures.report SparseFeatures.getNamespace NsFeats.iter
  cases lookup f.entries ns with
  | none => rfl
  | some n => by_cases h : n.active <;> simp [h]

/-- Two containers that hold the same features in every namespace, up to order. -/
def PermEqv (f g : SparseFeatures F) : Prop :=
  ∀ ns, ((f.report ns).isSome = (g.report ns).isSome) ∧ ((f.report ns).getD []).Perm ((g.report ns).getD [])

theorem merge_comm {x y a s : SparseFeatures F} (hx : x.MergeOf s (some a)) (hy : y.MergeOf a (some s)) : PermEqv x y := by
  intro ns
  rw [hx.report, hy.report]
  simp only [Option.bind_some]
  cases s.report ns <;> cases a.report ns <;> simp [List.perm_append_comm]

theorem permEqv_all {f g : SparseFeatures F} (hf : f.WF) (hg : g.WF) (h : PermEqv f g) : f.allFeatures.Perm g.allFeatures := by
  obtain ⟨_, ⟨k, k1, k2, k3⟩, _⟩ := represents_of_wf hf
  obtain ⟨_, ⟨k', k1', k2', k3'⟩, _⟩ := represents_of_wf hg
  have : k = k' := eq_of_sorted_mem Namespace.rank k1 k1' (fun ns => by rw [k2, k2', (h ns).1])
  subst this
  rw [k3, k3']
  exact List.Perm.flatMap_left _ (fun ns _ => (h ns).2)

theorem permEqv_visited [Flt F] (c : PassCfg) (hq : ∀ p ∈ c.pairs, p.1 ≠ p.2) (hc : ∀ t ∈ c.triples, t.1 ≠ t.2.1 ∧ t.2.1 ≠ t.2.2)
    {f g : SparseFeatures F} (hf : f.WF) (hg : g.WF) (h : PermEqv f g) : (visited c f).Perm (visited c g) := by
  have ha : ∀ ns, (activeFeats f ns).Perm (activeFeats g ns) := fun ns => by
    rw [activeFeats_report, activeFeats_report]; exact (h ns).2
  unfold visited
  refine List.Perm.append (List.Perm.append (List.Perm.append (permEqv_all hf hg h) ?_) ?_) (List.Perm.refl _)
  · refine List.Perm.flatMap_left _ (fun p hp => ?_)
    obtain ⟨A, B⟩ := p
    rw [C13_quadratic_distinct _ f A B (hq _ hp), C13_quadratic_distinct _ g A B (hq _ hp)]
    exact ((ha A).product (ha B)).map _
  · refine List.Perm.flatMap_left _ (fun t ht => ?_)
    obtain ⟨A, B, C⟩ := t
    rw [C14_cubic_distinct_partial _ f A B C (hc _ ht).1 (hc _ ht).2, C14_cubic_distinct_partial _ g A B C (hc _ ht).1 (hc _ ht).2]
    exact ((ha A).product ((ha B).product (ha C))).map _

/-- C32 in ips mode, for every configuration: CbAdf predicts (`C30_scores`) and learns (`C31_ips`) with the features of the action
followed by the shared ones; all feature objects that hold these are visited in the same way, feature by feature. -/
theorem C32_ips [Flt F] (c : PassCfg) (a : SparseFeatures F) (shared : Option (SparseFeatures F)) (x y : SparseFeatures F)
    (hx : x.MergeOf a shared) (hy : y.MergeOf a shared) : visited c x = visited c y := by
  have he := hx.eqv hy
  exact visited_congr he.left he.right he.view c

/-- C32 in mtr mode, when no interaction names the same namespace twice in a row: learning (`C31_mtr`: shared features followed by those
of the action) and predicting (`C30_scores`: the other way round) visit the same features with the same values, each the same number of
times. Missing from the full property: interactions of a namespace with itself, where it is false (`C32_mtr_false`). -/
theorem C32_mtr_partial [Flt F] (c : PassCfg) (hq : ∀ p ∈ c.pairs, p.1 ≠ p.2)
    (hc : ∀ t ∈ c.triples, t.1 ≠ t.2.1 ∧ t.2.1 ≠ t.2.2) (a sh x y : SparseFeatures F)
    (hx : x.MergeOf sh (some a)) (hy : y.MergeOf a (some sh)) : (visited c x).Perm (visited c y) :=
  permEqv_visited c hq hc hx.wf hy.wf (merge_comm hx hy)

/-- The pass does not mind the order in exact arithmetic: a model whose interactions name different namespaces gives the example it learns
in mtr mode the same raw prediction as the one it predicts with. -/
theorem C32_mtr_raw_partial {K : Type} [Field K] [LinearOrder K] [Trans K] (dbg : Bool) (cn : Coin K)
    (hq : ∀ p ∈ cn.pass.pairs, p.1 ≠ p.2) (hc : ∀ t ∈ cn.pass.triples, t.1 ≠ t.2.1 ∧ t.2.1 ≠ t.2.2) (a sh x y : SparseFeatures K)
    (hx : x.MergeOf sh (some a)) (hy : y.MergeOf a (some sh)) (p q : K) (h1 : @Coin.rawSum K (fieldFlt K) dbg cn x = .ok p)
    (h2 : @Coin.rawSum K (fieldFlt K) dbg cn y = .ok q) : p = q := by
  let _ : Flt K := fieldFlt K
  have key : ∀ (l : List (U32 × K)) (acc r : K), (l.foldlM (fun (s : K) iv => do
      let wt ← cn.weights.weightAt dbg iv.1.toNat 0
      (.ok (Flt.add s (Flt.mul iv.2 wt)) : M K)) acc) = .ok r →
      (∀ iv ∈ l, ∃ wt, cn.weights.weightAt dbg iv.1.toNat 0 = .ok wt) ∧
      r = acc + (l.map (fun iv => iv.2 * (match cn.weights.weightAt dbg iv.1.toNat 0 with | .ok wt => wt | .error _ => 0))).sum := by
    intro l
    induction l with
    | nil => intro acc r h; simp [pure, Except.pure] at h; simp [h]
    | cons iv l ih =>
      intro acc r h
      rw [List.foldlM_cons] at h
      obtain ⟨a1, h1, h⟩ := bind_ok.1 h
      obtain ⟨wt, h2, h1⟩ := bind_ok.1 h1
      simp only [Except.ok.injEq] at h1
      obtain ⟨g1, g2⟩ := ih _ _ h
      refine ⟨?_, ?_⟩
      · intro jv hj
        rcases List.mem_cons.1 hj with rfl | hj
        · exact ⟨wt, h2⟩
        · exact g1 jv hj
      · rw [g2, ← h1, List.map_cons, List.sum_cons, h2]
        simp only [flt_add, flt_mul]
        ring
  unfold Coin.rawSum foreachFeature at h1 h2
  obtain ⟨_, e1⟩ := key _ _ _ h1
  obtain ⟨_, e2⟩ := key _ _ _ h2
  rw [e1, e2]
  congr 1
  exact ((C32_mtr_partial cn.pass hq hc a sh x y hx hy).map _).sum_eq

section examples
attribute [local instance] intFlt

/-- Two features in the default namespace. -/
def tinyTwo (i j : U32) (v u : Int) : SparseFeatures Int :=
  ⟨[(.default, ⟨.default, ⟨[i, j], 4⟩, ⟨[v, u], 4⟩, true⟩)]⟩

theorem tiny_merge (i j : U32) (v u : Int) : (tinyTwo i j v u).MergeOf (tinyFeat i v) (some (tinyFeat j u)) := by
  obtain ⟨m, h1, h2⟩ := append_merge (tinyFeat_wf i v).1 (tinyFeat_wf j u).1
  have : (tinyFeat i v).append (tinyFeat j u) = .ok (tinyTwo i j v u) := rfl
  rw [this] at h1
  simp only [Except.ok.injEq] at h1
  rw [h1]
  exact h2

/-- C32 fails in mtr mode for the interaction of a namespace with itself, if shared and action features are in that namespace: the
features learned are not the features predicted with. -/
theorem C32_mtr_false : ∃ (c : PassCfg) (a sh x y : SparseFeatures Int), (Features.cbAdf ⟨some sh, [a]⟩).Valid ∧
    x.MergeOf sh (some a) ∧ y.MergeOf a (some sh) ∧ ¬ (visited c x).Perm (visited c y) := by
  refine ⟨⟨[(.default, .default)], [], 18, false⟩, tinyFeat 2#32 1, tinyFeat 1#32 1, tinyTwo 1#32 2#32 1 1, tinyTwo 2#32 1#32 1 1,
    ⟨?_, ?_⟩, tiny_merge _ _ _ _, tiny_merge _ _ _ _, ?_⟩
  · intro s hs
    simp at hs
    subst hs
    exact tinyFeat_wf _ _
  · intro s hs
    simp at hs
    subst hs
    exact tinyFeat_wf _ _
  · decide +kernel

/-- The hypotheses of `C32_mtr_partial` are met, with an interaction. -/
example : (tinyTwo 1#32 2#32 1 1).MergeOf (tinyFeat 1#32 1) (some (tinyFeat 2#32 1)) ∧
    (tinyTwo 2#32 1#32 1 1).MergeOf (tinyFeat 2#32 1) (some (tinyFeat 1#32 1)) ∧
    ∀ p ∈ (⟨[(.default, .named 7#32)], [], 18, true⟩ : PassCfg).pairs, p.1 ≠ p.2 :=
  ⟨tiny_merge _ _ _ _, tiny_merge _ _ _ _, by decide⟩

end examples

/-! ### C33 -/

section c33
variable [Flt F]

theorem appendShared_none (a : SparseFeatures F) : appendShared none a = .ok a := rfl

theorem cbPredictLoop_runs {childP : Features F → Depth → M (Prediction F × Features F × Depth)} (d : Depth) (as : List (SparseFeatures F)) :
    ∀ i, (∀ a ∈ as, ∃ pr raw a', childP (.simple a) d = .ok (.scalar pr raw, .simple a', d)) →
    ∃ r, cbPredictLoop childP none i as d = .ok r ∧ r.2.2 = d ∧
      List.Forall₂ (fun a' a => ∃ pr raw, childP (.simple a) d = .ok (.scalar pr raw, .simple a', d)) r.2.1 as := by
  induction as with
  | nil => intro i _; exact ⟨_, rfl, rfl, .nil⟩
  | cons a as ih =>
    intro i h
    obtain ⟨pr, raw, a', h1⟩ := h a (by simp)
    obtain ⟨r, h2, h3, h4⟩ := ih (i + 1) (fun x hx => h x (by simp [hx]))
    refine ⟨((i, raw) :: r.1, a' :: r.2.1, r.2.2), ?_, h3, .cons ⟨pr, raw, h1⟩ h4⟩
    unfold cbPredictLoop
    rw [appendShared_none, ok_bind, h1, ok_bind]
    simp only [Prediction.asScalar, Features.asSimple]
    rw [ok_bind, ok_bind]
    simp only [removeShared]
    rw [ok_bind, h2, ok_bind]

/-- A wrapped call at offset 0 that returned passes the check of the enclosing wrapper. -/
theorem wrapCall_check {α : Type} {dbg : Bool} {m : Meta} {ft : Features F} {d : Depth} {off : Nat}
    {body : Features F → Depth → M (α × Features F × Depth)} {r : α × Features F × Depth}
    (h : wrapCall dbg m ft d off body = .ok r) : debugAssert dbg (r.2.1.absDiffEq ft Flt.epsilon) = .ok () := by
  unfold wrapCall at h
  obtain ⟨d1, _, h⟩ := bind_ok.1 h
  obtain ⟨⟨a, ft', d2⟩, _, h⟩ := bind_ok.1 h
  obtain ⟨d3, _, h⟩ := bind_ok.1 h
  obtain ⟨u, h4, h⟩ := bind_ok.1 h
  simp only [Except.ok.injEq] at h
  subst h
  exact h4

theorem wrapCall_intro {α : Type} {dbg : Bool} {r : Red F} {ft ft' : Features F} {d : Depth} (hd : d < 256) {a : α}
    {body : Features F → Depth → M (α × Features F × Depth)} (hb : body ft d = .ok (a, ft', d))
    (hc : debugAssert dbg (ft'.absDiffEq ft Flt.epsilon) = .ok ()) : wrapCall dbg r.meta ft d 0 body = .ok (a, ft', d) := by
  unfold wrapCall
  obtain ⟨h1, h2⟩ := C27_no_overflow dbg r d hd
  rw [h1, ok_bind, hb, ok_bind]
  simp only
  rw [h2, ok_bind, hc, ok_bind]

theorem debugAssert_cb {dbg : Bool} {as' as : List (SparseFeatures F)} (h : List.Forall₂ (fun a' a =>
    debugAssert dbg ((Features.simple a').absDiffEq (.simple a) Flt.epsilon) = .ok ()) as' as) :
    debugAssert dbg ((Features.cbAdf ⟨none, as'⟩).absDiffEq (.cbAdf ⟨none, as⟩) Flt.epsilon) = .ok () := by
  cases dbg with
  | false => rfl
  | true =>
    unfold debugAssert at h ⊢
    simp only [Bool.true_and, Features.absDiffEq] at h ⊢
    have : (CBAdfFeatures.absDiffEq (⟨none, as'⟩ : CBAdfFeatures F) ⟨none, as⟩ Flt.epsilon) = true := by
      unfold CBAdfFeatures.absDiffEq
      simp only [Bool.true_and, Bool.and_eq_true, decide_eq_true_eq]
      refine ⟨h.length_eq, ?_⟩
      induction h with
      | nil => rfl
      | @cons a' a _ _ h1 _ ih =>
        rw [List.zip_cons_cons, List.all_cons, ih, Bool.and_true]
        simp only
        cases hx : a'.absDiffEq a Flt.epsilon with
        | true => rfl
        | false => rw [hx] at h1; simp at h1
    rw [this]
    rfl

/-- C33, predicting: an example without shared features is accepted whenever the base learner accepts the actions. -/
theorem C33_predict (dbg : Bool) {m : Meta} {ty : CBType} {r : Red F} (mt : MtrState) (s : r.State)
    (hw : Workspace.FromConfig ⟨.cbAdf m ty r, (mt, s)⟩) (actions : List (SparseFeatures F))
    (hf : (Features.cbAdf ⟨none, actions⟩).Valid)
    (hb : ∀ a ∈ actions, ∃ (pr raw : F) (y : Features F), Workspace.predict dbg ⟨r, s⟩ (.simple a) = .ok (.scalar pr raw, y)) :
    ∃ p ft', Workspace.predict dbg ⟨.cbAdf m ty r, (mt, s)⟩ (.cbAdf ⟨none, actions⟩) = .ok (p, ft') := by
  have hok := okEx_of_valid hf
  have hp := pairsOk_base hw rfl
  have hn := (predictImpl_nice dbg r hp s).wrap dbg r.meta 0
  have hstep : ∀ a ∈ actions, ∃ pr raw a', wrapCall dbg r.meta (.simple a) 0 0 (r.predictImpl dbg s) = .ok (.scalar pr raw, .simple a', 0) := by
    intro a ha
    obtain ⟨pr, raw, y, h⟩ := hb a ha
    unfold Workspace.predict Red.predict at h
    obtain ⟨⟨p1, ft1, d1⟩, h1, h⟩ := bind_ok.1 h
    simp only [Except.ok.injEq, Prod.mk.injEq] at h
    obtain ⟨rfl, rfl⟩ := h
    have hcl := hok.actions a ha
    obtain ⟨hd, f', hf', _⟩ := hn.restore hcl.inv hcl.noRaw (by decide : (0 : Nat) < 256) h1
    subst hd hf'
    exact ⟨pr, raw, f', h1⟩
  obtain ⟨res, h1, h2, h3⟩ := cbPredictLoop_runs (childP := fun ft d => wrapCall dbg r.meta ft d 0 (r.predictImpl dbg s)) 0 actions 0 hstep
  refine ⟨.actionScores res.1, .cbAdf ⟨none, res.2.1⟩, ?_⟩
  unfold Workspace.predict Red.predict
  simp only
  rw [wrapCall_intro (r := .cbAdf m ty r) (by decide : (0 : Nat) < 256) (a := Prediction.actionScores res.1) (ft' := .cbAdf ⟨none, res.2.1⟩), ok_bind]
  · simp only [Red.predictImpl, Features.asCb]
    rw [ok_bind]
    simp only
    rw [h1, ok_bind, h2]
  · refine debugAssert_cb (h3.imp ?_)
    rintro a' a ⟨pr, raw, h⟩
    exact wrapCall_check h

theorem cbIpsLoop_runs {dbg : Bool} {r : Red F} (hp : r.PairsOk) {label : CBLabel F}
    (hl : dbg = true → Flt.lt Flt.zero label.probability = true) (as : List (SparseFeatures F)) : ∀ (i : Nat) (s : r.State) (w1 : Workspace F),
    (∀ a ∈ as, a.Clean) →
    learnAll dbg ⟨r, s⟩ (as.mapIdx (fun k m => (.simple m,
        .simple ⟨if i + k = label.action then Flt.div label.cost label.probability else Flt.zero, Flt.one⟩))) = .ok w1 →
    ∃ s1 as', w1 = ⟨r, s1⟩ ∧
      cbIpsLoop dbg (fun s ft l d => wrapCall dbg r.meta ft d 0 (fun ft d => r.learnImpl dbg s ft l d)) none label i as s 0 = .ok (s1, as', 0) ∧
      List.Forall₂ (fun a' a => debugAssert dbg ((Features.simple a').absDiffEq (.simple a) Flt.epsilon) = .ok ()) as' as := by
  induction as with
  | nil =>
    intro i s w1 _ h
    simp only [List.mapIdx_nil, learnAll, Except.ok.injEq] at h
    exact ⟨s, [], h.symm, rfl, .nil⟩
  | cons a as ih =>
    intro i s w1 hc h
    rw [List.mapIdx_cons] at h
    simp only [learnAll, Nat.add_zero] at h
    obtain ⟨⟨w2, y⟩, h1, h⟩ := bind_ok.1 h
    unfold Workspace.learn Red.learn at h1
    obtain ⟨⟨s1, ft1, d1⟩, h2, h1⟩ := bind_ok.1 h1
    simp only [Except.ok.injEq, Prod.mk.injEq] at h1
    obtain ⟨rfl, rfl⟩ := h1
    have hn := (learnImpl_nice dbg r hp s (.simple ⟨if i = label.action then Flt.div label.cost label.probability else Flt.zero, Flt.one⟩)).wrap
      dbg r.meta 0
    have hcl := hc a (by simp)
    obtain ⟨hd, f', hf', _⟩ := hn.restore hcl.inv hcl.noRaw (by decide : (0 : Nat) < 256) h2
    subst hd hf'
    have h' : learnAll dbg ⟨r, s1⟩ (as.mapIdx (fun k m => (.simple m,
        .simple ⟨if i + 1 + k = label.action then Flt.div label.cost label.probability else Flt.zero, Flt.one⟩))) = .ok w1 := by
      rw [← h]
      congr 2
      funext k m
      have : i + 1 + k = i + (k + 1) := by omega
      rw [this]
    obtain ⟨s2, as', rfl, g1, g2⟩ := ih (i + 1) s1 w1 (fun x hx => hc x (by simp [hx])) h'
    refine ⟨s2, f' :: as', rfl, ?_, .cons (wrapCall_check h2) g2⟩
    unfold cbIpsLoop
    rw [appendShared_none, ok_bind]
    have hlab : ipsLabel dbg label i = .ok ⟨if i = label.action then Flt.div label.cost label.probability else Flt.zero, Flt.one⟩ := by
      unfold ipsLabel
      split
      · cases dbg with
        | false => simp [debugAssert, SimpleLabel.ofF, bind, Except.bind]
        | true => simp [debugAssert, hl rfl, SimpleLabel.ofF, bind, Except.bind]
      · rfl
    rw [hlab, ok_bind]
    simp only at h2 ⊢
    rw [h2, ok_bind]
    simp only [Features.asSimple]
    rw [ok_bind]
    simp only [removeShared]
    rw [ok_bind, g1, ok_bind]

/-- C33, learning in ips mode: an example without shared features is learned whenever the base learner accepts the actions (and, in the
debug profile, the logged probability is positive). -/
theorem C33_learn_ips (dbg : Bool) {m : Meta} {r : Red F} (mt : MtrState) (s : r.State)
    (hw : Workspace.FromConfig ⟨.cbAdf m .ips r, (mt, s)⟩) (actions : List (SparseFeatures F))
    (hf : (Features.cbAdf ⟨none, actions⟩).Valid) (l : CBLabel F) (hl : dbg = true → Flt.lt Flt.zero l.probability = true) (w1 : Workspace F)
    (hb : learnAll dbg ⟨r, s⟩ (actions.mapIdx (fun i x => (.simple x,
      .simple ⟨if i = l.action then Flt.div l.cost l.probability else Flt.zero, Flt.one⟩))) = .ok w1) :
    ∃ w' ft', Workspace.learn dbg ⟨.cbAdf m .ips r, (mt, s)⟩ (.cbAdf ⟨none, actions⟩) (.cb l) = .ok (w', ft') := by
  have hok := okEx_of_valid hf
  have hp := pairsOk_base hw rfl
  obtain ⟨s1, as', rfl, g1, g2⟩ := cbIpsLoop_runs hp hl actions 0 s w1 hok.actions (by simpa only [Nat.zero_add] using hb)
  refine ⟨⟨.cbAdf m .ips r, (mt, s1)⟩, .cbAdf ⟨none, as'⟩, ?_⟩
  unfold Workspace.learn Red.learn
  simp only
  rw [wrapCall_intro (r := .cbAdf m .ips r) (by decide : (0 : Nat) < 256) (a := (mt, s1)) (ft' := .cbAdf ⟨none, as'⟩), ok_bind]
  · simp only [Red.learnImpl, Features.asCb, Label.asCb]
    rw [ok_bind, ok_bind]
    simp only
    rw [g1, ok_bind]
  · exact debugAssert_cb g2

/-- C33 fails for learning in mtr mode: an example without shared features always panics (`todo!()`). -/
theorem C33_learn_mtr_false (dbg : Bool) {m : Meta} {r : Red F} (mt : MtrState) (s : r.State) (actions : List (SparseFeatures F))
    (l : CBLabel F) :
    Workspace.learn dbg ⟨.cbAdf m .mtr r, (mt, s)⟩ (.cbAdf ⟨none, actions⟩) (.cb l) = .error .todo := by
  unfold Workspace.learn Red.learn wrapCall
  rw [(C27_no_overflow dbg (.cbAdf m .mtr r) 0 (by decide)).1]
  rfl

end c33

section examples
attribute [local instance] intFlt

/-- The hypotheses of C33 are met: an example without shared features that the base accepts. -/
example : ∃ (m : Meta) (r : Red Int) (mt : MtrState) (s : r.State),
    Workspace.FromConfig ⟨.cbAdf m .ips r, (mt, s)⟩ ∧ (Features.cbAdf ⟨none, [tinyFeat 2#32 1, tinyFeat 3#32 2]⟩ : Features Int).Valid ∧
    (∀ a ∈ [tinyFeat 2#32 1, tinyFeat 3#32 2], ∃ pr raw y, Workspace.predict true ⟨r, s⟩ (.simple a) = .ok (.scalar pr raw, y)) ∧
    returned (learnAll true ⟨r, s⟩ ([tinyFeat 2#32 1, tinyFeat 3#32 2].mapIdx (fun i x => (.simple x, .simple ⟨if i = 1 then 3 else 0, 1⟩)))) = true := by
  refine ⟨_, _, _, _, ⟨tinyHash, tinyGlobal, tinyAdf .ips, _, rfl, rfl⟩, ⟨by simp, ?_⟩, ?_, ?_⟩
  · intro a ha
    simp at ha
    rcases ha with rfl | rfl <;> exact tinyFeat_wf _ _
  · intro a ha
    simp at ha
    rcases ha with rfl | rfl
    · exact ⟨0, 0, .simple (tinyFeat 2#32 1), by decide +kernel⟩
    · exact ⟨0, 0, .simple (tinyFeat 3#32 2), by decide +kernel⟩
  · decide +kernel

end examples

end Rml
