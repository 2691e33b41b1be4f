import Verif.Lemmas.Cb
import Verif.Lemmas.Visit
import Verif.Props.Stack

/-! C30, C31, C33: what CbAdf predicts and learns. -/

set_option linter.unusedSectionVars false

namespace Rml
open SparseFeatures
variable {F : Type} [Flt F]

theorem pairsOk_base {w : Workspace F} (h : w.FromConfig) {m : Meta} {ty : CBType} {r : Red F} (hr : w.red = .cbAdf m ty r) : r.PairsOk := by
  have := h.pairsOk
  rw [hr] at this
  exact this

/-! ### C30 -/

/-- CbAdf's prediction lists the actions 0..n-1 in order. The score of action `i` is the raw prediction of the base for the features of the
action together with the shared ones, in the state the base is in before the call. -/
theorem C30_scores (dbg : Bool) {m : Meta} {ty : CBType} {r : Red F} (mt : MtrState) (s : r.State)
    (hw : Workspace.FromConfig ⟨.cbAdf m ty r, (mt, s)⟩) (f : CBAdfFeatures F) (hf : (Features.cbAdf f).Valid) {p : Prediction F}
    {ft' : Features F} (h : Workspace.predict dbg ⟨.cbAdf m ty r, (mt, s)⟩ (.cbAdf f) = .ok (p, ft')) :
    ∃ scores : List (Nat × F), p = .actionScores scores ∧ scores.map (·.1) = List.range f.actions.length ∧
      ∀ (i : Nat) (a : SparseFeatures F), f.actions[i]? = some a → ∃ pr raw : F, scores[i]? = some (i, raw) ∧ (∃ x : SparseFeatures F, x.MergeOf a f.shared) ∧
        ∀ x : SparseFeatures F, x.MergeOf a f.shared → ∃ y, Workspace.predict dbg ⟨r, s⟩ (.simple x) = .ok (.scalar pr raw, y) := by
  have hok := okEx_of_valid hf
  have hp := pairsOk_base hw rfl
  unfold Workspace.predict Red.predict at h
  obtain ⟨⟨p1, ft1, d1⟩, h1, h⟩ := bind_ok.1 h
  simp only [Except.ok.injEq, Prod.mk.injEq] at h
  obtain ⟨rfl, rfl⟩ := h
  obtain ⟨d1, d2, h2, h3, _, _⟩ := wrapCall_ok h1
  have := increment_zero h2
  subst this
  simp only [Red.predictImpl, Features.asCb] at h3
  rw [ok_bind] at h3
  obtain ⟨⟨sc, as, d3⟩, h4, h3⟩ := bind_ok.1 h3
  simp only [Except.ok.injEq, Prod.mk.injEq] at h3
  obtain ⟨rfl, _⟩ := h3
  refine ⟨sc, rfl, ?_, ?_⟩
  · have := (cbPredictLoop_ids _ _ _ h4).1
    simp only at this
    rw [this, List.range_eq_range']
  · intro i a ha
    have hn := (predictImpl_nice dbg r hp s).wrap dbg r.meta 0
    obtain ⟨a1, pr, raw, y, e1, e2, e3⟩ := cbPredictLoop_scores hn hok.shared f.actions 0 0 (by decide) hok.actions h4 i a ha
    have hmem : a ∈ f.actions := List.mem_of_getElem? ha
    obtain ⟨a1', g1, g2⟩ := appendShared_merge (shared := f.shared) (hf.2 a hmem).1 (fun s hs => (hf.1 s hs).1)
    rw [e1] at g1
    simp only [Except.ok.injEq] at g1
    subst g1
    obtain ⟨a1'', k1, k2, k3, _⟩ := shared_step hok.shared (hok.actions a hmem)
    rw [e1] at k1
    simp only [Except.ok.injEq] at k1
    subst k1
    refine ⟨pr, raw, by simpa using e3, ⟨a1, g2⟩, ?_⟩
    intro x hx
    have hpr : Workspace.predict dbg ⟨r, s⟩ (.simple a1) = .ok (.scalar pr raw, y) := by
      unfold Workspace.predict Red.predict
      simp only
      rw [e2, ok_bind]
    obtain ⟨_, gt', hg, _⟩ := ws_predict (ft := .simple a1) hp (w := ⟨r, s⟩) ⟨k2, k3⟩ (FtEqv.simple (g2.eqv hx)) hpr
    exact ⟨gt', hg⟩

/-- The score of an action does not depend on the other actions, their number, or its position. -/
theorem C30_independent (dbg : Bool) {m : Meta} {ty : CBType} {r : Red F} (mt : MtrState) (s : r.State)
    (hw : Workspace.FromConfig ⟨.cbAdf m ty r, (mt, s)⟩) (f g : CBAdfFeatures F) (hf : (Features.cbAdf f).Valid)
    (hg : (Features.cbAdf g).Valid) {sf sg : List (Nat × F)} {ft' gt' : Features F}
    (h : Workspace.predict dbg ⟨.cbAdf m ty r, (mt, s)⟩ (.cbAdf f) = .ok (.actionScores sf, ft'))
    (h' : Workspace.predict dbg ⟨.cbAdf m ty r, (mt, s)⟩ (.cbAdf g) = .ok (.actionScores sg, gt'))
    (hs : SharedSame f.shared g.shared)
    (i j : Nat) (a b : SparseFeatures F) (ha : f.actions[i]? = some a) (hb : g.actions[j]? = some b) (hab : a.SameAs b) :
    ∃ x, sf[i]? = some (i, x) ∧ sg[j]? = some (j, x) := by
  obtain ⟨_, e1, _, e2⟩ := C30_scores dbg mt s hw f hf h
  obtain ⟨_, e1', _, e2'⟩ := C30_scores dbg mt s hw g hg h'
  simp only [Prediction.actionScores.injEq] at e1 e1'
  subst e1 e1'
  obtain ⟨pr, raw, k1, ⟨x, hx⟩, k2⟩ := e2 i a ha
  obtain ⟨pr', raw', k1', _, k2'⟩ := e2' j b hb
  obtain ⟨y, hy⟩ := k2 x hx
  obtain ⟨y', hy'⟩ := k2' x (hx.congr hab hs)
  rw [hy] at hy'
  simp only [Except.ok.injEq, Prod.mk.injEq, Prediction.scalar.injEq] at hy'
  exact ⟨raw, k1, by rw [k1', hy'.1.2]⟩

/-! ### C31 -/

/-- In ips mode learning an event is learning one regression example per action, in order: cost / probability for the chosen action and 0
for the others, weight 1, features of the action together with the shared ones. -/
theorem C31_ips (dbg : Bool) {m : Meta} {r : Red F} (mt : MtrState) (s : r.State)
    (hw : Workspace.FromConfig ⟨.cbAdf m .ips r, (mt, s)⟩) (f : CBAdfFeatures F) (hf : (Features.cbAdf f).Valid) (l : CBLabel F)
    {w' : Workspace F} {ft' : Features F} (h : Workspace.learn dbg ⟨.cbAdf m .ips r, (mt, s)⟩ (.cbAdf f) (.cb l) = .ok (w', ft')) :
    ∃ s', w' = ⟨.cbAdf m .ips r, (mt, s')⟩ ∧
      (∃ xs : List (SparseFeatures F), List.Forall₂ (fun x a => x.MergeOf a f.shared) xs f.actions) ∧
      ∀ xs : List (SparseFeatures F), List.Forall₂ (fun x a => x.MergeOf a f.shared) xs f.actions →
        learnAll dbg ⟨r, s⟩ (xs.mapIdx (fun i x => (.simple x,
          .simple ⟨if i = l.action then Flt.div l.cost l.probability else Flt.zero, Flt.one⟩))) = .ok ⟨r, s'⟩ := by
  have hok := okEx_of_valid hf
  have hp := pairsOk_base hw rfl
  unfold Workspace.learn Red.learn at h
  obtain ⟨⟨s1, ft1, d1⟩, h1, h⟩ := bind_ok.1 h
  simp only [Except.ok.injEq, Prod.mk.injEq] at h
  obtain ⟨rfl, rfl⟩ := h
  obtain ⟨d1, d2, h2, h3, _, _⟩ := wrapCall_ok h1
  have := increment_zero h2
  subst this
  simp only [Red.learnImpl, Features.asCb, Label.asCb] at h3
  rw [ok_bind, ok_bind] at h3
  obtain ⟨⟨s2, as, d3⟩, h4, h3⟩ := bind_ok.1 h3
  simp only [Except.ok.injEq, Prod.mk.injEq] at h3
  obtain ⟨rfl, _⟩ := h3
  refine ⟨s2, rfl, ?_, ?_⟩
  · have : ∀ as : List (SparseFeatures F), (∀ a ∈ as, a.WF) → ∃ xs : List (SparseFeatures F), List.Forall₂ (fun x a => x.MergeOf a f.shared) xs as := by
      intro as
      induction as with
      | nil => intro _; exact ⟨[], .nil⟩
      | cons a as ih =>
        intro h
        obtain ⟨xs, hxs⟩ := ih (fun x hx => h x (by simp [hx]))
        obtain ⟨x, _, hx⟩ := appendShared_merge (shared := f.shared) (h a (by simp)) (fun s hs => (hf.1 s hs).1)
        exact ⟨x :: xs, .cons hx hxs⟩
    exact this _ (fun a ha => (hf.2 a ha).1)
  · intro xs hxs
    have := (cbIpsLoop_trains hp (fun s hs => ⟨hok.shared s hs, (hf.1 s hs).1⟩) f.actions 0 s
      (fun a ha => ⟨hok.actions a ha, (hf.2 a ha).1⟩) h4 xs hxs).1
    simpa only [Nat.zero_add] using this

/-- In mtr mode learning an event is learning one regression example: the cost of the chosen action, for the shared features together with
those of the chosen action, with the weight computed from the counters. -/
theorem C31_mtr (dbg : Bool) {m : Meta} {r : Red F} (mt : MtrState) (s : r.State)
    (hw : Workspace.FromConfig ⟨.cbAdf m .mtr r, (mt, s)⟩) (f : CBAdfFeatures F) (hf : (Features.cbAdf f).Valid) (l : CBLabel F)
    {w' : Workspace F} {ft' : Features F} (h : Workspace.learn dbg ⟨.cbAdf m .mtr r, (mt, s)⟩ (.cbAdf f) (.cb l) = .ok (w', ft')) :
    ∃ sh a s', f.shared = some sh ∧ f.actions[l.action]? = some a ∧
      w' = ⟨.cbAdf m .mtr r, (⟨mt.actionSum + f.actions.length, mt.eventSum + 1⟩, s')⟩ ∧
      (∃ x : SparseFeatures F, x.MergeOf sh (some a)) ∧
      ∀ x : SparseFeatures F, x.MergeOf sh (some a) → ∃ y, Workspace.learn dbg ⟨r, s⟩ (.simple x) (.simple ⟨l.cost,
        Flt.mul (Flt.div Flt.one l.probability)
          (Flt.div (Flt.ofNat (mt.eventSum + 1)) (Flt.ofNat (mt.actionSum + f.actions.length)))⟩) = .ok (⟨r, s'⟩, y) := by
  have hok := okEx_of_valid hf
  have hp := pairsOk_base hw rfl
  unfold Workspace.learn Red.learn at h
  obtain ⟨⟨s1, ft1, d1⟩, h1, h⟩ := bind_ok.1 h
  simp only [Except.ok.injEq, Prod.mk.injEq] at h
  obtain ⟨rfl, rfl⟩ := h
  obtain ⟨d1, d2, h2, h3, _, _⟩ := wrapCall_ok h1
  have := increment_zero h2
  subst this
  simp only [Red.learnImpl, Features.asCb, Label.asCb] at h3
  rw [ok_bind, ok_bind] at h3
  obtain ⟨⟨s2, f', d3⟩, h4, h3⟩ := bind_ok.1 h3
  simp only [Except.ok.injEq, Prod.mk.injEq] at h3
  obtain ⟨rfl, _⟩ := h3
  unfold cbMtrLearn at h4
  simp only at h4
  cases hsh : f.shared with
  | none => rw [hsh] at h4; simp at h4
  | some sh =>
    rw [hsh] at h4
    simp only at h4
    obtain ⟨a, h5, h4⟩ := bind_ok.1 h4
    obtain ⟨sh1, h6, h4⟩ := bind_ok.1 h4
    obtain ⟨⟨s3, ft3, d4⟩, h7, h4⟩ := bind_ok.1 h4
    obtain ⟨sh2, h8, h4⟩ := bind_ok.1 h4
    obtain ⟨sh3, h9, h4⟩ := bind_ok.1 h4
    simp only [Except.ok.injEq, Prod.mk.injEq] at h4
    obtain ⟨⟨rfl, rfl⟩, _⟩ := h4
    have ha : f.actions[l.action]? = some a := by
      cases hx : f.actions[l.action]? with
      | none => rw [hx] at h5; simp [unwrapOpt] at h5
      | some b => rw [hx] at h5; simp [unwrapOpt] at h5; rw [h5]
    have hmem : a ∈ f.actions := List.mem_of_getElem? ha
    obtain ⟨x0, g1, g2⟩ := append_merge (hf.1 sh hsh).1 (hf.2 a hmem).1
    rw [h6] at g1
    simp only [Except.ok.injEq] at g1
    subst g1
    obtain ⟨x1, k1, k2, k3, _⟩ := append_remove_clean (hok.shared sh hsh) (hok.actions a hmem)
    rw [h6] at k1
    simp only [Except.ok.injEq] at k1
    subst k1
    refine ⟨sh, a, s3, rfl, ha, rfl, ⟨sh1, g2⟩, ?_⟩
    intro x hx
    refine learn_congr (w := ⟨r, s⟩) (ft' := ft3) hp ⟨k2, k3⟩ (g2.eqv hx) ?_
    unfold Workspace.learn Red.learn
    simp only
    unfold mtrWeight at h7
    rw [h7, ok_bind]

/-- Number of actions of an example. -/
def Features.numActions : Features F → Nat
  | .simple _ => 0
  | .cbAdf f => f.actions.length

/-- The example a call works on. -/
def Call.example : Call F → Nat
  | .predict i => i
  | .learn i _ => i
  | .predictThenLearn i _ => i

theorem FtEqv.numActions {ft gt : Features F} (h : FtEqv ft gt) : ft.numActions = gt.numActions := by
  cases h with
  | simple _ => rfl
  | cb h => exact h.actions.length_eq

theorem mtr_learn_counters {dbg : Bool} {m : Meta} {r : Red F} {mt : MtrState} {s : r.State} {ft : Features F} {l : Label F}
    {d : Depth} {res : Red.State (.cbAdf m .mtr r) × Features F × Depth} (h : (Red.cbAdf m .mtr r).learnImpl dbg (mt, s) ft l d = .ok res) :
    res.1.1 = ⟨mt.actionSum + ft.numActions, mt.eventSum + 1⟩ := by
  simp only [Red.learnImpl] at h
  obtain ⟨f, h1, h⟩ := bind_ok.1 h
  obtain ⟨l, h2, h⟩ := bind_ok.1 h
  obtain ⟨⟨s', f', d'⟩, h3, h⟩ := bind_ok.1 h
  simp only [Except.ok.injEq] at h
  subst h
  have := asCb_ok h1
  subst this
  unfold cbMtrLearn at h3
  simp only at h3
  cases hsh : f.shared with
  | none => rw [hsh] at h3; simp at h3
  | some sh =>
    rw [hsh] at h3
    simp only at h3
    obtain ⟨a, _, h3⟩ := bind_ok.1 h3
    obtain ⟨sh1, _, h3⟩ := bind_ok.1 h3
    obtain ⟨⟨s3, ft3, d4⟩, _, h3⟩ := bind_ok.1 h3
    obtain ⟨sh2, _, h3⟩ := bind_ok.1 h3
    obtain ⟨sh3, _, h3⟩ := bind_ok.1 h3
    simp only [Except.ok.injEq, Prod.mk.injEq] at h3
    obtain ⟨⟨rfl, rfl⟩, _⟩ := h3
    rfl

theorem mtr_step {dbg : Bool} {m : Meta} {r : Red F} {mt : MtrState} {s : r.State} {ex : Nat → Features F} {c : Call F}
    {S' : Session F} {o : Option (Prediction F)} (hp : (Red.cbAdf m .mtr r).PairsOk) (hex : ∀ i, OkEx (ex i))
    (h : Session.step dbg ⟨⟨.cbAdf m .mtr r, (mt, s)⟩, ex⟩ c = .ok (S', o)) :
    ∃ s' ex', S' = ⟨⟨.cbAdf m .mtr r, (⟨mt.actionSum + (if c.isUpdate then (ex c.example).numActions else 0),
      mt.eventSum + (if c.isUpdate then 1 else 0)⟩, s')⟩, ex'⟩ ∧ ∀ i, FtEqv (ex' i) (ex i) := by
  have hput : ∀ {i : Nat} {ft : Features F} {S : Session F}, S.ex = ex → FtEqv ft (ex i) → ∀ (w : Workspace F) j, FtEqv ((S.put w i ft).ex j) (ex j) := by
    intro i ft S hS hft w j
    simp only [Session.put]
    split
    · rename_i hj; subst hj; exact hft
    · rw [hS]; exact (hex j).refl
  cases c with
  | predict i =>
    simp only [Session.step] at h
    obtain ⟨⟨p, ft⟩, h1, h⟩ := bind_ok.1 h
    simp only [Except.ok.injEq, Prod.mk.injEq] at h
    obtain ⟨rfl, _⟩ := h
    have := (ws_predict (w := ⟨.cbAdf m .mtr r, (mt, s)⟩) hp (hex i) (hex i).refl h1).1
    exact ⟨s, _, rfl, hput (S := ⟨⟨.cbAdf m .mtr r, (mt, s)⟩, ex⟩) rfl this ⟨.cbAdf m .mtr r, (mt, s)⟩⟩
  | learn i l =>
    simp only [Session.step] at h
    obtain ⟨⟨w', ft⟩, h1, h⟩ := bind_ok.1 h
    simp only [Except.ok.injEq, Prod.mk.injEq] at h
    obtain ⟨rfl, _⟩ := h
    have hft := (ws_learn (w := ⟨.cbAdf m .mtr r, (mt, s)⟩) hp (hex i) (hex i).refl h1).2.1
    unfold Workspace.learn at h1
    obtain ⟨⟨s1, ft1, d1⟩, h2, h1⟩ := bind_ok.1 h1
    simp only [Except.ok.injEq, Prod.mk.injEq] at h1
    obtain ⟨rfl, rfl⟩ := h1
    unfold Red.learn at h2
    obtain ⟨_, _, _, h3, _, _⟩ := wrapCall_ok h2
    have hc := mtr_learn_counters h3
    simp only at hc
    refine ⟨s1.2, _, ?_, hput (S := ⟨⟨.cbAdf m .mtr r, (mt, s)⟩, ex⟩) rfl hft ⟨.cbAdf m .mtr r, s1⟩⟩
    simp only [Session.put, Call.isUpdate, if_true, Call.example]
    rw [← hc]
  | predictThenLearn i l =>
    simp only [Session.step] at h
    obtain ⟨⟨p, w', ft⟩, h1, h⟩ := bind_ok.1 h
    simp only [Except.ok.injEq, Prod.mk.injEq] at h
    obtain ⟨rfl, _⟩ := h
    have hft := (ws_ptl (w := ⟨.cbAdf m .mtr r, (mt, s)⟩) hp (hex i) (hex i).refl h1).2.1
    unfold Workspace.predictThenLearn at h1
    obtain ⟨⟨⟨p1, s1⟩, ft1, d1⟩, h2, h1⟩ := bind_ok.1 h1
    simp only [Except.ok.injEq, Prod.mk.injEq] at h1
    obtain ⟨rfl, rfl, rfl⟩ := h1
    unfold Red.predictThenLearn at h2
    obtain ⟨d1, _, hd1, h3, _, _⟩ := wrapCall_ok h2
    simp only [Red.predictThenLearnImpl] at h3
    obtain ⟨_, ft2, _, h4, h3⟩ := defaultPtl_ok h3
    have hc := mtr_learn_counters h3
    have hd : d1 < 256 := increment_lt hd1
    have hn := ((predictImpl_nice dbg (.cbAdf m .mtr r) hp (mt, s)).restoreOk (hex i) hd h4).2
    rw [hn.numActions] at hc
    simp only at hc
    refine ⟨s1.2, _, ?_, hput (S := ⟨⟨.cbAdf m .mtr r, (mt, s)⟩, ex⟩) rfl hft ⟨.cbAdf m .mtr r, s1⟩⟩
    simp only [Session.put, Call.isUpdate, if_true, Call.example]
    rw [← hc]

/-- The total number of actions in the events learned by a list of calls. -/
def actionsLearned (ex : Nat → Features F) (calls : List (Call F)) : Nat :=
  (calls.map (fun c => if c.isUpdate then (ex c.example).numActions else 0)).sum

theorem mtr_run {dbg : Bool} {m : Meta} {r : Red F} (hp : (Red.cbAdf m .mtr r).PairsOk) (cs : List (Call F)) : ∀ {mt : MtrState}
    {s : r.State} {ex : Nat → Features F} {S' : Session F} {outs : List (Call F × Option (Prediction F))}, (∀ i, OkEx (ex i)) →
    Session.run dbg ⟨⟨.cbAdf m .mtr r, (mt, s)⟩, ex⟩ cs = .ok (S', outs) →
    ∃ s' ex', S' = ⟨⟨.cbAdf m .mtr r, (⟨mt.actionSum + actionsLearned ex cs, mt.eventSum + cs.countP Call.isUpdate⟩, s')⟩, ex'⟩ := by
  induction cs with
  | nil => intro mt s ex S' outs _ h; simp [Session.run] at h; exact ⟨s, ex, h.1.symm⟩
  | cons c cs ih =>
    intro mt s ex S' outs hex h
    unfold Session.run at h
    obtain ⟨⟨S1, o⟩, h1, h⟩ := bind_ok.1 h
    obtain ⟨⟨S2, os⟩, h2, h⟩ := bind_ok.1 h
    simp only [Except.ok.injEq, Prod.mk.injEq] at h
    obtain ⟨rfl, _⟩ := h
    obtain ⟨s1, ex1, rfl, he⟩ := mtr_step hp hex h1
    obtain ⟨s2, ex2, rfl⟩ := ih (fun i => (hex i).of_eqv (he i).symm) h2
    refine ⟨s2, ex2, ?_⟩
    have : actionsLearned ex1 cs = actionsLearned ex cs := by
      unfold actionsLearned
      congr 2
      funext c
      rw [(he c.example).numActions]
    rw [this, List.countP_cons, Nat.add_assoc, Nat.add_assoc, Nat.add_comm (List.countP _ _)]
    simp only [actionsLearned, List.map_cons, List.sum_cons]

/-- The weight of an event in mtr mode, over the whole history: `(1 / probability) * events / actions`, where `events` counts the events
learned since the workspace was created, including this one, and `actions` all their actions. -/
theorem C31_mtr_history (dbg : Bool) (hash : HashFn) (g : GlobalConfig) (rc : RedConfig F) (w : Workspace F)
    (hw : Workspace.new hash g (.cbAdf .mtr rc) = .ok w) (ex : Nat → Features F) (hex : ∀ i, (ex i).Valid) (calls : List (Call F))
    (S : Session F) (outs : List (Call F × Option (Prediction F))) (hrun : Session.run dbg ⟨w, ex⟩ calls = .ok (S, outs))
    (f : CBAdfFeatures F) (hf : (Features.cbAdf f).Valid) (l : CBLabel F) (w' : Workspace F) (ft' : Features F)
    (h : S.w.learn dbg (.cbAdf f) (.cb l) = .ok (w', ft')) :
    ∃ (m : Meta) (r : Red F) (mt mt' : MtrState) (s s' : r.State) (sh a x : SparseFeatures F) (y : Features F),
      S.w = ⟨.cbAdf m .mtr r, (mt, s)⟩ ∧ w' = ⟨.cbAdf m .mtr r, (mt', s')⟩ ∧
      f.shared = some sh ∧ f.actions[l.action]? = some a ∧ x.MergeOf sh (some a) ∧
      Workspace.learn dbg ⟨r, s⟩ (.simple x) (.simple ⟨l.cost, Flt.mul (Flt.div Flt.one l.probability)
        (Flt.div (Flt.ofNat (calls.countP Call.isUpdate + 1)) (Flt.ofNat (actionsLearned ex calls + f.actions.length)))⟩) =
          .ok (⟨r, s'⟩, y) := by
  have hb := built_of_new hw
  obtain ⟨red, st⟩ := w
  simp only at hb
  cases hb with
  | @cbAdf _ _ x hb hc =>
    have hpx := hb.pairsOk
    obtain ⟨s, ex', rfl⟩ := mtr_run (r := x.1) hpx calls (fun i => okEx_of_valid (hex i)) hrun
    have hfc : Workspace.FromConfig (F := F) ⟨.cbAdf ⟨"CbAdf", cbAdfTypes, 1⟩ .mtr x.1,
        (⟨0 + actionsLearned ex calls, 0 + calls.countP Call.isUpdate⟩, s)⟩ := ⟨hash, g, _, _, hw, rfl⟩
    obtain ⟨sh, a, s', k1, k2, k3, ⟨y0, k4⟩, k5⟩ := C31_mtr dbg _ s hfc f hf l h
    obtain ⟨y, k6⟩ := k5 y0 k4
    refine ⟨_, x.1, _, _, s, s', sh, a, y0, y, rfl, k3, k1, k2, k4, ?_⟩
    rw [Nat.zero_add, Nat.zero_add] at k6
    exact k6

section examples
attribute [local instance] intFlt

/-- CbAdf over Coin. -/
def tinyAdf (ty : CBType) : RedConfig Int := .cbAdf ty (.coin CoinConfig.dflt)

/-- The hypotheses of C30 and C31 are met. -/
example (ty : CBType) : ∃ (m : Meta) (r : Red Int) (mt : MtrState) (s : r.State),
    Workspace.FromConfig ⟨.cbAdf m ty r, (mt, s)⟩ ∧ tinyCb.Valid ∧
    returned (Workspace.predict true ⟨.cbAdf m ty r, (mt, s)⟩ tinyCb) = true ∧
    returned (Workspace.learn true ⟨.cbAdf m ty r, (mt, s)⟩ tinyCb (.cb ⟨1, 3, 1⟩)) = true := by
  cases ty with
  | ips =>
    refine ⟨_, _, _, _, ⟨tinyHash, tinyGlobal, tinyAdf .ips, _, rfl, rfl⟩, tinyCb_valid, ?_, ?_⟩
    · decide +kernel
    · decide +kernel
  | mtr =>
    refine ⟨_, _, _, _, ⟨tinyHash, tinyGlobal, tinyAdf .mtr, _, rfl, rfl⟩, tinyCb_valid, ?_, ?_⟩
    · decide +kernel
    · decide +kernel

end examples

end Rml
