import Verif.Props.Restore
import Verif.SpecTrain
import Verif.Lemmas.Loose

/-!
C26, exactly when it holds, for all models, those with ElementwiseInteraction included.
-/

set_option linter.unusedSectionVars false

namespace Rml
variable {F : Type} [Flt F]

namespace Restore
open SparseFeatures

/-- Well-formed and without composite namespaces. -/
structure Whole (f : SparseFeatures F) : Prop where
  wf : f.WF
  noRaw : ∀ ns, ns.isRaw = true → f.vw ns = noView

theorem Whole.plain {f : SparseFeatures F} (h : Whole f) : f.Plain :=
  ⟨h.wf.toInv0, fun ns hns => by rw [h.wf.inactive_empty ns hns], h.noRaw⟩

/-- `a2` looks like what is left of `a` after appending and removing `s`. -/
structure Near (s : Option (SparseFeatures F)) (a2 a : SparseFeatures F) : Prop where
  whole : Whole a2
  view : ∀ ns, a2.vw ns = match s with
    | some s => if (s.vw ns).2.2 then ((a.vw ns).1, (a.vw ns).2.1, !decide ((a.vw ns).1.length = 0)) else a.vw ns
    | none => a.vw ns

theorem near_step {s : Option (SparseFeatures F)} {a a1 a2 a3 : SparseFeatures F} (hs : ∀ t, s = some t → Whole t) (ha : Whole a)
    (h1 : appendShared s a = .ok a1) (he : Eqv a2 a1) (h3 : removeShared s a2 = .ok a3) : Near s a3 a := by
  cases s with
  | none =>
    cases h1
    cases h3
    refine ⟨⟨⟨he.left, fun ns hns => ?_⟩, fun ns hns => ?_⟩, he.view⟩
    · rw [he.view] at hns ⊢; exact ha.wf.inactive_empty ns hns
    · rw [he.view]; exact ha.noRaw ns hns
  | some s =>
    have hw := hs s rfl
    have hc := remove_congr he (Eqv.refl hw.wf.toInv0)
    have h3' : a2.remove s = .ok a3 := h3
    rw [h3'] at hc
    cases hb : a1.remove s with
    | error e => rw [hb] at hc; exact hc.elim
    | ok b =>
      rw [hb] at hc
      have hc : Eqv a3 b := hc
      obtain ⟨w2, v2⟩ := after_spec hw.wf ha.wf ⟨a1, h1, hb⟩
      have v3 : ∀ ns, a3.vw ns = if (s.vw ns).2.2 then ((a.vw ns).1, (a.vw ns).2.1, !decide ((a.vw ns).1.length = 0)) else a.vw ns :=
        fun ns => by rw [hc.view, v2]
      refine ⟨⟨⟨hc.left, fun ns hns => ?_⟩, fun ns hns => ?_⟩, v3⟩
      · rw [hc.view] at hns ⊢; exact w2.inactive_empty ns hns
      · rw [v3, hw.noRaw ns hns, ha.noRaw ns hns]; rfl

theorem near_same {s a a2 : SparseFeatures F} (hs : s.WF) (ha : a.WF) (h : Near (some s) a2 a) : a2.SameAs a ↔ a.NoneEmptied s := by
  obtain ⟨b1, b2, g1, g2, g3⟩ := C09_exact a s ha hs
  obtain ⟨w2, v2⟩ := after_spec hs ha ⟨b1, g1, g2⟩
  have e : a2.SameAs b2 := sameAs_of_vw h.whole.wf.toInv0 w2.toInv0 (fun ns => by rw [h.view, v2])
  exact ⟨fun q => g3.1 (same_trans (same_symm e) q), fun q => same_trans e (g3.2 q)⟩

theorem near_none {a a2 : SparseFeatures F} (ha : a.WF) (h : Near none a2 a) : a2.SameAs a := sameAs_of_vw h.whole.wf.toInv0 ha.toInv0 h.view

theorem near_twice {s : Option (SparseFeatures F)} {a a2 a3 : SparseFeatures F} (h : Near s a2 a) (h' : Near s a3 a2) : a3.SameAs a2 := by
  refine sameAs_of_vw h'.whole.wf.toInv0 h.whole.wf.toInv0 (fun ns => ?_)
  rw [h'.view]
  cases s with
  | none => rfl
  | some s =>
    simp only
    rw [h.view]
    simp only
    split <;> rfl

theorem near_predict_loop {childP : Features F → Depth → M (Prediction F × Features F × Depth)} (hn : Nice childP) {shared : Option (SparseFeatures F)}
    (hs : ∀ t, shared = some t → Whole t) :
    ∀ (as : List (SparseFeatures F)) (i : Nat) (d : Depth) (q : List (Nat × F) × List (SparseFeatures F) × Depth), d < 256 → (∀ a ∈ as, Whole a) →
    cbPredictLoop childP shared i as d = .ok q → List.Forall₂ (Near shared) q.2.1 as := by
  intro as
  induction as with
  | nil => intro i d q _ _ h; cases h; exact .nil
  | cons a as ih =>
    intro i d q hd ha h
    unfold cbPredictLoop at h
    obtain ⟨a1, h1, h⟩ := bind_ok.1 h
    obtain ⟨⟨p, ft, d1⟩, h2, h⟩ := bind_ok.1 h
    obtain ⟨b1, g1, g2, g3, _⟩ := shared_step_plain (fun t ht => (hs t ht).plain) (ha a (by simp)).plain
    rw [h1] at g1
    cases g1
    obtain ⟨rfl, a2, rfl, he⟩ := hn.restore g2 g3 hd h2
    obtain ⟨⟨_, raw⟩, _, h⟩ := bind_ok.1 h
    obtain ⟨a2', h4, h⟩ := bind_ok.1 h
    cases h4
    obtain ⟨a3, h5, h⟩ := bind_ok.1 h
    obtain ⟨⟨ps, as', d2⟩, h6, h⟩ := bind_ok.1 h
    cases h
    exact .cons (near_step hs (ha a (by simp)) h1 he h5) (ih _ _ _ hd (fun x hx => ha x (by simp [hx])) h6)

theorem near_ips_loop {S : Type} {dbg : Bool} {childL : S → Features F → Label F → Depth → M (S × Features F × Depth)}
    (hn : ∀ s l, Nice (fun ft d => childL s ft l d)) {shared : Option (SparseFeatures F)} (hs : ∀ t, shared = some t → Whole t) (label : CBLabel F) :
    ∀ (as : List (SparseFeatures F)) (i : Nat) (s : S) (d : Depth) (q : S × List (SparseFeatures F) × Depth), d < 256 → (∀ a ∈ as, Whole a) →
    cbIpsLoop dbg childL shared label i as s d = .ok q → List.Forall₂ (Near shared) q.2.1 as := by
  intro as
  induction as with
  | nil => intro i s d q _ _ h; cases h; exact .nil
  | cons a as ih =>
    intro i s d q hd ha h
    unfold cbIpsLoop at h
    obtain ⟨a1, h1, h⟩ := bind_ok.1 h
    obtain ⟨l, _, h⟩ := bind_ok.1 h
    obtain ⟨⟨s1, ft, d1⟩, h2, h⟩ := bind_ok.1 h
    obtain ⟨b1, g1, g2, g3, _⟩ := shared_step_plain (fun t ht => (hs t ht).plain) (ha a (by simp)).plain
    rw [h1] at g1
    cases g1
    obtain ⟨rfl, a2, rfl, he⟩ := (hn s (.simple l)).restore g2 g3 hd h2
    obtain ⟨a2', h4, h⟩ := bind_ok.1 h
    cases h4
    obtain ⟨a3, h5, h⟩ := bind_ok.1 h
    obtain ⟨⟨ps, as', d2⟩, h6, h⟩ := bind_ok.1 h
    cases h
    exact .cons (near_step hs (ha a (by simp)) h1 he h5) (ih _ _ _ _ hd (fun x hx => ha x (by simp [hx])) h6)

/-- All feature objects of an example are well-formed, without composite namespaces. -/
structure WholeCb (f : CBAdfFeatures F) : Prop where
  shared : ∀ t, f.shared = some t → Whole t
  actions : ∀ a ∈ f.actions, Whole a

theorem near_predict (dbg : Bool) (r : Red F) (hp : r.PairsOk) : ∀ (s : r.State) (f : CBAdfFeatures F) (d : Depth) (q : Prediction F × Features F × Depth),
    WholeCb f → d < 256 → r.predictImpl dbg s (.cbAdf f) d = .ok q → ∃ as, q.2.1 = .cbAdf ⟨f.shared, as⟩ ∧ List.Forall₂ (Near f.shared) as f.actions := by
  induction r with
  | coin _ =>
    intro s f d q _ _ h
    unfold Red.predictImpl at h
    obtain ⟨g, h1, _⟩ := bind_ok.1 h
    cases h1
  | binary _ r ih =>
    intro s f d q hf hd h
    unfold Red.predictImpl at h
    obtain ⟨⟨p, ft, d1⟩, h1, h⟩ := bind_ok.1 h
    obtain ⟨⟨a, b⟩, _, h⟩ := bind_ok.1 h
    cases h
    obtain ⟨_, _, hi, h2, _⟩ := wrapCall_ok h1
    have hh := ih hp s f _ _ hf (increment_lt hi) h2
    exact hh
  | cbAdf _ _ r ih =>
    intro s f d q hf hd h
    unfold Red.predictImpl at h
    obtain ⟨g, h1, h⟩ := bind_ok.1 h
    cases h1
    obtain ⟨⟨scores, as, d1⟩, h2, h⟩ := bind_ok.1 h
    cases h
    exact ⟨as, rfl, near_predict_loop ((predictImpl_nice dbg r hp s.2).wrap dbg r.meta 0) hf.shared f.actions 0 d _ hd hf.actions h2⟩
  | greedy _ _ r ih =>
    intro s f d q hf hd h
    unfold Red.predictImpl at h
    obtain ⟨⟨p, ft, d1⟩, h1, h⟩ := bind_ok.1 h
    obtain ⟨_, _, h⟩ := bind_ok.1 h
    obtain ⟨_, _, h⟩ := bind_ok.1 h
    cases h
    obtain ⟨_, _, hi, h2, _⟩ := wrapCall_ok h1
    have hh := ih hp s f _ _ hf (increment_lt hi) h2
    exact hh
  | softmax _ _ _ r ih =>
    intro s f d q hf hd h
    unfold Red.predictImpl at h
    obtain ⟨⟨p, ft, d1⟩, h1, h⟩ := bind_ok.1 h
    obtain ⟨_, _, h⟩ := bind_ok.1 h
    obtain ⟨_, _, h⟩ := bind_ok.1 h
    cases h
    obtain ⟨_, _, hi, h2, _⟩ := wrapCall_ok h1
    have hh := ih hp s.2 f _ _ hf (increment_lt hi) h2
    exact hh
  | squareCb _ _ _ _ r ih =>
    intro s f d q hf hd h
    unfold Red.predictImpl at h
    obtain ⟨⟨p, ft, d1⟩, h1, h⟩ := bind_ok.1 h
    obtain ⟨_, _, h⟩ := bind_ok.1 h
    obtain ⟨_, _, h⟩ := bind_ok.1 h
    cases h
    obtain ⟨_, _, hi, h2, _⟩ := wrapCall_ok h1
    have hh := ih hp s.2 f _ _ hf (increment_lt hi) h2
    exact hh
  | debug _ r ih =>
    intro s f d q hf hd h
    unfold Red.predictImpl at h
    obtain ⟨_, _, hi, h2, _⟩ := wrapCall_ok h
    have hh := ih hp s f _ _ hf (increment_lt hi) h2
    exact hh
  | elementwise =>
    intro s f d q hf hd h
    unfold Red.predictImpl at h
    simp [elementwiseWith, Features.asSimple, bind, Except.bind] at h

/-- What is left of an example after learning, by the mode. -/
def NearLeft (t : Option CBType) (f : CBAdfFeatures F) (k : Nat) (ft : Features F) : Prop :=
  match t with
  | some .ips => ∃ as, ft = .cbAdf ⟨f.shared, as⟩ ∧ List.Forall₂ (Near f.shared) as f.actions
  | some .mtr => ∃ s a s2, f.shared = some s ∧ f.actions[k]? = some a ∧ Near (some a) s2 s ∧ ft = .cbAdf ⟨some s2, f.actions⟩
  | none => False

theorem near_learn (dbg : Bool) (r : Red F) (hp : r.PairsOk) : ∀ (s : r.State) (f : CBAdfFeatures F) (l : CBLabel F) (d : Depth) (q : r.State × Features F × Depth),
    WholeCb f → d < 256 → r.learnImpl dbg s (.cbAdf f) (.cb l) d = .ok q → NearLeft r.cbMode f l.action q.2.1 := by
  induction r with
  | coin _ =>
    intro s f l d q _ _ h
    unfold Red.learnImpl at h
    obtain ⟨g, h1, _⟩ := bind_ok.1 h
    cases h1
  | binary _ r ih =>
    intro s f l d q _ _ h
    unfold Red.learnImpl at h
    obtain ⟨b, h1, h⟩ := bind_ok.1 h
    cases h1
  | cbAdf _ ty r ih =>
    intro s f l d q hf hd h
    unfold Red.learnImpl at h
    obtain ⟨g, h1, h⟩ := bind_ok.1 h
    cases h1
    obtain ⟨g, h1, h⟩ := bind_ok.1 h
    cases h1
    have hn : ∀ s l, Nice (fun ft d => wrapCall dbg r.meta ft d 0 (fun ft d => r.learnImpl dbg s ft l d)) :=
      fun s l => (learnImpl_nice dbg r hp s l).wrap dbg r.meta 0
    cases ty with
    | ips =>
      simp only at h
      obtain ⟨⟨s', as, d1⟩, h2, h⟩ := bind_ok.1 h
      cases h
      exact ⟨as, rfl, near_ips_loop hn hf.shared l f.actions 0 _ _ _ hd hf.actions h2⟩
    | mtr =>
      simp only at h
      obtain ⟨⟨s', f', d1⟩, h2, h⟩ := bind_ok.1 h
      cases h
      unfold cbMtrLearn at h2
      cases hs : f.shared with
      | none => rw [hs] at h2; cases h2
      | some sh =>
        rw [hs] at h2
        simp only at h2
        obtain ⟨a, h3, h2⟩ := bind_ok.1 h2
        obtain ⟨sh1, h4, h2⟩ := bind_ok.1 h2
        obtain ⟨⟨s1, ft, d2⟩, h5, h2⟩ := bind_ok.1 h2
        have hk : f.actions[l.action]? = some a := by
          cases hk : f.actions[l.action]? with
          | none => rw [hk] at h3; cases h3
          | some b => rw [hk] at h3; cases h3; rfl
        have hwa := hf.actions a (List.mem_of_getElem? hk)
        have hws := hf.shared sh hs
        obtain ⟨b1, g1, g2, g3, _⟩ := shared_step_plain (shared := some a) (fun t ht => by cases ht; exact hwa.plain) hws.plain
        have h4' : appendShared (some a) sh = .ok sh1 := h4
        rw [h4'] at g1
        cases g1
        obtain ⟨_, sh2, rfl, he⟩ := (hn _ _).restore g2 g3 hd h5
        obtain ⟨sh2', h7, h2⟩ := bind_ok.1 h2
        cases h7
        obtain ⟨sh3, h8, h2⟩ := bind_ok.1 h2
        cases h2
        exact ⟨sh, a, sh3, hs, hk, near_step (s := some a) (fun t ht => by cases ht; exact hwa) hws h4' he h8, rfl⟩
  | greedy _ _ r ih =>
    intro s f l d q hf hd h
    unfold Red.learnImpl at h
    obtain ⟨_, _, hi, h2, _⟩ := wrapCall_ok h
    have hh := ih hp s f _ _ _ hf (increment_lt hi) h2
    exact hh
  | softmax _ _ _ r ih =>
    intro s f l d q hf hd h
    unfold Red.learnImpl at h
    obtain ⟨⟨p, ft, d1⟩, h1, h⟩ := bind_ok.1 h
    cases h
    obtain ⟨_, _, hi, h2, _⟩ := wrapCall_ok h1
    have hh := ih hp s.2 f _ _ _ hf (increment_lt hi) h2
    exact hh
  | squareCb _ _ _ _ r ih =>
    intro s f l d q hf hd h
    unfold Red.learnImpl at h
    obtain ⟨cl, hl, h⟩ := bind_ok.1 h
    cases hl
    obtain ⟨⟨p, ft, d1⟩, h1, h⟩ := bind_ok.1 h
    cases h
    obtain ⟨_, _, hi, h2, _⟩ := wrapCall_ok h1
    have hh := ih hp s.2 f _ _ _ hf (increment_lt hi) h2
    exact hh
  | debug _ r ih =>
    intro s f l d q hf hd h
    unfold Red.learnImpl at h
    obtain ⟨_, _, hi, h2, _⟩ := wrapCall_ok h
    have hh := ih hp s f _ _ _ hf (increment_lt hi) h2
    exact hh
  | elementwise =>
    intro s f l d q hf hd h
    unfold Red.learnImpl at h
    simp [elementwiseWith, Features.asSimple, bind, Except.bind] at h

theorem whole_of_near {s : Option (SparseFeatures F)} {as as' : List (SparseFeatures F)} (h : List.Forall₂ (Near s) as' as) : ∀ a ∈ as', Whole a := by
  induction h with
  | nil => intro a ha; simp at ha
  | cons h1 _ ih =>
    intro a ha
    rcases List.mem_cons.1 ha with rfl | ha
    · exact h1.whole
    · exact ih a ha

theorem near_ptl (dbg : Bool) (r : Red F) (hp : r.PairsOk) : ∀ (s : r.State) (f : CBAdfFeatures F) (l : CBLabel F) (d : Depth) (off : Nat)
    (q : (Prediction F × r.State) × Features F × Depth), WholeCb f → d < 256 → r.predictThenLearnImpl dbg s (.cbAdf f) (.cb l) d off = .ok q →
    ∃ as, List.Forall₂ (Near f.shared) as f.actions ∧ NearLeft r.cbMode ⟨f.shared, as⟩ l.action q.2.1 := by
  have dflt : ∀ (r : Red F), r.PairsOk → ∀ (s : r.State) (f : CBAdfFeatures F) (l : CBLabel F) (d : Depth) (q : (Prediction F × r.State) × Features F × Depth),
      WholeCb f → d < 256 → defaultPredictThenLearn (r.predictImpl dbg s) (fun ft d => r.learnImpl dbg s ft (.cb l) d) (.cbAdf f) d = .ok q →
      ∃ as, List.Forall₂ (Near f.shared) as f.actions ∧ NearLeft r.cbMode ⟨f.shared, as⟩ l.action q.2.1 := by
    intro r hn s f l d q hf hd h
    unfold defaultPredictThenLearn at h
    obtain ⟨⟨p, ft1, d1⟩, h1, h⟩ := bind_ok.1 h
    obtain ⟨⟨s1, ft2, d2⟩, h2, h⟩ := bind_ok.1 h
    obtain ⟨_, _, h⟩ := bind_ok.1 h
    cases h
    obtain ⟨as, h3, h4⟩ := near_predict dbg r hn _ _ _ _ hf hd h1
    simp only at h3
    subst h3
    have hd1 : d1 = d := predictImpl_depth dbg r s _ _ _ _ _ hd h1
    have hd2 : d1 < 256 := by rw [hd1]; exact hd
    exact ⟨as, h4, near_learn dbg r hn s ⟨f.shared, as⟩ l d1 _ ⟨hf.shared, whole_of_near h4⟩ hd2 h2⟩
  induction r with
  | coin _ => intro s f l d off q hf hd h; unfold Red.predictThenLearnImpl at h; exact dflt _ hp s f l d q hf hd h
  | binary _ r ih =>
    intro s f l d off q hf hd h
    unfold Red.predictThenLearnImpl at h
    obtain ⟨b, h1, h⟩ := bind_ok.1 h
    cases h1
  | cbAdf _ ty r ih => intro s f l d off q hf hd h; unfold Red.predictThenLearnImpl at h; exact dflt _ hp s f l d q hf hd h
  | greedy _ _ r ih => intro s f l d off q hf hd h; unfold Red.predictThenLearnImpl at h; exact dflt _ hp s f l d q hf hd h
  | softmax _ _ _ r ih => intro s f l d off q hf hd h; unfold Red.predictThenLearnImpl at h; exact dflt _ hp s f l d q hf hd h
  | squareCb _ _ _ _ r ih => intro s f l d off q hf hd h; unfold Red.predictThenLearnImpl at h; exact dflt _ hp s f l d q hf hd h
  | debug _ r ih =>
    intro s f l d off q hf hd h
    unfold Red.predictThenLearnImpl at h
    obtain ⟨_, _, hi, h2, _⟩ := wrapCall_ok h
    have hh := ih hp s f _ _ _ _ hf (increment_lt hi) h2
    exact hh
  | elementwise =>
    intro s f l d off q hf hd h
    unfold Red.predictThenLearnImpl at h
    simp [elementwiseWith, Features.asSimple, bind, Except.bind] at h

theorem forall_near {s : SparseFeatures F} (hs : s.WF) {as as' : List (SparseFeatures F)} (ha : ∀ a ∈ as, a.WF) (h : List.Forall₂ (Near (some s)) as' as) :
    List.Forall₂ SparseFeatures.SameAs as' as ↔ ∀ a ∈ as, a.NoneEmptied s := by
  induction h with
  | nil => simp
  | @cons x y xs ys h1 _ ih =>
    rw [List.forall₂_cons, near_same hs (ha y (by simp)) h1, ih (fun a h => ha a (by simp [h]))]
    simp

theorem forall_near_none {as as' : List (SparseFeatures F)} (ha : ∀ a ∈ as, a.WF) (h : List.Forall₂ (Near none) as' as) : List.Forall₂ SparseFeatures.SameAs as' as := by
  induction h with
  | nil => exact .nil
  | cons h1 _ ih => exact .cons (near_none (ha _ (by simp)) h1) (ih (fun a h => ha a (by simp [h])))

theorem forall_near_twice {s : Option (SparseFeatures F)} {as as' : List (SparseFeatures F)} (h : List.Forall₂ (Near s) as' as) :
    ∀ as'', List.Forall₂ (Near s) as'' as' → List.Forall₂ SparseFeatures.SameAs as'' as' := by
  induction h with
  | nil => intro as'' h; cases h; exact .nil
  | cons h1 _ ih =>
    intro as'' h
    cases h with
    | cons h2 h3 => exact .cons (near_twice h1 h2) (ih _ h3)

theorem same_trans_left {as as' as'' : List (SparseFeatures F)} (h : List.Forall₂ SparseFeatures.SameAs as'' as') :
    List.Forall₂ SparseFeatures.SameAs as'' as ↔ List.Forall₂ SparseFeatures.SameAs as' as := by
  induction h generalizing as with
  | nil => exact Iff.rfl
  | cons h1 _ ih =>
    cases as with
    | nil => exact ⟨fun h => (nomatch h), fun h => (nomatch h)⟩
    | cons a as =>
      rw [List.forall₂_cons, List.forall₂_cons, ih]
      exact ⟨fun h => ⟨same_trans (same_symm h1) h.1, h.2⟩, fun h => ⟨same_trans h1 h.1, h.2⟩⟩

theorem near_actions_same (f : CBAdfFeatures F) (hf : WholeCb f) {as : List (SparseFeatures F)} (h : List.Forall₂ (Near f.shared) as f.actions) :
    (Features.cbAdf ⟨f.shared, as⟩ : Features F).SameAs (.cbAdf f) ↔ ∀ s, f.shared = some s → ∀ a ∈ f.actions, a.NoneEmptied s := by
  rw [show (Features.cbAdf f : Features F) = .cbAdf ⟨f.shared, f.actions⟩ from rfl, sharedSame_refl]
  cases hsh : f.shared with
  | none =>
    rw [hsh] at h
    simp [forall_near_none (fun a ha => (hf.actions a ha).wf) h]
  | some s =>
    rw [hsh] at h
    rw [forall_near (hf.shared s hsh).wf (fun a ha => (hf.actions a ha).wf) h]
    simp

theorem near_actions_same_twice (f : CBAdfFeatures F) (hf : WholeCb f) {as as' : List (SparseFeatures F)} (h : List.Forall₂ (Near f.shared) as f.actions)
    (h' : List.Forall₂ (Near f.shared) as' as) :
    (Features.cbAdf ⟨f.shared, as'⟩ : Features F).SameAs (.cbAdf f) ↔ ∀ s, f.shared = some s → ∀ a ∈ f.actions, a.NoneEmptied s := by
  rw [← near_actions_same f hf h, show (Features.cbAdf f : Features F) = .cbAdf ⟨f.shared, f.actions⟩ from rfl, sharedSame_refl, sharedSame_refl]
  exact same_trans_left (forall_near_twice h as' h')

end Restore

open Restore in
/-- C26, exactly when it holds, for every model and all contextual bandit examples with well-formed features. Predicting, and learning in ips mode, restores the example if and
only if no namespace of the shared features is visible but empty in one of the actions. Learning in mtr mode restores it if and only if no namespace of the chosen action is visible
but empty in the shared features. `predict_then_learn` restores it if and only if both calls do. -/
theorem C26_exact_all (dbg : Bool) (w : Workspace F) (hw : w.FromConfig) (f : CBAdfFeatures F) (hv : (Features.cbAdf f).Formed) :
    (∀ p ft', w.predict dbg (.cbAdf f) = .ok (p, ft') → (ft'.SameAs (.cbAdf f) ↔ ∀ s, f.shared = some s → ∀ a ∈ f.actions, a.NoneEmptied s)) ∧
    (w.red.cbMode = some .ips → ∀ l w' ft', w.learn dbg (.cbAdf f) (.cb l) = .ok (w', ft') →
      (ft'.SameAs (.cbAdf f) ↔ ∀ s, f.shared = some s → ∀ a ∈ f.actions, a.NoneEmptied s)) ∧
    (w.red.cbMode = some .mtr → ∀ l w' ft', w.learn dbg (.cbAdf f) (.cb l) = .ok (w', ft') →
      (ft'.SameAs (.cbAdf f) ↔ ∀ s a, f.shared = some s → f.actions[l.action]? = some a → s.NoneEmptied a)) ∧
    (w.red.cbMode = some .ips → ∀ l p w' ft', w.predictThenLearn dbg (.cbAdf f) (.cb l) = .ok (p, w', ft') →
      (ft'.SameAs (.cbAdf f) ↔ ∀ s, f.shared = some s → ∀ a ∈ f.actions, a.NoneEmptied s)) ∧
    (w.red.cbMode = some .mtr → ∀ l p w' ft', w.predictThenLearn dbg (.cbAdf f) (.cb l) = .ok (p, w', ft') →
      (ft'.SameAs (.cbAdf f) ↔ (∀ s, f.shared = some s → ∀ a ∈ f.actions, a.NoneEmptied s) ∧
        ∀ s a, f.shared = some s → f.actions[l.action]? = some a → s.NoneEmptied a)) := by
  have hpo := hw.pairsOk
  have hf : WholeCb f := ⟨fun s hs => ⟨(hv.1 s hs).1, noView_of_wf (hv.1 s hs).1 (hv.1 s hs).2⟩, fun a ha => ⟨(hv.2 a ha).1, noView_of_wf (hv.2 a ha).1 (hv.2 a ha).2⟩⟩
  have hl : ∀ l w' ft', w.learn dbg (.cbAdf f) (.cb l) = .ok (w', ft') → NearLeft w.red.cbMode f l.action ft' := by
    intro l w' ft' h
    unfold Workspace.learn Red.learn at h
    obtain ⟨⟨s, ft, d⟩, h1, h⟩ := bind_ok.1 h
    cases h
    obtain ⟨_, _, hi, h2, _⟩ := wrapCall_ok h1
    have hh := near_learn dbg w.red hpo _ _ _ _ _ hf (increment_lt hi) h2
    exact hh
  have hp : ∀ l p w' ft', w.predictThenLearn dbg (.cbAdf f) (.cb l) = .ok (p, w', ft') →
      ∃ as, List.Forall₂ (Near f.shared) as f.actions ∧ NearLeft w.red.cbMode ⟨f.shared, as⟩ l.action ft' := by
    intro l p w' ft' h
    unfold Workspace.predictThenLearn Red.predictThenLearn at h
    obtain ⟨⟨⟨p, s⟩, ft, d⟩, h1, h⟩ := bind_ok.1 h
    cases h
    obtain ⟨_, _, hi, h2, _⟩ := wrapCall_ok h1
    have hh := near_ptl dbg w.red hpo _ _ _ _ _ _ hf (increment_lt hi) h2
    exact hh
  refine ⟨fun p ft' h => ?_, fun hm l w' ft' h => ?_, fun hm l w' ft' h => ?_, fun hm l p w' ft' h => ?_, fun hm l p w' ft' h => ?_⟩
  · unfold Workspace.predict Red.predict at h
    obtain ⟨⟨p, ft, d⟩, h1, h⟩ := bind_ok.1 h
    cases h
    obtain ⟨_, _, hi, h2, _⟩ := wrapCall_ok h1
    have hcb := near_predict dbg w.red hpo _ _ _ _ hf (increment_lt hi) h2
    obtain ⟨as, h3, h4⟩ := hcb
    simp only at h3
    subst h3
    exact near_actions_same f hf h4
  · have := hl l w' ft' h
    rw [hm] at this
    obtain ⟨as, rfl, h4⟩ := this
    exact near_actions_same f hf h4
  · have := hl l w' ft' h
    rw [hm] at this
    obtain ⟨s, a, s2, h1, h2, h3, rfl⟩ := this
    have h4 := near_same (hf.actions a (List.mem_of_getElem? h2)).wf (hf.shared s h1).wf h3
    constructor
    · intro hsame s' a' hs' ha'
      rw [h1] at hs'
      cases hs'
      rw [h2] at ha'
      cases ha'
      simp only [Features.SameAs, h1] at hsame
      exact h4.1 hsame.1
    · intro hall
      simp only [Features.SameAs, h1]
      exact ⟨h4.2 (hall s a h1 h2), by simp [List.forall₂_same, same_refl]⟩
  · obtain ⟨as, h1, h2⟩ := hp l p w' ft' h
    rw [hm] at h2
    obtain ⟨as', rfl, h4⟩ := h2
    exact near_actions_same_twice f hf h1 h4
  · obtain ⟨as, h1, h2⟩ := hp l p w' ft' h
    rw [hm] at h2
    obtain ⟨s, a, s2, hsh, hk, h3, rfl⟩ := h2
    simp only at hsh hk
    rw [hsh] at h1
    have hws := (hf.shared s hsh).wf
    have hact := forall_near hws (fun a ha => (hf.actions a ha).wf) h1
    have hwa := (whole_of_near h1 a (List.mem_of_getElem? hk)).wf
    have h4 := near_same hwa hws h3
    have hsame : (Features.cbAdf ⟨some s2, as⟩ : Features F).SameAs (.cbAdf f) ↔ s2.SameAs s ∧ List.Forall₂ SparseFeatures.SameAs as f.actions := by
      simp only [Features.SameAs, hsh]
    rw [hsame, h4, hact]
    have hall : (∀ a ∈ f.actions, a.NoneEmptied s) → ∀ b, f.actions[l.action]? = some b → (s.NoneEmptied a ↔ s.NoneEmptied b) := by
      intro hh b hb
      have hf2 := hact.2 hh
      have h5 := List.forall₂_iff_get.1 hf2
      obtain ⟨i1, e1⟩ := List.getElem?_eq_some_iff.1 hk
      obtain ⟨i2, e2⟩ := List.getElem?_eq_some_iff.1 hb
      have h6 := h5.2 l.action i1 i2
      simp only [List.get_eq_getElem, e1, e2] at h6
      exact noneEmptied_congr h6
    have hex : ∃ b, f.actions[l.action]? = some b := by
      have hlen := h1.length_eq
      obtain ⟨i1, _⟩ := List.getElem?_eq_some_iff.1 hk
      exact ⟨_, List.getElem?_eq_getElem (by omega)⟩
    constructor
    · rintro ⟨q1, q2⟩
      refine ⟨fun s' hs' => ?_, fun s' b hs' hb => ?_⟩
      · rw [hsh] at hs'; cases hs'; exact q2
      · rw [hsh] at hs'; cases hs'; exact (hall q2 b hb).1 q1
    · rintro ⟨q1, q2⟩
      obtain ⟨b, hb⟩ := hex
      exact ⟨(hall (q1 s hsh) b hb).2 (q2 s b hsh hb), q1 s hsh⟩

/-- C26 for simple examples, for every model: the calls restore every example with well-formed features. -/
theorem C26_simple (dbg : Bool) (w : Workspace F) (hw : w.FromConfig) (f : SparseFeatures F) (hv : (Features.simple f).Formed) :
    (∀ p ft', w.predict dbg (.simple f) = .ok (p, ft') → ft'.SameAs (.simple f)) ∧
    (∀ l w' ft', w.learn dbg (.simple f) l = .ok (w', ft') → ft'.SameAs (.simple f)) ∧
    (∀ l p w' ft', w.predictThenLearn dbg (.simple f) l = .ok (p, w', ft') → ft'.SameAs (.simple f)) := by
  have hpo := hw.pairsOk
  have hr := noView_of_wf hv.1 hv.2
  have hs : ∀ {f' : SparseFeatures F}, Eqv f' f → (Features.simple f').SameAs (.simple f) := fun he => sameAs_of_vw he.left hv.1.toInv0 he.view
  refine ⟨fun p ft' h => ?_, fun l w' ft' h => ?_, fun l p w' ft' h => ?_⟩
  · unfold Workspace.predict Red.predict at h
    obtain ⟨⟨p, ft, d⟩, h1, h⟩ := bind_ok.1 h
    cases h
    obtain ⟨_, f', rfl, he⟩ := ((predictImpl_nice dbg w.red hpo _).wrap dbg w.red.meta 0).restore hv.1.toInv0 hr (show 0 < 256 by decide) h1
    exact hs he
  · unfold Workspace.learn Red.learn at h
    obtain ⟨⟨s, ft, d⟩, h1, h⟩ := bind_ok.1 h
    cases h
    obtain ⟨_, f', rfl, he⟩ := ((learnImpl_nice dbg w.red hpo _ l).wrap dbg w.red.meta 0).restore hv.1.toInv0 hr (show 0 < 256 by decide) h1
    exact hs he
  · unfold Workspace.predictThenLearn Red.predictThenLearn at h
    obtain ⟨⟨⟨p, s⟩, ft, d⟩, h1, h⟩ := bind_ok.1 h
    cases h
    obtain ⟨_, f', rfl, he⟩ := ((ptlImpl_nice dbg w.red hpo _ l 0).wrap dbg w.red.meta 0).restore hv.1.toInv0 hr (show 0 < 256 by decide) h1
    exact hs he

section examples
attribute [local instance] intFlt

/-- The configuration of a bandit with ElementwiseInteraction below it. -/
def nearConfig (t : CBType) : RedConfig Int := .cbAdf t (.elementwise .default .default true (.coin CoinConfig.dflt))

/-- `C26_exact_all` speaks of calls that return and restore the example, and of calls that return and do not, of models with ElementwiseInteraction. -/
example : ∃ w : Workspace Int, Workspace.new tinyHash tinyGlobal (nearConfig .ips) = .ok w ∧ w.FromConfig ∧ w.red.cbMode = some .ips ∧
    (w.predict false tinyCb).toBool = true ∧ (w.learn false tinyCb (.cb ⟨1, 3, 1⟩)).toBool = true ∧
    (w.predict false tinyEmpty).toBool = true ∧ (w.learn false tinyEmpty (.cb ⟨0, 3, 1⟩)).toBool = true :=
  ⟨_, rfl, ⟨tinyHash, tinyGlobal, nearConfig _, _, rfl, rfl⟩, rfl, by decide +kernel, by decide +kernel, by decide +kernel, by decide +kernel⟩
example : ∃ w : Workspace Int, Workspace.new tinyHash tinyGlobal (nearConfig .mtr) = .ok w ∧ w.FromConfig ∧ w.red.cbMode = some .mtr ∧
    (w.learn false tinyCb (.cb ⟨1, 3, 1⟩)).toBool = true ∧ (w.predictThenLearn false tinyCb (.cb ⟨1, 3, 1⟩)).toBool = true ∧
    (w.predictThenLearn false tinyEmpty (.cb ⟨0, 3, 1⟩)).toBool = true :=
  ⟨_, rfl, ⟨tinyHash, tinyGlobal, nearConfig _, _, rfl, rfl⟩, rfl, by decide +kernel, by decide +kernel, by decide +kernel⟩

/-- `C26_simple` speaks of a model with ElementwiseInteraction and of an example with a visible but empty namespace, on which all calls return. -/
example : ∃ w : Workspace Int, Workspace.new tinyHash tinyGlobal (.elementwise .default .default true (.coin CoinConfig.dflt)) = .ok w ∧
    (w.predict false (.simple ((tinyFeat 2#32 1).modifyOrCreate (.named 1#32) id))).toBool = true ∧
    (w.learn false (.simple ((tinyFeat 2#32 1).modifyOrCreate (.named 1#32) id)) (.simple ⟨3, 1⟩)).toBool = true ∧
    (w.predictThenLearn false (.simple ((tinyFeat 2#32 1).modifyOrCreate (.named 1#32) id)) (.simple ⟨3, 1⟩)).toBool = true :=
  ⟨_, rfl, by decide +kernel, by decide +kernel, by decide +kernel⟩

end examples

end Rml
