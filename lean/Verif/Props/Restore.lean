import Verif.Props.Stack
import Verif.SpecSafe

/-!
C26, exactly when it holds, for models without ElementwiseInteraction: a contextual bandit example is as before after a call if and only if no namespace
that is visible but empty meets a namespace of the other side.
-/

set_option linter.unusedSectionVars false

namespace Rml
variable {F : Type} [Flt F]

/-- No namespace of `b` is visible but empty in `a`. -/
def SparseFeatures.NoneEmptied (a b : SparseFeatures F) : Prop :=
  ∀ ns n m, b.getNamespace ns = some n → a.getNamespace ns = some m → m.size ≠ 0

namespace Restore
open SparseFeatures

/-- `a2` is what is left of `a` after appending and removing `s`. -/
def After (s : Option (SparseFeatures F)) (a2 a : SparseFeatures F) : Prop := ∃ a1, appendShared s a = .ok a1 ∧ removeShared s a1 = .ok a2

theorem predict_simple (dbg : Bool) (r : Red F) (hn : r.NoElementwise) : ∀ (s : r.State) (f : SparseFeatures F) (d : Depth) (q : Prediction F × Features F × Depth),
    r.predictImpl dbg s (.simple f) d = .ok q → q.2.1 = .simple f := by
  induction r with
  | coin _ =>
    intro s f d q h
    unfold Red.predictImpl at h
    obtain ⟨g, _, h⟩ := bind_ok.1 h
    obtain ⟨⟨p, raw⟩, _, h⟩ := bind_ok.1 h
    cases h
    rfl
  | binary _ r ih =>
    intro s f d q h
    unfold Red.predictImpl at h
    obtain ⟨⟨p, ft, d1⟩, h1, h⟩ := bind_ok.1 h
    obtain ⟨⟨a, b⟩, _, h⟩ := bind_ok.1 h
    cases h
    obtain ⟨_, _, _, h2, _⟩ := wrapCall_ok h1
    have hh := ih hn s f _ _ h2
    exact hh
  | cbAdf _ _ r ih =>
    intro s f d q h
    unfold Red.predictImpl at h
    obtain ⟨g, h1, _⟩ := bind_ok.1 h
    cases h1
  | greedy _ _ r ih =>
    intro s f d q h
    unfold Red.predictImpl at h
    obtain ⟨⟨p, ft, d1⟩, h1, h⟩ := bind_ok.1 h
    obtain ⟨_, _, h⟩ := bind_ok.1 h
    obtain ⟨_, _, h⟩ := bind_ok.1 h
    cases h
    obtain ⟨_, _, _, h2, _⟩ := wrapCall_ok h1
    have hh := ih hn s f _ _ h2
    exact hh
  | softmax _ _ _ r ih =>
    intro s f d q h
    unfold Red.predictImpl at h
    obtain ⟨⟨p, ft, d1⟩, h1, h⟩ := bind_ok.1 h
    obtain ⟨_, _, h⟩ := bind_ok.1 h
    obtain ⟨_, _, h⟩ := bind_ok.1 h
    cases h
    obtain ⟨_, _, _, h2, _⟩ := wrapCall_ok h1
    have hh := ih hn s.2 f _ _ h2
    exact hh
  | squareCb _ _ _ _ r ih =>
    intro s f d q h
    unfold Red.predictImpl at h
    obtain ⟨⟨p, ft, d1⟩, h1, h⟩ := bind_ok.1 h
    obtain ⟨_, _, h⟩ := bind_ok.1 h
    obtain ⟨_, _, h⟩ := bind_ok.1 h
    cases h
    obtain ⟨_, _, _, h2, _⟩ := wrapCall_ok h1
    have hh := ih hn s.2 f _ _ h2
    exact hh
  | debug _ r ih =>
    intro s f d q h
    unfold Red.predictImpl at h
    obtain ⟨_, _, _, h2, _⟩ := wrapCall_ok h
    have hh := ih hn s f _ _ h2
    exact hh
  | elementwise => exact hn.elim

theorem learn_simple (dbg : Bool) (r : Red F) (hn : r.NoElementwise) : ∀ (s : r.State) (f : SparseFeatures F) (l : Label F) (d : Depth) (q : r.State × Features F × Depth),
    r.learnImpl dbg s (.simple f) l d = .ok q → q.2.1 = .simple f := by
  induction r with
  | coin _ =>
    intro s f l d q h
    unfold Red.learnImpl at h
    obtain ⟨g, _, h⟩ := bind_ok.1 h
    obtain ⟨_, _, h⟩ := bind_ok.1 h
    obtain ⟨_, _, h⟩ := bind_ok.1 h
    cases h
    rfl
  | binary _ r ih =>
    intro s f l d q h
    unfold Red.learnImpl at h
    obtain ⟨b, _, h⟩ := bind_ok.1 h
    obtain ⟨_, _, _, h2, _⟩ := wrapCall_ok h
    have hh := ih hn s f _ _ _ h2
    exact hh
  | cbAdf _ _ r ih =>
    intro s f l d q h
    unfold Red.learnImpl at h
    obtain ⟨g, h1, _⟩ := bind_ok.1 h
    cases h1
  | greedy _ _ r ih =>
    intro s f l d q h
    unfold Red.learnImpl at h
    obtain ⟨_, _, _, h2, _⟩ := wrapCall_ok h
    have hh := ih hn s f _ _ _ h2
    exact hh
  | softmax _ _ _ r ih =>
    intro s f l d q h
    unfold Red.learnImpl at h
    obtain ⟨⟨p, ft, d1⟩, h1, h⟩ := bind_ok.1 h
    cases h
    obtain ⟨_, _, _, h2, _⟩ := wrapCall_ok h1
    have hh := ih hn s.2 f _ _ _ h2
    exact hh
  | squareCb _ _ _ _ r ih =>
    intro s f l d q h
    unfold Red.learnImpl at h
    obtain ⟨cl, _, h⟩ := bind_ok.1 h
    obtain ⟨⟨p, ft, d1⟩, h1, h⟩ := bind_ok.1 h
    cases h
    obtain ⟨_, _, _, h2, _⟩ := wrapCall_ok h1
    have hh := ih hn s.2 f _ _ _ h2
    exact hh
  | debug _ r ih =>
    intro s f l d q h
    unfold Red.learnImpl at h
    obtain ⟨_, _, _, h2, _⟩ := wrapCall_ok h
    have hh := ih hn s f _ _ _ h2
    exact hh
  | elementwise => exact hn.elim

theorem predict_loop {childP : Features F → Depth → M (Prediction F × Features F × Depth)}
    (hc : ∀ f d q, childP (.simple f) d = .ok q → q.2.1 = .simple f) (shared : Option (SparseFeatures F)) :
    ∀ (as : List (SparseFeatures F)) (i : Nat) (d : Depth) (q : List (Nat × F) × List (SparseFeatures F) × Depth),
    cbPredictLoop childP shared i as d = .ok q → List.Forall₂ (After shared) q.2.1 as := by
  intro as
  induction as with
  | nil => intro i d q h; cases h; exact .nil
  | cons a as ih =>
    intro i d q h
    unfold cbPredictLoop at h
    obtain ⟨a1, h1, h⟩ := bind_ok.1 h
    obtain ⟨⟨p, ft, d1⟩, h2, h⟩ := bind_ok.1 h
    have h3 := hc _ _ _ h2
    simp only at h3
    subst h3
    obtain ⟨⟨_, raw⟩, _, h⟩ := bind_ok.1 h
    obtain ⟨a2, h4, h⟩ := bind_ok.1 h
    cases h4
    obtain ⟨a3, h5, h⟩ := bind_ok.1 h
    obtain ⟨⟨ps, as', d2⟩, h6, h⟩ := bind_ok.1 h
    cases h
    exact .cons ⟨a1, h1, h5⟩ (ih _ _ _ h6)

theorem ips_loop {S : Type} {dbg : Bool} {childL : S → Features F → Label F → Depth → M (S × Features F × Depth)}
    (hc : ∀ s f l d q, childL s (.simple f) l d = .ok q → q.2.1 = .simple f) (shared : Option (SparseFeatures F)) (label : CBLabel F) :
    ∀ (as : List (SparseFeatures F)) (i : Nat) (s : S) (d : Depth) (q : S × List (SparseFeatures F) × Depth),
    cbIpsLoop dbg childL shared label i as s d = .ok q → List.Forall₂ (After shared) q.2.1 as := by
  intro as
  induction as with
  | nil => intro i s d q h; cases h; exact .nil
  | cons a as ih =>
    intro i s d q h
    unfold cbIpsLoop at h
    obtain ⟨a1, h1, h⟩ := bind_ok.1 h
    obtain ⟨l, _, h⟩ := bind_ok.1 h
    obtain ⟨⟨s1, ft, d1⟩, h2, h⟩ := bind_ok.1 h
    have h3 := hc _ _ _ _ _ h2
    simp only at h3
    subst h3
    obtain ⟨a2, h4, h⟩ := bind_ok.1 h
    cases h4
    obtain ⟨a3, h5, h⟩ := bind_ok.1 h
    obtain ⟨⟨ps, as', d2⟩, h6, h⟩ := bind_ok.1 h
    cases h
    exact .cons ⟨a1, h1, h5⟩ (ih _ _ _ _ h6)

theorem predict_cb (dbg : Bool) (r : Red F) (hn : r.NoElementwise) : ∀ (s : r.State) (f : CBAdfFeatures F) (d : Depth) (q : Prediction F × Features F × Depth),
    r.predictImpl dbg s (.cbAdf f) d = .ok q → ∃ as, q.2.1 = .cbAdf ⟨f.shared, as⟩ ∧ List.Forall₂ (After f.shared) as f.actions := by
  induction r with
  | coin _ =>
    intro s f d q h
    unfold Red.predictImpl at h
    obtain ⟨g, h1, _⟩ := bind_ok.1 h
    cases h1
  | binary _ r ih =>
    intro s f d q h
    unfold Red.predictImpl at h
    obtain ⟨⟨p, ft, d1⟩, h1, h⟩ := bind_ok.1 h
    obtain ⟨⟨a, b⟩, _, h⟩ := bind_ok.1 h
    cases h
    obtain ⟨_, _, _, h2, _⟩ := wrapCall_ok h1
    have hh := ih hn s f _ _ h2
    exact hh
  | cbAdf _ _ r ih =>
    intro s f d q h
    unfold Red.predictImpl at h
    obtain ⟨g, h1, h⟩ := bind_ok.1 h
    cases h1
    obtain ⟨⟨scores, as, d1⟩, h2, h⟩ := bind_ok.1 h
    cases h
    refine ⟨as, rfl, predict_loop (fun g d q h => ?_) f.shared f.actions 0 d _ h2⟩
    obtain ⟨_, _, _, h3, _⟩ := wrapCall_ok h
    have hh := predict_simple dbg r hn _ _ _ _ h3
    exact hh
  | greedy _ _ r ih =>
    intro s f d q h
    unfold Red.predictImpl at h
    obtain ⟨⟨p, ft, d1⟩, h1, h⟩ := bind_ok.1 h
    obtain ⟨_, _, h⟩ := bind_ok.1 h
    obtain ⟨_, _, h⟩ := bind_ok.1 h
    cases h
    obtain ⟨_, _, _, h2, _⟩ := wrapCall_ok h1
    have hh := ih hn s f _ _ h2
    exact hh
  | softmax _ _ _ r ih =>
    intro s f d q h
    unfold Red.predictImpl at h
    obtain ⟨⟨p, ft, d1⟩, h1, h⟩ := bind_ok.1 h
    obtain ⟨_, _, h⟩ := bind_ok.1 h
    obtain ⟨_, _, h⟩ := bind_ok.1 h
    cases h
    obtain ⟨_, _, _, h2, _⟩ := wrapCall_ok h1
    have hh := ih hn s.2 f _ _ h2
    exact hh
  | squareCb _ _ _ _ r ih =>
    intro s f d q h
    unfold Red.predictImpl at h
    obtain ⟨⟨p, ft, d1⟩, h1, h⟩ := bind_ok.1 h
    obtain ⟨_, _, h⟩ := bind_ok.1 h
    obtain ⟨_, _, h⟩ := bind_ok.1 h
    cases h
    obtain ⟨_, _, _, h2, _⟩ := wrapCall_ok h1
    have hh := ih hn s.2 f _ _ h2
    exact hh
  | debug _ r ih =>
    intro s f d q h
    unfold Red.predictImpl at h
    obtain ⟨_, _, _, h2, _⟩ := wrapCall_ok h
    have hh := ih hn s f _ _ h2
    exact hh
  | elementwise => exact hn.elim

/-- What is left of an example after learning, by the mode. -/
def Left (t : Option CBType) (f : CBAdfFeatures F) (k : Nat) (ft : Features F) : Prop :=
  match t with
  | some .ips => ∃ as, ft = .cbAdf ⟨f.shared, as⟩ ∧ List.Forall₂ (After f.shared) as f.actions
  | some .mtr => ∃ s a s2, f.shared = some s ∧ f.actions[k]? = some a ∧ After (some a) s2 s ∧ ft = .cbAdf ⟨some s2, f.actions⟩
  | none => False

theorem learn_cb (dbg : Bool) (r : Red F) (hn : r.NoElementwise) : ∀ (s : r.State) (f : CBAdfFeatures F) (l : CBLabel F) (d : Depth) (q : r.State × Features F × Depth),
    r.learnImpl dbg s (.cbAdf f) (.cb l) d = .ok q → Left r.cbMode f l.action q.2.1 := by
  induction r with
  | coin _ =>
    intro s f l d q h
    unfold Red.learnImpl at h
    obtain ⟨g, h1, _⟩ := bind_ok.1 h
    cases h1
  | binary _ r ih =>
    intro s f l d q h
    unfold Red.learnImpl at h
    obtain ⟨b, h1, h⟩ := bind_ok.1 h
    cases h1
  | cbAdf _ ty r ih =>
    intro s f l d q h
    unfold Red.learnImpl at h
    obtain ⟨g, h1, h⟩ := bind_ok.1 h
    cases h1
    obtain ⟨g, h1, h⟩ := bind_ok.1 h
    cases h1
    have hc : ∀ s f l d q, (fun s ft l d => wrapCall dbg r.meta ft d 0 (fun ft d => r.learnImpl dbg s ft l d)) s (.simple f) l d = .ok q → q.2.1 = .simple f := by
      intro s f l d q h
      obtain ⟨_, _, _, h3, _⟩ := wrapCall_ok h
      have hh := learn_simple dbg r hn _ _ _ _ _ h3
      exact hh
    cases ty with
    | ips =>
      simp only at h
      obtain ⟨⟨s', as, d1⟩, h2, h⟩ := bind_ok.1 h
      cases h
      exact ⟨as, rfl, ips_loop hc f.shared l f.actions 0 _ _ _ h2⟩
    | mtr =>
      simp only at h
      obtain ⟨⟨s', f', d1⟩, h2, h⟩ := bind_ok.1 h
      cases h
      unfold cbMtrLearn at h2
      cases hs : f.shared with
      | none => rw [hs] at h2; cases h2
      | some sh =>
        rw [hs] at h2
        simp only at h2
        obtain ⟨a, h3, h2⟩ := bind_ok.1 h2
        obtain ⟨sh1, h4, h2⟩ := bind_ok.1 h2
        obtain ⟨⟨s1, ft, d2⟩, h5, h2⟩ := bind_ok.1 h2
        have h6 := hc _ _ _ _ _ h5
        simp only at h6
        subst h6
        obtain ⟨sh2, h7, h2⟩ := bind_ok.1 h2
        cases h7
        obtain ⟨sh3, h8, h2⟩ := bind_ok.1 h2
        cases h2
        refine ⟨sh, a, sh3, hs, ?_, ⟨sh1, h4, h8⟩, rfl⟩
        cases hk : f.actions[l.action]? with
        | none => rw [hk] at h3; cases h3
        | some b => rw [hk] at h3; cases h3; rfl
  | greedy _ _ r ih =>
    intro s f l d q h
    unfold Red.learnImpl at h
    obtain ⟨_, _, _, h2, _⟩ := wrapCall_ok h
    have hh := ih hn s f _ _ _ h2
    exact hh
  | softmax _ _ _ r ih =>
    intro s f l d q h
    unfold Red.learnImpl at h
    obtain ⟨⟨p, ft, d1⟩, h1, h⟩ := bind_ok.1 h
    cases h
    obtain ⟨_, _, _, h2, _⟩ := wrapCall_ok h1
    have hh := ih hn s.2 f _ _ _ h2
    exact hh
  | squareCb _ _ _ _ r ih =>
    intro s f l d q h
    unfold Red.learnImpl at h
    obtain ⟨cl, hl, h⟩ := bind_ok.1 h
    cases hl
    obtain ⟨⟨p, ft, d1⟩, h1, h⟩ := bind_ok.1 h
    cases h
    obtain ⟨_, _, _, h2, _⟩ := wrapCall_ok h1
    have hh := ih hn s.2 f _ _ _ h2
    exact hh
  | debug _ r ih =>
    intro s f l d q h
    unfold Red.learnImpl at h
    obtain ⟨_, _, _, h2, _⟩ := wrapCall_ok h
    have hh := ih hn s f _ _ _ h2
    exact hh
  | elementwise => exact hn.elim

theorem after_same {s a a2 : SparseFeatures F} (hs : s.WF) (ha : a.WF) (h : After (some s) a2 a) : a2.SameAs a ↔ a.NoneEmptied s := by
  obtain ⟨a1, h1, h2⟩ := h
  obtain ⟨b1, b2, g1, g2, g3⟩ := C09_exact a s ha hs
  have : a.append s = .ok a1 := h1
  rw [this] at g1
  cases g1
  have : a1.remove s = .ok a2 := h2
  rw [this] at g2
  cases g2
  exact g3

theorem same_refl (a : SparseFeatures F) : a.SameAs a := ⟨fun _ => rfl, rfl, rfl, rfl⟩

theorem sharedSame_refl (f : CBAdfFeatures F) (as as' : List (SparseFeatures F)) :
    (Features.cbAdf ⟨f.shared, as⟩ : Features F).SameAs (.cbAdf ⟨f.shared, as'⟩) ↔ List.Forall₂ SparseFeatures.SameAs as as' := by
  unfold Features.SameAs
  cases f.shared with
  | none => simp
  | some s => simp [same_refl s]

theorem forall_after {s : SparseFeatures F} (hs : s.WF) {as as' : List (SparseFeatures F)} (ha : ∀ a ∈ as, a.WF) (h : List.Forall₂ (After (some s)) as' as) :
    List.Forall₂ SparseFeatures.SameAs as' as ↔ ∀ a ∈ as, a.NoneEmptied s := by
  induction h with
  | nil => simp
  | @cons x y xs ys h1 _ ih =>
    rw [List.forall₂_cons, after_same hs (ha y (by simp)) h1, ih (fun a h => ha a (by simp [h]))]
    simp

theorem forall_none {as as' : List (SparseFeatures F)} (h : List.Forall₂ (After none) as' as) : as' = as := by
  induction h with
  | nil => rfl
  | cons h1 _ ih =>
    obtain ⟨a1, h1, h2⟩ := h1
    cases h1
    cases h2
    rw [ih]

theorem actions_same (f : CBAdfFeatures F) (hs : ∀ s, f.shared = some s → s.WF) (ha : ∀ a ∈ f.actions, a.WF) {as : List (SparseFeatures F)}
    (h : List.Forall₂ (After f.shared) as f.actions) :
    (Features.cbAdf ⟨f.shared, as⟩ : Features F).SameAs (.cbAdf f) ↔ ∀ s, f.shared = some s → ∀ a ∈ f.actions, a.NoneEmptied s := by
  rw [show (Features.cbAdf f : Features F) = .cbAdf ⟨f.shared, f.actions⟩ from rfl, sharedSame_refl]
  cases hsh : f.shared with
  | none =>
    rw [hsh] at h
    rw [forall_none h]
    simp [List.forall₂_same, same_refl]
  | some s =>
    rw [hsh] at h
    rw [forall_after (hs s hsh) ha h]
    simp

theorem after_spec {s a a2 : SparseFeatures F} (hs : s.WF) (ha : a.WF) (h : After (some s) a2 a) :
    a2.WF ∧ ∀ ns, a2.vw ns = if (s.vw ns).2.2 then ((a.vw ns).1, (a.vw ns).2.1, !decide ((a.vw ns).1.length = 0)) else a.vw ns := by
  obtain ⟨a1, h1, h2⟩ := h
  obtain ⟨b1, g1, i1, v1⟩ := append_spec ha.toInv0 hs.toInv0
  obtain ⟨b2, g2, i2, v2⟩ := remove_spec i1 hs.toInv0 (by
    intro ns hns
    rw [v1, vwAppend, if_pos hns]
    simp)
  have : a.append s = .ok a1 := h1
  rw [this] at g1
  cases g1
  have : a1.remove s = .ok a2 := h2
  rw [this] at g2
  cases g2
  have hv : ∀ ns, a2.vw ns = if (s.vw ns).2.2 then ((a.vw ns).1, (a.vw ns).2.1, !decide ((a.vw ns).1.length = 0)) else a.vw ns := by
    intro ns
    rw [v2, v1, vwRemove_vwAppend _ _ (vw_lens ha.toInv0 ns)]
  refine ⟨⟨i2, fun ns hns => ?_⟩, hv⟩
  rw [hv] at hns ⊢
  split at hns
  · rename_i hact
    rw [if_pos hact]
    simp at hns
    simp [hns]
  · rename_i hact
    rw [if_neg hact]
    exact ha.inactive_empty ns hns

/-- Doing it twice is doing it once. -/
theorem after_twice {s a a2 a3 : SparseFeatures F} (hs : s.WF) (ha : a.WF) (h : After (some s) a2 a) (h' : After (some s) a3 a2) :
    a3.SameAs a2 := by
  obtain ⟨w2, v2⟩ := after_spec hs ha h
  obtain ⟨w3, v3⟩ := after_spec hs w2 h'
  refine sameAs_of_vw w3.toInv0 w2.toInv0 (fun ns => ?_)
  rw [v3, v2]
  split <;> rfl

theorem same_trans {a b c : SparseFeatures F} (h : a.SameAs b) (h' : b.SameAs c) : a.SameAs c :=
  ⟨fun ns => (h.1 ns).trans (h'.1 ns), h.2.1.trans h'.2.1, h.2.2.1.trans h'.2.2.1, h.2.2.2.trans h'.2.2.2⟩

theorem same_symm {a b : SparseFeatures F} (h : a.SameAs b) : b.SameAs a := ⟨fun ns => (h.1 ns).symm, h.2.1.symm, h.2.2.1.symm, h.2.2.2.symm⟩

theorem forall_twice {s : SparseFeatures F} (hs : s.WF) {as as' : List (SparseFeatures F)} (ha : ∀ a ∈ as, a.WF) (h : List.Forall₂ (After (some s)) as' as) :
    (∀ a ∈ as', a.WF) ∧ ∀ as'', List.Forall₂ (After (some s)) as'' as' →
      (List.Forall₂ SparseFeatures.SameAs as'' as ↔ List.Forall₂ SparseFeatures.SameAs as' as) := by
  induction h with
  | nil =>
    refine ⟨by simp, fun as'' h => ?_⟩
    cases h
    rfl
  | @cons x y xs ys h1 _ ih =>
    have hy := ha y (by simp)
    obtain ⟨i1, i2⟩ := ih (fun a h => ha a (by simp [h]))
    refine ⟨?_, fun as'' h => ?_⟩
    · intro a hm
      rcases List.mem_cons.1 hm with rfl | hm
      · exact (after_spec hs hy h1).1
      · exact i1 a hm
    · cases h with
      | cons h2 h3 =>
        have h4 := after_twice hs hy h1 h2
        rw [List.forall₂_cons, List.forall₂_cons, i2 _ h3]
        exact ⟨fun h => ⟨same_trans (same_symm h4) h.1, h.2⟩, fun h => ⟨same_trans h4 h.1, h.2⟩⟩

theorem noneEmptied_congr {s a a' : SparseFeatures F} (h : a'.SameAs a) : s.NoneEmptied a' ↔ s.NoneEmptied a := by
  have key : ∀ {a a' : SparseFeatures F}, a'.SameAs a → s.NoneEmptied a' → s.NoneEmptied a := by
    intro a a' h hh ns n m hn hm
    have h1 := h.1 ns
    rw [hn] at h1
    cases hn' : a'.getNamespace ns with
    | none => rw [hn'] at h1; simp at h1
    | some n' => exact hh ns n' m hn' hm
  exact ⟨key h, key (same_symm h)⟩

theorem ptl_cb (dbg : Bool) (r : Red F) (hn : r.NoElementwise) : ∀ (s : r.State) (f : CBAdfFeatures F) (l : CBLabel F) (d : Depth) (off : Nat)
    (q : (Prediction F × r.State) × Features F × Depth), r.predictThenLearnImpl dbg s (.cbAdf f) (.cb l) d off = .ok q →
    ∃ as, List.Forall₂ (After f.shared) as f.actions ∧ Left r.cbMode ⟨f.shared, as⟩ l.action q.2.1 := by
  have dflt : ∀ (r : Red F), r.NoElementwise → ∀ (s : r.State) (f : CBAdfFeatures F) (l : CBLabel F) (d : Depth) (q : (Prediction F × r.State) × Features F × Depth),
      defaultPredictThenLearn (r.predictImpl dbg s) (fun ft d => r.learnImpl dbg s ft (.cb l) d) (.cbAdf f) d = .ok q →
      ∃ as, List.Forall₂ (After f.shared) as f.actions ∧ Left r.cbMode ⟨f.shared, as⟩ l.action q.2.1 := by
    intro r hn s f l d q h
    unfold defaultPredictThenLearn at h
    obtain ⟨⟨p, ft1, d1⟩, h1, h⟩ := bind_ok.1 h
    obtain ⟨⟨s1, ft2, d2⟩, h2, h⟩ := bind_ok.1 h
    obtain ⟨_, _, h⟩ := bind_ok.1 h
    cases h
    obtain ⟨as, h3, h4⟩ := predict_cb dbg r hn _ _ _ _ h1
    simp only at h3
    subst h3
    exact ⟨as, h4, learn_cb dbg r hn _ _ _ _ _ h2⟩
  induction r with
  | coin _ => intro s f l d off q h; unfold Red.predictThenLearnImpl at h; exact dflt _ hn s f l d q h
  | binary _ r ih =>
    intro s f l d off q h
    unfold Red.predictThenLearnImpl at h
    obtain ⟨b, h1, h⟩ := bind_ok.1 h
    cases h1
  | cbAdf _ ty r ih => intro s f l d off q h; unfold Red.predictThenLearnImpl at h; exact dflt _ hn s f l d q h
  | greedy _ _ r ih => intro s f l d off q h; unfold Red.predictThenLearnImpl at h; exact dflt _ hn s f l d q h
  | softmax _ _ _ r ih => intro s f l d off q h; unfold Red.predictThenLearnImpl at h; exact dflt _ hn s f l d q h
  | squareCb _ _ _ _ r ih => intro s f l d off q h; unfold Red.predictThenLearnImpl at h; exact dflt _ hn s f l d q h
  | debug _ r ih =>
    intro s f l d off q h
    unfold Red.predictThenLearnImpl at h
    obtain ⟨_, _, _, h2, _⟩ := wrapCall_ok h
    have hh := ih hn s f _ _ _ _ h2
    exact hh
  | elementwise => exact hn.elim

theorem actions_same_twice (f : CBAdfFeatures F) (hs : ∀ s, f.shared = some s → s.WF) (ha : ∀ a ∈ f.actions, a.WF) {as as' : List (SparseFeatures F)}
    (h : List.Forall₂ (After f.shared) as f.actions) (h' : List.Forall₂ (After f.shared) as' as) :
    (Features.cbAdf ⟨f.shared, as'⟩ : Features F).SameAs (.cbAdf f) ↔ ∀ s, f.shared = some s → ∀ a ∈ f.actions, a.NoneEmptied s := by
  rw [show (Features.cbAdf f : Features F) = .cbAdf ⟨f.shared, f.actions⟩ from rfl, sharedSame_refl]
  cases hsh : f.shared with
  | none =>
    rw [hsh] at h h'
    rw [forall_none h', forall_none h]
    simp [List.forall₂_same, same_refl]
  | some s =>
    rw [hsh] at h h'
    rw [(forall_twice (hs s hsh) ha h).2 as' h', forall_after (hs s hsh) ha h]
    simp

end Restore

open Restore in
/-- C26, exactly when it holds, for models without ElementwiseInteraction and contextual bandit examples with well-formed features. Predicting, and learning
in ips mode, restores the example if and only if no namespace of the shared features is visible but empty in one of the actions. Learning in mtr mode
restores it if and only if no namespace of the chosen action is visible but empty in the shared features. `predict_then_learn` restores it if and only if
both calls do. -/
theorem C26_exact (dbg : Bool) (w : Workspace F) (hn : w.red.NoElementwise) (f : CBAdfFeatures F) (hs : ∀ s, f.shared = some s → s.WF) (ha : ∀ a ∈ f.actions, a.WF) :
    (∀ p ft', w.predict dbg (.cbAdf f) = .ok (p, ft') → (ft'.SameAs (.cbAdf f) ↔ ∀ s, f.shared = some s → ∀ a ∈ f.actions, a.NoneEmptied s)) ∧
    (w.red.cbMode = some .ips → ∀ l w' ft', w.learn dbg (.cbAdf f) (.cb l) = .ok (w', ft') →
      (ft'.SameAs (.cbAdf f) ↔ ∀ s, f.shared = some s → ∀ a ∈ f.actions, a.NoneEmptied s)) ∧
    (w.red.cbMode = some .mtr → ∀ l w' ft', w.learn dbg (.cbAdf f) (.cb l) = .ok (w', ft') →
      (ft'.SameAs (.cbAdf f) ↔ ∀ s a, f.shared = some s → f.actions[l.action]? = some a → s.NoneEmptied a)) ∧
    (w.red.cbMode = some .ips → ∀ l p w' ft', w.predictThenLearn dbg (.cbAdf f) (.cb l) = .ok (p, w', ft') →
      (ft'.SameAs (.cbAdf f) ↔ ∀ s, f.shared = some s → ∀ a ∈ f.actions, a.NoneEmptied s)) ∧
    (w.red.cbMode = some .mtr → ∀ l p w' ft', w.predictThenLearn dbg (.cbAdf f) (.cb l) = .ok (p, w', ft') →
      (ft'.SameAs (.cbAdf f) ↔ (∀ s, f.shared = some s → ∀ a ∈ f.actions, a.NoneEmptied s) ∧
        ∀ s a, f.shared = some s → f.actions[l.action]? = some a → s.NoneEmptied a)) := by
  have hl : ∀ l w' ft', w.learn dbg (.cbAdf f) (.cb l) = .ok (w', ft') → Left w.red.cbMode f l.action ft' := by
    intro l w' ft' h
    unfold Workspace.learn Red.learn at h
    obtain ⟨⟨s, ft, d⟩, h1, h⟩ := bind_ok.1 h
    cases h
    obtain ⟨_, _, _, h2, _⟩ := wrapCall_ok h1
    have hh := learn_cb dbg w.red hn _ _ _ _ _ h2
    exact hh
  have hp : ∀ l p w' ft', w.predictThenLearn dbg (.cbAdf f) (.cb l) = .ok (p, w', ft') →
      ∃ as, List.Forall₂ (After f.shared) as f.actions ∧ Left w.red.cbMode ⟨f.shared, as⟩ l.action ft' := by
    intro l p w' ft' h
    unfold Workspace.predictThenLearn Red.predictThenLearn at h
    obtain ⟨⟨⟨p, s⟩, ft, d⟩, h1, h⟩ := bind_ok.1 h
    cases h
    obtain ⟨_, _, _, h2, _⟩ := wrapCall_ok h1
    have hh := ptl_cb dbg w.red hn _ _ _ _ _ _ h2
    exact hh
  refine ⟨fun p ft' h => ?_, fun hm l w' ft' h => ?_, fun hm l w' ft' h => ?_, fun hm l p w' ft' h => ?_, fun hm l p w' ft' h => ?_⟩
  · unfold Workspace.predict Red.predict at h
    obtain ⟨⟨p, ft, d⟩, h1, h⟩ := bind_ok.1 h
    cases h
    obtain ⟨_, _, _, h2, _⟩ := wrapCall_ok h1
    have hcb := predict_cb dbg w.red hn _ _ _ _ h2
    obtain ⟨as, h3, h4⟩ := hcb
    simp only at h3
    subst h3
    exact actions_same f hs ha h4
  · have := hl l w' ft' h
    rw [hm] at this
    obtain ⟨as, rfl, h4⟩ := this
    exact actions_same f hs ha h4
  · have := hl l w' ft' h
    rw [hm] at this
    obtain ⟨s, a, s2, h1, h2, h3, rfl⟩ := this
    have h4 := after_same (ha a (List.mem_of_getElem? h2)) (hs s h1) h3
    constructor
    · intro hsame s' a' hs' ha'
      rw [h1] at hs'
      cases hs'
      rw [h2] at ha'
      cases ha'
      simp only [Features.SameAs, h1] at hsame
      exact h4.1 hsame.1
    · intro hall
      simp only [Features.SameAs, h1]
      exact ⟨h4.2 (hall s a h1 h2), by simp [List.forall₂_same, same_refl]⟩
  · obtain ⟨as, h1, h2⟩ := hp l p w' ft' h
    rw [hm] at h2
    obtain ⟨as', rfl, h4⟩ := h2
    exact actions_same_twice f hs ha h1 h4
  · obtain ⟨as, h1, h2⟩ := hp l p w' ft' h
    rw [hm] at h2
    obtain ⟨s, a, s2, hsh, hk, h3, rfl⟩ := h2
    simp only at hsh hk
    rw [hsh] at h1
    have hws := hs s hsh
    have hact := forall_after hws ha h1
    have hwa := (forall_twice hws ha h1).1 a (List.mem_of_getElem? hk)
    have h4 := after_same hwa hws h3
    have hsame : (Features.cbAdf ⟨some s2, as⟩ : Features F).SameAs (.cbAdf f) ↔ s2.SameAs s ∧ List.Forall₂ SparseFeatures.SameAs as f.actions := by
      simp only [Features.SameAs, hsh]
    rw [hsame, h4, hact]
    have hall : (∀ a ∈ f.actions, a.NoneEmptied s) → ∀ b, f.actions[l.action]? = some b → (s.NoneEmptied a ↔ s.NoneEmptied b) := by
      intro hh b hb
      have hf2 := hact.2 hh
      have h5 := List.forall₂_iff_get.1 hf2
      obtain ⟨i1, e1⟩ := List.getElem?_eq_some_iff.1 hk
      obtain ⟨i2, e2⟩ := List.getElem?_eq_some_iff.1 hb
      have h6 := h5.2 l.action i1 i2
      simp only [List.get_eq_getElem, e1, e2] at h6
      exact noneEmptied_congr h6
    have hex : ∃ b, f.actions[l.action]? = some b := by
      have hlen := h1.length_eq
      obtain ⟨i1, _⟩ := List.getElem?_eq_some_iff.1 hk
      exact ⟨_, List.getElem?_eq_getElem (by omega)⟩
    constructor
    · rintro ⟨q1, q2⟩
      refine ⟨fun s' hs' => ?_, fun s' b hs' hb => ?_⟩
      · rw [hsh] at hs'; cases hs'; exact q2
      · rw [hsh] at hs'; cases hs'; exact (hall q2 b hb).1 q1
    · rintro ⟨q1, q2⟩
      obtain ⟨b, hb⟩ := hex
      exact ⟨(hall (q1 s hsh) b hb).2 (q2 s b hsh hb), q1 s hsh⟩

section examples
attribute [local instance] intFlt

/-- `C26_exact` speaks of calls that return and restore the example, and of calls that return and do not. -/
example : ∃ w : Workspace Int, Workspace.new tinyHash tinyGlobal (.cbAdf .ips (.coin CoinConfig.dflt)) = .ok w ∧ w.red.NoElementwise ∧ w.red.cbMode = some .ips ∧
    (w.predict false tinyCb).toBool = true ∧ (w.learn false tinyCb (.cb ⟨1, 3, 1⟩)).toBool = true ∧
    (w.predict false tinyEmpty).toBool = true ∧ (w.learn false tinyEmpty (.cb ⟨0, 3, 1⟩)).toBool = true :=
  ⟨_, rfl, trivial, rfl, by decide +kernel, by decide +kernel, by decide +kernel, by decide +kernel⟩
example : ∃ w : Workspace Int, Workspace.new tinyHash tinyGlobal (.cbAdf .mtr (.coin CoinConfig.dflt)) = .ok w ∧ w.red.NoElementwise ∧ w.red.cbMode = some .mtr ∧
    (w.learn false tinyCb (.cb ⟨1, 3, 1⟩)).toBool = true ∧ (w.predictThenLearn false tinyCb (.cb ⟨1, 3, 1⟩)).toBool = true ∧
    (w.predictThenLearn false tinyEmpty (.cb ⟨0, 3, 1⟩)).toBool = true :=
  ⟨_, rfl, trivial, rfl, by decide +kernel, by decide +kernel, by decide +kernel⟩

end examples

end Rml
