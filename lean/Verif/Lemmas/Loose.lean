import Verif.Lemmas.Create

/-!
# Examples with empty namespaces

A visible namespace without features can lose its visibility when CbAdf appends and takes out features. These lemmas show what that changes: nothing
about learning after a prediction.
-/

set_option linter.unusedSectionVars false

namespace Rml
open SparseFeatures
variable {F : Type} [Flt F]

/-- Inactive namespaces are empty, and there are no raw hash namespaces. -/
structure SparseFeatures.Plain (f : SparseFeatures F) : Prop where
  inv : f.Inv0
  empty : ∀ ns, (f.vw ns).2.2 = false → (f.vw ns).1 = []
  noRaw : ∀ ns, ns.isRaw = true → f.vw ns = noView

structure CbPlain (f : CBAdfFeatures F) : Prop where
  shared : ∀ s, f.shared = some s → s.Plain
  actions : ∀ a ∈ f.actions, a.Plain

/-- `g` is `f`, except that empty namespaces in `act` may have become invisible. -/
structure LeAt (act : Namespace → Bool) (g f : SparseFeatures F) : Prop where
  left : g.Inv0
  right : f.Inv0
  view : ∀ ns, g.vw ns = f.vw ns ∨ (act ns = true ∧ g.vw ns = noView ∧ (f.vw ns).1 = [])

def actOf : Option (SparseFeatures F) → Namespace → Bool
  | none, _ => false
  | some s, ns => (s.vw ns).2.2

inductive OptLe : Option (SparseFeatures F) → Option (SparseFeatures F) → Prop
  | none : OptLe none none
  | some {f g} : LeAt (fun _ => true) f g → OptLe (some f) (some g)

/-- What a call may do to features. -/
structure CbLe (g f : CBAdfFeatures F) : Prop where
  shared : OptLe g.shared f.shared
  actions : List.Forall₂ (LeAt fun _ => true) g.actions f.actions

/-- What a prediction may do to features. -/
structure Loose (g f : CBAdfFeatures F) : Prop where
  shared : OptEqv g.shared f.shared
  actions : List.Forall₂ (LeAt (actOf f.shared)) g.actions f.actions

theorem vals_nil {f : SparseFeatures F} (h : f.Inv0) {ns : Namespace} (he : (f.vw ns).1 = []) : (f.vw ns).2.1 = [] := by
  have := vw_lens h ns
  rw [he] at this
  exact List.length_eq_zero_iff.1 this.symm

theorem LeAt.refl {act : Namespace → Bool} {f : SparseFeatures F} (h : f.Inv0) : LeAt act f f := ⟨h, h, fun _ => .inl rfl⟩

theorem LeAt.mono {act act' : Namespace → Bool} {g f : SparseFeatures F} (h : LeAt act g f) (hm : ∀ ns, act ns = true → act' ns = true) : LeAt act' g f :=
  ⟨h.left, h.right, fun ns => (h.view ns).imp_right fun h => ⟨hm ns h.1, h.2⟩⟩

theorem LeAt.trans {act : Namespace → Bool} {k g f : SparseFeatures F} (h : LeAt act k g) (h' : LeAt act g f) : LeAt act k f := by
  refine ⟨h.left, h'.right, fun ns => ?_⟩
  rcases h.view ns with e | ⟨e1, e2, e3⟩
  · rw [e]; exact h'.view ns
  · rcases h'.view ns with e | ⟨_, _, e⟩
    · exact .inr ⟨e1, e2, by rw [← e]; exact e3⟩
    · exact .inr ⟨e1, e2, e⟩

theorem Eqv.leAt {act : Namespace → Bool} {g f : SparseFeatures F} (h : Eqv g f) : LeAt act g f := ⟨h.left, h.right, fun ns => .inl (h.view ns)⟩

theorem SparseFeatures.Plain.of_le {act : Namespace → Bool} {g f : SparseFeatures F} (h : f.Plain) (hl : LeAt act g f) : g.Plain := by
  refine ⟨hl.left, fun ns => ?_, fun ns hr => ?_⟩
  · rcases hl.view ns with e | ⟨_, e, _⟩
    · rw [e]; exact h.empty ns
    · rw [e]; intro _; rfl
  · rcases hl.view ns with e | ⟨_, e, _⟩
    · rw [e]; exact h.noRaw ns hr
    · exact e

theorem plain_of_forall₂ {act : Namespace → Bool} {l l' : List (SparseFeatures F)} (h : List.Forall₂ (LeAt act) l l') (hp : ∀ a ∈ l', a.Plain) :
    ∀ a ∈ l, a.Plain := by
  induction h with
  | nil => exact fun a ha => nomatch ha
  | cons h _ ih =>
    intro a ha
    rcases List.mem_cons.1 ha with rfl | ha
    · exact (hp _ (by simp)).of_le h
    · exact ih (fun x hx => hp x (by simp [hx])) a ha

theorem Loose.le {g f : CBAdfFeatures F} (h : Loose g f) : CbLe g f := by
  refine ⟨?_, h.actions.imp fun _ _ h => h.mono fun _ _ => rfl⟩
  have := h.shared
  revert this
  generalize g.shared = a
  generalize f.shared = b
  intro this
  cases this with
  | none => exact .none
  | some h => exact .some h.leAt

theorem CbPlain.of_le {g f : CBAdfFeatures F} (h : CbPlain f) (hl : CbLe g f) : CbPlain g := by
  refine ⟨fun s hs => ?_, plain_of_forall₂ hl.actions h.actions⟩
  have h1 := hl.shared
  rw [hs] at h1
  generalize hf : f.shared = b at h1
  cases h1 with
  | some h1 => exact (h.shared _ hf).of_le h1

theorem forall₂_le_trans {act : Namespace → Bool} {l l' l'' : List (SparseFeatures F)} (h : List.Forall₂ (LeAt act) l l')
    (h' : List.Forall₂ (LeAt act) l' l'') : List.Forall₂ (LeAt act) l l'' := by
  induction h generalizing l'' with
  | nil => exact h'
  | cons h _ ih =>
    cases h' with
    | cons g g' => exact .cons (h.trans g) (ih g')

theorem CbLe.trans {k g f : CBAdfFeatures F} (h : CbLe k g) (h' : CbLe g f) : CbLe k f := by
  refine ⟨?_, forall₂_le_trans h.actions h'.actions⟩
  have h1 := h.shared
  have h2 := h'.shared
  revert h1 h2
  generalize k.shared = a
  generalize g.shared = b
  generalize f.shared = c
  intro h1 h2
  cases h1 with
  | none => exact h2
  | some h1 =>
    cases h2 with
    | some h2 => exact .some (h1.trans h2)

theorem forall₂_le_refl {act : Namespace → Bool} {l : List (SparseFeatures F)} (h : ∀ a ∈ l, a.Plain) : List.Forall₂ (LeAt act) l l := by
  induction l with
  | nil => exact .nil
  | cons a t ih => exact .cons (.refl (h a (by simp)).inv) (ih fun x hx => h x (by simp [hx]))

theorem optEqv_refl_plain {s : Option (SparseFeatures F)} (h : ∀ x, s = some x → x.Plain) : OptEqv s s := by
  cases s with
  | none => exact .none
  | some x => exact .some (Eqv.refl (h x rfl).inv)

theorem optLe_refl_plain {s : Option (SparseFeatures F)} (h : ∀ x, s = some x → x.Plain) : OptLe s s := by
  cases s with
  | none => exact .none
  | some x => exact .some (.refl (h x rfl).inv)

/-! ### The check of the debug profile -/

theorem keys_of_absDiffEq {a b : SparseFeatures F} {eps : F} (h : a.absDiffEq b eps = true) : a.activeKeys = b.activeKeys := by
  unfold SparseFeatures.absDiffEq at h
  simp only [Bool.and_eq_true, decide_eq_true_eq] at h
  exact h.1

/-- If two steps lose nothing in total, the first has lost nothing. -/
theorem le_le_eqv {act : Namespace → Bool} {k g f : SparseFeatures F} (h1 : LeAt act k g) (h2 : LeAt act g f)
    (hk : k.activeKeys = f.activeKeys) : Eqv g f := by
  refine ⟨h2.left, h2.right, fun ns => ?_⟩
  rcases h2.view ns with e | ⟨_, e1, e2⟩
  · exact e
  · have hkn : k.vw ns = noView := by
      rcases h1.view ns with e | ⟨_, e, _⟩
      · rw [e, e1]
      · exact e
    have h3 : (f.vw ns).2.2 = false := by
      have h4 := mem_activeKeys h1.left ns
      rw [hk, mem_activeKeys h2.right, hkn] at h4
      cases hx : (f.vw ns).2.2 with
      | false => rfl
      | true => exact absurd (h4.1 hx) (by simp [noView])
    rw [e1]
    apply Prod.ext
    · exact e2.symm
    · exact Prod.ext (vals_nil h2.right e2).symm h3.symm

theorem forall₂_le_le {act : Namespace → Bool} {eps : F} {k g f : List (SparseFeatures F)} (h1 : List.Forall₂ (LeAt act) k g)
    (h2 : List.Forall₂ (LeAt act) g f) (hk : (k.zip f).all (fun p => p.1.absDiffEq p.2 eps) = true) :
    List.Forall₂ Eqv g f := by
  induction h1 generalizing f with
  | nil => cases h2; exact .nil
  | cons h1 _ ih =>
    cases h2 with
    | cons h2 h2' =>
      simp only [List.zip_cons_cons, List.all_cons, Bool.and_eq_true] at hk
      exact .cons (le_le_eqv h1 h2 (keys_of_absDiffEq hk.1)) (ih h2' hk.2)

theorem cbLe_le_eqv {k g f : CBAdfFeatures F} (h1 : CbLe k g) (h2 : CbLe g f) {eps : F}
    (hk : (Features.cbAdf k).absDiffEq (.cbAdf f) eps = true) : CbEqv g f := by
  simp only [Features.absDiffEq, CBAdfFeatures.absDiffEq, Bool.and_eq_true] at hk
  refine ⟨?_, forall₂_le_le h1.actions h2.actions hk.2⟩
  have e1 := h1.shared
  have e2 := h2.shared
  have e3 := hk.1.1
  revert e1 e2 e3
  generalize k.shared = a
  generalize g.shared = b
  generalize f.shared = c
  intro e1 e2 e3
  cases e1 with
  | none => cases e2; exact .none
  | some e1 =>
    cases e2 with
    | some e2 => exact .some (le_le_eqv e1 e2 (keys_of_absDiffEq e3))

/-! ### CbAdf -/

theorem append_remove_plain {a s : SparseFeatures F} (ha : a.Plain) (hs : s.Plain) :
    ∃ a1, a.append s = .ok a1 ∧ a1.Inv0 ∧ (∀ ns, ns.isRaw = true → a1.vw ns = noView) ∧
      (∀ ns, a1.vw ns = vwAppend (a.vw ns) (s.vw ns)) ∧
      (∀ a2, Eqv a2 a1 → ∃ a3, a2.remove s = .ok a3 ∧ LeAt (fun ns => (s.vw ns).2.2) a3 a) := by
  obtain ⟨a1, h1, i1, v1⟩ := append_spec ha.inv hs.inv
  refine ⟨a1, h1, i1, ?_, v1, ?_⟩
  · intro ns hns
    rw [v1, ha.noRaw ns hns, hs.noRaw ns hns]
    rfl
  · intro a2 he
    obtain ⟨a3, h3, i3, v3⟩ := remove_spec he.left hs.inv (by
      intro ns hns
      rw [he.view, v1, vwAppend, if_pos hns]
      simp)
    refine ⟨a3, h3, i3, ha.inv, fun ns => ?_⟩
    rw [v3, he.view, v1, vwRemove_vwAppend _ _ (vw_lens ha.inv ns)]
    split
    · rename_i hact
      by_cases h0 : (a.vw ns).1 = []
      · refine .inr ⟨hact, ?_, h0⟩
        rw [h0, vals_nil ha.inv h0]
        rfl
      · left
        apply Prod.ext
        · rfl
        · apply Prod.ext
          · rfl
          · have : (a.vw ns).2.2 = true := by
              by_contra hx
              exact h0 (ha.empty ns (by simpa using hx))
            simp [this, h0]
    · exact .inl rfl

theorem shared_step_plain {shared : Option (SparseFeatures F)} (hs : ∀ s, shared = some s → s.Plain) {a : SparseFeatures F} (ha : a.Plain) :
    ∃ a1, appendShared shared a = .ok a1 ∧ a1.Inv0 ∧ (∀ ns, ns.isRaw = true → a1.vw ns = noView) ∧
      (∀ a2, Eqv a2 a1 → ∃ a3, removeShared shared a2 = .ok a3 ∧ LeAt (actOf shared) a3 a) := by
  cases shared with
  | none => exact ⟨a, rfl, ha.inv, ha.noRaw, fun a2 he => ⟨a2, rfl, he.leAt⟩⟩
  | some s =>
    obtain ⟨a1, h1, h2, h3, _, h5⟩ := append_remove_plain ha (hs s rfl)
    exact ⟨a1, h1, h2, h3, h5⟩

theorem cbPredictLoop_plain {childP : Features F → Depth → M (Prediction F × Features F × Depth)} (h : Nice childP)
    {shared : Option (SparseFeatures F)} (hs : ∀ s, shared = some s → s.Plain) (as : List (SparseFeatures F)) :
    ∀ (i : Nat) (d : Depth) (r : List (Nat × F) × List (SparseFeatures F) × Depth), (∀ a ∈ as, a.Plain) → d < 256 →
      cbPredictLoop childP shared i as d = .ok r → r.2.2 = d ∧ List.Forall₂ (LeAt (actOf shared)) r.2.1 as := by
  induction as with
  | nil => intro i d r _ _ hr; simp [cbPredictLoop] at hr; subst hr; exact ⟨rfl, .nil⟩
  | cons a as ih =>
    intro i d r hc hd hr
    unfold cbPredictLoop at hr
    obtain ⟨a1, g1, g2, g3, g4⟩ := shared_step_plain hs (hc a (by simp))
    obtain ⟨a1', h1, hr⟩ := bind_ok.1 hr
    rw [g1] at h1
    simp only [Except.ok.injEq] at h1
    subst h1
    obtain ⟨⟨p, ft, d1⟩, h2, hr⟩ := bind_ok.1 hr
    obtain ⟨⟨_, raw⟩, _, hr⟩ := bind_ok.1 hr
    obtain ⟨a2, h4, hr⟩ := bind_ok.1 hr
    obtain ⟨a3, h5, hr⟩ := bind_ok.1 hr
    obtain ⟨⟨ps, as', d2⟩, h6, hr⟩ := bind_ok.1 hr
    simp only [Except.ok.injEq] at hr
    subst hr
    obtain ⟨rfl, f', rfl, he⟩ := h.restore g2 g3 hd h2
    simp only [Features.asSimple, Except.ok.injEq] at h4
    subst h4
    obtain ⟨a3', h5', he3⟩ := g4 _ he
    rw [h5'] at h5
    simp only [Except.ok.injEq] at h5
    subst h5
    have := ih _ _ _ (fun x hx => hc x (by simp [hx])) hd h6
    exact ⟨this.1, .cons he3 this.2⟩

theorem cbIpsLoop_plain {S : Type} {dbg : Bool} {childL : S → Features F → Label F → Depth → M (S × Features F × Depth)}
    (h : ∀ s l, Nice (fun ft d => childL s ft l d))
    {shared : Option (SparseFeatures F)} (hs : ∀ s, shared = some s → s.Plain) (label : CBLabel F) (as : List (SparseFeatures F)) :
    ∀ (i : Nat) (s : S) (d : Depth) (r : S × List (SparseFeatures F) × Depth), (∀ a ∈ as, a.Plain) → d < 256 →
      cbIpsLoop dbg childL shared label i as s d = .ok r → r.2.2 = d ∧ List.Forall₂ (LeAt (actOf shared)) r.2.1 as := by
  induction as with
  | nil => intro i s d r _ _ hr; simp [cbIpsLoop] at hr; subst hr; exact ⟨rfl, .nil⟩
  | cons a as ih =>
    intro i s d r hc hd hr
    unfold cbIpsLoop at hr
    obtain ⟨a1, g1, g2, g3, g4⟩ := shared_step_plain hs (hc a (by simp))
    obtain ⟨a1', h1, hr⟩ := bind_ok.1 hr
    rw [g1] at h1
    simp only [Except.ok.injEq] at h1
    subst h1
    obtain ⟨l, _, hr⟩ := bind_ok.1 hr
    obtain ⟨⟨s1, ft, d1⟩, h2, hr⟩ := bind_ok.1 hr
    obtain ⟨a2, h4, hr⟩ := bind_ok.1 hr
    obtain ⟨a3, h5, hr⟩ := bind_ok.1 hr
    obtain ⟨⟨s2, as', d2⟩, h6, hr⟩ := bind_ok.1 hr
    simp only [Except.ok.injEq] at hr
    subst hr
    obtain ⟨rfl, f', rfl, he⟩ := (h s (.simple l)).restore g2 g3 hd h2
    simp only [Features.asSimple, Except.ok.injEq] at h4
    subst h4
    obtain ⟨a3', h5', he3⟩ := g4 _ he
    rw [h5'] at h5
    simp only [Except.ok.injEq] at h5
    subst h5
    have := ih _ _ _ _ (fun x hx => hc x (by simp [hx])) hd h6
    exact ⟨this.1, .cons he3 this.2⟩

theorem cbMtr_plain {S : Type} {childL : S → Features F → Label F → Depth → M (S × Features F × Depth)}
    (h : ∀ s l, Nice (fun ft d => childL s ft l d)) (f : CBAdfFeatures F) (label : CBLabel F) (mtr : MtrState) (s : S) (d : Depth)
    (hf : CbPlain f) (hd : d < 256) (r : (MtrState × S) × CBAdfFeatures F × Depth)
    (hr : cbMtrLearn childL f label mtr s d = .ok r) : r.2.2 = d ∧ CbLe r.2.1 f := by
  unfold cbMtrLearn at hr
  simp only at hr
  cases hsh : f.shared with
  | none => rw [hsh] at hr; simp at hr
  | some sh =>
    rw [hsh] at hr
    simp only at hr
    obtain ⟨action, h1, hr⟩ := bind_ok.1 hr
    have hact : f.actions[label.action]? = some action := by
      cases hx : f.actions[label.action]? with
      | none => rw [hx] at h1; simp [unwrapOpt] at h1
      | some x => rw [hx] at h1; simp [unwrapOpt] at h1; rw [h1]
    obtain ⟨a1, g1, g2, g3, _, g4⟩ := append_remove_plain (hf.shared sh hsh) (hf.actions action (List.mem_of_getElem? hact))
    obtain ⟨sh1, h2, hr⟩ := bind_ok.1 hr
    rw [g1] at h2
    simp only [Except.ok.injEq] at h2
    subst h2
    obtain ⟨⟨s', ft, d'⟩, h3, hr⟩ := bind_ok.1 hr
    obtain ⟨sh2, h4, hr⟩ := bind_ok.1 hr
    obtain ⟨sh3, h5, hr⟩ := bind_ok.1 hr
    simp only [Except.ok.injEq] at hr
    subst hr
    obtain ⟨rfl, f', rfl, he⟩ := (h _ _).restore g2 g3 hd h3
    simp only [Features.asSimple, Except.ok.injEq] at h4
    subst h4
    obtain ⟨a3, h5', he3⟩ := g4 _ he
    rw [h5'] at h5
    simp only [Except.ok.injEq] at h5
    subst h5
    refine ⟨rfl, ?_, forall₂_le_refl hf.actions⟩
    rw [hsh]
    exact .some (he3.mono fun _ _ => rfl)

/-- Results with the same value and depth. -/
def ValEq {α : Type} (x y : α × Features F × Depth) : Prop := x.1 = y.1 ∧ x.2.2 = y.2.2

/-- Appending the shared features hides what a prediction has changed. -/
theorem appendShared_loose {shared shared' : Option (SparseFeatures F)} (hs : OptEqv shared shared') {a a' : SparseFeatures F}
    (ha : LeAt (actOf shared') a a') : ∃ r r', appendShared shared a = .ok r ∧ appendShared shared' a' = .ok r' ∧ Eqv r r' := by
  cases hs with
  | none =>
    refine ⟨a, a', rfl, rfl, ha.left, ha.right, fun ns => ?_⟩
    rcases ha.view ns with e | ⟨e, _⟩
    · exact e
    · cases e
  | @some s s' hs =>
    obtain ⟨r, h1, i1, v1⟩ := append_spec ha.left hs.left
    obtain ⟨r', h2, i2, v2⟩ := append_spec ha.right hs.right
    refine ⟨r, r', h1, h2, i1, i2, fun ns => ?_⟩
    rw [v1, v2, hs.view]
    rcases ha.view ns with e | ⟨e1, e2, e3⟩
    · rw [e]
    · rw [e2]
      have e1 : (s'.vw ns).2.2 = true := e1
      simp only [vwAppend, e1, if_true, e3, vals_nil ha.right e3, noView]

theorem cbIpsLoop_loose {S : Type} {dbg : Bool} {childL : S → Features F → Label F → Depth → M (S × Features F × Depth)}
    (h : ∀ s l, Nice (fun ft d => childL s ft l d))
    {shared shared' : Option (SparseFeatures F)} (hss : OptEqv shared shared')
    (label : CBLabel F) {as as' : List (SparseFeatures F)} (hl : List.Forall₂ (LeAt (actOf shared')) as as') :
    ∀ (i : Nat) (s : S) (d : Depth),
      RelM (fun x y => x.1 = y.1 ∧ x.2.2 = y.2.2) (cbIpsLoop dbg childL shared label i as s d) (cbIpsLoop dbg childL shared' label i as' s d) := by
  induction hl with
  | nil => intro i s d; exact ⟨rfl, rfl⟩
  | @cons a a' as as' ha _ ih =>
    intro i s d
    unfold cbIpsLoop
    obtain ⟨r, r', e1, e2, e3⟩ := appendShared_loose hss ha
    rw [e1, e2]
    refine RelM.bind (R := Eqv) (x := Except.ok r) (y := Except.ok r') e3 fun _ _ hr hr' _ => ?_
    cases hr
    cases hr'
    refine RelM.bind (RelM.refl _) ?_
    rintro l _ _ _ rfl
    refine RelM.bind ((h s (.simple l)).congrSimple _ _ d e3) ?_
    rintro ⟨p, ft, d1⟩ ⟨p', ft', d1'⟩ _ _ ⟨h1, h2, h3⟩
    simp only at h1 h2 h3
    subst h1 h3
    refine RelM.bind (asSimple_congr h2) ?_
    intro a2 b2 _ _ h4
    refine RelM.bind (removeShared_congr hss h4) ?_
    intro a3 b3 _ _ h5
    refine RelM.bind (ih (i + 1) p d1) ?_
    rintro ⟨ps, as1, d2⟩ ⟨ps', as1', d2'⟩ _ _ ⟨q1, q3⟩
    simp only at q1 q3
    subst q1 q3
    exact ⟨rfl, rfl⟩

theorem forall₂_get_le {act : Namespace → Bool} {l l' : List (SparseFeatures F)} (h : List.Forall₂ (LeAt act) l l') (i : Nat) :
    (l[i]? = none ∧ l'[i]? = none) ∨ ∃ a a', l[i]? = some a ∧ l'[i]? = some a' ∧ LeAt act a a' := by
  induction h generalizing i with
  | nil => left; simp
  | @cons a a' t t' h _ ih =>
    cases i with
    | zero => right; exact ⟨a, a', rfl, rfl, h⟩
    | succ i => simpa using ih i

/-- Appending an action to the shared features hides what a prediction has changed. -/
theorem append_loose {s s' a a' : SparseFeatures F} (hs : Eqv s s') (ha : LeAt (actOf (some s')) a a') :
    ∃ r r', s.append a = .ok r ∧ s'.append a' = .ok r' ∧ Eqv r r' := by
  obtain ⟨r, h1, i1, v1⟩ := append_spec hs.left ha.left
  obtain ⟨r', h2, i2, v2⟩ := append_spec hs.right ha.right
  refine ⟨r, r', h1, h2, i1, i2, fun ns => ?_⟩
  rw [v1, v2, hs.view]
  rcases ha.view ns with e | ⟨e1, e2, e3⟩
  · rw [e]
  · rw [e2]
    have e1 : (s'.vw ns).2.2 = true := e1
    simp only [vwAppend, noView, e3, vals_nil ha.right e3, List.append_nil]
    cases (a'.vw ns).2.2 with
    | false => rfl
    | true => exact Prod.ext rfl (Prod.ext rfl e1)

theorem cbMtr_loose {S : Type} {childL : S → Features F → Label F → Depth → M (S × Features F × Depth)}
    (h : ∀ s l, Nice (fun ft d => childL s ft l d)) (f g : CBAdfFeatures F) (label : CBLabel F) (mtr : MtrState) (s : S) (d : Depth)
    (hf : CbPlain f) (hg : CbPlain g) (he : Loose f g) (hd : d < 256) :
    RelM (fun x y => x.1 = y.1 ∧ x.2.2 = y.2.2) (cbMtrLearn childL f label mtr s d) (cbMtrLearn childL g label mtr s d) := by
  unfold cbMtrLearn
  rw [he.actions.length_eq]
  simp only
  have hsh := he.shared
  have hac := he.actions
  cases hs1 : f.shared with
  | none =>
    rw [hs1] at hsh
    cases hs2 : g.shared with
    | none => exact rfl
    | some y => rw [hs2] at hsh; cases hsh
  | some sh =>
    rw [hs1] at hsh
    cases hs2 : g.shared with
    | none => rw [hs2] at hsh; cases hsh
    | some sh' =>
      rw [hs2] at hsh hac
      cases hsh with
      | some hsh =>
        simp only
        rcases forall₂_get_le hac label.action with ⟨h1, h2⟩ | ⟨a, a', h1, h2, hae⟩
        · rw [h1, h2]; exact rfl
        · rw [h1, h2]
          show RelM _ (sh.append a >>= _) (sh'.append a' >>= _)
          obtain ⟨a1, g1, g2, g3, _, g4⟩ := append_remove_plain (hf.shared sh hs1) (hf.actions a (List.mem_of_getElem? h1))
          obtain ⟨b1, k1, k2, k3, _, k4⟩ := append_remove_plain (hg.shared sh' hs2) (hg.actions a' (List.mem_of_getElem? h2))
          obtain ⟨r, r', e1, e2, e3⟩ := append_loose hsh hae
          rw [g1] at e1
          rw [k1] at e2
          simp only [Except.ok.injEq] at e1 e2
          subst e1 e2
          rw [g1, k1, ok_bind, ok_bind]
          refine RelM.bind ((h _ _).congrSimple _ _ d e3) ?_
          rintro ⟨p, ft, d1⟩ ⟨p', ft', d1'⟩ hx hy ⟨q1, q2, q3⟩
          simp only at q1 q2 q3
          subst q1 q3
          obtain ⟨rfl, f', rfl, hee⟩ := (h _ _).restore g2 g3 hd hx
          obtain ⟨_, k', rfl, hee'⟩ := (h _ _).restore k2 k3 hd hy
          obtain ⟨a3, h5, he3⟩ := g4 _ hee
          obtain ⟨b3, h5', he3'⟩ := k4 _ hee'
          simp only [Features.asSimple]
          show RelM _ (f'.remove a >>= _) (k'.remove a' >>= _)
          rw [h5, h5']
          exact ⟨rfl, rfl⟩

/-! ### Calls -/

/-- What a call does to examples with empty namespaces. -/
def CallLe {α : Type} (body : Features F → Depth → M (α × Features F × Depth)) : Prop :=
  ∀ f d a ft' d', CbPlain f → d < 256 → body (.cbAdf f) d = .ok (a, ft', d') → d' = d ∧ ∃ f', ft' = .cbAdf f' ∧ CbLe f' f

/-- What a prediction does to examples with empty namespaces. -/
def CallLoose {α : Type} (body : Features F → Depth → M (α × Features F × Depth)) : Prop :=
  ∀ f d a ft' d', CbPlain f → d < 256 → body (.cbAdf f) d = .ok (a, ft', d') → d' = d ∧ ∃ f', ft' = .cbAdf f' ∧ Loose f' f

/-- A call does not depend on what a prediction has done. -/
def CallBlind {α : Type} (body : Features F → Depth → M (α × Features F × Depth)) : Prop :=
  ∀ g f d, CbPlain f → Loose g f → d < 256 → RelM ValEq (body (.cbAdf g) d) (body (.cbAdf f) d)

section calls
variable {α β : Type} {body : Features F → Depth → M (α × Features F × Depth)}

theorem CallLe.wrap (h : CallLe body) (dbg : Bool) (m : Meta) (off : Nat) : CallLe (fun ft d => wrapCall dbg m ft d off body) := by
  intro f d a ft' d' hf hd hr
  obtain ⟨d1, d2, h1, h2, h3, _⟩ := wrapCall_ok hr
  obtain ⟨rfl, hres⟩ := h f d1 a ft' d2 hf (increment_lt h1) h2
  exact ⟨(increment_decrement hd h1 h3).2, hres⟩

theorem CallLoose.wrap (h : CallLoose body) (dbg : Bool) (m : Meta) (off : Nat) : CallLoose (fun ft d => wrapCall dbg m ft d off body) := by
  intro f d a ft' d' hf hd hr
  obtain ⟨d1, d2, h1, h2, h3, _⟩ := wrapCall_ok hr
  obtain ⟨rfl, hres⟩ := h f d1 a ft' d2 hf (increment_lt h1) h2
  exact ⟨(increment_decrement hd h1 h3).2, hres⟩

theorem CallLe.map (h : CallLe body) (g : α → M β) : CallLe (fun ft d => do
    let r ← body ft d
    let b ← g r.1
    .ok (b, r.2.1, r.2.2)) := by
  intro f d a ft' d' hf hd hr
  obtain ⟨⟨a0, ft0, d0⟩, h1, hr⟩ := bind_ok.1 hr
  obtain ⟨b, _, hr⟩ := bind_ok.1 hr
  simp only [Except.ok.injEq, Prod.mk.injEq] at hr
  obtain ⟨_, rfl, rfl⟩ := hr
  exact h f d a0 _ _ hf hd h1

theorem CallBlind.wrap (h : CallBlind body) (m : Meta) (off : Nat) : CallBlind (fun ft d => wrapCall false m ft d off body) := by
  intro g f d hf hl hd
  simp only [wrapCall]
  refine RelM.bind (RelM.refl _) ?_
  rintro d1 _ hd1 _ rfl
  refine RelM.bind (h g f d1 hf hl (increment_lt hd1)) ?_
  rintro ⟨a, ft', d2⟩ ⟨a', gt', d2'⟩ _ _ ⟨h1, h3⟩
  simp only at h1 h3
  subst h1 h3
  refine RelM.bind (RelM.refl _) ?_
  rintro d3 _ _ _ rfl
  exact ⟨rfl, rfl⟩

theorem CallBlind.map (h : CallBlind body) (c : α → M β) : CallBlind (fun ft d => do
    let r ← body ft d
    let b ← c r.1
    .ok (b, r.2.1, r.2.2)) := by
  intro g f d hf hl hd
  refine RelM.bind (h g f d hf hl hd) ?_
  rintro ⟨a, ft, d1⟩ ⟨a', ft', d1'⟩ _ _ ⟨h1, h3⟩
  simp only at h1 h3
  subst h1 h3
  refine RelM.bind (RelM.refl _) ?_
  rintro b _ _ _ rfl
  exact ⟨rfl, rfl⟩

theorem CallLe.fail (e : Panic) : CallLe (fun (_ : Features F) (_ : Depth) => (.error e : M (α × Features F × Depth))) := by
  intro f d a ft' d' _ _ h
  cases h

theorem CallBlind.fail (e : Panic) : CallBlind (fun (_ : Features F) (_ : Depth) => (.error e : M (α × Features F × Depth))) :=
  fun _ _ _ _ _ _ => rfl

end calls

theorem elementwise_cb {α : Type} {dbg : Bool} {bits : Nat} {pair : Namespace × Namespace} {keep : Bool}
    {body : Features F → Depth → M (α × Features F × Depth)} (f : CBAdfFeatures F) (d : Depth) :
    elementwiseWith dbg bits pair keep body (.cbAdf f) d = .error .typeMismatch := rfl

theorem predict_loose (dbg : Bool) (r : Red F) (hp : r.PairsOk) : ∀ s : r.State, CallLoose (r.predictImpl dbg s) := by
  induction r with
  | coin m =>
    intro s f d a ft' d' _ _ h
    cases h
  | elementwise m pair keep bits r ih =>
    intro s f d a ft' d' _ _ h
    unfold Red.predictImpl at h
    rw [elementwise_cb] at h
    cases h
  | cbAdf m ty r ih =>
    intro s f d a ft' d' hf hd hr
    unfold Red.predictImpl at hr
    obtain ⟨f0, hf0, hr⟩ := bind_ok.1 hr
    simp only [Features.asCb, Except.ok.injEq] at hf0
    subst hf0
    obtain ⟨⟨sc, as, d1⟩, hl, hr⟩ := bind_ok.1 hr
    simp only [Except.ok.injEq, Prod.mk.injEq] at hr
    obtain ⟨_, rfl, rfl⟩ := hr
    have := cbPredictLoop_plain ((predictImpl_nice dbg r hp s.2).wrap dbg r.meta 0) hf.shared f.actions 0 d _ hf.actions hd hl
    exact ⟨this.1, _, rfl, optEqv_refl_plain hf.shared, this.2⟩
  | debug m r ih => intro s; exact (ih hp s).wrap dbg r.meta 0
  | binary m r ih =>
    intro s f d a ft' d' hf hd hr
    unfold Red.predictImpl at hr
    obtain ⟨⟨p0, ft0, d0⟩, h1, hr⟩ := bind_ok.1 hr
    obtain ⟨_, _, hr⟩ := bind_ok.1 hr
    simp only [Except.ok.injEq, Prod.mk.injEq] at hr
    obtain ⟨_, rfl, rfl⟩ := hr
    exact (ih hp s).wrap dbg r.meta 0 f d p0 _ _ hf hd h1
  | greedy m e r ih =>
    intro s f d a ft' d' hf hd hr
    unfold Red.predictImpl at hr
    obtain ⟨⟨p0, ft0, d0⟩, h1, hr⟩ := bind_ok.1 hr
    obtain ⟨_, _, hr⟩ := bind_ok.1 hr
    obtain ⟨_, _, hr⟩ := bind_ok.1 hr
    simp only [Except.ok.injEq, Prod.mk.injEq] at hr
    obtain ⟨_, rfl, rfl⟩ := hr
    exact (ih hp s).wrap dbg r.meta 0 f d p0 _ _ hf hd h1
  | softmax m e lm r ih =>
    intro s f d a ft' d' hf hd hr
    unfold Red.predictImpl at hr
    obtain ⟨⟨p0, ft0, d0⟩, h1, hr⟩ := bind_ok.1 hr
    obtain ⟨_, _, hr⟩ := bind_ok.1 hr
    obtain ⟨_, _, hr⟩ := bind_ok.1 hr
    simp only [Except.ok.injEq, Prod.mk.injEq] at hr
    obtain ⟨_, rfl, rfl⟩ := hr
    exact (ih hp s.2).wrap dbg r.meta 0 f d p0 _ _ hf hd h1
  | squareCb m e gs ge r ih =>
    intro s f d a ft' d' hf hd hr
    unfold Red.predictImpl at hr
    obtain ⟨⟨p0, ft0, d0⟩, h1, hr⟩ := bind_ok.1 hr
    obtain ⟨_, _, hr⟩ := bind_ok.1 hr
    obtain ⟨_, _, hr⟩ := bind_ok.1 hr
    simp only [Except.ok.injEq, Prod.mk.injEq] at hr
    obtain ⟨_, rfl, rfl⟩ := hr
    exact (ih hp s.2).wrap dbg r.meta 0 f d p0 _ _ hf hd h1

theorem learn_le (dbg : Bool) (r : Red F) (hp : r.PairsOk) : ∀ (s : r.State) (l : Label F), CallLe (fun ft d => r.learnImpl dbg s ft l d) := by
  induction r with
  | coin m =>
    intro s l f d a ft' d' _ _ h
    simp only [Red.learnImpl] at h
    obtain ⟨_, hx, _⟩ := bind_ok.1 h
    cases hx
  | elementwise m pair keep bits r ih =>
    intro s l f d a ft' d' _ _ h
    simp only [Red.learnImpl, elementwise_cb] at h
    cases h
  | binary m r ih =>
    intro s l
    simp only [Red.learnImpl]
    cases l.asBinary with
    | error e => exact CallLe.fail e
    | ok b => exact (ih hp s (.simple (binaryToSimple b))).wrap dbg r.meta 0
  | cbAdf m ty r ih =>
    intro s l f d a ft' d' hf hd hr
    have hch : ∀ s l, Nice (fun ft d => wrapCall dbg r.meta ft d 0 (fun ft d => r.learnImpl dbg s ft l d)) :=
      fun s l => (learnImpl_nice dbg r hp s l).wrap dbg r.meta 0
    simp only [Red.learnImpl] at hr
    obtain ⟨f0, hf0, hr⟩ := bind_ok.1 hr
    simp only [Features.asCb, Except.ok.injEq] at hf0
    subst hf0
    obtain ⟨lb, _, hr⟩ := bind_ok.1 hr
    cases ty with
    | ips =>
      simp only at hr
      obtain ⟨⟨s', as, d1⟩, hl, hr⟩ := bind_ok.1 hr
      simp only [Except.ok.injEq, Prod.mk.injEq] at hr
      obtain ⟨_, rfl, rfl⟩ := hr
      have := cbIpsLoop_plain hch hf.shared lb f.actions 0 _ d _ hf.actions hd hl
      exact ⟨this.1, _, rfl, optLe_refl_plain hf.shared, this.2.imp fun _ _ h => h.mono fun _ _ => rfl⟩
    | mtr =>
      simp only at hr
      obtain ⟨⟨s', f', d1⟩, hl, hr⟩ := bind_ok.1 hr
      simp only [Except.ok.injEq, Prod.mk.injEq] at hr
      obtain ⟨_, rfl, rfl⟩ := hr
      have := cbMtr_plain hch f lb s.1 s.2 d hf hd _ hl
      exact ⟨this.1, _, rfl, this.2⟩
  | greedy m e r ih => intro s l; exact (ih hp s l).wrap dbg r.meta 0
  | softmax m e lm r ih =>
    intro s l
    exact ((ih hp s.2 l).wrap dbg r.meta 0).map (fun x => .ok ((s.1, x) : Nat × r.State))
  | squareCb m e gs ge r ih =>
    intro s l
    simp only [Red.learnImpl]
    cases l.asCb with
    | error e => exact CallLe.fail e
    | ok lb =>
      exact ((ih hp s.2 (.cb { lb with probability := Flt.one })).wrap dbg r.meta 0).map (fun x => .ok ((s.1 + 1, x) : Nat × r.State))
  | debug m r ih => intro s l; exact (ih hp s l).wrap dbg r.meta 0

theorem learn_blind (r : Red F) (hp : r.PairsOk) : ∀ (s : r.State) (l : Label F), CallBlind (fun ft d => r.learnImpl false s ft l d) := by
  induction r with
  | coin m => intro s l g f d _ _ _; exact rfl
  | elementwise m pair keep bits r ih => intro s l g f d _ _ _; exact rfl
  | binary m r ih =>
    intro s l
    simp only [Red.learnImpl]
    cases l.asBinary with
    | error e => exact CallBlind.fail e
    | ok b => exact (ih hp s (.simple (binaryToSimple b))).wrap r.meta 0
  | cbAdf m ty r ih =>
    intro s l g f d hf he hd
    have hch : ∀ s l, Nice (fun ft d => wrapCall false r.meta ft d 0 (fun ft d => r.learnImpl false s ft l d)) :=
      fun s l => (learnImpl_nice false r hp s l).wrap false r.meta 0
    simp only [Red.learnImpl, Features.asCb]
    show RelM ValEq (l.asCb >>= _) (l.asCb >>= _)
    refine RelM.bind (RelM.refl _) ?_
    rintro lb _ _ _ rfl
    cases ty with
    | ips =>
      refine RelM.bind (cbIpsLoop_loose hch he.shared lb he.actions 0 s.2 d) ?_
      rintro ⟨ps, as1, d2⟩ ⟨ps', as1', d2'⟩ _ _ ⟨q1, q3⟩
      simp only at q1 q3
      subst q1 q3
      exact ⟨rfl, rfl⟩
    | mtr =>
      refine RelM.bind (cbMtr_loose hch g f lb s.1 s.2 d (hf.of_le he.le) hf he hd) ?_
      rintro ⟨ps, as1, d2⟩ ⟨ps', as1', d2'⟩ _ _ ⟨q1, q3⟩
      simp only at q1 q3
      subst q1 q3
      exact ⟨rfl, rfl⟩
  | greedy m e r ih => intro s l; exact (ih hp s l).wrap r.meta 0
  | softmax m e lm r ih =>
    intro s l
    exact ((ih hp s.2 l).wrap r.meta 0).map (fun x => .ok ((s.1, x) : Nat × r.State))
  | squareCb m e gs ge r ih =>
    intro s l
    simp only [Red.learnImpl]
    cases l.asCb with
    | error e => exact CallBlind.fail e
    | ok lb =>
      exact ((ih hp s.2 (.cb { lb with probability := Flt.one })).wrap r.meta 0).map (fun x => .ok ((s.1 + 1, x) : Nat × r.State))
  | debug m r ih => intro s l; exact (ih hp s l).wrap r.meta 0

/-! ### Learning without predicting first -/

/-- If `ptl` succeeds and passes the check of its wrapper, so does `lrn`, with the same result. -/
def LearnsToo {S : Type} (dbg : Bool) (lrn : Features F → Depth → M (S × Features F × Depth))
    (ptl : Features F → Depth → M ((Prediction F × S) × Features F × Depth)) : Prop :=
  ∀ f d p s ft' d', CbPlain f → d < 256 → ptl (.cbAdf f) d = .ok ((p, s), ft', d') → debugAssert dbg (ft'.absDiffEq (.cbAdf f) Flt.epsilon) = .ok () →
    d' = d ∧ ∃ ftl, lrn (.cbAdf f) d = .ok (s, ftl, d) ∧ debugAssert dbg (ftl.absDiffEq (.cbAdf f) Flt.epsilon) = .ok ()

theorem LearnsToo.default {S : Type} {dbg : Bool} {pred : Features F → Depth → M (Prediction F × Features F × Depth)}
    {lrn : Features F → Depth → M (S × Features F × Depth)} (hp : CallLoose pred) (hn : Nice lrn) (hl : CallLe lrn)
    (hb : dbg = false → CallBlind lrn) : LearnsToo dbg lrn (defaultPredictThenLearn pred lrn) := by
  intro f d p s ft' d' hf hd h hc
  obtain ⟨rfl, ft1, d1, h1, h2⟩ := defaultPtl_ok h
  obtain ⟨rfl, f1, rfl, e1⟩ := hp f _ p ft1 d1 hf hd h1
  refine ⟨rfl, ?_⟩
  have hf1 := hf.of_le e1.le
  obtain ⟨_, f2, rfl, e2⟩ := hl f1 _ s ft' _ hf1 hd h2
  cases dbg with
  | false =>
    obtain ⟨⟨s', ftl, dl⟩, g1, g2, g3⟩ := (hb rfl f1 f d1 hf e1 hd).ok_left h2
    simp only at g2 g3
    subst g2 g3
    exact ⟨ftl, g1, rfl⟩
  | true =>
    have hc' : (Features.cbAdf f2).absDiffEq (.cbAdf f) Flt.epsilon = true := by
      cases hx : (Features.cbAdf f2).absDiffEq (.cbAdf f) Flt.epsilon with
      | true => rfl
      | false => rw [hx] at hc; cases hc
    have e := cbLe_le_eqv e2 e1.le hc'
    obtain ⟨⟨s', ftl, dl⟩, g1, g2, g3, g4⟩ := (hn.congrCb f1 f d1 e).ok_left h2
    simp only at g2 g3 g4
    subst g2 g4
    refine ⟨ftl, g1, ?_⟩
    rw [ftAbsDiffEq_congr g3.symm (FtEqv.cb (e.symm.trans e)), hc']
    rfl

theorem LearnsToo.wrap {S : Type} {dbg : Bool} {lrn : Features F → Depth → M (S × Features F × Depth)}
    {ptl : Features F → Depth → M ((Prediction F × S) × Features F × Depth)} (h : LearnsToo dbg lrn ptl) (m : Meta) :
    LearnsToo dbg (fun ft d => wrapCall dbg m ft d 0 lrn) (fun ft d => wrapCall dbg m ft d 0 ptl) := by
  intro f d p s ft' d' hf hd hr hc
  obtain ⟨d1, d2, h1, h2, h3, h4⟩ := wrapCall_ok hr
  obtain ⟨rfl, ftl, g1, g2⟩ := h f d1 p s ft' d2 hf (increment_lt h1) h2 h4
  simp only at h3
  have hdd := (increment_decrement hd h1 h3).2
  refine ⟨hdd, ftl, ?_, g2⟩
  simp only [wrapCall]
  rw [h1, ok_bind, g1, ok_bind]
  simp only
  rw [h3, ok_bind, g2, ok_bind, hdd]

theorem ptl_learnsToo (dbg : Bool) (r : Red F) (hp : r.PairsOk) : ∀ (s : r.State) (l : Label F),
    LearnsToo dbg (fun ft d => r.learnImpl dbg s ft l d) (fun ft d => r.predictThenLearnImpl dbg s ft l d 0) := by
  have hdef : ∀ (r : Red F) (_ : r.PairsOk) (s : r.State) (l : Label F),
      LearnsToo dbg (fun ft d => r.learnImpl dbg s ft l d) (defaultPredictThenLearn (r.predictImpl dbg s) fun ft d => r.learnImpl dbg s ft l d) :=
    fun r hp s l => LearnsToo.default (predict_loose dbg r hp s) (learnImpl_nice dbg r hp s l) (learn_le dbg r hp s l)
      (fun h => by subst h; exact learn_blind r hp s l)
  induction r with
  | coin m => intro s l; exact hdef _ hp s l
  | cbAdf m ty r ih => intro s l; exact hdef _ hp s l
  | greedy m e r ih => intro s l; exact hdef _ hp s l
  | softmax m e lm r ih => intro s l; exact hdef _ hp s l
  | squareCb m e gs ge r ih => intro s l; exact hdef _ hp s l
  | debug m r ih => intro s l; exact (ih hp s l).wrap r.meta
  | elementwise m pair keep bits r ih =>
    intro s l f d p s' ft' d' _ _ h
    simp only [Red.predictThenLearnImpl, elementwise_cb] at h
    cases h
  | binary m r ih =>
    intro s l f d p s' ft' d' hf hd h hc
    simp only [Red.predictThenLearnImpl, Red.learnImpl] at h ⊢
    obtain ⟨b, hb, h⟩ := bind_ok.1 h
    obtain ⟨⟨⟨p0, s0⟩, ft1, d1⟩, h1, h⟩ := bind_ok.1 h
    obtain ⟨⟨pr, _⟩, h2, h⟩ := bind_ok.1 h
    simp only [Except.ok.injEq, Prod.mk.injEq] at h
    obtain ⟨⟨_, rfl⟩, rfl, rfl⟩ := h
    rw [hb, ok_bind]
    exact (ih hp s (.simple (binaryToSimple b))).wrap r.meta f d p0 s0 _ _ hf hd h1 hc

/-- Examples as parsers make them. -/
def PlainEx : Features F → Prop
  | .simple f => f.Inv0 ∧ ∀ ns, ns.isRaw = true → f.vw ns = noView
  | .cbAdf f => CbPlain f

end Rml
