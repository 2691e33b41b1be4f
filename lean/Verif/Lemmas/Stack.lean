import Verif.Lemmas.Reductions
import Verif.SpecTypes
import Verif.Lemmas.SparseFeatures

/-! Helper lemmas: reduction stacks restore what they are given and only depend on what is observable. -/

set_option linter.unusedSectionVars false

namespace Rml
open SparseFeatures

/-- Two computations with related results: the same panic, or related values. -/
def RelM {α β : Type} (R : α → β → Prop) : M α → M β → Prop
  | .ok a, .ok b => R a b
  | .error e, .error e' => e = e'
  | _, _ => False

theorem RelM.bind {α β γ δ : Type} {R : α → β → Prop} {S : γ → δ → Prop} {x : M α} {y : M β} {f : α → M γ} {g : β → M δ}
    (h : RelM R x y) (hf : ∀ a b, x = .ok a → y = .ok b → R a b → RelM S (f a) (g b)) : RelM S (x >>= f) (y >>= g) := by
  cases x with
  | error e =>
    cases y with
    | error e' => exact h
    | ok b => exact h.elim
  | ok a =>
    cases y with
    | error e' => exact h.elim
    | ok b => exact hf a b rfl rfl h

theorem RelM.refl {α : Type} (x : M α) : RelM Eq x x := by
  cases x <;> exact rfl

theorem RelM.of_eq {α β : Type} {R : α → β → Prop} {x x' : M α} {y y' : M β} (hx : x = x') (hy : y = y') (h : RelM R x' y') :
    RelM R x y := by subst hx hy; exact h

theorem RelM.ok_left {α β : Type} {R : α → β → Prop} {x : M α} {y : M β} {a : α} (h : RelM R x y) (hx : x = .ok a) :
    ∃ b, y = .ok b ∧ R a b := by
  subst hx
  cases y with
  | error e => exact h.elim
  | ok b => exact ⟨b, rfl, h⟩

theorem RelM.mono {α β : Type} {R S : α → β → Prop} (hRS : ∀ a b, R a b → S a b) {x : M α} {y : M β} (h : RelM R x y) :
    RelM S x y := by
  cases x <;> cases y
  · exact h
  · exact h.elim
  · exact h.elim
  · exact hRS _ _ h

variable {F : Type} [Flt F]

/-- Same observable features. -/
structure Eqv (f g : SparseFeatures F) : Prop where
  left : f.Inv0
  right : g.Inv0
  view : ∀ ns, f.vw ns = g.vw ns

theorem Eqv.refl {f : SparseFeatures F} (h : f.Inv0) : Eqv f f := ⟨h, h, fun _ => rfl⟩
theorem Eqv.symm {f g : SparseFeatures F} (h : Eqv f g) : Eqv g f := ⟨h.right, h.left, fun ns => (h.view ns).symm⟩
theorem Eqv.trans {f g k : SparseFeatures F} (h : Eqv f g) (h' : Eqv g k) : Eqv f k :=
  ⟨h.left, h'.right, fun ns => (h.view ns).trans (h'.view ns)⟩

inductive OptEqv : Option (SparseFeatures F) → Option (SparseFeatures F) → Prop
  | none : OptEqv none none
  | some {f g} : Eqv f g → OptEqv (some f) (some g)

structure CbEqv (f g : CBAdfFeatures F) : Prop where
  shared : OptEqv f.shared g.shared
  actions : List.Forall₂ Eqv f.actions g.actions

inductive FtEqv : Features F → Features F → Prop
  | simple {f g} : Eqv f g → FtEqv (.simple f) (.simple g)
  | cb {f g} : CbEqv f g → FtEqv (.cbAdf f) (.cbAdf g)

/-- The view of an absent namespace. -/
def noView : List U32 × List F × Bool := ([], [], false)

/-- Every namespace is visible exactly if it holds features, and there are no raw hash namespaces. -/
structure SparseFeatures.Clean (f : SparseFeatures F) : Prop where
  inv : f.Inv0
  visible : ∀ ns, (f.vw ns).2.2 = true ↔ (f.vw ns).1 ≠ []
  noRaw : ∀ ns, ns.isRaw = true → f.vw ns = noView

theorem SparseFeatures.Clean.of_eqv {f g : SparseFeatures F} (h : f.Clean) (he : Eqv f g) : g.Clean :=
  ⟨he.right, fun ns => by rw [← he.view]; exact h.visible ns, fun ns hr => by rw [← he.view]; exact h.noRaw ns hr⟩

/-- All feature objects are clean. -/
structure CbGood (f : CBAdfFeatures F) : Prop where
  shared : ∀ s, f.shared = some s → s.Clean
  actions : ∀ a ∈ f.actions, a.Clean

theorem CbEqv.refl {f : CBAdfFeatures F} (h : CbGood f) : CbEqv f f := by
  refine ⟨?_, ?_⟩
  · cases hs : f.shared with
    | none => exact OptEqv.none
    | some s => exact OptEqv.some (Eqv.refl (h.shared s hs).inv)
  · have := h.actions
    generalize f.actions = l at this
    induction l with
    | nil => exact List.Forall₂.nil
    | cons a t ih =>
      exact List.Forall₂.cons (Eqv.refl (this a (by simp)).inv) (ih (fun x hx => this x (by simp [hx])))

theorem OptEqv.symm {f g : Option (SparseFeatures F)} (h : OptEqv f g) : OptEqv g f := by
  cases h with
  | none => exact OptEqv.none
  | some h => exact OptEqv.some h.symm

theorem OptEqv.trans {f g k : Option (SparseFeatures F)} (h : OptEqv f g) (h' : OptEqv g k) : OptEqv f k := by
  cases h with
  | none => exact h'
  | some h =>
    cases h' with
    | some h' => exact OptEqv.some (h.trans h')

theorem forall₂_symm {l l' : List (SparseFeatures F)} (h : List.Forall₂ Eqv l l') : List.Forall₂ Eqv l' l := by
  induction h with
  | nil => exact List.Forall₂.nil
  | cons h _ ih => exact List.Forall₂.cons h.symm ih

theorem forall₂_trans {l l' l'' : List (SparseFeatures F)} (h : List.Forall₂ Eqv l l') (h' : List.Forall₂ Eqv l' l'') :
    List.Forall₂ Eqv l l'' := by
  induction h generalizing l'' with
  | nil => exact h'
  | cons h _ ih =>
    cases h' with
    | cons g g' => exact List.Forall₂.cons (h.trans g) (ih g')

theorem CbEqv.symm {f g : CBAdfFeatures F} (h : CbEqv f g) : CbEqv g f := ⟨h.shared.symm, forall₂_symm h.actions⟩
theorem CbEqv.trans {f g k : CBAdfFeatures F} (h : CbEqv f g) (h' : CbEqv g k) : CbEqv f k :=
  ⟨h.shared.trans h'.shared, forall₂_trans h.actions h'.actions⟩

theorem FtEqv.symm {f g : Features F} (h : FtEqv f g) : FtEqv g f := by
  cases h with
  | simple h => exact FtEqv.simple h.symm
  | cb h => exact FtEqv.cb h.symm

theorem FtEqv.trans {f g k : Features F} (h : FtEqv f g) (h' : FtEqv g k) : FtEqv f k := by
  cases h with
  | simple h => cases h' with | simple h' => exact FtEqv.simple (h.trans h')
  | cb h => cases h' with | cb h' => exact FtEqv.cb (h.trans h')

theorem forall₂_clean {l l' : List (SparseFeatures F)} (h : List.Forall₂ Eqv l l') (hc : ∀ a ∈ l, a.Clean) : ∀ a ∈ l', a.Clean := by
  induction h with
  | nil => intro a ha; simp at ha
  | cons h _ ih =>
    intro a ha
    rcases List.mem_cons.1 ha with rfl | ha
    · exact (hc _ (by simp)).of_eqv h
    · exact ih (fun x hx => hc x (by simp [hx])) a ha

theorem CbGood.of_eqv {f g : CBAdfFeatures F} (h : CbGood f) (he : CbEqv f g) : CbGood g := by
  refine ⟨?_, forall₂_clean he.actions h.actions⟩
  intro s hs
  have := he.shared
  rw [hs] at this
  cases hf : f.shared with
  | none => rw [hf] at this; cases this
  | some s' =>
    rw [hf] at this
    cases this with
    | some h' => exact (h.shared s' hf).of_eqv h'

/-! ### Comparing features -/

theorem absDiffEq_vw {a b : SparseFeatures F} (ha : a.Inv0) (hb : b.Inv0) (eps : F) :
    a.absDiffEq b eps = (decide (a.activeKeys = b.activeKeys) && a.activeKeys.all (fun ns =>
      decide ((a.vw ns).1 = (b.vw ns).1) && ((a.vw ns).2.1.zip (b.vw ns).2.1).all (fun p => Flt.absDiffEq p.1 p.2 eps))) := by
  unfold SparseFeatures.absDiffEq
  by_cases hk : a.activeKeys = b.activeKeys
  · simp only [hk, decide_true, Bool.true_and]
    rw [← hk]
    rw [Bool.eq_iff_iff, List.all_eq_true, List.all_eq_true]
    refine forall₂_congr (fun ns hns => ?_)
    have h1 := (mem_activeKeys ha ns).1 hns
    have h2 := (mem_activeKeys hb ns).1 (hk ▸ hns)
    unfold vw at h1 h2 ⊢
    cases hl : lookup a.entries ns with
    | none => simp [hl] at h1
    | some x =>
      cases hl' : lookup b.entries ns with
      | none => simp [hl'] at h2
      | some y =>
        have k1 := ha.keys _ (lookup_mem hl)
        have k2 := hb.keys _ (lookup_mem hl')
        simp only at k1 k2
        simp only [NsFeats.absDiffEq, k1, k2, decide_true, Bool.true_and]
  · simp [hk]

theorem absDiffEq_congr {a a' b b' : SparseFeatures F} (ha : Eqv a a') (hb : Eqv b b') (eps : F) :
    a.absDiffEq b eps = a'.absDiffEq b' eps := by
  rw [absDiffEq_vw ha.left hb.left, absDiffEq_vw ha.right hb.right, activeKeys_congr ha.left ha.right ha.view,
    activeKeys_congr hb.left hb.right hb.view]
  simp only [ha.view, hb.view]

theorem zip_all_congr {eps : F} {l l' k k' : List (SparseFeatures F)} (h : List.Forall₂ Eqv l l') (h' : List.Forall₂ Eqv k k') :
    (l.zip k).all (fun p => p.1.absDiffEq p.2 eps) = (l'.zip k').all (fun p => p.1.absDiffEq p.2 eps) := by
  induction h generalizing k k' with
  | nil => simp
  | cons h _ ih =>
    cases h' with
    | nil => simp
    | cons g g' => simp only [List.zip_cons_cons, List.all_cons, ih g', absDiffEq_congr h g]

theorem ftAbsDiffEq_congr {a a' b b' : Features F} (ha : FtEqv a a') (hb : FtEqv b b') (eps : F) :
    a.absDiffEq b eps = a'.absDiffEq b' eps := by
  cases ha with
  | simple ha =>
    cases hb with
    | simple hb => exact absDiffEq_congr ha hb eps
    | cb hb => rfl
  | cb ha =>
    cases hb with
    | simple hb => rfl
    | cb hb =>
      simp only [Features.absDiffEq, CBAdfFeatures.absDiffEq]
      rw [zip_all_congr ha.actions hb.actions, ha.actions.length_eq, hb.actions.length_eq]
      congr 2
      have h1 := ha.shared
      have h2 := hb.shared
      revert h1 h2
      generalize (_ : CBAdfFeatures F).shared = x1
      generalize (_ : CBAdfFeatures F).shared = x2
      generalize (_ : CBAdfFeatures F).shared = x3
      generalize (_ : CBAdfFeatures F).shared = x4
      intro h1 h2
      cases h1 with
      | none => cases h2 <;> rfl
      | some h1 =>
        cases h2 with
        | none => rfl
        | some h2 => exact absDiffEq_congr h1 h2 eps


/-! ### Well-behaved calls -/

/-- Relation between the results of a call on equivalent features. -/
def ResEqv {α : Type} (x y : α × Features F × Depth) : Prop := x.1 = y.1 ∧ FtEqv x.2.1 y.2.1 ∧ x.2.2 = y.2.2

/-- A call that puts features and depth back, and depends only on what is observable of the features. -/
structure Nice {α : Type} (body : Features F → Depth → M (α × Features F × Depth)) : Prop where
  simple : ∀ f d a ft' d', f.Inv0 → d < 256 → body (.simple f) d = .ok (a, ft', d') →
    d' = d ∧ ∃ f', ft' = .simple f' ∧ f'.Inv0 ∧ ∀ ns, f'.vw ns = f.vw ns ∨ (ns.isRaw = true ∧ f'.vw ns = noView)
  cb : ∀ f d a ft' d', CbGood f → d < 256 → body (.cbAdf f) d = .ok (a, ft', d') → d' = d ∧ ∃ f', ft' = .cbAdf f' ∧ CbEqv f' f
  congrSimple : ∀ f g d, Eqv f g → RelM ResEqv (body (.simple f) d) (body (.simple g) d)
  congrCb : ∀ f g d, CbEqv f g → RelM ResEqv (body (.cbAdf f) d) (body (.cbAdf g) d)

theorem Nice.congr {α : Type} {body : Features F → Depth → M (α × Features F × Depth)} (h : Nice body) {ft gt : Features F}
    (he : FtEqv ft gt) {d : Depth} : RelM ResEqv (body ft d) (body gt d) := by
  cases he with
  | simple he => exact h.congrSimple _ _ d he
  | cb he => exact h.congrCb _ _ d he

theorem u8Mul_lt {dbg : Bool} {a b p : Nat} (h : u8Mul dbg a b = .ok p) : p < 256 := by
  unfold u8Mul at h
  split at h
  · simp at h
  · simp at h; omega

theorem increment_ok {dbg : Bool} {d n i d1 : Nat} (h : Depth.increment dbg d n i = .ok d1) :
    ∃ p, u8Mul dbg n i = .ok p ∧ d1 = (d + p) % 256 := by
  unfold Depth.increment at h
  obtain ⟨p, hp, h⟩ := bind_ok.1 h
  split at h
  · simp at h
  · simp at h; exact ⟨p, hp, h.symm⟩

theorem decrement_ok {dbg : Bool} {d n i d1 : Nat} (h : Depth.decrement dbg d n i = .ok d1) :
    ∃ p, u8Mul dbg n i = .ok p ∧ d1 = (d + 256 - p) % 256 := by
  unfold Depth.decrement at h
  obtain ⟨p, hp, h⟩ := bind_ok.1 h
  split at h
  · simp at h
  · simp at h; exact ⟨p, hp, h.symm⟩

theorem increment_decrement {dbg : Bool} {d n i d1 d3 : Nat} (hd : d < 256) (h : Depth.increment dbg d n i = .ok d1)
    (h' : Depth.decrement dbg d1 n i = .ok d3) : d1 < 256 ∧ d3 = d := by
  obtain ⟨p, hp, rfl⟩ := increment_ok h
  obtain ⟨q, hq, rfl⟩ := decrement_ok h'
  rw [hp] at hq
  simp only [Except.ok.injEq] at hq
  subst hq
  have := u8Mul_lt hp
  omega

theorem increment_lt {dbg : Bool} {d n i d1 : Nat} (h : Depth.increment dbg d n i = .ok d1) : d1 < 256 := by
  obtain ⟨p, hp, rfl⟩ := increment_ok h
  omega

theorem wrapCall_congr {α : Type} {dbg : Bool} {m : Meta} {off : Nat} {body body' : Features F → Depth → M (α × Features F × Depth)}
    {ft gt : Features F} {d : Depth} (hft : FtEqv ft gt)
    (h : ∀ d1, RelM ResEqv (body ft d1) (body' gt d1)) :
    RelM ResEqv (wrapCall dbg m ft d off body) (wrapCall dbg m gt d off body') := by
  unfold wrapCall
  refine RelM.bind (RelM.refl _) ?_
  rintro d1 _ hd1 _ rfl
  refine RelM.bind (h d1) ?_
  rintro ⟨a, ft', d2⟩ ⟨a', gt', d2'⟩ _ _ ⟨h1, h2, h3⟩
  simp only at h1 h2 h3
  subst h1 h3
  refine RelM.bind (RelM.refl _) ?_
  rintro d3 _ _ _ rfl
  rw [ftAbsDiffEq_congr h2 hft]
  refine RelM.bind (RelM.refl _) ?_
  rintro ⟨⟩ _ _ _ rfl
  exact ⟨rfl, h2, rfl⟩

theorem Nice.wrap {α : Type} {body : Features F → Depth → M (α × Features F × Depth)} (h : Nice body) (dbg : Bool) (m : Meta)
    (off : Nat) : Nice (fun ft d => wrapCall dbg m ft d off body) := by
  refine ⟨?_, ?_, ?_, ?_⟩
  · intro f d a ft' d' hf hd hr
    obtain ⟨d1, d2, h1, h2, h3, _⟩ := wrapCall_ok hr
    have hd1 := increment_lt h1
    obtain ⟨rfl, hres⟩ := h.simple f d1 a ft' d2 hf hd1 h2
    exact ⟨(increment_decrement hd h1 h3).2, hres⟩
  · intro f d a ft' d' hf hd hr
    obtain ⟨d1, d2, h1, h2, h3, _⟩ := wrapCall_ok hr
    have hd1 := increment_lt h1
    obtain ⟨rfl, hres⟩ := h.cb f d1 a ft' d2 hf hd1 h2
    exact ⟨(increment_decrement hd h1 h3).2, hres⟩
  · intro f g d he
    exact wrapCall_congr (FtEqv.simple he) (fun d1 => h.congrSimple f g d1 he)
  · intro f g d he
    exact wrapCall_congr (FtEqv.cb he) (fun d1 => h.congrCb f g d1 he)

/-- Processing the result of a well-behaved call. -/
theorem Nice.map {α β : Type} {body : Features F → Depth → M (α × Features F × Depth)} (h : Nice body) (g : α → M β) :
    Nice (fun ft d => do
      let r ← body ft d
      let b ← g r.1
      .ok (b, r.2.1, r.2.2)) := by
  refine ⟨?_, ?_, ?_, ?_⟩
  · intro f d a ft' d' hf hd hr
    obtain ⟨⟨a0, ft0, d0⟩, h1, hr⟩ := bind_ok.1 hr
    obtain ⟨b, _, hr⟩ := bind_ok.1 hr
    simp only [Except.ok.injEq, Prod.mk.injEq] at hr
    obtain ⟨_, rfl, rfl⟩ := hr
    exact h.simple f d a0 _ _ hf hd h1
  · intro f d a ft' d' hf hd hr
    obtain ⟨⟨a0, ft0, d0⟩, h1, hr⟩ := bind_ok.1 hr
    obtain ⟨b, _, hr⟩ := bind_ok.1 hr
    simp only [Except.ok.injEq, Prod.mk.injEq] at hr
    obtain ⟨_, rfl, rfl⟩ := hr
    exact h.cb f d a0 _ _ hf hd h1
  · intro f k d he
    refine RelM.bind (h.congrSimple f k d he) ?_
    rintro ⟨a, ft, d1⟩ ⟨a', ft', d1'⟩ _ _ ⟨h1, h2, h3⟩
    simp only at h1 h2 h3
    subst h1 h3
    refine RelM.bind (RelM.refl _) ?_
    rintro b _ _ _ rfl
    exact ⟨rfl, h2, rfl⟩
  · intro f k d he
    refine RelM.bind (h.congrCb f k d he) ?_
    rintro ⟨a, ft, d1⟩ ⟨a', ft', d1'⟩ _ _ ⟨h1, h2, h3⟩
    simp only at h1 h2 h3
    subst h1 h3
    refine RelM.bind (RelM.refl _) ?_
    rintro b _ _ _ rfl
    exact ⟨rfl, h2, rfl⟩

/-- A call that looks at simple features without changing them. -/
theorem Nice.leaf {α : Type} (g : SparseFeatures F → M α) (hg : ∀ f k, Eqv f k → g f = g k) :
    Nice (fun (ft : Features F) (d : Depth) => do
      let f ← ft.asSimple
      let a ← g f
      .ok (a, ft, d)) := by
  refine ⟨?_, ?_, ?_, ?_⟩
  · intro f d a ft' d' hf hd hr
    obtain ⟨f0, h0, hr⟩ := bind_ok.1 hr
    obtain ⟨b, _, hr⟩ := bind_ok.1 hr
    simp only [Except.ok.injEq, Prod.mk.injEq] at hr
    obtain ⟨_, rfl, rfl⟩ := hr
    exact ⟨rfl, f, rfl, hf, fun ns => Or.inl rfl⟩
  · intro f d a ft' d' hf hd hr
    obtain ⟨f0, h0, hr⟩ := bind_ok.1 hr
    simp [Features.asSimple] at h0
  · intro f k d he
    simp only [Features.asSimple]
    show RelM ResEqv (g f >>= fun a => Except.ok (a, Features.simple f, d)) (g k >>= fun a => Except.ok (a, Features.simple k, d))
    rw [hg f k he]
    refine RelM.bind (RelM.refl _) ?_
    rintro b _ _ _ rfl
    exact ⟨rfl, FtEqv.simple he, rfl⟩
  · intro f k d he
    exact rfl

/-! ### ElementwiseInteraction -/

theorem elementwiseLoop_wf (dbg : Bool) (b1 b2 cb : U32) : ∀ (fuel : Nat) (as bs : List (U32 × F)) (dest out : NsFeats F),
    dest.idx.data.length = dest.vals.data.length → elementwiseLoop dbg b1 b2 cb fuel as bs dest = .ok out →
    out.idx.data.length = out.vals.data.length ∧ out.namespace_ = dest.namespace_ ∧ out.active = dest.active := by
  intro fuel
  induction fuel with
  | zero => intro as bs dest out hd h; simp [elementwiseLoop] at h; subst h; exact ⟨hd, rfl, rfl⟩
  | succ fuel ih =>
    intro as bs dest out hd h
    cases as with
    | nil => simp [elementwiseLoop] at h; subst h; exact ⟨hd, rfl, rfl⟩
    | cons a as =>
      cases bs with
      | nil => simp [elementwiseLoop] at h; subst h; exact ⟨hd, rfl, rfl⟩
      | cons b bs =>
        unfold elementwiseLoop at h
        obtain ⟨i1, _, h⟩ := bind_ok.1 h
        obtain ⟨i2, _, h⟩ := bind_ok.1 h
        obtain ⟨di, _, h⟩ := bind_ok.1 h
        split at h
        · have := ih _ _ _ _ (by simp [NsFeats.addFeature, RVec.push, hd]) h
          exact ⟨this.1, this.2.1, this.2.2⟩
        · split at h
          · exact ih _ _ _ _ hd h
          · exact ih _ _ _ _ hd h

/-- The result of `elementwise_multiply` and the namespaces it needs. -/
theorem elementwiseMultiply_ok {dbg : Bool} {bits : Nat} {f : SparseFeatures F} {one two : Namespace} {r : Namespace × NsFeats F}
    (h : elementwiseMultiply dbg bits f one two = .ok r) :
    r.1 = .rawHash (compositeHash one two) ∧ r.2.idx.data.length = r.2.vals.data.length ∧ r.2.namespace_ = r.1 ∧ r.2.active = false ∧
      (f.vw one).2.2 = true ∧ (f.vw two).2.2 = true := by
  unfold elementwiseMultiply at h
  obtain ⟨n1, h1, h⟩ := bind_ok.1 h
  obtain ⟨n2, h2, h⟩ := bind_ok.1 h
  obtain ⟨dest, h3, h⟩ := bind_ok.1 h
  simp only [Except.ok.injEq] at h
  subst h
  obtain ⟨w1, w2, w3⟩ := elementwiseLoop_wf dbg _ _ _ _ _ _ _ _ (by rfl) h3
  have g1 : (f.getNamespace one).isSome = true := by
    cases hg : f.getNamespace one with
    | none => rw [hg] at h1; simp [unwrapOpt] at h1
    | some x => rfl
  have g2 : (f.getNamespace two).isSome = true := by
    cases hg : f.getNamespace two with
    | none => rw [hg] at h2; simp [unwrapOpt] at h2
    | some x => rfl
  rw [getNamespace_isSome_vw] at g1 g2
  exact ⟨rfl, w1, w2, w3, g1, g2⟩

theorem elementwiseMultiply_congr {dbg : Bool} {bits : Nat} {f g : SparseFeatures F} (h : Eqv f g) (one two : Namespace) :
    elementwiseMultiply dbg bits f one two = elementwiseMultiply dbg bits g one two := by
  have key : ∀ ns, ((f.getNamespace ns).map NsFeats.iter) = ((g.getNamespace ns).map NsFeats.iter) := by
    intro ns
    have hv := h.view ns
    unfold vw at hv
    unfold getNamespace
    cases hl : lookup f.entries ns with
    | none =>
      rw [hl] at hv
      cases hl' : lookup g.entries ns with
      | none => rfl
      | some y => rw [hl'] at hv; simp only at hv; injection hv with e1 e2; injection e2 with e2 e3; simp [← e3]
    | some x =>
      rw [hl] at hv
      cases hl' : lookup g.entries ns with
      | none => rw [hl'] at hv; simp only at hv; injection hv with e1 e2; injection e2 with e2 e3; simp [e3]
      | some y =>
        rw [hl'] at hv; simp only at hv; injection hv with e1 e2; injection e2 with e2 e3
        simp only [← e3]
        cases x.active with
        | false => rfl
        | true => simp [NsFeats.iter, e1, e2]
  unfold elementwiseMultiply
  simp only
  have k1 := key one
  have k2 := key two
  cases h1 : f.getNamespace one with
  | none =>
    rw [h1] at k1
    cases h1' : g.getNamespace one with
    | none => rfl
    | some y => rw [h1'] at k1; simp at k1
  | some x =>
    rw [h1] at k1
    cases h1' : g.getNamespace one with
    | none => rw [h1'] at k1; simp at k1
    | some y =>
      rw [h1'] at k1
      cases h2 : f.getNamespace two with
      | none =>
        rw [h2] at k2
        cases h2' : g.getNamespace two with
        | none => rfl
        | some z => rw [h2'] at k2; simp at k2
      | some w =>
        rw [h2] at k2
        cases h2' : g.getNamespace two with
        | none => rw [h2'] at k2; simp at k2
        | some z =>
          rw [h2'] at k2
          simp only [Option.map_some, Option.some.injEq] at k1 k2
          simp only [unwrapOpt, bind, Except.bind, k1, k2]

theorem lookup_of_view {f : SparseFeatures F} {ns : Namespace} (h : (f.vw ns).2.2 = true) : ∃ n, lookup f.entries ns = some n := by
  unfold vw at h
  cases hl : lookup f.entries ns with
  | none => rw [hl] at h; simp at h
  | some n => exact ⟨n, rfl⟩

theorem vw_of_lookup {f : SparseFeatures F} {ns : Namespace} {n : NsFeats F} (h : lookup f.entries ns = some n) :
    f.vw ns = (n.idx.data, n.vals.data, n.active) := by
  unfold vw; rw [h]

/-- The features seen by the base of ElementwiseInteraction when the originals are dropped. -/
theorem takeOut {f : SparseFeatures F} (hf : f.Inv0) (ns : Namespace) {n : NsFeats F}
    (h : unwrapOpt (f.removeNamespace ns).1 = .ok n) :
    lookup f.entries ns = some n ∧ n.idx.data.length = n.vals.data.length ∧ n.namespace_ = ns := by
  unfold SparseFeatures.removeNamespace at h
  simp only at h
  cases hl : lookup f.entries ns with
  | none => rw [hl] at h; simp [unwrapOpt] at h
  | some x =>
    rw [hl] at h
    simp [unwrapOpt] at h
    subst h
    exact ⟨rfl, hf.lens _ (lookup_mem hl), hf.keys _ (lookup_mem hl)⟩

theorem Nice.elementwise {α : Type} {body : Features F → Depth → M (α × Features F × Depth)} (h : Nice body) (dbg : Bool)
    (bits : Nat) (pair : Namespace × Namespace) (keep : Bool) (hp : pair.1.isRaw = false ∧ pair.2.isRaw = false) :
    Nice (elementwiseWith dbg bits pair keep body) := by
  refine ⟨?_, ?_, ?_, ?_⟩
  · intro f d a ft' d' hf hd hr
    unfold elementwiseWith at hr
    obtain ⟨f0, hf0, hr⟩ := bind_ok.1 hr
    simp only [Features.asSimple, Except.ok.injEq] at hf0
    subst hf0
    obtain ⟨⟨cns, dest⟩, hm, hr⟩ := bind_ok.1 hr
    obtain ⟨hc, hlen, hns, hact, hv1, hv2⟩ := elementwiseMultiply_ok hm
    simp only at hc hlen hns hact hr
    have hraw : cns.isRaw = true := by rw [hc]; rfl
    have hinv1 : (f.setNamespace cns dest).Inv0 := setNamespace_inv0 hf hlen hns
    cases keep with
    | true =>
      simp only [if_true] at hr
      obtain ⟨⟨a0, ft0, d0⟩, hb, hr⟩ := bind_ok.1 hr
      obtain ⟨f', hf', hr⟩ := bind_ok.1 hr
      simp only [Except.ok.injEq, Prod.mk.injEq] at hr
      obtain ⟨_, rfl, rfl⟩ := hr
      obtain ⟨hd', f1, rfl, hinv2, hview⟩ := h.simple _ _ _ _ _ hinv1 hd hb
      simp only [Features.asSimple, Except.ok.injEq] at hf'
      subst hf'
      refine ⟨hd', _, rfl, removeNamespace_inv0 hinv2 cns, fun ns => ?_⟩
      rw [vw_removeNamespace hinv2]
      by_cases hk : cns = ns
      · subst hk; simp [hraw, noView]
      · simp only [hk, if_false]
        have := hview ns
        rw [vw_setNamespace, if_neg hk] at this
        exact this
    | false =>
      simp only [Bool.false_eq_true, if_false] at hr
      obtain ⟨n1, hn1, hr⟩ := bind_ok.1 hr
      obtain ⟨n2, hn2, hr⟩ := bind_ok.1 hr
      obtain ⟨⟨a0, ft0, d0⟩, hb, hr⟩ := bind_ok.1 hr
      obtain ⟨f', hf', hr⟩ := bind_ok.1 hr
      simp only [Except.ok.injEq, Prod.mk.injEq] at hr
      obtain ⟨_, rfl, rfl⟩ := hr
      obtain ⟨l1, len1, key1⟩ := takeOut hinv1 _ hn1
      have hinvA := removeNamespace_inv0 hinv1 pair.1
      obtain ⟨l2, len2, key2⟩ := takeOut hinvA _ hn2
      have hinvB := removeNamespace_inv0 hinvA pair.2
      obtain ⟨hd', f1, rfl, hinv2, hview⟩ := h.simple _ _ _ _ _ hinvB hd hb
      simp only [Features.asSimple, Except.ok.injEq] at hf'
      subst hf'
      have hi := removeNamespace_inv0 hinv2 cns
      refine ⟨hd', _, rfl, setNamespace_inv0 (setNamespace_inv0 hi len1 key1) len2 key2, fun ns => ?_⟩
      have c1 : cns ≠ pair.1 := by rintro rfl; rw [hp.1] at hraw; simp at hraw
      have c2 : cns ≠ pair.2 := by rintro rfl; rw [hp.2] at hraw; simp at hraw
      have v1 := vw_of_lookup l1
      have v2 := vw_of_lookup l2
      have h12 : pair.1 ≠ pair.2 := by
        intro h12
        have : lookup (erase (f.setNamespace cns dest).entries pair.1) pair.2 = some n2 := l2
        rw [lookup_erase hinv1.sorted, if_pos h12] at this
        simp at this
      rw [vw_removeNamespace hinv1, if_neg h12] at v2
      rw [vw_setNamespace] at v1 v2
      rw [if_neg c1] at v1
      rw [if_neg c2] at v2
      rw [vw_setNamespace, vw_setNamespace, vw_removeNamespace hinv2]
      have hvn := hview ns
      rw [vw_removeNamespace hinvA, vw_removeNamespace hinv1, vw_setNamespace] at hvn
      by_cases e2 : pair.2 = ns
      · subst e2
        left
        rw [if_pos rfl, v2]
      · by_cases e1 : pair.1 = ns
        · subst e1
          left
          rw [if_neg e2, if_pos rfl, v1]
        · rw [if_neg e2, if_neg e1]
          by_cases ec : cns = ns
          · subst ec
            right
            simp [hraw, noView]
          · rw [if_neg ec]
            rw [if_neg e2, if_neg e1, if_neg ec] at hvn
            exact hvn
  · intro f d a ft' d' hf hd hr
    unfold elementwiseWith at hr
    obtain ⟨f0, hf0, hr⟩ := bind_ok.1 hr
    simp [Features.asSimple] at hf0
  · intro f g d he
    unfold elementwiseWith
    simp only [Features.asSimple]
    refine RelM.bind (RelM.refl (Except.ok ())) ?_ |> fun (h : RelM ResEqv (Except.ok () >>= fun _ => _) (Except.ok () >>= fun _ => _)) => h
    rintro ⟨⟩ _ _ _ rfl
    rw [elementwiseMultiply_congr he]
    refine RelM.bind (RelM.refl _) ?_
    rintro ⟨cns, dest⟩ _ _ hm rfl
    obtain ⟨hc, hlen, hns, hact, hv1, hv2⟩ := elementwiseMultiply_ok hm
    simp only at hc hlen hns hact
    have hraw : cns.isRaw = true := by rw [hc]; rfl
    have c1 : cns ≠ pair.1 := by rintro rfl; rw [hp.1] at hraw; simp at hraw
    have c2 : cns ≠ pair.2 := by rintro rfl; rw [hp.2] at hraw; simp at hraw
    have e1 : Eqv (f.setNamespace cns dest) (g.setNamespace cns dest) :=
      ⟨setNamespace_inv0 he.left hlen hns, setNamespace_inv0 he.right hlen hns, fun ns => by
        rw [vw_setNamespace, vw_setNamespace, he.view]⟩
    cases keep with
    | true =>
      simp only [if_true]
      refine RelM.bind (h.congrSimple _ _ d e1) ?_
      rintro ⟨a, ft, d1⟩ ⟨a', ft', d1'⟩ _ _ ⟨h1, h2, h3⟩
      simp only at h1 h2 h3
      subst h1 h3
      cases h2 with
      | cb h2 => exact rfl
      | simple h2 =>
        refine ⟨rfl, FtEqv.simple ⟨removeNamespace_inv0 h2.left _, removeNamespace_inv0 h2.right _, fun ns => ?_⟩, rfl⟩
        rw [vw_removeNamespace h2.left, vw_removeNamespace h2.right, h2.view]
    | false =>
      simp only [Bool.false_eq_true, if_false]
      have g1 := vw_setNamespace f cns pair.1 dest
      have g1' := vw_setNamespace g cns pair.1 dest
      rw [if_neg c1] at g1 g1'
      have hvf1 : (f.vw pair.1).2.2 = true := by rw [he.view]; exact hv1
      obtain ⟨n1, hn1⟩ := lookup_of_view (f := f.setNamespace cns dest) (ns := pair.1) (by rw [g1]; exact hvf1)
      obtain ⟨n1', hn1'⟩ := lookup_of_view (f := g.setNamespace cns dest) (ns := pair.1) (by rw [g1']; exact hv1)
      have hu1 : unwrapOpt ((f.setNamespace cns dest).removeNamespace pair.1).1 = .ok n1 := by
        simp only [SparseFeatures.removeNamespace, hn1, unwrapOpt]
      have hu1' : unwrapOpt ((g.setNamespace cns dest).removeNamespace pair.1).1 = .ok n1' := by
        simp only [SparseFeatures.removeNamespace, hn1', unwrapOpt]
      obtain ⟨_, len1, key1⟩ := takeOut e1.left _ hu1
      obtain ⟨_, len1', key1'⟩ := takeOut e1.right _ hu1'
      have hnv1 : (n1.idx.data, n1.vals.data, n1.active) = (n1'.idx.data, n1'.vals.data, n1'.active) := by
        rw [← vw_of_lookup hn1, ← vw_of_lookup hn1', e1.view]
      rw [hu1, hu1']
      have e2 : Eqv ((f.setNamespace cns dest).removeNamespace pair.1).2 ((g.setNamespace cns dest).removeNamespace pair.1).2 :=
        ⟨removeNamespace_inv0 e1.left _, removeNamespace_inv0 e1.right _, fun ns => by
          rw [vw_removeNamespace e1.left, vw_removeNamespace e1.right, e1.view]⟩
      show RelM ResEqv (unwrapOpt _ >>= _) (unwrapOpt _ >>= _)
      by_cases h12 : pair.1 = pair.2
      · have hx : ∀ k : SparseFeatures F, k.Inv0 → unwrapOpt (((k.removeNamespace pair.1).2).removeNamespace pair.2).1 = .error .unwrap := by
          intro k hk
          have : lookup (erase k.entries pair.1) pair.2 = none := by rw [lookup_erase hk.sorted, if_pos h12]
          simp only [SparseFeatures.removeNamespace, this, unwrapOpt]
        rw [hx _ e1.left, hx _ e1.right]
        exact rfl
      · have g2 : ∀ k : SparseFeatures F, k.Inv0 → ((k.setNamespace cns dest).removeNamespace pair.1).2.vw pair.2 = k.vw pair.2 := by
          intro k hk
          rw [vw_removeNamespace (setNamespace_inv0 hk hlen hns), if_neg h12, vw_setNamespace, if_neg c2]
        have hvf2 : (f.vw pair.2).2.2 = true := by rw [he.view]; exact hv2
        obtain ⟨n2, hn2⟩ := lookup_of_view (f := ((f.setNamespace cns dest).removeNamespace pair.1).2) (ns := pair.2)
          (by rw [g2 f he.left]; exact hvf2)
        obtain ⟨n2', hn2'⟩ := lookup_of_view (f := ((g.setNamespace cns dest).removeNamespace pair.1).2) (ns := pair.2)
          (by rw [g2 g he.right]; exact hv2)
        have hu2 : unwrapOpt (((f.setNamespace cns dest).removeNamespace pair.1).2.removeNamespace pair.2).1 = .ok n2 := by
          simp only [SparseFeatures.removeNamespace] at hn2 ⊢
          simp only [hn2, unwrapOpt]
        have hu2' : unwrapOpt (((g.setNamespace cns dest).removeNamespace pair.1).2.removeNamespace pair.2).1 = .ok n2' := by
          simp only [SparseFeatures.removeNamespace] at hn2' ⊢
          simp only [hn2', unwrapOpt]
        obtain ⟨_, len2, key2⟩ := takeOut e2.left _ hu2
        obtain ⟨_, len2', key2'⟩ := takeOut e2.right _ hu2'
        have hnv2 : (n2.idx.data, n2.vals.data, n2.active) = (n2'.idx.data, n2'.vals.data, n2'.active) := by
          rw [← vw_of_lookup hn2, ← vw_of_lookup hn2', e2.view]
        rw [hu2, hu2']
        have e3 : Eqv (((f.setNamespace cns dest).removeNamespace pair.1).2.removeNamespace pair.2).2
            (((g.setNamespace cns dest).removeNamespace pair.1).2.removeNamespace pair.2).2 :=
          ⟨removeNamespace_inv0 e2.left _, removeNamespace_inv0 e2.right _, fun ns => by
            rw [vw_removeNamespace e2.left, vw_removeNamespace e2.right, e2.view]⟩
        show RelM ResEqv (body _ d >>= _) (body _ d >>= _)
        refine RelM.bind (h.congrSimple _ _ d e3) ?_
        rintro ⟨a, ft, d1⟩ ⟨a', ft', d1'⟩ _ _ ⟨h1, h2, h3⟩
        simp only at h1 h2 h3
        subst h1 h3
        cases h2 with
        | cb h2 => exact rfl
        | simple h2 =>
          refine ⟨rfl, FtEqv.simple ⟨setNamespace_inv0 (setNamespace_inv0 (removeNamespace_inv0 h2.left _) len1 key1) len2 key2,
            setNamespace_inv0 (setNamespace_inv0 (removeNamespace_inv0 h2.right _) len1' key1') len2' key2', fun ns => ?_⟩, rfl⟩
          rw [vw_setNamespace, vw_setNamespace, vw_removeNamespace h2.left, vw_setNamespace, vw_setNamespace,
            vw_removeNamespace h2.right, h2.view, hnv1, hnv2]
  · intro f g d he
    exact rfl

/-! ### CbAdf -/

theorem ok_bind {α β : Type} (a : α) (f : α → M β) : ((Except.ok a : M α) >>= f) = f a := rfl

theorem append_remove_clean {a s : SparseFeatures F} (ha : a.Clean) (hs : s.Clean) :
    ∃ a1, a.append s = .ok a1 ∧ a1.Inv0 ∧ (∀ ns, ns.isRaw = true → a1.vw ns = noView) ∧
      (∀ ns, a1.vw ns = vwAppend (a.vw ns) (s.vw ns)) ∧
      (∀ a2, Eqv a2 a1 → ∃ a3, a2.remove s = .ok a3 ∧ Eqv a3 a) := by
  obtain ⟨a1, h1, i1, v1⟩ := append_spec ha.inv hs.inv
  refine ⟨a1, h1, i1, ?_, v1, ?_⟩
  · intro ns hns
    rw [v1, ha.noRaw ns hns, hs.noRaw ns hns]
    rfl
  · intro a2 he
    obtain ⟨a3, h3, i3, v3⟩ := remove_spec he.left hs.inv (by
      intro ns hns
      rw [he.view, v1, vwAppend, if_pos hns]
      simp)
    refine ⟨a3, h3, i3, ha.inv, fun ns => ?_⟩
    rw [v3, he.view, v1, vwRemove_vwAppend _ _ (vw_lens ha.inv ns)]
    split
    · apply Prod.ext
      · rfl
      · apply Prod.ext
        · rfl
        · have := ha.visible ns
          simp only
          cases hv : (a.vw ns).2.2 with
          | true =>
            have := this.1 hv
            simp [this]
          | false =>
            have hnot : ¬ (a.vw ns).1 ≠ [] := fun h => by have := this.2 h; rw [hv] at this; simp at this
            simp at hnot
            simp [hnot]
    · rfl

theorem append_congr {a a' s s' : SparseFeatures F} (ha : Eqv a a') (hs : Eqv s s') :
    ∃ r r', a.append s = .ok r ∧ a'.append s' = .ok r' ∧ Eqv r r' := by
  obtain ⟨r, h1, i1, v1⟩ := append_spec ha.left hs.left
  obtain ⟨r', h2, i2, v2⟩ := append_spec ha.right hs.right
  exact ⟨r, r', h1, h2, i1, i2, fun ns => by rw [v1, v2, ha.view, hs.view]⟩

theorem remove_fail_aux (l : List (Namespace × NsFeats F)) : ∀ (f : SparseFeatures F), Inv0 ⟨l⟩ →
    (∃ ns, (vw ⟨l⟩ ns).2.2 = true ∧ (f.vw ns).1.length < (vw ⟨l⟩ ns).1.length) → l.foldlM removeStep f = .error .overflow := by
  induction l with
  | nil =>
    rintro f _ ⟨ns, h, _⟩
    simp [vw, lookup] at h
  | cons e t ih =>
    rintro f hl ⟨ns, h1, h2⟩
    obtain ⟨k, n⟩ := e
    have hs := List.pairwise_cons.1 hl.sorted
    have ht : Inv0 ⟨t⟩ := ⟨hs.2, fun e he => hl.lens e (by simp [he]), fun e he => hl.keys e (by simp [he])⟩
    have hgo : ∀ f' : SparseFeatures F, removeStep f (k, n) = .ok f' → (k ≠ ns → f'.vw ns = f.vw ns) → k ≠ ns →
        ((k, n) :: t).foldlM removeStep f = .error .overflow := by
      intro f' hf hv hk
      rw [foldlM_cons_ok _ _ _ _ _ hf]
      have e : vw ⟨(k, n) :: t⟩ ns = vw ⟨t⟩ ns := by simp [vw, lookup, hk]
      exact ih f' ht ⟨ns, by rw [← e]; exact h1, by rw [← e, hv hk]; exact h2⟩
    by_cases hk : k = ns
    · subst hk
      have e2 : vw ⟨(k, n) :: t⟩ k = (n.idx.data, n.vals.data, n.active) := by simp [vw, lookup]
      rw [e2] at h1 h2
      simp only at h1 h2
      have e3 : (f.getOrCreate k).idx.data = (f.vw k).1 := by
        unfold getOrCreate vw
        cases lookup f.entries k <;> rfl
      have e4 : (f.getOrCreate k).size < n.size := by simp only [NsFeats.size, e3]; exact h2
      have : removeStep f (k, n) = .error .overflow := by simp only [removeStep, h1, if_true, e4]
      simp only [List.foldlM_cons, this]
      rfl
    · by_cases hact : n.active = true
      · by_cases hsz : (f.getOrCreate k).size < n.size
        · have : removeStep f (k, n) = .error .overflow := by simp only [removeStep, hact, if_true, hsz]
          simp only [List.foldlM_cons, this]
          rfl
        · refine hgo _ (by simp only [removeStep, hact, if_true, hsz, if_false]; rfl) (fun hk => ?_) hk
          rw [vw_setNamespace, if_neg hk]
      · exact hgo f (by simp [removeStep, hact]) (fun _ => rfl) hk

/-- Taking out features depends only on what is observable. -/
theorem remove_congr {a a' s s' : SparseFeatures F} (ha : Eqv a a') (hs : Eqv s s') : RelM Eqv (a.remove s) (a'.remove s') := by
  by_cases h : ∀ ns, (s.vw ns).2.2 = true → (s.vw ns).1.length ≤ (a.vw ns).1.length
  · obtain ⟨r, h1, i1, v1⟩ := remove_spec ha.left hs.left h
    obtain ⟨r', h2, i2, v2⟩ := remove_spec ha.right hs.right (fun ns => by rw [← ha.view, ← hs.view]; exact h ns)
    rw [h1, h2]
    exact ⟨i1, i2, fun ns => by rw [v1, v2, ha.view, hs.view]⟩
  · push Not at h
    obtain ⟨ns, h1, h2⟩ := h
    have e1 : a.remove s = .error .overflow := remove_fail_aux s.entries a hs.left ⟨ns, h1, h2⟩
    have e2 : a'.remove s' = .error .overflow :=
      remove_fail_aux s'.entries a' hs.right ⟨ns, by show (s'.vw ns).2.2 = true; rw [← hs.view]; exact h1,
        by show _ < (s'.vw ns).1.length; rw [← hs.view, ← ha.view]; exact h2⟩
    rw [e1, e2]
    exact rfl

theorem asSimple_congr {ft gt : Features F} (h : FtEqv ft gt) : RelM Eqv ft.asSimple gt.asSimple := by
  cases h with
  | simple h => exact h
  | cb h => exact rfl

/-- A well-behaved call on simple features without raw namespaces restores them completely. -/
theorem Nice.restore {α : Type} {body : Features F → Depth → M (α × Features F × Depth)} (h : Nice body) {f : SparseFeatures F}
    (hf : f.Inv0) (hr : ∀ ns, ns.isRaw = true → f.vw ns = noView) {d : Depth} (hd : d < 256) {a : α} {ft' : Features F} {d' : Depth}
    (hb : body (.simple f) d = .ok (a, ft', d')) : d' = d ∧ ∃ f', ft' = .simple f' ∧ Eqv f' f := by
  obtain ⟨hd', f', rfl, hi, hv⟩ := h.simple f d a ft' d' hf hd hb
  refine ⟨hd', f', rfl, hi, hf, fun ns => ?_⟩
  rcases hv ns with hv | ⟨hr', hv⟩
  · exact hv
  · rw [hv, hr ns hr']

/-- Adding and later taking out the shared features of one action. -/
theorem shared_step {shared : Option (SparseFeatures F)} (hs : ∀ s, shared = some s → s.Clean) {a : SparseFeatures F} (ha : a.Clean) :
    ∃ a1, appendShared shared a = .ok a1 ∧ a1.Inv0 ∧ (∀ ns, ns.isRaw = true → a1.vw ns = noView) ∧
      (∀ a2, Eqv a2 a1 → ∃ a3, removeShared shared a2 = .ok a3 ∧ Eqv a3 a) := by
  cases shared with
  | none => exact ⟨a, rfl, ha.inv, ha.noRaw, fun a2 he => ⟨a2, rfl, he⟩⟩
  | some s =>
    obtain ⟨a1, h1, h2, h3, _, h5⟩ := append_remove_clean ha (hs s rfl)
    exact ⟨a1, h1, h2, h3, h5⟩

theorem appendShared_congr {shared shared' : Option (SparseFeatures F)} (hs : OptEqv shared shared') {a a' : SparseFeatures F}
    (ha : Eqv a a') : ∃ r r', appendShared shared a = .ok r ∧ appendShared shared' a' = .ok r' ∧ Eqv r r' := by
  cases hs with
  | none => exact ⟨a, a', rfl, rfl, ha⟩
  | some hs => exact append_congr ha hs

theorem removeShared_congr {shared shared' : Option (SparseFeatures F)} (hs : OptEqv shared shared') {a a' : SparseFeatures F}
    (ha : Eqv a a') : RelM Eqv (removeShared shared a) (removeShared shared' a') := by
  cases hs with
  | none => exact ha
  | some hs => exact remove_congr ha hs

theorem OptEqv.clean {shared shared' : Option (SparseFeatures F)} (h : OptEqv shared shared')
    (hs : ∀ s, shared = Option.some s → s.Clean) : ∀ s, shared' = Option.some s → s.Clean := by
  intro s hs'
  subst hs'
  cases h with
  | some h => exact (hs _ rfl).of_eqv h

theorem cbPredictLoop_nice {childP : Features F → Depth → M (Prediction F × Features F × Depth)} (h : Nice childP)
    {shared : Option (SparseFeatures F)} (hs : ∀ s, shared = some s → s.Clean) (as : List (SparseFeatures F)) :
    ∀ (i : Nat) (d : Depth) (r : List (Nat × F) × List (SparseFeatures F) × Depth), (∀ a ∈ as, a.Clean) → d < 256 →
      cbPredictLoop childP shared i as d = .ok r → r.2.2 = d ∧ List.Forall₂ Eqv r.2.1 as := by
  induction as with
  | nil => intro i d r _ _ hr; simp [cbPredictLoop] at hr; subst hr; exact ⟨rfl, List.Forall₂.nil⟩
  | cons a as ih =>
    intro i d r hc hd hr
    unfold cbPredictLoop at hr
    obtain ⟨a1, g1, g2, g3, g4⟩ := shared_step hs (hc a (by simp))
    obtain ⟨a1', h1, hr⟩ := bind_ok.1 hr
    rw [g1] at h1
    simp only [Except.ok.injEq] at h1
    subst h1
    obtain ⟨⟨p, ft, d1⟩, h2, hr⟩ := bind_ok.1 hr
    obtain ⟨⟨_, raw⟩, _, hr⟩ := bind_ok.1 hr
    obtain ⟨a2, h4, hr⟩ := bind_ok.1 hr
    obtain ⟨a3, h5, hr⟩ := bind_ok.1 hr
    obtain ⟨⟨ps, as', d2⟩, h6, hr⟩ := bind_ok.1 hr
    simp only [Except.ok.injEq] at hr
    subst hr
    obtain ⟨rfl, f', rfl, he⟩ := h.restore g2 g3 hd h2
    simp only [Features.asSimple, Except.ok.injEq] at h4
    subst h4
    obtain ⟨a3', h5', he3⟩ := g4 _ he
    rw [h5'] at h5
    simp only [Except.ok.injEq] at h5
    subst h5
    have := ih _ _ _ (fun x hx => hc x (by simp [hx])) hd h6
    exact ⟨this.1, List.Forall₂.cons he3 this.2⟩

/-- Relation between the results of the loops of CbAdf. -/
def LoopEqv {α : Type} (x y : α × List (SparseFeatures F) × Depth) : Prop :=
  x.1 = y.1 ∧ List.Forall₂ Eqv x.2.1 y.2.1 ∧ x.2.2 = y.2.2

theorem cbPredictLoop_congr {childP : Features F → Depth → M (Prediction F × Features F × Depth)} (h : Nice childP)
    {shared shared' : Option (SparseFeatures F)} (hss : OptEqv shared shared')
    {as as' : List (SparseFeatures F)} (hl : List.Forall₂ Eqv as as') :
    ∀ (i : Nat) (d : Depth), RelM LoopEqv (cbPredictLoop childP shared i as d) (cbPredictLoop childP shared' i as' d) := by
  induction hl with
  | nil => intro i d; exact ⟨rfl, List.Forall₂.nil, rfl⟩
  | @cons a a' as as' ha _ ih =>
    intro i d
    unfold cbPredictLoop
    obtain ⟨r, r', e1, e2, e3⟩ := appendShared_congr hss ha
    rw [e1, e2]
    show RelM LoopEqv (childP _ d >>= _) (childP _ d >>= _)
    refine RelM.bind (h.congrSimple _ _ d e3) ?_
    rintro ⟨p, ft, d1⟩ ⟨p', ft', d1'⟩ _ _ ⟨h1, h2, h3⟩
    simp only at h1 h2 h3
    subst h1 h3
    refine RelM.bind (RelM.refl _) ?_
    rintro ⟨_, raw⟩ _ _ _ rfl
    refine RelM.bind (asSimple_congr h2) ?_
    intro a2 b2 _ _ h4
    refine RelM.bind (removeShared_congr hss h4) ?_
    intro a3 b3 _ _ h5
    refine RelM.bind (ih (i + 1) d1) ?_
    rintro ⟨ps, as1, d2⟩ ⟨ps', as1', d2'⟩ _ _ ⟨q1, q2, q3⟩
    simp only at q1 q2 q3
    subst q1 q3
    exact ⟨rfl, List.Forall₂.cons h5 q2, rfl⟩

theorem cbIpsLoop_nice {S : Type} {dbg : Bool} {childL : S → Features F → Label F → Depth → M (S × Features F × Depth)}
    (h : ∀ s l, Nice (fun ft d => childL s ft l d))
    {shared : Option (SparseFeatures F)} (hs : ∀ s, shared = some s → s.Clean) (label : CBLabel F) (as : List (SparseFeatures F)) :
    ∀ (i : Nat) (s : S) (d : Depth) (r : S × List (SparseFeatures F) × Depth), (∀ a ∈ as, a.Clean) → d < 256 →
      cbIpsLoop dbg childL shared label i as s d = .ok r → r.2.2 = d ∧ List.Forall₂ Eqv r.2.1 as := by
  induction as with
  | nil => intro i s d r _ _ hr; simp [cbIpsLoop] at hr; subst hr; exact ⟨rfl, List.Forall₂.nil⟩
  | cons a as ih =>
    intro i s d r hc hd hr
    unfold cbIpsLoop at hr
    obtain ⟨a1, g1, g2, g3, g4⟩ := shared_step hs (hc a (by simp))
    obtain ⟨a1', h1, hr⟩ := bind_ok.1 hr
    rw [g1] at h1
    simp only [Except.ok.injEq] at h1
    subst h1
    obtain ⟨l, _, hr⟩ := bind_ok.1 hr
    obtain ⟨⟨s1, ft, d1⟩, h2, hr⟩ := bind_ok.1 hr
    obtain ⟨a2, h4, hr⟩ := bind_ok.1 hr
    obtain ⟨a3, h5, hr⟩ := bind_ok.1 hr
    obtain ⟨⟨s2, as', d2⟩, h6, hr⟩ := bind_ok.1 hr
    simp only [Except.ok.injEq] at hr
    subst hr
    obtain ⟨rfl, f', rfl, he⟩ := (h s (.simple l)).restore g2 g3 hd h2
    simp only [Features.asSimple, Except.ok.injEq] at h4
    subst h4
    obtain ⟨a3', h5', he3⟩ := g4 _ he
    rw [h5'] at h5
    simp only [Except.ok.injEq] at h5
    subst h5
    have := ih _ _ _ _ (fun x hx => hc x (by simp [hx])) hd h6
    exact ⟨this.1, List.Forall₂.cons he3 this.2⟩

theorem cbIpsLoop_congr {S : Type} {dbg : Bool} {childL : S → Features F → Label F → Depth → M (S × Features F × Depth)}
    (h : ∀ s l, Nice (fun ft d => childL s ft l d))
    {shared shared' : Option (SparseFeatures F)} (hss : OptEqv shared shared')
    (label : CBLabel F) {as as' : List (SparseFeatures F)} (hl : List.Forall₂ Eqv as as') :
    ∀ (i : Nat) (s : S) (d : Depth),
      RelM LoopEqv (cbIpsLoop dbg childL shared label i as s d) (cbIpsLoop dbg childL shared' label i as' s d) := by
  induction hl with
  | nil => intro i s d; exact ⟨rfl, List.Forall₂.nil, rfl⟩
  | @cons a a' as as' ha _ ih =>
    intro i s d
    unfold cbIpsLoop
    obtain ⟨r, r', e1, e2, e3⟩ := appendShared_congr hss ha
    rw [e1, e2]
    show RelM LoopEqv (ipsLabel dbg label i >>= _) (ipsLabel dbg label i >>= _)
    refine RelM.bind (RelM.refl _) ?_
    rintro l _ _ _ rfl
    refine RelM.bind ((h s (.simple l)).congrSimple _ _ d e3) ?_
    rintro ⟨p, ft, d1⟩ ⟨p', ft', d1'⟩ _ _ ⟨h1, h2, h3⟩
    simp only at h1 h2 h3
    subst h1 h3
    refine RelM.bind (asSimple_congr h2) ?_
    intro a2 b2 _ _ h4
    refine RelM.bind (removeShared_congr hss h4) ?_
    intro a3 b3 _ _ h5
    refine RelM.bind (ih (i + 1) p d1) ?_
    rintro ⟨ps, as1, d2⟩ ⟨ps', as1', d2'⟩ _ _ ⟨q1, q2, q3⟩
    simp only at q1 q2 q3
    subst q1 q3
    exact ⟨rfl, List.Forall₂.cons h5 q2, rfl⟩

theorem forall₂_refl_clean {l : List (SparseFeatures F)} (h : ∀ a ∈ l, a.Clean) : List.Forall₂ Eqv l l := by
  induction l with
  | nil => exact List.Forall₂.nil
  | cons a t ih => exact List.Forall₂.cons (Eqv.refl (h a (by simp)).inv) (ih (fun x hx => h x (by simp [hx])))

theorem optEqv_refl_clean {s : Option (SparseFeatures F)} (h : ∀ x, s = some x → x.Clean) : OptEqv s s := by
  cases s with
  | none => exact OptEqv.none
  | some x => exact OptEqv.some (Eqv.refl (h x rfl).inv)

theorem forall₂_get {l l' : List (SparseFeatures F)} (h : List.Forall₂ Eqv l l') (i : Nat) :
    (l[i]? = none ∧ l'[i]? = none) ∨ ∃ a a', l[i]? = some a ∧ l'[i]? = some a' ∧ Eqv a a' := by
  induction h generalizing i with
  | nil => left; simp
  | @cons a a' t t' h _ ih =>
    cases i with
    | zero => right; exact ⟨a, a', rfl, rfl, h⟩
    | succ i => simpa using ih i

theorem cbMtr_nice {S : Type} {childL : S → Features F → Label F → Depth → M (S × Features F × Depth)}
    (h : ∀ s l, Nice (fun ft d => childL s ft l d)) (f : CBAdfFeatures F) (label : CBLabel F) (mtr : MtrState) (s : S) (d : Depth)
    (hf : CbGood f) (hd : d < 256) (r : (MtrState × S) × CBAdfFeatures F × Depth)
    (hr : cbMtrLearn childL f label mtr s d = .ok r) : r.2.2 = d ∧ CbEqv r.2.1 f := by
  unfold cbMtrLearn at hr
  simp only at hr
  cases hsh : f.shared with
  | none => rw [hsh] at hr; simp at hr
  | some sh =>
    rw [hsh] at hr
    simp only at hr
    obtain ⟨action, h1, hr⟩ := bind_ok.1 hr
    have hact : f.actions[label.action]? = some action := by
      cases hx : f.actions[label.action]? with
      | none => rw [hx] at h1; simp [unwrapOpt] at h1
      | some x => rw [hx] at h1; simp [unwrapOpt] at h1; rw [h1]
    obtain ⟨a1, g1, g2, g3, _, g4⟩ := append_remove_clean (hf.shared sh hsh) (hf.actions action (List.mem_of_getElem? hact))
    obtain ⟨sh1, h2, hr⟩ := bind_ok.1 hr
    rw [g1] at h2
    simp only [Except.ok.injEq] at h2
    subst h2
    obtain ⟨⟨s', ft, d'⟩, h3, hr⟩ := bind_ok.1 hr
    obtain ⟨sh2, h4, hr⟩ := bind_ok.1 hr
    obtain ⟨sh3, h5, hr⟩ := bind_ok.1 hr
    simp only [Except.ok.injEq] at hr
    subst hr
    obtain ⟨rfl, f', rfl, he⟩ := (h _ _).restore g2 g3 hd h3
    simp only [Features.asSimple, Except.ok.injEq] at h4
    subst h4
    obtain ⟨a3, h5', he3⟩ := g4 _ he
    rw [h5'] at h5
    simp only [Except.ok.injEq] at h5
    subst h5
    refine ⟨rfl, ?_, forall₂_refl_clean hf.actions⟩
    rw [hsh]
    exact OptEqv.some he3

theorem cbMtr_congr {S : Type} {childL : S → Features F → Label F → Depth → M (S × Features F × Depth)}
    (h : ∀ s l, Nice (fun ft d => childL s ft l d)) (f g : CBAdfFeatures F) (label : CBLabel F) (mtr : MtrState) (s : S) (d : Depth)
    (he : CbEqv f g) :
    RelM (fun x y => x.1 = y.1 ∧ CbEqv x.2.1 y.2.1 ∧ x.2.2 = y.2.2) (cbMtrLearn childL f label mtr s d)
      (cbMtrLearn childL g label mtr s d) := by
  unfold cbMtrLearn
  rw [he.actions.length_eq]
  simp only
  have hsh := he.shared
  cases hs1 : f.shared with
  | none =>
    rw [hs1] at hsh
    cases hs2 : g.shared with
    | none => exact rfl
    | some y => rw [hs2] at hsh; cases hsh
  | some sh =>
    rw [hs1] at hsh
    cases hs2 : g.shared with
    | none => rw [hs2] at hsh; cases hsh
    | some sh' =>
      rw [hs2] at hsh
      cases hsh with
      | some hsh =>
        simp only
        rcases forall₂_get he.actions label.action with ⟨h1, h2⟩ | ⟨a, a', h1, h2, hae⟩
        · rw [h1, h2]; exact rfl
        · rw [h1, h2]
          show RelM _ (sh.append a >>= _) (sh'.append a' >>= _)
          obtain ⟨r, r', e1, e2, e3⟩ := append_congr hsh hae
          rw [e1, e2, ok_bind, ok_bind]
          refine RelM.bind ((h _ _).congrSimple _ _ d e3) ?_
          rintro ⟨p, ft, d1⟩ ⟨p', ft', d1'⟩ _ _ ⟨q1, q2, q3⟩
          simp only at q1 q2 q3
          subst q1 q3
          refine RelM.bind (asSimple_congr q2) ?_
          intro a2 b2 _ _ h4
          refine RelM.bind (remove_congr h4 hae) ?_
          intro a3 b3 _ _ h5
          exact ⟨rfl, ⟨OptEqv.some h5, he.actions⟩, rfl⟩

/-! ### The whole stack -/

/-- The namespaces configured for ElementwiseInteraction come from names. -/
def Red.PairsOk : Red F → Prop
  | .coin _ => True
  | .binary _ r => r.PairsOk
  | .cbAdf _ _ r => r.PairsOk
  | .greedy _ _ r => r.PairsOk
  | .softmax _ _ _ r => r.PairsOk
  | .squareCb _ _ _ _ r => r.PairsOk
  | .debug _ r => r.PairsOk
  | .elementwise _ pair _ _ r => (pair.1.isRaw = false ∧ pair.2.isRaw = false) ∧ r.PairsOk

theorem rawSum_congr {dbg : Bool} (c : Coin F) {f g : SparseFeatures F} (h : Eqv f g) : c.rawSum dbg f = c.rawSum dbg g := by
  unfold Coin.rawSum foreachFeature
  rw [visited_congr h.left h.right h.view]

theorem coinPredict_congr {dbg : Bool} (c : Coin F) {f g : SparseFeatures F} (h : Eqv f g) : c.predict dbg f = c.predict dbg g := by
  unfold Coin.predict
  rw [rawSum_congr c h]

theorem coinLearn_congr {dbg : Bool} (c : Coin F) (l w : F) {f g : SparseFeatures F} (h : Eqv f g) :
    c.learn dbg f l w = c.learn dbg g l w := by
  unfold Coin.learn Coin.bettingPredict Coin.updateAfterPredict foreachFeatureWithState foreachFeatureWithStateMut
  simp only [visited_congr h.left h.right h.view]

theorem nice_cbPredict {childP : Features F → Depth → M (Prediction F × Features F × Depth)} (h : Nice childP) :
    Nice (fun (ft : Features F) (d : Depth) => do
      let f ← ft.asCb
      let (scores, actions, d) ← cbPredictLoop childP f.shared 0 f.actions d
      .ok (Prediction.actionScores scores, Features.cbAdf ⟨f.shared, actions⟩, d)) := by
  refine ⟨?_, ?_, ?_, ?_⟩
  · intro f d a ft' d' hf hd hr
    obtain ⟨f0, hf0, hr⟩ := bind_ok.1 hr
    simp [Features.asCb] at hf0
  · intro f d a ft' d' hf hd hr
    obtain ⟨f0, hf0, hr⟩ := bind_ok.1 hr
    simp only [Features.asCb, Except.ok.injEq] at hf0
    subst hf0
    obtain ⟨⟨sc, as, d1⟩, hl, hr⟩ := bind_ok.1 hr
    simp only [Except.ok.injEq, Prod.mk.injEq] at hr
    obtain ⟨_, rfl, rfl⟩ := hr
    have := cbPredictLoop_nice h hf.shared f.actions 0 d _ hf.actions hd hl
    exact ⟨this.1, _, rfl, optEqv_refl_clean hf.shared, this.2⟩
  · intro f g d he
    exact rfl
  · intro f g d he
    simp only [Features.asCb]
    rw [ok_bind, ok_bind]
    refine RelM.bind (cbPredictLoop_congr h he.shared he.actions 0 d) ?_
    rintro ⟨ps, as1, d2⟩ ⟨ps', as1', d2'⟩ _ _ ⟨q1, q2, q3⟩
    simp only at q1 q2 q3
    subst q1 q3
    exact ⟨rfl, FtEqv.cb ⟨he.shared, q2⟩, rfl⟩

theorem predictImpl_nice (dbg : Bool) (r : Red F) (hp : r.PairsOk) : ∀ s : r.State, Nice (r.predictImpl dbg s) := by
  induction r with
  | coin m =>
    intro s
    have := Nice.leaf (F := F) (fun f => do let x ← Coin.predict dbg s f; .ok (Prediction.scalar x.1 x.2))
      (fun f k he => by simp only [coinPredict_congr s he])
    convert this using 1
    funext ft d
    simp only [Red.predictImpl]
    cases ft with
    | cbAdf f => rfl
    | simple f =>
      simp only [Features.asSimple, bind, Except.bind]
      cases Coin.predict dbg s f <;> rfl
  | binary m r ih =>
    intro s
    have := ((ih hp s).wrap dbg r.meta 0).map (fun p => do let x ← p.asScalar; .ok (Prediction.binary (F := F) (Flt.lt Flt.zero x.1)))
    convert this using 1
    funext ft d
    simp only [Red.predictImpl, bind, Except.bind]
    cases wrapCall dbg r.meta ft d 0 (r.predictImpl dbg s) with
    | error e => rfl
    | ok x => simp only; cases x.1.asScalar <;> rfl
  | cbAdf m ty r ih =>
    intro s
    exact nice_cbPredict ((ih hp s.2).wrap dbg r.meta 0)
  | greedy m e r ih =>
    intro s
    have := ((ih hp s).wrap dbg r.meta 0).map (fun p => do
      let x ← p.asScores
      let y ← greedyProbs e x
      .ok (Prediction.actionProbs y))
    convert this using 1
    funext ft d
    simp only [Red.predictImpl, bind, Except.bind]
    cases wrapCall dbg r.meta ft d 0 (r.predictImpl dbg s) with
    | error e => rfl
    | ok x =>
      simp only
      cases x.1.asScores with
      | error e => rfl
      | ok y => simp only; cases greedyProbs e y <;> rfl
  | softmax m e lm r ih =>
    intro s
    have := ((ih hp s.2).wrap dbg r.meta 0).map (fun p => do
      let x ← p.asScores
      let y ← softmaxProbs lm e x
      .ok (Prediction.actionProbs y))
    convert this using 1
    funext ft d
    simp only [Red.predictImpl, bind, Except.bind]
    cases wrapCall dbg r.meta ft d 0 (r.predictImpl dbg s.2) with
    | error e => rfl
    | ok x =>
      simp only
      cases x.1.asScores with
      | error e => rfl
      | ok y => simp only; cases softmaxProbs lm e y <;> rfl
  | squareCb m e gs ge r ih =>
    intro s
    have := ((ih hp s.2).wrap dbg r.meta 0).map (fun p => do
      let x ← p.asScores
      let y ← squareCbProbs (squareCbGamma gs ge s.1) e x
      .ok (Prediction.actionProbs y))
    convert this using 1
    funext ft d
    simp only [Red.predictImpl, bind, Except.bind]
    cases wrapCall dbg r.meta ft d 0 (r.predictImpl dbg s.2) with
    | error e => rfl
    | ok x =>
      simp only
      cases x.1.asScores with
      | error e => rfl
      | ok y => simp only; cases squareCbProbs (squareCbGamma gs ge s.1) e y <;> rfl
  | debug m r ih => intro s; exact (ih hp s).wrap dbg r.meta 0
  | elementwise m pair keep bits r ih =>
    intro s
    exact ((ih hp.2 s).wrap dbg r.meta 0).elementwise dbg bits pair keep hp.1

/-- A call that always fails in the same way. -/
theorem Nice.fail {α : Type} (e : Panic) : Nice (fun (_ : Features F) (_ : Depth) => (.error e : M (α × Features F × Depth))) :=
  ⟨fun _ _ _ _ _ _ _ h => by simp at h, fun _ _ _ _ _ _ _ h => by simp at h, fun _ _ _ _ => rfl, fun _ _ _ _ => rfl⟩

theorem learnImpl_nice (dbg : Bool) (r : Red F) (hp : r.PairsOk) : ∀ (s : r.State) (l : Label F),
    Nice (fun ft d => r.learnImpl dbg s ft l d) := by
  induction r with
  | coin m =>
    intro s l
    have := Nice.leaf (F := F) (fun f => do let l ← l.asSimple; Coin.learn dbg s f l.value l.weight)
      (fun f k he => by simp only [coinLearn_congr s _ _ he])
    convert this using 1
    funext ft d
    simp only [Red.learnImpl, bind, Except.bind]
    cases ft with
    | cbAdf f => rfl
    | simple f =>
      simp only [Features.asSimple]
      cases l.asSimple <;> rfl
  | binary m r ih =>
    intro s l
    simp only [Red.learnImpl]
    cases l.asBinary with
    | error e => exact Nice.fail e
    | ok b => exact (ih hp s (.simple (binaryToSimple b))).wrap dbg r.meta 0
  | cbAdf m ty r ih =>
    intro s l
    have hch : ∀ s l, Nice (fun ft d => wrapCall dbg r.meta ft d 0 (fun ft d => r.learnImpl dbg s ft l d)) :=
      fun s l => (ih hp s l).wrap dbg r.meta 0
    refine ⟨?_, ?_, ?_, ?_⟩
    · intro f d a ft' d' hf hd hr
      simp only [Red.learnImpl] at hr
      obtain ⟨f0, hf0, hr⟩ := bind_ok.1 hr
      simp [Features.asCb] at hf0
    · intro f d a ft' d' hf hd hr
      simp only [Red.learnImpl] at hr
      obtain ⟨f0, hf0, hr⟩ := bind_ok.1 hr
      simp only [Features.asCb, Except.ok.injEq] at hf0
      subst hf0
      obtain ⟨lb, _, hr⟩ := bind_ok.1 hr
      cases ty with
      | ips =>
        simp only at hr
        obtain ⟨⟨s', as, d1⟩, hl, hr⟩ := bind_ok.1 hr
        simp only [Except.ok.injEq, Prod.mk.injEq] at hr
        obtain ⟨_, rfl, rfl⟩ := hr
        have := cbIpsLoop_nice hch hf.shared lb f.actions 0 _ d _ hf.actions hd hl
        exact ⟨this.1, _, rfl, optEqv_refl_clean hf.shared, this.2⟩
      | mtr =>
        simp only at hr
        obtain ⟨⟨s', f', d1⟩, hl, hr⟩ := bind_ok.1 hr
        simp only [Except.ok.injEq, Prod.mk.injEq] at hr
        obtain ⟨_, rfl, rfl⟩ := hr
        have := cbMtr_nice hch f lb s.1 s.2 d hf hd _ hl
        exact ⟨this.1, _, rfl, this.2⟩
    · intro f g d he
      exact rfl
    · intro f g d he
      simp only [Red.learnImpl, Features.asCb]
      show RelM ResEqv (l.asCb >>= _) (l.asCb >>= _)
      refine RelM.bind (RelM.refl _) ?_
      rintro lb _ _ _ rfl
      cases ty with
      | ips =>
        refine RelM.bind (cbIpsLoop_congr hch he.shared lb he.actions 0 s.2 d) ?_
        rintro ⟨ps, as1, d2⟩ ⟨ps', as1', d2'⟩ _ _ ⟨q1, q2, q3⟩
        simp only at q1 q2 q3
        subst q1 q3
        exact ⟨rfl, FtEqv.cb ⟨he.shared, q2⟩, rfl⟩
      | mtr =>
        refine RelM.bind (cbMtr_congr hch f g lb s.1 s.2 d he) ?_
        rintro ⟨ps, as1, d2⟩ ⟨ps', as1', d2'⟩ _ _ ⟨q1, q2, q3⟩
        simp only at q1 q2 q3
        subst q1 q3
        exact ⟨rfl, FtEqv.cb q2, rfl⟩
  | greedy m e r ih => intro s l; exact (ih hp s l).wrap dbg r.meta 0
  | softmax m e lm r ih =>
    intro s l
    have := ((ih hp s.2 l).wrap dbg r.meta 0).map (fun x => .ok ((s.1, x) : Nat × r.State))
    exact this
  | squareCb m e gs ge r ih =>
    intro s l
    simp only [Red.learnImpl]
    cases l.asCb with
    | error e => exact Nice.fail e
    | ok lb =>
      have := ((ih hp s.2 (.cb { lb with probability := Flt.one })).wrap dbg r.meta 0).map
        (fun x => .ok ((s.1 + 1, x) : Nat × r.State))
      exact this
  | debug m r ih => intro s l; exact (ih hp s l).wrap dbg r.meta 0
  | elementwise m pair keep bits r ih =>
    intro s l
    exact ((ih hp.2 s l).wrap dbg r.meta 0).elementwise dbg bits pair keep hp.1

end Rml
