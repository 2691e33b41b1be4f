import Verif.Lemmas.Stack2
import Verif.Spec

/-! Helper lemmas: created stacks, and the specification vocabulary in terms of views. -/

set_option linter.unusedSectionVars false

namespace Rml
open SparseFeatures
variable {F : Type} [Flt F]

theorem cbind_ok {α β : Type} {x : Except CreateError α} {f : α → Except CreateError β} {b : β} :
    (x >>= f) = .ok b ↔ ∃ a, x = .ok a ∧ f a = .ok b := by
  cases x with
  | error e => simp [bind, Except.bind]
  | ok a => simp [bind, Except.bind]

theorem checkTypes_ok {t b : TypeDesc} {u : Unit} (h : checkTypes t b = .ok u) : t.checkOk b = true := by
  unfold checkTypes at h
  split at h
  · assumption
  · simp at h

/-- What creation makes, one layer at a time. -/
inductive Built (hash : HashFn) (g : GlobalConfig) (nma : Nat) : RedConfig F → ((r : Red F) × r.State) → Prop
  | coin {c : CoinConfig F} {coin : Coin F} : Coin.new hash c g nma = .ok coin → Built hash g nma (.coin c) ⟨.coin ⟨"Coin", coinTypes, nma⟩, coin⟩
  | binary {rc x} : Built hash g nma rc x → (binaryTypes x.1.meta.types).checkOk x.1.meta.types = true →
      Built hash g nma (.binary rc) ⟨.binary ⟨"Binary", binaryTypes x.1.meta.types, nma⟩ x.1, x.2⟩
  | cbAdf {ty rc x} : Built hash g nma rc x → cbAdfTypes.checkOk x.1.meta.types = true →
      Built hash g nma (.cbAdf ty rc) ⟨.cbAdf ⟨"CbAdf", cbAdfTypes, nma⟩ ty x.1, (⟨0, 0⟩, x.2)⟩
  | greedy {e rc x} : Built hash g nma rc x → exploreTypes.checkOk x.1.meta.types = true →
      Built hash g nma (.greedy e rc) ⟨.greedy ⟨"CbExploreAdfGreedy", exploreTypes, nma⟩ e x.1, x.2⟩
  | softmax {e lm rc x} : Built hash g nma rc x → exploreTypes.checkOk x.1.meta.types = true →
      Built hash g nma (.softmax e lm rc) ⟨.softmax ⟨"CbExploreAdfSoftmax", exploreTypes, nma⟩ e lm x.1, (0, x.2)⟩
  | squareCb {e gs ge rc x} : squareCbConfigOk rc = true → Built hash g nma rc x → exploreTypes.checkOk x.1.meta.types = true →
      Built hash g nma (.squareCb e gs ge rc) ⟨.squareCb ⟨"CbExploreAdfSquareCb", exploreTypes, nma⟩ e gs ge x.1, (0, x.2)⟩
  | debug {rc x} : Built hash g nma rc x → (debugTypes x.1.meta.types).checkOk x.1.meta.types = true →
      Built hash g nma (.debug rc) ⟨.debug ⟨"Debug", debugTypes x.1.meta.types, nma⟩ x.1, x.2⟩
  | elementwise {one two keep rc x} : Built hash g nma rc x → (elementwiseTypes x.1.meta.types).checkOk x.1.meta.types = true →
      Built hash g nma (.elementwise one two keep rc) ⟨.elementwise ⟨"ElementwiseInteraction", elementwiseTypes x.1.meta.types, nma⟩
        (one.toNamespace hash g.hashSeed, two.toNamespace hash g.hashSeed) keep g.numBits x.1, x.2⟩

theorem built_of_create {hash : HashFn} {g : GlobalConfig} {nma : Nat} (c : RedConfig F) : ∀ {x : (r : Red F) × r.State},
    create hash g nma c = .ok x → Built hash g nma c x := by
  induction c with
  | coin c =>
    intro x h
    unfold create at h
    obtain ⟨coin, h1, h⟩ := cbind_ok.1 h
    simp only [Except.ok.injEq] at h
    subst h
    refine Built.coin ?_
    cases hc : Coin.new hash c g nma with
    | error e => rw [hc] at h1; simp [liftPanic] at h1
    | ok y => rw [hc] at h1; simp [liftPanic] at h1; rw [h1]
  | binary rc ih =>
    intro x h
    unfold create at h
    obtain ⟨y, h1, h⟩ := cbind_ok.1 h
    obtain ⟨_, h2, h⟩ := cbind_ok.1 h
    simp only [Except.ok.injEq] at h
    subst h
    exact Built.binary (ih h1) (checkTypes_ok h2)
  | cbAdf ty rc ih =>
    intro x h
    unfold create at h
    obtain ⟨y, h1, h⟩ := cbind_ok.1 h
    obtain ⟨_, h2, h⟩ := cbind_ok.1 h
    simp only [Except.ok.injEq] at h
    subst h
    exact Built.cbAdf (ih h1) (checkTypes_ok h2)
  | greedy e rc ih =>
    intro x h
    unfold create at h
    obtain ⟨y, h1, h⟩ := cbind_ok.1 h
    obtain ⟨_, h2, h⟩ := cbind_ok.1 h
    simp only [Except.ok.injEq] at h
    subst h
    exact Built.greedy (ih h1) (checkTypes_ok h2)
  | softmax e lm rc ih =>
    intro x h
    unfold create at h
    obtain ⟨y, h1, h⟩ := cbind_ok.1 h
    obtain ⟨_, h2, h⟩ := cbind_ok.1 h
    simp only [Except.ok.injEq] at h
    subst h
    exact Built.softmax (ih h1) (checkTypes_ok h2)
  | squareCb e gs ge rc ih =>
    intro x h
    unfold create at h
    split at h
    · rename_i hsq
      obtain ⟨y, h1, h⟩ := cbind_ok.1 h
      obtain ⟨_, h2, h⟩ := cbind_ok.1 h
      simp only [Except.ok.injEq] at h
      subst h
      exact Built.squareCb hsq (ih h1) (checkTypes_ok h2)
    · simp at h
  | debug rc ih =>
    intro x h
    unfold create at h
    obtain ⟨y, h1, h⟩ := cbind_ok.1 h
    obtain ⟨_, h2, h⟩ := cbind_ok.1 h
    simp only [Except.ok.injEq] at h
    subst h
    exact Built.debug (ih h1) (checkTypes_ok h2)
  | elementwise one two keep rc ih =>
    intro x h
    unfold create at h
    obtain ⟨y, h1, h⟩ := cbind_ok.1 h
    obtain ⟨_, h2, h⟩ := cbind_ok.1 h
    simp only [Except.ok.injEq] at h
    subst h
    exact Built.elementwise (ih h1) (checkTypes_ok h2)
  | unknown t => intro x h; simp [create] at h

theorem Built.pairsOk {hash : HashFn} {g : GlobalConfig} {nma : Nat} {c : RedConfig F} {x : (r : Red F) × r.State}
    (h : Built hash g nma c x) : x.1.PairsOk := by
  induction h with
  | coin _ => trivial
  | binary _ _ ih => exact ih
  | cbAdf _ _ ih => exact ih
  | greedy _ _ ih => exact ih
  | softmax _ _ ih => exact ih
  | squareCb _ _ _ ih => exact ih
  | debug _ _ ih => exact ih
  | elementwise _ _ ih => exact ⟨⟨toNamespace_notRaw _ _ _, toNamespace_notRaw _ _ _⟩, ih⟩

theorem built_of_new {hash : HashFn} {g : GlobalConfig} {c : RedConfig F} {w : Workspace F} (h : Workspace.new hash g c = .ok w) :
    Built hash g 1 c ⟨w.red, w.st⟩ := by
  unfold Workspace.new at h
  obtain ⟨x, h1, h⟩ := cbind_ok.1 h
  simp only [Except.ok.injEq] at h
  subst h
  exact built_of_create c h1

theorem Workspace.FromConfig.pairsOk {w : Workspace F} (h : w.FromConfig) : w.red.PairsOk := by
  obtain ⟨hash, g, c, w0, h1, h2⟩ := h
  rw [h2]
  exact (built_of_new h1).pairsOk

/-! ### Valid examples -/

/-- Examples without composite namespaces, in terms of views. -/
def OkEx : Features F → Prop
  | .simple f => f.Inv0 ∧ ∀ ns, ns.isRaw = true → f.vw ns = noView
  | .cbAdf f => CbGood f

theorem noView_of_wf {f : SparseFeatures F} (h : f.WF) (hc : f.NoComposite) : ∀ ns, ns.isRaw = true → f.vw ns = noView := by
  intro ns hns
  cases ns with
  | named h => simp [Namespace.isRaw] at hns
  | default => simp [Namespace.isRaw] at hns
  | rawHash k =>
    have h1 := getNamespace_isSome_vw f (.rawHash k)
    rw [hc k] at h1
    have h2 := h.inactive_empty (.rawHash k) (by simpa using h1.symm)
    have h3 := vw_lens h.toInv0 (.rawHash k)
    rw [h2] at h3
    apply Prod.ext
    · exact h2
    · apply Prod.ext
      · exact List.length_eq_zero_iff.1 h3.symm
      · have h4 : (f.vw (.rawHash k)).2.2 = false := by simpa using h1.symm
        exact h4

theorem clean_of_wf {f : SparseFeatures F} (h : f.WF) (hc : f.NoComposite) (he : f.NoEmpty) : f.Clean := by
  refine ⟨h.toInv0, fun ns => ⟨fun ha => ?_, fun hne => ?_⟩, noView_of_wf h hc⟩
  · have h1 := getNamespace_isSome_vw f ns
    rw [ha] at h1
    obtain ⟨n, hn⟩ := Option.isSome_iff_exists.1 h1
    have h2 := he ns n hn
    have h3 := getNamespace_map_vw f ns
    rw [hn, ha] at h3
    simp at h3
    intro h0
    apply h2
    rw [NsFeats.size, h3.1, h0]
    rfl
  · by_contra hx
    exact hne (h.inactive_empty ns (by simpa using hx))

theorem okEx_of_valid {ft : Features F} (h : ft.Valid) : OkEx ft := by
  cases ft with
  | simple f => exact ⟨h.1.toInv0, noView_of_wf h.1 h.2⟩
  | cbAdf f =>
    exact ⟨fun s hs => clean_of_wf (h.1 s hs).1 (h.1 s hs).2.1 (h.1 s hs).2.2,
      fun a ha => clean_of_wf (h.2 a ha).1 (h.2 a ha).2.1 (h.2 a ha).2.2⟩

theorem OkEx.good {ft : Features F} (h : OkEx ft) : Good ft := by
  cases ft with
  | simple f => exact ⟨h.1, fun ns hns => by rw [h.2 ns hns]; rfl⟩
  | cbAdf f => exact h

theorem OkEx.of_eqv {ft gt : Features F} (h : OkEx ft) (he : FtEqv ft gt) : OkEx gt := by
  cases he with
  | simple he => exact ⟨he.right, fun ns hns => by rw [← he.view]; exact h.2 ns hns⟩
  | cb he => exact CbGood.of_eqv h he

theorem OkEx.refl {ft : Features F} (h : OkEx ft) : FtEqv ft ft := by
  cases ft with
  | simple f => exact FtEqv.simple (Eqv.refl h.1)
  | cbAdf f => exact FtEqv.cb (CbEqv.refl h)

theorem FtEqv.sameAs {ft gt : Features F} (h : FtEqv ft gt) : ft.SameAs gt := by
  cases h with
  | simple h => exact sameAs_of_vw h.left h.right h.view
  | @cb f g h =>
    refine ⟨?_, ?_⟩
    · have := h.shared
      revert this
      generalize f.shared = a
      generalize g.shared = b
      intro this
      cases this with
      | none => trivial
      | some h => exact sameAs_of_vw h.left h.right h.view
    · have := h.actions
      exact List.Forall₂.imp (fun _ _ h => sameAs_of_vw h.left h.right h.view) this

theorem Nice.restoreOk {α : Type} {body : Features F → Depth → M (α × Features F × Depth)} (h : Nice body) {ft ft' : Features F}
    (hok : OkEx ft) {d d' : Depth} (hd : d < 256) {a : α} (hb : body ft d = .ok (a, ft', d')) : d' = d ∧ FtEqv ft' ft := by
  cases ft with
  | simple f =>
    obtain ⟨h1, f', rfl, he⟩ := h.restore hok.1 hok.2 hd hb
    exact ⟨h1, FtEqv.simple he⟩
  | cbAdf f =>
    obtain ⟨h1, f', rfl, he⟩ := h.cb f d a ft' d' hok hd hb
    exact ⟨h1, FtEqv.cb he⟩

theorem ws_predict {dbg : Bool} {w : Workspace F} {ft gt ft' : Features F} {p : Prediction F} (hp : w.red.PairsOk) (hok : OkEx ft)
    (he : FtEqv ft gt) (h : w.predict dbg ft = .ok (p, ft')) :
    FtEqv ft' ft ∧ ∃ gt', w.predict dbg gt = .ok (p, gt') ∧ FtEqv gt' gt := by
  unfold Workspace.predict at h ⊢
  obtain ⟨⟨p1, ft1, d1⟩, h1, h⟩ := bind_ok.1 h
  simp only [Except.ok.injEq, Prod.mk.injEq] at h
  obtain ⟨rfl, rfl⟩ := h
  have hn := (predictImpl_nice dbg w.red hp w.st).wrap dbg w.red.meta 0
  refine ⟨(hn.restoreOk hok (by decide : (0 : Nat) < 256) h1).2, ?_⟩
  obtain ⟨⟨p2, gt1, d2⟩, h2, h3, h4, h5⟩ := (hn.congr (d := 0) he).ok_left h1
  simp only at h3 h4 h5
  subst h3
  refine ⟨gt1, ?_, (hn.restoreOk (hok.of_eqv he) (by decide : (0 : Nat) < 256) h2).2⟩
  unfold Red.predict
  rw [h2, ok_bind]

theorem ws_learn {dbg : Bool} {w w' : Workspace F} {ft gt ft' : Features F} {l : Label F} (hp : w.red.PairsOk) (hok : OkEx ft)
    (he : FtEqv ft gt) (h : w.learn dbg ft l = .ok (w', ft')) :
    w'.red = w.red ∧ FtEqv ft' ft ∧ ∃ gt', w.learn dbg gt l = .ok (w', gt') ∧ FtEqv gt' gt := by
  unfold Workspace.learn at h ⊢
  obtain ⟨⟨p1, ft1, d1⟩, h1, h⟩ := bind_ok.1 h
  simp only [Except.ok.injEq, Prod.mk.injEq] at h
  obtain ⟨rfl, rfl⟩ := h
  have hn := (learnImpl_nice dbg w.red hp w.st l).wrap dbg w.red.meta 0
  refine ⟨rfl, (hn.restoreOk hok (by decide : (0 : Nat) < 256) h1).2, ?_⟩
  obtain ⟨⟨p2, gt1, d2⟩, h2, h3, h4, h5⟩ := (hn.congr (d := 0) he).ok_left h1
  simp only at h3 h4 h5
  subst h3
  refine ⟨gt1, ?_, (hn.restoreOk (hok.of_eqv he) (by decide : (0 : Nat) < 256) h2).2⟩
  unfold Red.learn
  rw [h2, ok_bind]

theorem ws_ptl {dbg : Bool} {w w' : Workspace F} {ft gt ft' : Features F} {l : Label F} {p : Prediction F} (hp : w.red.PairsOk)
    (hok : OkEx ft) (he : FtEqv ft gt) (h : w.predictThenLearn dbg ft l = .ok (p, w', ft')) :
    w'.red = w.red ∧ FtEqv ft' ft ∧ ∃ gt', w.predictThenLearn dbg gt l = .ok (p, w', gt') ∧ FtEqv gt' gt := by
  unfold Workspace.predictThenLearn at h ⊢
  obtain ⟨⟨⟨p0, s0⟩, ft1, d1⟩, h1, h⟩ := bind_ok.1 h
  simp only [Except.ok.injEq, Prod.mk.injEq] at h
  obtain ⟨rfl, rfl, rfl⟩ := h
  have hn := (ptlImpl_nice dbg w.red hp w.st l 0).wrap dbg w.red.meta 0
  refine ⟨rfl, (hn.restoreOk hok (by decide : (0 : Nat) < 256) h1).2, ?_⟩
  obtain ⟨⟨p2, gt1, d2⟩, h2, h3, h4, h5⟩ := (hn.congr (d := 0) he).ok_left h1
  simp only at h3 h4 h5
  subst h3
  refine ⟨gt1, ?_, (hn.restoreOk (hok.of_eqv he) (by decide : (0 : Nat) < 256) h2).2⟩
  unfold Red.predictThenLearn
  rw [h2, ok_bind]

end Rml
