import Verif.Lemmas.Types
import Verif.Props.Stack

/-! C28, C29: which configurations are accepted, and type correctness of accepted stacks. -/

set_option linter.unusedSectionVars false

namespace Rml
open SparseFeatures
variable {F : Type}

/-! ### Specification: a typing discipline for configurations -/

/-- What a reduction takes as label and features, and what it predicts. -/
structure StackType where
  label : LabelType
  features : FeaturesType
  prediction : PredictionType
  deriving DecidableEq, Repr

/-- The typing rules of the documentation: Coin is a regressor; Binary sits on any regressor and turns it into a classifier; CbAdf sits on a
regressor over plain features; exploration sits on something scoring actions; Debug sits anywhere; ElementwiseInteraction sits on anything
over plain features. Unknown reductions have no type. -/
def RedConfig.typeOf : RedConfig F → Option StackType
  | .coin _ => some ⟨.simple, .sparseSimple, .scalar⟩
  | .binary c =>
    match c.typeOf with
    | some ⟨.simple, fs, .scalar⟩ => some ⟨.binary, fs, .binary⟩
    | _ => none
  | .cbAdf _ c => if c.typeOf = some ⟨.simple, .sparseSimple, .scalar⟩ then some ⟨.cb, .sparseCBAdf, .actionScores⟩ else none
  | .greedy _ c | .softmax _ _ c | .squareCb _ _ _ c =>
    if c.typeOf = some ⟨.cb, .sparseCBAdf, .actionScores⟩ then some ⟨.cb, .sparseCBAdf, .actionProbs⟩ else none
  | .debug c => c.typeOf
  | .elementwise _ _ _ c =>
    match c.typeOf with
    | some ⟨l, .sparseSimple, p⟩ => some ⟨l, .sparseSimple, p⟩
    | _ => none
  | .unknown _ => none

/-- SquareCB needs an mtr CbAdf below it. The rule as the code has it: only a CbAdf directly below is looked at. -/
def RedConfig.SquareCbOverMtr : RedConfig F → Prop
  | .coin _ | .unknown _ => True
  | .squareCb _ _ _ c => (∀ c', c ≠ .cbAdf .ips c') ∧ c.SquareCbOverMtr
  | .binary c | .cbAdf _ c | .greedy _ c | .softmax _ _ c | .debug c | .elementwise _ _ _ c => c.SquareCbOverMtr

/-- The regressor at the bottom of the stack. -/
def RedConfig.bottom : RedConfig F → Option (CoinConfig F)
  | .coin c => some c
  | .unknown _ => none
  | .binary c | .cbAdf _ c | .greedy _ c | .softmax _ _ c | .squareCb _ _ _ c | .debug c | .elementwise _ _ _ c => c.bottom

/-- Some reduction in the configuration is unknown. -/
def RedConfig.HasUnknown : RedConfig F → Prop
  | .coin _ => False
  | .unknown _ => True
  | .binary c | .cbAdf _ c | .greedy _ c | .softmax _ _ c | .squareCb _ _ _ c | .debug c | .elementwise _ _ _ c => c.HasUnknown

variable [Flt F]

/-- The reduction directly below, for all but Coin. -/
def Red.directlyBelow : Red F → Option (Red F)
  | .coin _ => none
  | .binary _ r | .cbAdf _ _ r | .greedy _ _ r | .softmax _ _ _ r | .squareCb _ _ _ _ r | .debug _ r | .elementwise _ _ _ _ r => some r

/-- All reductions of a stack, top first. -/
def Red.layers : Red F → List (Red F)
  | .coin m => [.coin m]
  | .binary m r => .binary m r :: r.layers
  | .cbAdf m t r => .cbAdf m t r :: r.layers
  | .greedy m e r => .greedy m e r :: r.layers
  | .softmax m e l r => .softmax m e l r :: r.layers
  | .squareCb m e a b r => .squareCb m e a b r :: r.layers
  | .debug m r => .debug m r :: r.layers
  | .elementwise m p k n r => .elementwise m p k n r :: r.layers

/-! ### C29 -/

theorem built_type {hash : HashFn} {g : GlobalConfig} {nma : Nat} {c : RedConfig F} {x : (r : Red F) × r.State} (h : Built hash g nma c x) :
    c.typeOf = some ⟨x.1.meta.types.inLabel, x.1.meta.types.inFeatures, x.1.meta.types.outPrediction⟩ := by
  induction h with
  | coin _ => rfl
  | binary _ hc ih =>
    have hc := checkOk_iff.1 hc
    simp only [binaryTypes, Option.some.injEq] at hc
    rw [← hc.1, ← hc.2.2] at ih
    simp only [RedConfig.typeOf, ih]
    rfl
  | cbAdf _ hc ih =>
    have hc := checkOk_iff.1 hc
    simp only [cbAdfTypes, Option.some.injEq] at hc
    rw [← hc.1, ← hc.2.1, ← hc.2.2] at ih
    simp only [RedConfig.typeOf, ih, if_true]
    rfl
  | greedy _ hc ih =>
    have hc := checkOk_iff.1 hc
    simp only [exploreTypes, Option.some.injEq] at hc
    rw [← hc.1, ← hc.2.1, ← hc.2.2] at ih
    simp only [RedConfig.typeOf, ih, if_true]
    rfl
  | softmax _ hc ih =>
    have hc := checkOk_iff.1 hc
    simp only [exploreTypes, Option.some.injEq] at hc
    rw [← hc.1, ← hc.2.1, ← hc.2.2] at ih
    simp only [RedConfig.typeOf, ih, if_true]
    rfl
  | squareCb _ _ hc ih =>
    have hc := checkOk_iff.1 hc
    simp only [exploreTypes, Option.some.injEq] at hc
    rw [← hc.1, ← hc.2.1, ← hc.2.2] at ih
    simp only [RedConfig.typeOf, ih, if_true]
    rfl
  | debug _ hc ih => exact ih
  | elementwise _ hc ih =>
    have hc := checkOk_iff.1 hc
    simp only [elementwiseTypes, Option.some.injEq] at hc
    rw [← hc.2.1] at ih
    simp only [RedConfig.typeOf, ih]
    rfl

theorem squareCbConfigOk_iff (c : RedConfig F) : squareCbConfigOk c = true ↔ ∀ c', c ≠ .cbAdf .ips c' := by
  cases c <;> simp [squareCbConfigOk]
  rename_i ty _
  cases ty <;> simp

theorem built_bottom {hash : HashFn} {g : GlobalConfig} {nma : Nat} {c : RedConfig F} {x : (r : Red F) × r.State} (h : Built hash g nma c x) :
    c.SquareCbOverMtr ∧ ∃ cc coin, c.bottom = some cc ∧ Coin.new hash cc g nma = .ok coin := by
  induction h with
  | coin h => exact ⟨trivial, _, _, rfl, h⟩
  | binary _ _ ih => exact ih
  | cbAdf _ _ ih => exact ih
  | greedy _ _ ih => exact ih
  | softmax _ _ ih => exact ih
  | squareCb hs _ _ ih => exact ⟨⟨(squareCbConfigOk_iff _).1 hs, ih.1⟩, ih.2⟩
  | debug _ _ ih => exact ih
  | elementwise _ _ ih => exact ih

theorem create_layer {α : Type} {y : Except CreateError ((r : Red F) × r.State)} {x : (r : Red F) × r.State} {f : (r : Red F) × r.State → Except CreateError α} {r : α}
    (h1 : y = .ok x) (h2 : f x = .ok r) : (y >>= f) = .ok r := by
  rw [h1]; exact h2

theorem checkTypes_of {t b : TypeDesc} (h : t.checkOk b = true) : checkTypes t b = .ok () := by simp [checkTypes, h]

theorem create_complete {hash : HashFn} {g : GlobalConfig} {nma : Nat} {coin : Coin F} {cc : CoinConfig F} (hcoin : Coin.new hash cc g nma = .ok coin)
    (c : RedConfig F) : c.bottom = some cc → c.SquareCbOverMtr → c.typeOf ≠ none → ∃ x, create hash g nma c = .ok x := by
  induction c with
  | coin c =>
    intro hb _ _
    simp [RedConfig.bottom] at hb
    subst hb
    exact ⟨_, by simp [create, hcoin, liftPanic]; rfl⟩
  | binary c ih =>
    intro hb hs ht
    simp only [RedConfig.typeOf] at ht
    split at ht
    · rename_i fs heq
      obtain ⟨x, hx⟩ := ih hb hs (by rw [heq]; simp)
      have := built_type (built_of_create c hx)
      rw [heq] at this
      simp at this
      exact ⟨_, create_layer hx (by
        simp only
        rw [checkTypes_of (checkOk_iff.2 ⟨by simp [binaryTypes, ← this.1], by simp [binaryTypes], by simp [binaryTypes, ← this.2.2]⟩)]
        rfl)⟩
    · simp at ht
  | cbAdf ty c ih =>
    intro hb hs ht
    simp only [RedConfig.typeOf] at ht
    split at ht
    · rename_i heq
      obtain ⟨x, hx⟩ := ih hb hs (by rw [heq]; simp)
      have := built_type (built_of_create c hx)
      rw [heq] at this
      simp at this
      exact ⟨_, create_layer hx (by
        simp only
        rw [checkTypes_of (checkOk_iff.2 ⟨by simp [cbAdfTypes, ← this.1], by simp [cbAdfTypes, ← this.2.1], by simp [cbAdfTypes, ← this.2.2]⟩)]
        rfl)⟩
    · simp at ht
  | greedy e c ih =>
    intro hb hs ht
    simp only [RedConfig.typeOf] at ht
    split at ht
    · rename_i heq
      obtain ⟨x, hx⟩ := ih hb hs (by rw [heq]; simp)
      have := built_type (built_of_create c hx)
      rw [heq] at this
      simp at this
      exact ⟨_, create_layer hx (by
        simp only
        rw [checkTypes_of (checkOk_iff.2 ⟨by simp [exploreTypes, ← this.1], by simp [exploreTypes, ← this.2.1], by simp [exploreTypes, ← this.2.2]⟩)]
        rfl)⟩
    · simp at ht
  | softmax e l c ih =>
    intro hb hs ht
    simp only [RedConfig.typeOf] at ht
    split at ht
    · rename_i heq
      obtain ⟨x, hx⟩ := ih hb hs (by rw [heq]; simp)
      have := built_type (built_of_create c hx)
      rw [heq] at this
      simp at this
      exact ⟨_, create_layer hx (by
        simp only
        rw [checkTypes_of (checkOk_iff.2 ⟨by simp [exploreTypes, ← this.1], by simp [exploreTypes, ← this.2.1], by simp [exploreTypes, ← this.2.2]⟩)]
        rfl)⟩
    · simp at ht
  | squareCb e gs ge c ih =>
    intro hb hs ht
    simp only [RedConfig.typeOf] at ht
    split at ht
    · rename_i heq
      obtain ⟨x, hx⟩ := ih hb hs.2 (by rw [heq]; simp)
      have := built_type (built_of_create c hx)
      rw [heq] at this
      simp at this
      refine ⟨⟨.squareCb ⟨"CbExploreAdfSquareCb", exploreTypes, nma⟩ e gs ge x.1, (0, x.2)⟩, ?_⟩
      unfold create
      rw [if_pos ((squareCbConfigOk_iff c).2 hs.1)]
      exact create_layer hx (by
        simp only
        rw [checkTypes_of (checkOk_iff.2 ⟨by simp [exploreTypes, ← this.1], by simp [exploreTypes, ← this.2.1], by simp [exploreTypes, ← this.2.2]⟩)]
        rfl)
    · simp at ht
  | debug c ih =>
    intro hb hs ht
    obtain ⟨x, hx⟩ := ih hb hs ht
    exact ⟨_, create_layer hx (by
      simp only
      rw [checkTypes_of (checkOk_iff.2 ⟨by simp [debugTypes], by simp [debugTypes], by simp [debugTypes]⟩)]
      rfl)⟩
  | elementwise one two keep c ih =>
    intro hb hs ht
    simp only [RedConfig.typeOf] at ht
    split at ht
    · rename_i heq
      obtain ⟨x, hx⟩ := ih hb hs (by rw [heq]; simp)
      have := built_type (built_of_create c hx)
      rw [heq] at this
      simp at this
      exact ⟨_, create_layer hx (by
        simp only
        rw [checkTypes_of (checkOk_iff.2 ⟨by simp [elementwiseTypes], by simp [elementwiseTypes, ← this.2.1], by simp [elementwiseTypes]⟩)]
        rfl)⟩
    · simp at ht
  | unknown t => intro _ _ ht; simp [RedConfig.typeOf] at ht

/-- A workspace is created exactly for the well-typed configurations that satisfy SquareCB's rule and whose regressor can be created. -/
theorem C29_accepted_iff (hash : HashFn) (g : GlobalConfig) (c : RedConfig F) :
    (∃ w, Workspace.new hash g c = .ok w) ↔
      c.typeOf ≠ none ∧ c.SquareCbOverMtr ∧ ∃ cc coin, c.bottom = some cc ∧ Coin.new hash cc g 1 = .ok coin := by
  constructor
  · rintro ⟨w, hw⟩
    have hb := built_of_new hw
    refine ⟨?_, built_bottom hb⟩
    rw [built_type hb]
    simp
  · rintro ⟨ht, hs, cc, coin, hb, hc⟩
    obtain ⟨x, hx⟩ := create_complete hc c hb hs ht
    exact ⟨⟨x.1, x.2⟩, by unfold Workspace.new; rw [hx]; rfl⟩

/-- A reduction over a base of another type than it requires, at any depth, is rejected; the outcome is an error value, not a crash,
unless the regressor at the bottom cannot be created. -/
theorem C29_rejected (hash : HashFn) (g : GlobalConfig) (c : RedConfig F) (ht : c.typeOf = none) :
    ∃ e, Workspace.new hash g c = .error e ∧
      ((∀ cc, c.bottom = some cc → ∃ coin, Coin.new hash cc g 1 = .ok coin) → e = .unknownType ∨ e = .invalid) := by
  have key : ∀ c : RedConfig F, (∀ cc, c.bottom = some cc → ∃ coin, Coin.new hash cc g 1 = .ok coin) →
      ∀ e, create hash g 1 c = .error e → e = .unknownType ∨ e = .invalid := by
    have lay : ∀ {y : Except CreateError ((r : Red F) × r.State)} {t : (r : Red F) × r.State → TypeDesc}
        {k : (r : Red F) × r.State → (r : Red F) × r.State} {e : CreateError},
        (∀ e, y = .error e → e = .unknownType ∨ e = .invalid) →
        (y >>= fun x => checkTypes (t x) x.1.meta.types >>= fun _ => (.ok (k x) : Except CreateError ((r : Red F) × r.State))) = .error e →
        e = .unknownType ∨ e = .invalid := by
      intro y t k e hy h
      cases y with
      | error e' =>
        simp [bind, Except.bind] at h
        subst h
        exact hy e' rfl
      | ok x =>
        simp only [bind, Except.bind, checkTypes] at h
        split at h
        · rename_i hx
          split at hx <;> simp at hx
          simp at h
          right; rw [← h, ← hx]
        · simp at h
    intro c
    induction c with
    | coin cc =>
      intro hb e h
      obtain ⟨coin, hc⟩ := hb cc rfl
      simp [create, hc, liftPanic, bind, Except.bind] at h
    | binary c ih => intro hb e h; exact lay (ih hb) h
    | cbAdf ty c ih => intro hb e h; exact lay (ih hb) h
    | greedy ep c ih => intro hb e h; exact lay (ih hb) h
    | softmax ep l c ih => intro hb e h; exact lay (ih hb) h
    | squareCb ep gs ge c ih =>
      intro hb e h
      unfold create at h
      split at h
      · exact lay (ih hb) h
      · simp at h; right; exact h.symm
    | debug c ih => intro hb e h; exact lay (ih hb) h
    | elementwise one two keep c ih => intro hb e h; exact lay (ih hb) h
    | unknown t =>
      intro hb e h
      simp [create] at h
      left; exact h.symm
  cases hn : create hash g 1 c with
  | ok x => exact absurd (built_type (built_of_create c hn)) (by rw [ht]; simp)
  | error e => exact ⟨e, by unfold Workspace.new; rw [hn]; rfl, fun hb => key c hb e hn⟩

/-- An unknown reduction at any depth makes creation fail. -/
theorem C29_unknown_rejected (hash : HashFn) (g : GlobalConfig) (c : RedConfig F) (hu : c.HasUnknown) :
    ∃ e, Workspace.new hash g c = .error e ∧ (e = .unknownType ∨ e = .invalid) := by
  have hb : c.bottom = none := by
    induction c <;> simp_all [RedConfig.bottom, RedConfig.HasUnknown]
  have ht : c.typeOf = none := by
    clear hb
    induction c <;> simp_all [RedConfig.typeOf, RedConfig.HasUnknown]
  obtain ⟨e, h1, h2⟩ := C29_rejected hash g c ht
  exact ⟨e, h1, h2 (by rw [hb]; simp)⟩

/-! ### C28 -/

/-- In a created stack every reduction agrees with the one below it on the labels and features it passes down and the predictions it gets
back. -/
theorem C28_layers_agree {hash : HashFn} {g : GlobalConfig} {c : RedConfig F} {w : Workspace F} (h : Workspace.new hash g c = .ok w) :
    ∀ r ∈ w.red.layers, ∀ b, r.directlyBelow = some b →
      r.meta.types.outLabel = some b.meta.types.inLabel ∧ r.meta.types.outFeatures = some b.meta.types.inFeatures ∧
        r.meta.types.inPrediction = some b.meta.types.outPrediction := by
  have key : ∀ {c : RedConfig F} {x : (r : Red F) × r.State}, Built hash g 1 c x → ∀ r ∈ x.1.layers, ∀ b, r.directlyBelow = some b →
      r.meta.types.checkOk b.meta.types = true := by
    intro c x hb
    induction hb with
    | coin _ => intro r hr b hb; simp [Red.layers] at hr; subst hr; simp [Red.directlyBelow] at hb
    | binary _ hc ih | cbAdf _ hc ih | greedy _ hc ih | softmax _ hc ih | squareCb _ _ hc ih | debug _ hc ih | elementwise _ hc ih =>
      intro r hr b hb
      rcases List.mem_cons.1 hr with rfl | hr
      · simp [Red.directlyBelow] at hb; subst hb; exact hc
      · exact ih r hr b hb
  intro r hr b hb
  exact checkOk_iff.1 (key (built_of_new h) r hr b hb)

/-- Predicting on features of the declared type has no type mismatch and returns a prediction of the declared type. -/
theorem C28_predict_typed (dbg : Bool) {hash : HashFn} {g : GlobalConfig} {c : RedConfig F} {w0 : Workspace F}
    (h : Workspace.new hash g c = .ok w0) {t : StackType} (ht : c.typeOf = some t) (s : w0.red.State) (ft : Features F)
    (hft : ft.ty = t.features) :
    Workspace.predict dbg ⟨w0.red, s⟩ ft ≠ .error .typeMismatch ∧
      ∀ p ft', Workspace.predict dbg ⟨w0.red, s⟩ ft = .ok (p, ft') → p.ty = t.prediction ∧ ft'.ty = t.features := by
  have hb := built_of_new h
  rw [built_type hb] at ht
  simp only [Option.some.injEq] at ht
  subst ht
  have := ((hb.predict_typed dbg s).wrap dbg w0.red.meta 0) ft 0 hft
  refine ⟨NTM.bind this.1 (fun _ _ => NTM.ok _), ?_⟩
  intro p ft' hr
  obtain ⟨x, h1, hr⟩ := bind_ok.1 hr
  simp only [Except.ok.injEq, Prod.mk.injEq] at hr
  obtain ⟨rfl, rfl⟩ := hr
  exact this.2 _ _ _ h1

/-- Learning with a label and features of the declared types has no type mismatch. -/
theorem C28_learn_typed (dbg : Bool) {hash : HashFn} {g : GlobalConfig} {c : RedConfig F} {w0 : Workspace F}
    (h : Workspace.new hash g c = .ok w0) {t : StackType} (ht : c.typeOf = some t) (s : w0.red.State) (ft : Features F) (l : Label F)
    (hft : ft.ty = t.features) (hl : l.ty = t.label) :
    Workspace.learn dbg ⟨w0.red, s⟩ ft l ≠ .error .typeMismatch := by
  have hb := built_of_new h
  rw [built_type hb] at ht
  simp only [Option.some.injEq] at ht
  subst ht
  exact NTM.bind (((hb.learn_typed dbg s l hl).wrap dbg w0.red.meta 0) ft 0 hft).1 (fun _ _ => NTM.ok _)

/-- The same for predict-then-learn. -/
theorem C28_predict_then_learn_typed (dbg : Bool) {hash : HashFn} {g : GlobalConfig} {c : RedConfig F} {w0 : Workspace F}
    (h : Workspace.new hash g c = .ok w0) {t : StackType} (ht : c.typeOf = some t) (s : w0.red.State) (ft : Features F) (l : Label F)
    (hft : ft.ty = t.features) (hl : l.ty = t.label) :
    Workspace.predictThenLearn dbg ⟨w0.red, s⟩ ft l ≠ .error .typeMismatch ∧
      ∀ p w' ft', Workspace.predictThenLearn dbg ⟨w0.red, s⟩ ft l = .ok (p, w', ft') → p.ty = t.prediction := by
  have hb := built_of_new h
  rw [built_type hb] at ht
  simp only [Option.some.injEq] at ht
  subst ht
  have := ((hb.ptl_typed dbg s l 0 hl).wrap dbg w0.red.meta 0) ft 0 hft
  refine ⟨NTM.bind this.1 (fun _ _ => NTM.ok _), ?_⟩
  intro p w' ft' hr
  obtain ⟨x, h1, hr⟩ := bind_ok.1 hr
  simp only [Except.ok.injEq, Prod.mk.injEq] at hr
  obtain ⟨rfl, rfl, rfl⟩ := hr
  exact (this.2 _ _ _ h1).1

section examples
attribute [local instance] intFlt

/-- An accepted configuration, with its type, and one that is rejected: CbAdf over Binary. -/
example : returned (Workspace.new tinyHash tinyGlobal tinySquare) = true ∧
    tinySquare.typeOf = some ⟨.cb, .sparseCBAdf, .actionProbs⟩ ∧ tinyCb.ty = .sparseCBAdf := by decide +kernel

example : returned (Workspace.new tinyHash tinyGlobal (.cbAdf .ips (.binary (.coin CoinConfig.dflt)) : RedConfig Int)) = false ∧
    (RedConfig.cbAdf .ips (.binary (.coin CoinConfig.dflt)) : RedConfig Int).typeOf = none := by decide +kernel

/-- Passing features of another type than the declared one does give a mismatch. -/
example : (match Workspace.new tinyHash tinyGlobal tinySquare with
    | .ok w => (match w.predict true (.simple (tinyFeat 1#32 1)) with
      | .error .typeMismatch => true
      | _ => false)
    | .error _ => false) = true := by decide +kernel

end examples

end Rml
