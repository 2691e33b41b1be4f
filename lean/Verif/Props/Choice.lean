import Verif.SpecChoice
import Verif.Props.Order

/-! C112: actions that are not chosen. -/

set_option linter.unusedSectionVars false

namespace Rml
variable {F : Type} [Flt F]

theorem debug_learn {dbg : Bool} {m : Meta} {r : Red F} {s : r.State} {ft ft' : Features F} {l : Label F} {w' : Workspace F}
    (h : Workspace.learn dbg ⟨.debug m r, s⟩ ft l = .ok (w', ft')) :
    ∃ s1, Workspace.learn dbg ⟨r, s⟩ ft l = .ok (⟨r, s1⟩, ft') ∧ w' = ⟨.debug m r, s1⟩ := by
  unfold Workspace.learn Red.learn at h
  obtain ⟨⟨s', f1, d1⟩, h1, h2⟩ := bind_ok.1 h
  simp only [Except.ok.injEq, Prod.mk.injEq] at h2
  obtain ⟨rfl, rfl⟩ := h2
  obtain ⟨s1, h3, h4⟩ := layer_learn (r := r) (s := s) (l := l) (up := fun q : r.State => q) (by
    funext ft d
    simp only [Red.learnImpl, adapt_ok]) h1
  exact ⟨s1, h3, by rw [h4]⟩

theorem mtr_choice (dbg : Bool) {m : Meta} {r : Red F} (mt : MtrState) (s : r.State) (hw : Workspace.FromConfig ⟨.cbAdf m .mtr r, (mt, s)⟩)
    (f g : CBAdfFeatures F) (hf : (Features.cbAdf f).Valid) (hg : (Features.cbAdf g).Valid) (l l' : CBLabel F) (hs : SameChoice (f, l) (g, l'))
    (w1 w2 : Workspace F) (ft' gt' : Features F) (h : Workspace.learn dbg ⟨.cbAdf m .mtr r, (mt, s)⟩ (.cbAdf f) (.cb l) = .ok (w1, ft'))
    (h' : Workspace.learn dbg ⟨.cbAdf m .mtr r, (mt, s)⟩ (.cbAdf g) (.cb l') = .ok (w2, gt')) : w1 = w2 := by
  obtain ⟨sh, a, s1, e1, e2, rfl, ⟨x, hx⟩, e4⟩ := C31_mtr dbg mt s hw f hf l h
  obtain ⟨sh', a', s2, e1', e2', rfl, _, e4'⟩ := C31_mtr dbg mt s hw g hg l' h'
  obtain ⟨hsh, hc, hcost, hpr, hn⟩ := hs
  simp only at hsh hc hcost hpr hn
  rw [hsh, e1'] at e1
  rw [e2, e2'] at hc
  simp only [Option.some.injEq] at e1 hc
  subst e1 hc
  obtain ⟨y, hy⟩ := e4 x hx
  obtain ⟨y', hy'⟩ := e4' x hx
  rw [← hcost, ← hpr, ← hn, hy] at hy'
  simp only [Except.ok.injEq, Prod.mk.injEq] at hy'
  have : s1 = s2 := by
    have := hy'.1
    injection this
  rw [this, hn]

theorem choice_step (dbg : Bool) {hash : HashFn} {gl : GlobalConfig} (c : RedConfig F) : c.Mtr → ∀ (x : (r : Red F) × r.State), Built hash gl 1 c x →
    ∀ (s : x.1.State) (f g : CBAdfFeatures F), (Features.cbAdf f).Valid → (Features.cbAdf g).Valid → ∀ (l l' : CBLabel F), SameChoice (f, l) (g, l') →
    ∀ (w1 w2 : Workspace F) (ft' gt' : Features F), Workspace.learn dbg ⟨x.1, s⟩ (.cbAdf f) (.cb l) = .ok (w1, ft') →
      Workspace.learn dbg ⟨x.1, s⟩ (.cbAdf g) (.cb l') = .ok (w2, gt') → w1 = w2 := by
  induction c with
  | cbAdf ty rc _ =>
    intro hm x hb s f g hf hg l l' hs w1 w2 ft' gt' h h'
    have hw := built_from hb rfl s
    simp only [RedConfig.Mtr] at hm
    subst hm
    cases hb with
    | cbAdf _ _ => exact mtr_choice dbg s.1 s.2 hw f g hf hg l l' hs w1 w2 ft' gt' h h'
  | greedy e c ih =>
    intro hm x hb s f g hf hg l l' hs w1 w2 ft' gt' h h'
    cases hb with
    | greedy hb _ =>
      obtain ⟨s1, h1, rfl⟩ := greedy_learn h
      obtain ⟨s2, h2, rfl⟩ := greedy_learn h'
      have := ih hm _ hb _ f g hf hg l l' hs _ _ _ _ h1 h2
      injection this with _ this
      rw [this]
  | softmax e lm c ih =>
    intro hm x hb s f g hf hg l l' hs w1 w2 ft' gt' h h'
    cases hb with
    | softmax hb _ =>
      obtain ⟨s1, h1, rfl⟩ := softmax_learn h
      obtain ⟨s2, h2, rfl⟩ := softmax_learn h'
      have := ih hm _ hb _ f g hf hg l l' hs _ _ _ _ h1 h2
      injection this with _ this
      rw [this]
  | squareCb e gs ge c ih =>
    intro hm x hb s f g hf hg l l' hs w1 w2 ft' gt' h h'
    cases hb with
    | squareCb _ hb _ =>
      obtain ⟨s1, h1, rfl⟩ := squareCb_learn h
      obtain ⟨s2, h2, rfl⟩ := squareCb_learn h'
      have := ih hm _ hb _ f g hf hg { l with probability := Flt.one } { l' with probability := Flt.one } ⟨hs.1, hs.2, hs.3, rfl, hs.5⟩ _ _ _ _ h1 h2
      injection this with _ this
      rw [this]
  | debug c ih =>
    intro hm x hb s f g hf hg l l' hs w1 w2 ft' gt' h h'
    cases hb with
    | debug hb _ =>
      obtain ⟨s1, h1, rfl⟩ := debug_learn h
      obtain ⟨s2, h2, rfl⟩ := debug_learn h'
      have := ih hm _ hb _ f g hf hg l l' hs _ _ _ _ h1 h2
      injection this with _ this
      rw [this]
  | coin _ => exact fun hm => hm.elim
  | binary _ _ => exact fun hm => hm.elim
  | elementwise _ _ _ _ _ => exact fun hm => hm.elim
  | unknown _ => exact fun hm => hm.elim

theorem learn_red {dbg : Bool} {w w' : Workspace F} {ft ft' : Features F} {l : Label F} (h : w.learn dbg ft l = .ok (w', ft')) : w'.red = w.red := by
  unfold Workspace.learn at h
  obtain ⟨⟨s0, ft1, d1⟩, h1, h⟩ := bind_ok.1 h
  simp only [Except.ok.injEq, Prod.mk.injEq] at h
  rw [← h.1]

/-- C112. Whatever the actions are that were listed but not chosen, as long as there are equally many: two histories with the same choices give the same
model. Missing from the full statement: actions that are added or removed, and the type ips, see `C112_number_false` and `C112_ips_false`. -/
theorem C112_history_partial (dbg : Bool) (hash : HashFn) (gl : GlobalConfig) (c : RedConfig F) (hc : c.Mtr) (w : Workspace F)
    (hw : Workspace.new hash gl c = .ok w) (es es' : List (CBAdfFeatures F × CBLabel F)) (hv : ∀ e ∈ es ++ es', (Features.cbAdf e.1).Valid)
    (hs : List.Forall₂ SameChoice es es') (w1 w2 : Workspace F) (h1 : learnAll dbg w (asExamples es) = .ok w1)
    (h2 : learnAll dbg w (asExamples es') = .ok w2) : w1 = w2 := by
  have hb := built_of_new hw
  have key : ∀ v : Workspace F, v.red = w.red → learnAll dbg v (asExamples es) = .ok w1 → learnAll dbg v (asExamples es') = .ok w2 → w1 = w2 := by
    clear h1 h2
    induction hs with
    | nil =>
      intro v _ h1 h2
      simp only [asExamples, List.map_nil, learnAll, Except.ok.injEq] at h1 h2
      exact h1.symm.trans h2
    | @cons e e' es es' he hs ih =>
      intro v hr h1 h2
      simp only [asExamples, List.map_cons, learnAll] at h1 h2
      obtain ⟨⟨u, ft⟩, k1, j1⟩ := bind_ok.1 h1
      obtain ⟨⟨u', ft'⟩, k2, j2⟩ := bind_ok.1 h2
      obtain ⟨vr, vs⟩ := v
      simp only at hr
      subst hr
      have := choice_step dbg c hc ⟨w.red, w.st⟩ hb vs e.1 e'.1 (hv e (by simp)) (hv e' (by simp)) e.2 e'.2 he u u' ft ft' k1 k2
      subst this
      refine ih (fun x hx => hv x ?_) u (by have := learn_red k1; exact this) j1 j2
      simp only [List.mem_append, List.mem_cons] at hx ⊢
      tauto
  exact key w rfl h1 h2

/-- What a call gives apart from the features. -/
def noFeatures {S : Type} (x : M (S × Features F × Depth)) : M (S × Depth) := x.map (fun p => (p.1, p.2.2))

theorem noFeatures_wrap {S : Type} (m : Meta) (f g : Features F) (off : Nat) (b b' : Features F → Depth → M (S × Features F × Depth))
    (h : ∀ d, noFeatures (b f d) = noFeatures (b' g d)) (d : Depth) :
    noFeatures (wrapCall false m f d off b) = noFeatures (wrapCall false m g d off b') := by
  unfold wrapCall
  cases hd : Depth.increment false d m.numModelsBelow off with
  | error e => rfl
  | ok d1 =>
    have h := h d1
    simp only [ok_bind]
    cases h1 : b f d1 with
    | error e =>
      cases h2 : b' g d1 with
      | error e' =>
        rw [h1, h2] at h
        have h : e = e' := by simpa [noFeatures, Except.map] using h
        rw [h]; rfl
      | ok p => rw [h1, h2] at h; simp [noFeatures, Except.map] at h
    | ok q =>
      cases h2 : b' g d1 with
      | error e' => rw [h1, h2] at h; simp [noFeatures, Except.map] at h
      | ok p =>
        rw [h1, h2] at h
        obtain ⟨a, ft, e⟩ := q
        obtain ⟨a', gt, e'⟩ := p
        simp only [noFeatures, Except.map, Except.ok.injEq, Prod.mk.injEq] at h
        obtain ⟨rfl, rfl⟩ := h
        simp only [ok_bind, debugAssert, Bool.false_and, Bool.false_eq_true, if_false]
        cases Depth.decrement false e m.numModelsBelow off <;> rfl

theorem noFeatures_up {S T : Type} (up : S → T) (x y : M (S × Features F × Depth)) (h : noFeatures x = noFeatures y) :
    noFeatures (do let (s, ft, d) ← x; .ok (up s, ft, d)) = noFeatures (do let (s, ft, d) ← y; .ok (up s, ft, d)) := by
  cases x with
  | error e =>
    cases y with
    | error e' => simpa [noFeatures, Except.map, bind, Except.bind] using h
    | ok p => simp [noFeatures, Except.map] at h
  | ok q =>
    cases y with
    | error e' => simp [noFeatures, Except.map] at h
    | ok p =>
      simp only [noFeatures, Except.map, Except.ok.injEq, Prod.mk.injEq] at h
      simp only [noFeatures, Except.map, ok_bind, h.1, h.2]

theorem choice_same {hash : HashFn} {gl : GlobalConfig} {n : Nat} (c : RedConfig F) : c.Mtr → ∀ (x : (r : Red F) × r.State), Built hash gl n c x →
    ∀ (s : x.1.State) (f g : CBAdfFeatures F) (l l' : CBLabel F), SameChoice (f, l) (g, l') → ∀ d,
      noFeatures (x.1.learnImpl false s (.cbAdf f) (.cb l) d) = noFeatures (x.1.learnImpl false s (.cbAdf g) (.cb l') d) := by
  induction c with
  | cbAdf ty rc _ =>
    intro hm x hb s f g l l' hs d
    simp only [RedConfig.Mtr] at hm
    subst hm
    cases hb with
    | @cbAdf _ _ x _ _ =>
      obtain ⟨h1, h2, h3, h4, h5⟩ := hs
      simp only at h1 h2 h3 h4 h5
      simp only [Red.learnImpl, Features.asCb, Label.asCb, ok_bind, cbMtrLearn, h1, h2, h3, h4, h5]
      cases g.shared with
      | none => rfl
      | some sh =>
        cases g.actions[l'.action]? with
        | none => rfl
        | some a =>
          simp only [unwrapOpt, ok_bind]
          cases sh.append a with
          | error e => rfl
          | ok sh1 =>
            simp only [ok_bind]
            cases wrapCall false x.1.meta (Features.simple sh1) d 0 (fun ft d => x.1.learnImpl false s.2 ft
              (.simple ⟨l'.cost, mtrWeight ⟨s.1.actionSum + g.actions.length, s.1.eventSum + 1⟩ l'.probability⟩) d) with
            | error e => rfl
            | ok q =>
              obtain ⟨s1, ft, d1⟩ := q
              simp only [ok_bind]
              cases ft.asSimple with
              | error e => rfl
              | ok sh2 =>
                simp only [ok_bind]
                cases sh2.remove a <;> rfl
  | greedy e c ih =>
    intro hm x hb s f g l l' hs d
    cases hb with
    | @greedy _ _ x hb _ => exact noFeatures_wrap _ _ _ _ _ _ (fun d => ih hm _ hb s f g l l' hs d) d
  | softmax e lm c ih =>
    intro hm x hb s f g l l' hs d
    cases hb with
    | @softmax _ _ _ x hb _ => exact noFeatures_up (fun q => (s.1, q)) _ _ (noFeatures_wrap _ _ _ _ _ _ (fun d => ih hm _ hb s.2 f g l l' hs d) d)
  | squareCb e gs ge c ih =>
    intro hm x hb s f g l l' hs d
    cases hb with
    | @squareCb _ _ _ _ x _ hb _ =>
      exact noFeatures_up (fun q => (s.1 + 1, q)) _ _ (noFeatures_wrap _ _ _ _ _ _ (fun d => ih hm _ hb s.2 f g { l with probability := Flt.one }
        { l' with probability := Flt.one } ⟨hs.1, hs.2, hs.3, rfl, hs.5⟩ d) d)
  | debug c ih =>
    intro hm x hb s f g l l' hs d
    cases hb with
    | @debug _ x hb _ => exact noFeatures_wrap _ _ _ _ _ _ (fun d => ih hm _ hb s f g l l' hs d) d
  | coin _ => exact fun hm => hm.elim
  | binary _ _ => exact fun hm => hm.elim
  | elementwise _ _ _ _ _ => exact fun hm => hm.elim
  | unknown _ => exact fun hm => hm.elim

/-- C112 in release builds: both reports have the same outcome, success or not, whatever the examples are like. -/
theorem C112_release_partial (hash : HashFn) (gl : GlobalConfig) (c : RedConfig F) (hc : c.Mtr) (w : Workspace F) (hw : Workspace.new hash gl c = .ok w)
    (es es' : List (CBAdfFeatures F × CBLabel F)) (hs : List.Forall₂ SameChoice es es') :
    learnAll false w (asExamples es) = learnAll false w (asExamples es') := by
  have hb := built_of_new hw
  have key : ∀ v : Workspace F, v.red = w.red → learnAll false v (asExamples es) = learnAll false v (asExamples es') := by
    induction hs with
    | nil => exact fun _ _ => rfl
    | @cons e e' es es' he hs ih =>
      intro v hr
      obtain ⟨vr, vs⟩ := v
      simp only at hr
      subst hr
      have k := noFeatures_wrap w.red.meta (.cbAdf e.1) (.cbAdf e'.1) 0 (fun ft d => w.red.learnImpl false vs ft (.cb e.2) d)
        (fun ft d => w.red.learnImpl false vs ft (.cb e'.2) d) (fun d => choice_same c hc ⟨w.red, w.st⟩ hb vs e.1 e'.1 e.2 e'.2 he d) 0
      simp only [asExamples, List.map_cons, learnAll, Workspace.learn, Red.learn]
      cases h1 : wrapCall false w.red.meta (.cbAdf e.1) 0 0 (fun ft d => w.red.learnImpl false vs ft (.cb e.2) d) with
      | error x =>
        cases h2 : wrapCall false w.red.meta (.cbAdf e'.1) 0 0 (fun ft d => w.red.learnImpl false vs ft (.cb e'.2) d) with
        | error y =>
          have k : x = y := by
            rw [h1, h2] at k
            simpa [noFeatures, Except.map] using k
          rw [k]; rfl
        | ok y =>
          exfalso
          rw [h1, h2] at k
          simp [noFeatures, Except.map] at k
      | ok x =>
        cases h2 : wrapCall false w.red.meta (.cbAdf e'.1) 0 0 (fun ft d => w.red.learnImpl false vs ft (.cb e'.2) d) with
        | error y =>
          exfalso
          rw [h1, h2] at k
          simp [noFeatures, Except.map] at k
        | ok y =>
          rw [h1, h2] at k
          simp only [noFeatures, Except.map, Except.ok.injEq, Prod.mk.injEq] at k
          simp only [ok_bind, k.1]
          exact ih ⟨w.red, y.1⟩ rfl
  exact key w rfl

/-! ### Counterexamples and an example -/

attribute [local instance] transRatOrder fltRatOrder

/-- `ratEvent` with one action more. -/
def wideEvent : CBAdfFeatures ℚ := ⟨some (ratFeat 1#32 1), [ratFeat 2#32 1, ratFeat 3#32 2, ratFeat 0#32 1]⟩
/-- `ratEvent` with another second action. -/
def twinEvent : CBAdfFeatures ℚ := ⟨some (ratFeat 1#32 1), [ratFeat 2#32 1, ratFeat 2#32 1]⟩

theorem choice_differs {c : RedConfig ℚ} {e e' : CBAdfFeatures ℚ} {l : CBLabel ℚ}
    (h1 : (ratRun c (.cbAdf e) l (.cbAdf ratEvent)).isSome = true) (h2 : (ratRun c (.cbAdf e') l (.cbAdf ratEvent)).isSome = true)
    (hne : ratRun c (.cbAdf e) l (.cbAdf ratEvent) ≠ ratRun c (.cbAdf e') l (.cbAdf ratEvent)) :
    ∃ (w w1 w2 : Workspace ℚ) (ft : Features ℚ) (p1 p2 : Prediction ℚ × Features ℚ), Workspace.new tinyHash tinyGlobal c = .ok w ∧
      learnAll true w (asExamples [(e, l)]) = .ok w1 ∧ learnAll true w (asExamples [(e', l)]) = .ok w2 ∧
      w1.predict true ft = .ok p1 ∧ w2.predict true ft = .ok p2 ∧ p1.1 ≠ p2.1 := by
  obtain ⟨p1, h1⟩ := Option.isSome_iff_exists.1 h1
  obtain ⟨p2, h2⟩ := Option.isSome_iff_exists.1 h2
  rw [h1, h2] at hne
  obtain ⟨w, w1, ft1, g1, e1, e2, e3⟩ := ratRun_some h1
  obtain ⟨w', w2, ft2, g2, e1', e2', e3'⟩ := ratRun_some h2
  rw [e1] at e1'
  simp only [Except.ok.injEq] at e1'
  subst e1'
  refine ⟨w, w1, w2, _, (p1, g1), (p2, g2), e1, ?_, ?_, e3, e3', fun h => hne (congrArg some h)⟩
  · simp only [asExamples, List.map_cons, List.map_nil, learnAll, e2, ok_bind]
  · simp only [asExamples, List.map_cons, List.map_nil, learnAll, e2', ok_bind]

/-- C112 fails if an action is added that is not chosen: its features do not matter, but the weight of the event depends on the number of actions. -/
theorem C112_number_false : ∃ (w w1 w2 : Workspace ℚ) (ft : Features ℚ) (p1 p2 : Prediction ℚ × Features ℚ),
    Workspace.new tinyHash tinyGlobal (.cbAdf .mtr (.coin CoinConfig.dflt)) = .ok w ∧
      learnAll true w (asExamples [(ratEvent, ⟨0, 1, 1/2⟩)]) = .ok w1 ∧ learnAll true w (asExamples [(wideEvent, ⟨0, 1, 1/2⟩)]) = .ok w2 ∧
      w1.predict true ft = .ok p1 ∧ w2.predict true ft = .ok p2 ∧ p1.1 ≠ p2.1 :=
  choice_differs (by decide +kernel) (by decide +kernel) (by decide +kernel)

/-- C112 fails for the type ips: actions that were not chosen are learned as actions without cost. -/
theorem C112_ips_false : ∃ (w w1 w2 : Workspace ℚ) (ft : Features ℚ) (p1 p2 : Prediction ℚ × Features ℚ),
    Workspace.new tinyHash tinyGlobal (.cbAdf .ips (.coin CoinConfig.dflt)) = .ok w ∧ SameChoice (ratEvent, ⟨0, 1, 1/2⟩) (twinEvent, ⟨0, 1, 1/2⟩) ∧
      learnAll true w (asExamples [(ratEvent, ⟨0, 1, 1/2⟩)]) = .ok w1 ∧ learnAll true w (asExamples [(twinEvent, ⟨0, 1, 1/2⟩)]) = .ok w2 ∧
      w1.predict true ft = .ok p1 ∧ w2.predict true ft = .ok p2 ∧ p1.1 ≠ p2.1 := by
  obtain ⟨w, w1, w2, ft, p1, p2, h, hs⟩ := choice_differs (c := .cbAdf .ips (.coin CoinConfig.dflt)) (e := ratEvent) (e' := twinEvent) (l := ⟨0, 1, 1/2⟩)
    (by decide +kernel) (by decide +kernel) (by decide +kernel)
  exact ⟨w, w1, w2, ft, p1, p2, h, ⟨rfl, rfl, rfl, rfl, rfl⟩, hs⟩

/-- The model after two events, in one of two reports. -/
def ratTwice (e e' : CBAdfFeatures ℚ) : Option (Workspace ℚ) :=
  (ratWs (.softmax 0 1 (.cbAdf .mtr (.coin CoinConfig.dflt)))).bind fun w =>
    (ratLearn w (.cbAdf e) ⟨0, 1, 1/2⟩).bind fun w => ratLearn w (.cbAdf e') ⟨0, 2, 1/2⟩

theorem twinEvent_valid : (Features.cbAdf twinEvent).Valid := by
  refine ⟨?_, ?_⟩
  all_goals
    intro s hs
    simp only [twinEvent, Option.some.injEq, List.mem_cons, List.not_mem_nil, or_false] at hs
    first
    | subst hs; exact oneFeat_wf _ _ _ rfl
    | rcases hs with rfl | rfl <;> exact oneFeat_wf _ _ _ rfl

example : ∃ (w w1 w2 : Workspace ℚ) (es es' : List (CBAdfFeatures ℚ × CBLabel ℚ)), (RedConfig.softmax (0 : ℚ) 1 (.cbAdf .mtr (.coin CoinConfig.dflt))).Mtr ∧
    Workspace.new tinyHash tinyGlobal (.softmax 0 1 (.cbAdf .mtr (.coin CoinConfig.dflt))) = .ok w ∧ (∀ e ∈ es ++ es', (Features.cbAdf e.1).Valid) ∧
    List.Forall₂ SameChoice es es' ∧ es.length = 2 ∧ learnAll true w (asExamples es) = .ok w1 ∧ learnAll true w (asExamples es') = .ok w2 ∧ w1 = w2 := by
  obtain ⟨w1, h1⟩ := Option.isSome_iff_exists.1 (show (ratTwice ratEvent twinEvent).isSome = true by decide +kernel)
  obtain ⟨w2, h2⟩ := Option.isSome_iff_exists.1 (show (ratTwice twinEvent ratEvent).isSome = true by decide +kernel)
  obtain ⟨w, a1, h1⟩ := Option.bind_eq_some_iff.1 h1
  obtain ⟨v, a2, h1⟩ := Option.bind_eq_some_iff.1 h1
  obtain ⟨w', b1, h3⟩ := Option.bind_eq_some_iff.1 h2
  obtain ⟨v', b2, h4⟩ := Option.bind_eq_some_iff.1 h3
  rw [a1, Option.some.injEq] at b1
  subst b1
  obtain ⟨f1, a2⟩ := ratLearn_some a2
  obtain ⟨f2, h1⟩ := ratLearn_some h1
  obtain ⟨g1, b2⟩ := ratLearn_some b2
  obtain ⟨g2, h5⟩ := ratLearn_some h4
  have hv : ∀ e ∈ [(ratEvent, (⟨0, 1, 1/2⟩ : CBLabel ℚ)), (twinEvent, ⟨0, 2, 1/2⟩)] ++ [(twinEvent, ⟨0, 1, 1/2⟩), (ratEvent, ⟨0, 2, 1/2⟩)],
      (Features.cbAdf e.1).Valid := by
    intro e he
    simp only [List.cons_append, List.nil_append, List.mem_cons, List.not_mem_nil, or_false] at he
    rcases he with rfl | rfl | rfl | rfl
    · exact ratEvents_valid.1
    · exact twinEvent_valid
    · exact twinEvent_valid
    · exact ratEvents_valid.1
  have k1 : learnAll true w (asExamples [(ratEvent, ⟨0, 1, 1/2⟩), (twinEvent, ⟨0, 2, 1/2⟩)]) = .ok w1 := by
    simp only [asExamples, List.map_cons, List.map_nil, learnAll, a2, h1, ok_bind]
  have k2 : learnAll true w (asExamples [(twinEvent, ⟨0, 1, 1/2⟩), (ratEvent, ⟨0, 2, 1/2⟩)]) = .ok w2 := by
    simp only [asExamples, List.map_cons, List.map_nil, learnAll, b2, h5, ok_bind]
  have hs : List.Forall₂ SameChoice [(ratEvent, (⟨0, 1, 1/2⟩ : CBLabel ℚ)), (twinEvent, ⟨0, 2, 1/2⟩)] [(twinEvent, ⟨0, 1, 1/2⟩), (ratEvent, ⟨0, 2, 1/2⟩)] :=
    .cons ⟨rfl, rfl, rfl, rfl, rfl⟩ (.cons ⟨rfl, rfl, rfl, rfl, rfl⟩ .nil)
  have hm : (RedConfig.softmax (0 : ℚ) 1 (.cbAdf .mtr (.coin CoinConfig.dflt))).Mtr := rfl
  exact ⟨w, w1, w2, _, _, hm, ratWs_some a1, hv, hs, rfl, k1, k2, C112_history_partial true _ _ _ hm w (ratWs_some a1) _ _ hv hs _ _ k1 k2⟩

/-- The release build: the second choice is out of range in both reports. -/
example : ∃ (w : Workspace ℚ) (es es' : List (CBAdfFeatures ℚ × CBLabel ℚ)), Workspace.new tinyHash tinyGlobal (.softmax 0 1 (.cbAdf .mtr (.coin CoinConfig.dflt))) = .ok w ∧
    List.Forall₂ SameChoice es es' ∧ es ≠ es' ∧ learnAll false w (asExamples es) = learnAll false w (asExamples es') := by
  obtain ⟨w, h⟩ := Option.isSome_iff_exists.1 (show (ratWs (.softmax 0 1 (.cbAdf .mtr (.coin CoinConfig.dflt)))).isSome = true by decide +kernel)
  have hs : List.Forall₂ SameChoice [(ratEvent, (⟨0, 1, 1/2⟩ : CBLabel ℚ)), (twinEvent, ⟨7, 2, 1/2⟩)] [(twinEvent, ⟨0, 1, 1/2⟩), (ratEvent, ⟨7, 2, 1/2⟩)] :=
    .cons ⟨rfl, rfl, rfl, rfl, rfl⟩ (.cons ⟨rfl, rfl, rfl, rfl, rfl⟩ .nil)
  have hne : ratEvent ≠ twinEvent := fun h => absurd (congrArg (fun e => (e.actions[1]?).map SparseFeatures.entries) h) (by decide +kernel)
  have hm : (RedConfig.softmax (0 : ℚ) 1 (.cbAdf .mtr (.coin CoinConfig.dflt))).Mtr := rfl
  refine ⟨w, _, _, ratWs_some h, hs, ?_, C112_release_partial _ _ _ hm w (ratWs_some h) _ _ hs⟩
  simp [hne]

end Rml
