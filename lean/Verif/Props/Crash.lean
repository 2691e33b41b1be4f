import Verif.Lemmas.CrashIps
import Verif.Props.Ieee

/-!
C99: a call that fails changes nothing. The theorems about the other properties follow a history up to the first call that fails. Here the client
catches the panic (in Python: the exception) and goes on with the same workspace and the same examples.
-/

set_option linter.unusedSectionVars false

namespace Rml
variable {F : Type} [Flt F]

/-! ### What calls return -/

/-- C99, first part: the calls of a client that goes on after failures return what the calls of all other theorems return, and as long as they
return, the workspace and the examples are the same. -/
theorem C99_same_results (dbg : Bool) (S : Session F) (call : Call F) :
    (∀ S' o, S.step dbg call = .ok (S', o) → S.attempt dbg call = (S', .ok o)) ∧
    (∀ e, S.step dbg call = .error e → (S.attempt dbg call).2 = .error e) := by
  constructor
  · intro S' o h
    cases call with
    | predict i =>
      unfold Session.step at h
      obtain ⟨⟨p, ft⟩, h1, h2⟩ := bind_ok.1 h
      simp only [Except.ok.injEq, Prod.mk.injEq] at h2
      obtain ⟨rfl, rfl⟩ := h2
      unfold Session.attempt
      simp only [predictCr_ok dbg S.w _ h1]
      rfl
    | learn i l =>
      unfold Session.step at h
      obtain ⟨⟨w, ft⟩, h1, h2⟩ := bind_ok.1 h
      simp only [Except.ok.injEq, Prod.mk.injEq] at h2
      obtain ⟨rfl, rfl⟩ := h2
      unfold Session.attempt
      simp only [learnCr_ok dbg S.w _ l h1]
      rfl
    | predictThenLearn i l =>
      unfold Session.step at h
      obtain ⟨⟨p, w, ft⟩, h1, h2⟩ := bind_ok.1 h
      simp only [Except.ok.injEq, Prod.mk.injEq] at h2
      obtain ⟨rfl, rfl⟩ := h2
      unfold Session.attempt
      simp only [predictThenLearnCr_ok dbg S.w _ l h1]
      rfl
  · intro e h
    cases call with
    | predict i =>
      cases h1 : S.w.predict dbg (S.ex i) with
      | ok r => simp [Session.step, h1, ok_bind] at h
      | error e' =>
        simp only [Session.step, h1] at h
        cases h
        unfold Session.attempt
        simp only [predictCr_error dbg S.w _ h1]
        rfl
    | learn i l =>
      cases h1 : S.w.learn dbg (S.ex i) l with
      | ok r => simp [Session.step, h1, ok_bind] at h
      | error e' =>
        simp only [Session.step, h1] at h
        cases h
        unfold Session.attempt
        simp only [learnCr_error dbg S.w _ l h1]
        rfl
    | predictThenLearn i l =>
      cases h1 : S.w.predictThenLearn dbg (S.ex i) l with
      | ok r => simp [Session.step, h1, ok_bind] at h
      | error e' =>
        simp only [Session.step, h1] at h
        cases h
        unfold Session.attempt
        simp only [predictThenLearnCr_error dbg S.w _ l h1]
        rfl

/-! ### A model outlives failures -/

section usable
variable [LawfulCmp F]

theorem attempt_good (dbg : Bool) (nb : Nat) (S : Session F) (call : Call F) (h : CoinGood nb S.w.coin) :
    (S.attempt dbg call).1.w.red = S.w.red ∧ CoinGood nb (S.attempt dbg call).1.w.coin := by
  obtain ⟨⟨red, st⟩, ex⟩ := S
  cases call with
  | predict i => exact ⟨rfl, h⟩
  | learn i l =>
    refine ⟨rfl, ?_⟩
    exact (Keeps.wrap (P := fun s => CoinGood nb (red.coinOf s)) (fun d => learn_keeps nb dbg red l d)) (st, ex i) h
  | predictThenLearn i l =>
    refine ⟨rfl, ?_⟩
    exact (Keeps.wrap (P := fun s => CoinGood nb (red.coinOf s)) (fun d => predictThenLearn_keeps nb dbg red l d 0)) (st, ex i) h

theorem attempts_good (dbg : Bool) (nb : Nat) (calls : List (Call F)) : ∀ (S : Session F), CoinGood nb S.w.coin →
    (S.attempts dbg calls).1.w.red = S.w.red ∧ CoinGood nb (S.attempts dbg calls).1.w.coin := by
  induction calls with
  | nil => intro S h; exact ⟨rfl, h⟩
  | cons call calls ih =>
    intro S h
    have h1 := attempt_good dbg nb S call h
    have h2 := ih (S.attempt dbg call).1 h1.2
    exact ⟨h2.1.trans h1.1, h2.2⟩

/-- C99, second part: a model outlives failures. After any calls at all, with any examples and labels, of which any number may have failed, every
list of calls that are well-formed for the examples as they are by then succeeds. -/
theorem C99_usable (dbg : Bool) (h01 : dbg = true → Flt.lt (Flt.zero : F) Flt.one = true) (hash : HashFn) (g : GlobalConfig) (c : RedConfig F)
    (w : Workspace F) (h : Workspace.new hash g c = .ok w) (t : StackType) (ht : c.typeOf = some t) (he : c.NoElementwise) (hu : c.NoUniform)
    (ex : Nat → Features F) (before calls : List (Call F)) (S : Session F) (hS : (Session.attempts dbg ⟨w, ex⟩ before).1 = S)
    (hc : ∀ call ∈ calls, SafeCall dbg g.numBits c t S.ex call) : ∃ r, S.run dbg calls = .ok r := by
  have hg := attempts_good dbg g.numBits before ⟨w, ex⟩ (new_good h)
  rw [hS] at hg
  obtain ⟨w', ex'⟩ := S
  exact run_safe h01 h he (probsOk_of_noUniform c hu) ht ex' calls w' ex' hg.1 hg.2 (fun _ hv => hv.refl) hc

end usable

/-- C99, second part, for single precision bit patterns and any arithmetic that keeps the order of integers. -/
theorem C99_usable_f32 (o : F32Ops) (ho : ∀ m n : Int, m ≤ n → f32Le (o.lit m 1) (o.lit n 1) = true) (dbg : Bool) (hash : HashFn) (g : GlobalConfig)
    (c : RedConfig (BitVec 32)) (w : Workspace (BitVec 32)) (h : @Workspace.new _ (f32Flt o) hash g c = .ok w) (t : StackType)
    (ht : c.typeOf = some t) (he : c.NoElementwise) (hu : @RedConfig.NoUniform _ (f32Flt o) c) (ex : Nat → Features (BitVec 32))
    (before calls : List (Call (BitVec 32))) (S : @Session (BitVec 32) (f32Flt o))
    (hS : (@Session.attempts _ (f32Flt o) dbg (@Session.mk _ (f32Flt o) w ex) before).1 = S)
    (hc : ∀ call ∈ calls, @SafeCall _ (f32Flt o) dbg g.numBits c t (@Session.ex _ (f32Flt o) S) call) : ∃ r, @Session.run _ (f32Flt o) dbg S calls = .ok r := by
  let _ : Flt (BitVec 32) := f32Flt o
  have _ : LawfulCmp (BitVec 32) := lawfulCmp_f32 o ho
  exact C99_usable dbg (fun _ => show f32Lt 0#32 0x3f800000#32 = true by decide +kernel) hash g c w h t ht he hu ex before calls S hS hc

/-! ### Mistaken kinds -/

/-- A call that leaves everything unchanged is harmless. -/
theorem Unchanged.harmless {dbg : Bool} {S : Session F} {call : Call F} (h : Unchanged dbg S call) : Harmless dbg S call := by
  intro calls
  unfold Unchanged at h
  rw [h]

theorem attempts_red (dbg : Bool) (calls : List (Call F)) : ∀ (S : Session F), (S.attempts dbg calls).1.w.red = S.w.red := by
  induction calls with
  | nil => intro S; rfl
  | cons call calls ih =>
    intro S
    have h1 : (S.attempt dbg call).1.w.red = S.w.red := by cases call <;> rfl
    exact (ih (S.attempt dbg call).1).trans h1

theorem put_same (S : Session F) (i : Nat) : S.put S.w i (S.ex i) = S := by
  obtain ⟨w, ex⟩ := S
  unfold Session.put
  congr 1
  funext j
  split
  · rename_i h; rw [h]
  · rfl

/-- C99, third part: mistaking the kind of the features or of the label is harmless. For a model without ElementwiseInteraction, at any point of any
history with failures, such a call fails and leaves the model and all examples exactly as they were. (A mistaken label in predict-then-learn may
find the example after a prediction: the model is exactly as it was.) -/
theorem C99_kinds_partial (dbg : Bool) (hash : HashFn) (g : GlobalConfig) (c : RedConfig F) (w : Workspace F) (h : Workspace.new hash g c = .ok w)
    (t : StackType) (ht : c.typeOf = some t) (hn : c.NoElementwise) (ex : Nat → Features F) (before : List (Call F)) (S : Session F)
    (hS : (Session.attempts dbg ⟨w, ex⟩ before).1 = S) (call : Call F) (hk : call.WrongFeatures t S.ex ∨ call.WrongLabel t) :
    (∃ e, (S.attempt dbg call).2 = .error e) ∧ (S.attempt dbg call).1.w = S.w ∧
      ((∀ i l, call ≠ .predictThenLearn i l) ∨ call.WrongFeatures t S.ex → Unchanged dbg S call ∧ Harmless dbg S call) := by
  have hred : S.w.red = w.red := by rw [← hS]; exact attempts_red dbg before ⟨w, ex⟩
  have hb := built_of_new h
  have hty := built_type hb
  rw [ht] at hty
  simp only [Option.some.injEq] at hty
  subst hty
  obtain ⟨red0, st0⟩ := w
  obtain ⟨⟨red, st⟩, exs⟩ := S
  simp only at hred
  subst hred
  cases call with
  | predict i =>
    have hf : (exs i).ty ≠ red.meta.types.inFeatures := hk.resolve_right id
    obtain ⟨e, he⟩ := wrap_unchanged (dbg := dbg) (m := red.meta) (d := 0) (off := 0) (fun d => kinds_predict hb dbg (exs i) hf st d)
    have ha : Session.attempt dbg ⟨⟨red, st⟩, exs⟩ (.predict i) = (⟨⟨red, st⟩, exs⟩, .error e) := by
      unfold Session.attempt Workspace.predictCr
      simp only [he]
      exact congrArg₂ Prod.mk (put_same ⟨⟨red, st⟩, exs⟩ i) rfl
    have hu : Unchanged dbg ⟨⟨red, st⟩, exs⟩ (.predict i) := by unfold Unchanged; rw [ha]
    rw [ha]
    exact ⟨⟨e, rfl⟩, rfl, fun _ => ⟨hu, hu.harmless⟩⟩
  | learn i l =>
    obtain ⟨e, he⟩ := wrap_unchanged (dbg := dbg) (m := red.meta) (d := 0) (off := 0) (fun d => kinds_learn hb hn dbg (exs i) l hk st d)
    have ha : Session.attempt dbg ⟨⟨red, st⟩, exs⟩ (.learn i l) = (⟨⟨red, st⟩, exs⟩, .error e) := by
      unfold Session.attempt Workspace.learnCr
      simp only [he]
      exact congrArg₂ Prod.mk (put_same ⟨⟨red, st⟩, exs⟩ i) rfl
    have hu : Unchanged dbg ⟨⟨red, st⟩, exs⟩ (.learn i l) := by unfold Unchanged; rw [ha]
    rw [ha]
    exact ⟨⟨e, rfl⟩, rfl, fun _ => ⟨hu, hu.harmless⟩⟩
  | predictThenLearn i l =>
    obtain ⟨e, ft, he, hft⟩ := FailsSame.wrap (dbg := dbg) (m := red.meta) (d := 0) (off := 0) (fun d => kinds_predictThenLearn hb hn dbg (exs i) l hk st d 0)
    have ha : Session.attempt dbg ⟨⟨red, st⟩, exs⟩ (.predictThenLearn i l) = (Session.put ⟨⟨red, st⟩, exs⟩ ⟨red, st⟩ i ft, .error e) := by
      unfold Session.attempt Workspace.predictThenLearnCr
      simp only [he]
      rfl
    refine ⟨⟨e, by rw [ha]⟩, by rw [ha]; rfl, fun hq => ?_⟩
    have hf : (exs i).ty ≠ red.meta.types.inFeatures := by
      rcases hq with hq | hq
      · exact absurd rfl (hq i l)
      · exact hq
    have hu : Unchanged dbg ⟨⟨red, st⟩, exs⟩ (.predictThenLearn i l) := by
      unfold Unchanged
      rw [ha, hft hf]
      exact put_same ⟨⟨red, st⟩, exs⟩ i
    exact ⟨hu, hu.harmless⟩

/-! ### Regression -/

/-- An example that passes the checks of the debug profile: well-formed, and with no infinite or NaN value. -/
def Features.Checked (ft : Features F) : Prop := ft.Valid ∧ ∀ f ∈ ft.objects, ∀ iv ∈ f.allFeatures, Settled iv.2

theorem checked_selfOk {dbg : Bool} {ft : Features F} (h : dbg = true → ft.Checked) : SelfOk dbg ft := by
  cases dbg with
  | false => rfl
  | true =>
    obtain ⟨h1, h2⟩ := h rfl
    refine TameFt.selfOk (nb := 32) (fun f hf => ⟨fun iv _ => iv.1.isLt, fun _ => h2 f hf⟩) (okEx_of_valid h1)

section regression
variable [LawfulCmp F]

/-- C99, fourth part: what a learn call that fails leaves of a regression or binary classification model. The example is as it was. In the model at
most the range of the labels has changed: whether later predictions succeed, and every raw prediction, is as before. If the label is NaN or inside the
range of the labels seen so far, the model is exactly as it was, and the call is harmless. -/
theorem C99_regression_partial (dbg : Bool) (hash : HashFn) (g : GlobalConfig) (c : RedConfig F) (w : Workspace F) (h : Workspace.new hash g c = .ok w)
    (hr : c.Regression) (ex : Nat → Features F) (before : List (Call F)) (S : Session F) (hS : (Session.attempts dbg ⟨w, ex⟩ before).1 = S)
    (i : Nat) (l : Label F) (hx : dbg = true → (S.ex i).Checked) (e : Panic) (hf : (S.attempt dbg (.learn i l)).2 = .error e) :
    (S.attempt dbg (.learn i l)).1.ex = S.ex ∧
    (∃ lo hi, (S.attempt dbg (.learn i l)).1.w.coin = { S.w.coin with minLabel := lo, maxLabel := hi }) ∧
    (∀ ft, ((S.attempt dbg (.learn i l)).1.w.predict dbg ft).map (fun r => (r.1.raw, r.2)) = (S.w.predict dbg ft).map (fun r => (r.1.raw, r.2))) ∧
    ((∀ v, Target l v → Flt.isNaN v = true ∨ (v = S.w.coin.minLabel ∨ Flt.lt S.w.coin.minLabel v = true) ∧
        (v = S.w.coin.maxLabel ∨ Flt.lt v S.w.coin.maxLabel = true)) → Unchanged dbg S (.learn i l) ∧ Harmless dbg S (.learn i l)) := by
  have hg := attempts_good dbg g.numBits before ⟨w, ex⟩ (new_good h)
  rw [hS] at hg
  have hb := built_of_new h
  obtain ⟨red0, st0⟩ := w
  obtain ⟨⟨red, st⟩, exs⟩ := S
  obtain ⟨hred, hg⟩ := hg
  simp only at hred hx
  subst hred
  have hs := checked_selfOk hx
  rcases regression_learn hb hr dbg (exs i) hs l st 0 (by decide) hg with ⟨s', h1⟩ | ⟨e', s', h1, h2⟩
  · exfalso
    have hw := wrap_after (r := red) (d := 0) (by decide) hs h1
    unfold Session.attempt Workspace.learnCr at hf
    simp only [hw] at hf
    cases hf
  · have hw := wrap_failed (dbg := dbg) (r := red) (d := 0) (by decide) h1
    have ha : Session.attempt dbg ⟨⟨red, st⟩, exs⟩ (.learn i l) = (⟨⟨red, s'⟩, exs⟩, .error e') := by
      unfold Session.attempt Workspace.learnCr
      simp only [hw]
      refine congrArg₂ Prod.mk ?_ rfl
      have := put_same (F := F) ⟨⟨red, s'⟩, exs⟩ i
      exact this
    have hun : s' = st → Unchanged dbg ⟨⟨red, st⟩, exs⟩ (.learn i l) := by
      intro q
      subst q
      unfold Unchanged
      rw [ha]
    rw [ha]
    refine ⟨rfl, ?_, ?_, ?_⟩
    · rcases h2 with rfl | ⟨v, _, h3⟩
      · exact ⟨_, _, rfl⟩
      · exact ⟨_, _, h3⟩
    · intro ft
      rcases h2 with rfl | ⟨v, _, h3⟩
      · rfl
      · have := wrap_raw (dbg := dbg) (m := red.meta) (ft := ft) (d := 0) (off := 0) (fun d => regression_predict hb hr dbg ft v st s' d hg.range h3)
        unfold Workspace.predict Red.predict
        simp only
        revert this
        cases wrapCall dbg red.meta ft 0 0 (red.predictImpl dbg s') with
        | error e1 =>
          cases wrapCall dbg red.meta ft 0 0 (red.predictImpl dbg st) with
          | error e2 => intro q; cases q; rfl
          | ok b => intro q; exact q.elim
        | ok a =>
          cases wrapCall dbg red.meta ft 0 0 (red.predictImpl dbg st) with
          | error e2 => intro q; exact q.elim
          | ok b =>
            intro q
            obtain ⟨a1, a2, a3⟩ := a
            obtain ⟨b1, b2, b3⟩ := b
            obtain ⟨q1, q2⟩ := q
            simp only [Prod.mk.injEq] at q1 q2
            obtain ⟨rfl, rfl⟩ := q1
            simp only [ok_bind, Except.map, q2]
    · intro hv
      have : s' = st := by
        rcases h2 with rfl | ⟨v, h3, h4⟩
        · rfl
        · refine regression_state hb hr _ _ (h4.trans ?_)
          exact seen_inside hg.range (hv v h3)
      exact ⟨hun this, (hun this).harmless⟩

end regression

/-! ### Contextual bandit examples -/

theorem Built.redNoElementwise {hash : HashFn} {g : GlobalConfig} {nma : Nat} {c : RedConfig F} {x : (r : Red F) × r.State} (hb : Built hash g nma c x)
    (hn : c.NoElementwise) : x.1.NoElementwise := by
  induction hb with
  | coin _ => trivial
  | binary _ _ ih => exact ih hn
  | cbAdf _ _ ih => exact ih hn
  | greedy _ _ ih => exact ih hn
  | softmax _ _ ih => exact ih hn
  | squareCb _ _ _ ih => exact ih hn
  | debug _ _ ih => exact ih hn
  | elementwise _ _ ih => exact hn.elim

theorem forall₂_sameAs {l l' : List (SparseFeatures F)} (h : List.Forall₂ Eqv l l') : List.Forall₂ SparseFeatures.SameAs l l' :=
  h.imp (fun _ _ e => sameAs_of_vw e.left e.right e.view)

theorem CbLeft.mixOf {f' f : CBAdfFeatures F} (h : CbLeft f' f) : f'.MixOf f := by
  rcases h with ⟨h1, pre, pre', a, a', post, post', h2, h3, h4, h5, h6⟩ | ⟨s, s', a, h1, h2, h3, h4, h5⟩
  · refine .inl ⟨?_, pre, pre', a, a', post, post', h2, h3, forall₂_sameAs h4, h5, forall₂_sameAs h6⟩
    generalize f'.shared = x at h1 ⊢
    generalize f.shared = y at h1 ⊢
    cases h1 with
    | none => trivial
    | some e => exact sameAs_of_vw e.left e.right e.view
  · exact .inr ⟨s, s', a, h1, h2, h3, h4, forall₂_sameAs h5⟩

/-- C99, fifth part: what a call leaves of a contextual bandit example. Whatever the call and however it fails, the other examples are as they were, and
the example of the call is the same, or one of its actions also has the shared features, or its shared features also have those of one action. If the
call returns, the example is the same. -/
theorem C99_bandit_partial (dbg : Bool) (hash : HashFn) (g : GlobalConfig) (c : RedConfig F) (w : Workspace F) (h : Workspace.new hash g c = .ok w)
    (hn : c.NoElementwise) (ex : Nat → Features F) (before : List (Call F)) (S : Session F) (hS : (Session.attempts dbg ⟨w, ex⟩ before).1 = S)
    (call : Call F) (f : CBAdfFeatures F) (hf : S.ex call.example_ = .cbAdf f) (hv : (S.ex call.example_).Valid) :
    (∀ j, j ≠ call.example_ → (S.attempt dbg call).1.ex j = S.ex j) ∧
    (∃ f', (S.attempt dbg call).1.ex call.example_ = .cbAdf f' ∧ ((Features.cbAdf f').SameAs (.cbAdf f) ∨ f'.MixOf f)) ∧
    (∀ o, (S.attempt dbg call).2 = .ok o → ((S.attempt dbg call).1.ex call.example_).SameAs (S.ex call.example_)) := by
  have hred : S.w.red = w.red := by rw [← hS]; exact attempts_red dbg before ⟨w, ex⟩
  have hnr := (built_of_new h).redNoElementwise hn
  obtain ⟨red0, st0⟩ := w
  obtain ⟨⟨red, st⟩, exs⟩ := S
  simp only at hred hf hv hnr
  subst hred
  have hg : CbGood f := by
    have := okEx_of_valid hv
    rw [hf] at this
    exact this
  have other : ∀ (w' : Workspace F) i ft j, j ≠ i → (Session.put ⟨⟨red, st⟩, exs⟩ w' i ft).ex j = exs j := by
    intro w' i ft j hj
    simp only [Session.put]
    rw [if_neg hj]
  have self : ∀ (w' : Workspace F) i ft, (Session.put ⟨⟨red, st⟩, exs⟩ w' i ft).ex i = ft := by
    intro w' i ft
    simp only [Session.put, if_true]
  have fin : ∀ {α σ : Type} (q : M α × (σ × Features F)) (w' : Workspace F) (i : Nat) (k : α → Option (Prediction F)), Outcome f q → exs i = .cbAdf f →
      (∃ f', (Session.put ⟨⟨red, st⟩, exs⟩ w' i q.2.2).ex i = .cbAdf f' ∧ ((Features.cbAdf f').SameAs (.cbAdf f) ∨ f'.MixOf f)) ∧
      (∀ o, q.1.map k = .ok o → ((Session.put ⟨⟨red, st⟩, exs⟩ w' i q.2.2).ex i).SameAs (exs i)) := by
    intro α σ q w' i k hq hi
    obtain ⟨f', h1, h2, h3⟩ := hq
    rw [self, h1, hi]
    refine ⟨⟨f', rfl, ?_⟩, fun o ho => ?_⟩
    · rcases h2 with h2 | h2
      · exact .inl (FtEqv.cb h2).sameAs
      · exact .inr h2.mixOf
    · cases hx : q.1 with
      | error e => rw [hx] at ho; simp [Except.map] at ho
      | ok a => exact (FtEqv.cb (h3 a hx)).sameAs
  have mapmap : ∀ {α β γ : Type} (m : M α) (a : α → β) (b : β → γ), (m.map a).map b = m.map (fun x => b (a x)) := by
    intro α β γ m a b
    cases m <;> rfl
  cases call with
  | predict i =>
    have hi : exs i = .cbAdf f := hf
    have ho : Outcome f (wrapCr dbg red.meta 0 0 (fun d => red.predictCr dbg st d) ((), exs i)) := by
      rw [hi]; exact Outcome.wrap hg (fun d => predict_outcome dbg red hnr f hg st d)
    refine ⟨fun j hj => other _ _ _ j hj, ?_⟩
    have := fin _ ⟨red, st⟩ i (fun x => some x.1) ho hi
    refine ⟨this.1, fun o hq => this.2 o ?_⟩
    rw [← hq]
    exact (mapmap _ _ _).symm
  | learn i l =>
    have hi : exs i = .cbAdf f := hf
    have ho : Outcome f (wrapCr dbg red.meta 0 0 (fun d => red.learnCr dbg l d) (st, exs i)) := by
      rw [hi]; exact Outcome.wrap hg (fun d => learn_outcome dbg red hnr f hg l st d)
    refine ⟨fun j hj => other _ _ _ j hj, ?_⟩
    have := fin _ ⟨red, (wrapCr dbg red.meta 0 0 (fun d => red.learnCr dbg l d) (st, exs i)).2.1⟩ i (fun x => none) ho hi
    refine ⟨this.1, fun o hq => this.2 o ?_⟩
    rw [← hq]
    exact (mapmap _ (fun _ => ()) (fun _ => none)).symm
  | predictThenLearn i l =>
    have hi : exs i = .cbAdf f := hf
    have ho : Outcome f (wrapCr dbg red.meta 0 0 (fun d => red.predictThenLearnCr dbg l d 0) (st, exs i)) := by
      rw [hi]; exact Outcome.wrap hg (fun d => predictThenLearn_outcome dbg red hnr f hg l st d 0)
    refine ⟨fun j hj => other _ _ _ j hj, ?_⟩
    have := fin _ ⟨red, (wrapCr dbg red.meta 0 0 (fun d => red.predictThenLearnCr dbg l d 0) (st, exs i)).2.1⟩ i (fun x => some x.1) ho hi
    refine ⟨this.1, fun o hq => this.2 o ?_⟩
    rw [← hq]
    exact (mapmap _ _ _).symm

section mtr
variable [LawfulCmp F]

/-- C99, sixth part: what a learn call that fails leaves of a model in mtr mode, in the release profile. In the regressor at most the range of the labels
has changed, and every prediction on every example is as before. (The counts that later importance weights come from may have changed:
`C99_mtr_false`.) -/
theorem C99_mtr_partial (hash : HashFn) (g : GlobalConfig) (c : RedConfig F) (w : Workspace F) (h : Workspace.new hash g c = .ok w)
    (hn : c.NoElementwise) (hm : c.cbMode = some .mtr) (ex : Nat → Features F) (before : List (Call F)) (S : Session F)
    (hS : (Session.attempts false ⟨w, ex⟩ before).1 = S) (i : Nat) (l : Label F) (f : CBAdfFeatures F) (hf : S.ex i = .cbAdf f) (hv : (S.ex i).Valid)
    (e : Panic) (he : (S.attempt false (.learn i l)).2 = .error e) :
    (∃ lo hi, (S.attempt false (.learn i l)).1.w.coin = { S.w.coin with minLabel := lo, maxLabel := hi }) ∧
    ∀ dbg ft, (S.attempt false (.learn i l)).1.w.predict dbg ft = S.w.predict dbg ft := by
  have hg := attempts_good false g.numBits before ⟨w, ex⟩ (new_good h)
  rw [hS] at hg
  have hb := built_of_new h
  obtain ⟨red0, st0⟩ := w
  obtain ⟨⟨red, st⟩, exs⟩ := S
  obtain ⟨hred, hg⟩ := hg
  simp only at hred hf hv
  subst hred
  have hgood : CbGood f := by
    have := okEx_of_valid hv
    rw [hf] at this
    exact this
  have hl := learn_left hb hn hm f hgood l st 0 (by decide) hg
  rw [← hf] at hl
  rcases hl with ⟨p, h1⟩ | ⟨e', s', ft, h1, h2⟩
  · exfalso
    have hw := wrap_release (r := red) (d := 0) (by decide) h1
    unfold Session.attempt Workspace.learnCr at he
    simp only [hw] at he
    cases he
  · have hw := wrap_failed (dbg := false) (r := red) (d := 0) (by decide) h1
    have ha : (Session.attempt false ⟨⟨red, st⟩, exs⟩ (.learn i l)).1.w = ⟨red, s'⟩ := by
      unfold Session.attempt Workspace.learnCr
      simp only [hw]
      rfl
    rw [ha]
    refine ⟨?_, fun dbg ft => ?_⟩
    · rcases h2.coin with q | ⟨v, q⟩
      · exact ⟨_, _, q⟩
      · exact ⟨_, _, q⟩
    · have := near_predict hb hn hm dbg s' st hg.range h2
      unfold Workspace.predict Red.predict
      simp only [this]

/-- C99, seventh part: what a learn call that fails leaves of a model in ips mode, in the release profile. It has learned the first `k` actions and
nothing else: up to the range of the labels, the regressor is that of a model that has learned the example with the other actions left out, a call that
succeeds. Without SquareCB every prediction on every example is that model's. (SquareCB counts the calls that succeed.) -/
theorem C99_ips_partial (hash : HashFn) (g : GlobalConfig) (c : RedConfig F) (w : Workspace F) (h : Workspace.new hash g c = .ok w)
    (hn : c.NoElementwise) (hm : c.cbMode = some .ips) (ex : Nat → Features F) (before : List (Call F)) (S : Session F)
    (hS : (Session.attempts false ⟨w, ex⟩ before).1 = S) (i : Nat) (l : CBLabel F) (f : CBAdfFeatures F) (hf : S.ex i = .cbAdf f) (hv : (S.ex i).Valid)
    (e : Panic) (he : (S.attempt false (.learn i (.cb l))).2 = .error e) :
    ∃ k < f.actions.length, ∃ wk fk, S.w.learn false (.cbAdf ⟨f.shared, f.actions.take k⟩) (.cb l) = .ok (wk, fk) ∧
      (∃ lo hi, (S.attempt false (.learn i (.cb l))).1.w.coin = { wk.coin with minLabel := lo, maxLabel := hi }) ∧
      (c.NoSquareCb → ∀ dbg ft, (S.attempt false (.learn i (.cb l))).1.w.predict dbg ft = wk.predict dbg ft) := by
  have hg := attempts_good false g.numBits before ⟨w, ex⟩ (new_good h)
  rw [hS] at hg
  have hb := built_of_new h
  obtain ⟨red0, st0⟩ := w
  obtain ⟨⟨red, st⟩, exs⟩ := S
  obtain ⟨hred, hg⟩ := hg
  simp only at hred hf hv
  subst hred
  have hgood : CbGood f := by
    have := okEx_of_valid hv
    rw [hf] at this
    exact this
  rcases learn_ips_left hb hn hm f hgood l st 0 (by decide) hg with ⟨p, h1⟩ | ⟨k, hk, sk, fk, h1, e', s', ft, h2, h3⟩
  · exfalso
    rw [← hf] at h1
    have hw := wrap_release (r := red) (d := 0) (by decide) h1
    unfold Session.attempt Workspace.learnCr at he
    simp only [hw] at he
    cases he
  · have hgk := learn_keeps g.numBits false red (.cb l) 0 (st, .cbAdf ⟨f.shared, f.actions.take k⟩) hg
    rw [h1] at hgk
    have hw1 := wrap_release (r := red) (d := 0) (by decide) h1
    rw [← hf] at h2
    have hw2 := wrap_failed (dbg := false) (r := red) (d := 0) (by decide) h2
    have ha : (Session.attempt false ⟨⟨red, st⟩, exs⟩ (.learn i (.cb l))).1.w = ⟨red, s'⟩ := by
      unfold Session.attempt Workspace.learnCr
      simp only [hw2]
      rfl
    have hcr : Workspace.learnCr false ⟨red, st⟩ (.cbAdf ⟨f.shared, f.actions.take k⟩) (.cb l) = (.ok (), ⟨red, sk⟩, fk) := by
      unfold Workspace.learnCr
      simp only [hw1]
      rfl
    refine ⟨k, hk, ⟨red, sk⟩, fk, ?_, ?_, ?_⟩
    · cases hl : Workspace.learn false ⟨red, st⟩ (.cbAdf ⟨f.shared, f.actions.take k⟩) (.cb l) with
      | error e =>
        have := learnCr_error false _ _ _ hl
        rw [hcr] at this
        cases this
      | ok q =>
        obtain ⟨w', ft'⟩ := q
        have := learnCr_ok false _ _ _ hl
        rw [hcr] at this
        simp only [Prod.mk.injEq, true_and] at this
        rw [this.1, this.2]
    · rw [ha]
      rcases h3.coin with q | ⟨v, q⟩
      · exact ⟨_, _, q⟩
      · exact ⟨_, _, q⟩
    · intro hq dbg ft
      rw [ha]
      have := near_predict hb hn hm dbg s' sk hgk.range (Red.NearSq.near hb hq h3)
      unfold Workspace.predict Red.predict
      simp only [this]

end mtr

/-! ### Failures that are not harmless

In single precision arithmetic, with the default options, 2 bits and the release profile. -/

section witnesses
@[reducible] local instance crashNumbers : Flt (BitVec 32) := ieeeFlt noTrans

/-- A hash function for examples. -/
def crashHash : HashFn := fun s _ => BitVec.ofNat 32 s.length
/-- A global configuration with few bits. -/
def crashGlobal (bits : Nat) : GlobalConfig := ⟨bits, 0#32, false, []⟩
/-- 1. -/
def crashOne : BitVec 32 := 0x3f800000#32
/-- 100. -/
def crashHundred : BitVec 32 := 0x42c80000#32
/-- Features with one feature. -/
def crashFeat (ns : Namespace) (i : U32) (v : BitVec 32) : SparseFeatures (BitVec 32) :=
  (SparseFeatures.new : SparseFeatures (BitVec 32)).modifyOrCreate ns (fun n => n.addFeature i v)

/-- A call fails, and something called later returns something else than without it. -/
def tells (c : RedConfig (BitVec 32)) (ex : Nat → Features (BitVec 32)) (before : List (Call (BitVec 32))) (call : Call (BitVec 32)) (later : List (Call (BitVec 32))) : Bool :=
  match Workspace.new crashHash (crashGlobal 2) c with
  | .ok w =>
    let S := (Session.attempts false ⟨w, ex⟩ before).1
    (match (S.attempt false call).2 with | .ok _ => false | .error _ => true) &&
      decide (((S.attempt false call).1.attempts false later).2 ≠ (S.attempts false later).2)
  | .error _ => false

theorem not_harmless_of_tells {c : RedConfig (BitVec 32)} {ex : Nat → Features (BitVec 32)} {before : List (Call (BitVec 32))} {call : Call (BitVec 32)} {later : List (Call (BitVec 32))}
    (h : tells c ex before call later = true) : ∃ w S, Workspace.new crashHash (crashGlobal 2) c = .ok w ∧ (Session.attempts false ⟨w, ex⟩ before).1 = S ∧
      (∃ e, (S.attempt false call).2 = .error e) ∧ ¬ Harmless false S call := by
  unfold tells at h
  cases hw : Workspace.new crashHash (crashGlobal 2) c with
  | error e => rw [hw] at h; simp at h
  | ok w =>
    rw [hw] at h
    simp only [Bool.and_eq_true, decide_eq_true_eq] at h
    refine ⟨w, _, rfl, rfl, ?_, fun hh => h.2 (hh later)⟩
    cases hx : ((Session.attempts false ⟨w, ex⟩ before).1.attempt false call).2 with
    | ok o => rw [hx] at h; simp at h
    | error e => exact ⟨e, rfl⟩

/-- Regression examples: feature 1 with value 1, feature 1 with value 100, and a feature outside the table (made with more bits). -/
def crashSimple : Nat → Features (BitVec 32)
  | 0 => .simple (crashFeat .default 1#32 crashOne)
  | 1 => .simple (crashFeat .default 1#32 crashHundred)
  | _ => .simple (crashFeat .default 7#32 crashOne)

/-- C99 is false for the labels of regression: a learn call that fails because the example was made with more bits still widens the range that
predictions are limited to, and a later prediction is 100 instead of 1. -/
theorem C99_range_false : ∃ w S call, Workspace.new crashHash (crashGlobal 2) (.coin CoinConfig.dflt) = .ok w ∧
    (Session.attempts false ⟨w, crashSimple⟩ [.learn 0 (.simple ⟨crashOne, crashOne⟩), .learn 0 (.simple ⟨crashOne, crashOne⟩)]).1 = S ∧
    (∃ e, (S.attempt false call).2 = .error e) ∧ ¬ Harmless false S call := by
  obtain ⟨w, S, h⟩ := not_harmless_of_tells (c := .coin CoinConfig.dflt) (ex := crashSimple)
    (before := [.learn 0 (.simple ⟨crashOne, crashOne⟩), .learn 0 (.simple ⟨crashOne, crashOne⟩)]) (call := .learn 2 (.simple ⟨crashHundred, crashOne⟩)) (later := [.predict 1])
    (by decide +kernel)
  exact ⟨w, S, _, h⟩

/-- Bandit examples with one action and with three actions. -/
def crashBandit : Nat → Features (BitVec 32)
  | 0 => .cbAdf ⟨some (crashFeat .default 0#32 crashOne), [crashFeat .default 1#32 crashOne]⟩
  | _ => .cbAdf ⟨some (crashFeat .default 0#32 crashOne), [crashFeat .default 1#32 crashOne, crashFeat .default 2#32 crashOne, crashFeat .default 3#32 crashOne]⟩

/-- C99 is false for the mtr mode: a learn call that fails because its label names an action that the example does not have still counts the example
and its actions, and what is learned afterwards has other weights. -/
theorem C99_mtr_false : ∃ w S call, Workspace.new crashHash (crashGlobal 2) (.cbAdf .mtr (.coin CoinConfig.dflt)) = .ok w ∧
    (Session.attempts false ⟨w, crashBandit⟩ []).1 = S ∧ (∃ e, (S.attempt false call).2 = .error e) ∧ ¬ Harmless false S call := by
  obtain ⟨w, S, h⟩ := not_harmless_of_tells (c := .cbAdf .mtr (.coin CoinConfig.dflt)) (ex := crashBandit) (before := []) (call := .learn 1 (.cb ⟨5, crashOne, crashOne⟩))
    (later := [.learn 0 (.cb ⟨0, crashOne, crashOne⟩), .learn 0 (.cb ⟨0, crashOne, crashOne⟩), .predict 0]) (by decide +kernel)
  exact ⟨w, S, _, h⟩

/-- An example with two namespaces. -/
def crashPair : Nat → Features (BitVec 32) := fun _ =>
  .simple ((crashFeat (.named 1#32) 1#32 crashOne).modifyOrCreate (.named 2#32) (fun n => n.addFeature 2#32 crashOne))

/-- C99 is false with ElementwiseInteraction: a learn call with the wrong kind of label takes both namespaces out of the example for good, and predicting
on it fails from then on. -/
theorem C99_elementwise_false : ∃ w S call, Workspace.new crashHash (crashGlobal 2) (.elementwise (.name ['a']) (.name ['b', 'c']) false (.coin CoinConfig.dflt)) = .ok w ∧
    (Session.attempts false ⟨w, crashPair⟩ []).1 = S ∧ (∃ e, (S.attempt false call).2 = .error e) ∧ ¬ Harmless false S call := by
  obtain ⟨w, S, h⟩ := not_harmless_of_tells (c := .elementwise (.name ['a']) (.name ['b', 'c']) false (.coin CoinConfig.dflt)) (ex := crashPair) (before := [])
    (call := .learn 0 (.cb ⟨0, crashOne, crashOne⟩)) (later := [.predict 0]) (by decide +kernel)
  exact ⟨w, S, _, h⟩

/-- The ips mode over Coin. -/
def crashIps : RedConfig (BitVec 32) := .cbAdf .ips (.coin CoinConfig.dflt)

open SparseFeatures in
theorem crashFeat_wf (i : U32) (v : BitVec 32) : (crashFeat .default i v).WF ∧ (crashFeat .default i v).NoComposite ∧ (crashFeat .default i v).NoEmpty := by
  refine ⟨⟨⟨by simp [crashFeat, modifyOrCreate, setNamespace, SparseFeatures.insert, SparseFeatures.new, Sorted], ?_, ?_⟩, ?_⟩, ?_, ?_⟩
  · simp [crashFeat, modifyOrCreate, setNamespace, SparseFeatures.insert, SparseFeatures.new, getOrCreate, lookup, NsFeats.addFeature, RVec.push, NsFeats.new,
      RVec.new]
  · simp [crashFeat, modifyOrCreate, setNamespace, SparseFeatures.insert, SparseFeatures.new, getOrCreate, lookup, NsFeats.addFeature, NsFeats.new]
  · intro ns
    by_cases h : Namespace.default = ns <;>
      simp [crashFeat, modifyOrCreate, setNamespace, SparseFeatures.insert, SparseFeatures.new, getOrCreate, lookup, NsFeats.addFeature, vw, h]
  · intro h; rfl
  · intro ns n hn
    by_cases h : Namespace.default = ns
    · simp [crashFeat, modifyOrCreate, setNamespace, SparseFeatures.insert, SparseFeatures.new, getOrCreate, lookup, NsFeats.addFeature, getNamespace, h] at hn
      subst hn
      simp [NsFeats.size, RVec.push]
    · simp [crashFeat, modifyOrCreate, setNamespace, SparseFeatures.insert, SparseFeatures.new, getOrCreate, lookup, NsFeats.addFeature, getNamespace, h] at hn

/-- The mtr mode over Coin. -/
def crashMtr : RedConfig (BitVec 32) := .cbAdf .mtr (.coin CoinConfig.dflt)

/-- Bandit examples made with 3 bits and with 2 bits. -/
def crashPart : Nat → Features (BitVec 32)
  | 0 => .cbAdf ⟨some (crashFeat .default 0#32 crashOne), [crashFeat .default 1#32 crashOne, crashFeat .default 7#32 crashOne]⟩
  | _ => .cbAdf ⟨some (crashFeat .default 0#32 crashOne), [crashFeat .default 1#32 crashOne, crashFeat .default 2#32 crashOne]⟩

/-- C99 is false for the ips mode: a learn call that fails at the second action has already learned the first, and a later prediction is another. -/
theorem C99_ips_false : ∃ w S call, Workspace.new crashHash (crashGlobal 2) crashIps = .ok w ∧
    (Session.attempts false ⟨w, crashPart⟩ []).1 = S ∧ (∃ e, (S.attempt false call).2 = .error e) ∧ ¬ Harmless false S call := by
  obtain ⟨w, S, h⟩ := not_harmless_of_tells (c := crashIps) (ex := crashPart) (before := []) (call := .learn 0 (.cb ⟨0, crashOne, crashOne⟩))
    (later := [.learn 1 (.cb ⟨0, crashOne, crashOne⟩), .predict 1]) (by decide +kernel)
  exact ⟨w, S, _, h⟩

/-- The hypotheses of C99 for the ips mode are met by a learn call that fails at the second action. -/
example : ∃ w S, Workspace.new crashHash (crashGlobal 2) crashIps = .ok w ∧ crashIps.NoElementwise ∧ crashIps.cbMode = some .ips ∧ crashIps.NoSquareCb ∧
    (Session.attempts false ⟨w, crashPart⟩ [.learn 1 (.cb ⟨0, crashOne, crashOne⟩)]).1 = S ∧ (crashPart 0).Valid ∧
    (S.attempt false (.learn 0 (.cb ⟨0, crashOne, crashOne⟩))).2 = .error .index := by
  refine ⟨_, _, rfl, trivial, rfl, trivial, rfl, ⟨?_, ?_⟩, by decide +kernel⟩
  · intro s hs
    simp at hs
    subst hs
    exact crashFeat_wf _ _
  · intro a ha
    simp at ha
    rcases ha with rfl | rfl <;> exact crashFeat_wf _ _

/-- The hypotheses of C99 for the mtr mode are met by a learn call that fails. -/
example : ∃ w S, Workspace.new crashHash (crashGlobal 2) crashMtr = .ok w ∧ crashMtr.NoElementwise ∧ crashMtr.cbMode = some .mtr ∧
    (Session.attempts false ⟨w, crashPart⟩ [.learn 1 (.cb ⟨0, crashOne, crashOne⟩)]).1 = S ∧ (crashPart 0).Valid ∧
    (S.attempt false (.learn 0 (.cb ⟨1, crashOne, crashOne⟩))).2 = .error .index := by
  refine ⟨_, _, rfl, trivial, rfl, rfl, ⟨?_, ?_⟩, by decide +kernel⟩
  · intro s hs
    simp at hs
    subst hs
    exact crashFeat_wf _ _
  · intro a ha
    simp at ha
    rcases ha with rfl | rfl <;> exact crashFeat_wf _ _

/-- A bandit example made with 3 bits. -/
def crashWide : Nat → Features (BitVec 32) := fun _ =>
  .cbAdf ⟨some (crashFeat .default 1#32 crashOne), [crashFeat .default 2#32 crashOne, crashFeat .default 7#32 crashOne]⟩

/-- A model with 3 bits predicts, a model with 2 bits fails on the same example, and the model with 3 bits predicts again. -/
def spoils : Bool :=
  match Workspace.new crashHash (crashGlobal 3) crashIps, Workspace.new crashHash (crashGlobal 2) crashIps with
  | .ok w, .ok small =>
    let S := (Session.attempts false ⟨w, crashWide⟩ [.learn 0 (.cb ⟨1, crashOne, crashOne⟩), .learn 0 (.cb ⟨1, crashOne, crashOne⟩)]).1
    (match (Session.attempt false ⟨small, S.ex⟩ (.predict 0)).2 with | .ok _ => false | .error _ => true) &&
      decide ((Session.attempt false ⟨S.w, (Session.attempt false ⟨small, S.ex⟩ (.predict 0)).1.ex⟩ (.predict 0)).2 ≠ (S.attempt false (.predict 0)).2)
  | _, _ => false

theorem spoils_true : spoils = true := by decide +kernel

/-- C99 is false for examples: predicting on a model with too few bits fails, and afterwards the model that the example was made for predicts something
else, because the shared features are still appended to an action. -/
theorem C99_features_false : ∃ w small, Workspace.new crashHash (crashGlobal 3) crashIps = .ok w ∧
    Workspace.new crashHash (crashGlobal 2) crashIps = .ok small ∧ ∃ S : Session (BitVec 32),
      (Session.attempts false ⟨w, crashWide⟩ [.learn 0 (.cb ⟨1, crashOne, crashOne⟩), .learn 0 (.cb ⟨1, crashOne, crashOne⟩)]).1 = S ∧
      (∃ e, (Session.attempt false ⟨small, S.ex⟩ (.predict 0)).2 = .error e) ∧
      (Session.attempt false ⟨S.w, (Session.attempt false ⟨small, S.ex⟩ (.predict 0)).1.ex⟩ (.predict 0)).2 ≠ (S.attempt false (.predict 0)).2 := by
  have h := spoils_true
  unfold spoils at h
  cases hw : Workspace.new crashHash (crashGlobal 3) crashIps with
  | error e => rw [hw] at h; simp at h
  | ok w =>
    rw [hw] at h
    cases hw2 : Workspace.new crashHash (crashGlobal 2) crashIps with
    | error e => rw [hw2] at h; simp at h
    | ok small =>
      rw [hw2] at h
      simp only [Bool.and_eq_true, decide_eq_true_eq] at h
      refine ⟨w, small, rfl, rfl, _, rfl, ?_, h.2⟩
      cases hx : (Session.attempt false ⟨small, (Session.attempts false ⟨w, crashWide⟩ [.learn 0 (.cb ⟨1, crashOne, crashOne⟩), .learn 0 (.cb ⟨1, crashOne, crashOne⟩)]).1.ex⟩ (.predict 0)).2 with
      | ok o => rw [hx] at h; simp at h
      | error e => exact ⟨e, rfl⟩

/-- The hypotheses of C99 for regression are met, also with a label inside the range: the call on the example with too many bits fails. -/
example : ∃ w S, Workspace.new crashHash (crashGlobal 2) (.coin CoinConfig.dflt : RedConfig (BitVec 32)) = .ok w ∧ (RedConfig.coin CoinConfig.dflt : RedConfig (BitVec 32)).Regression ∧
    (Session.attempts false ⟨w, crashSimple⟩ [.learn 2 (.simple ⟨crashHundred, crashOne⟩), .learn 0 (.simple ⟨crashOne, crashOne⟩)]).1 = S ∧
    (S.attempt false (.learn 2 (.simple ⟨crashOne, crashOne⟩))).2 = .error .index ∧
    ∀ v, Target (.simple ⟨crashOne, crashOne⟩) v → Flt.isNaN v = true ∨ (v = S.w.coin.minLabel ∨ Flt.lt S.w.coin.minLabel v = true) ∧
        (v = S.w.coin.maxLabel ∨ Flt.lt v S.w.coin.maxLabel = true) := by
  refine ⟨_, _, rfl, trivial, rfl, by decide +kernel, ?_⟩
  rintro v ⟨⟩
  exact .inr ⟨.inr (by decide +kernel), .inr (by decide +kernel)⟩

/-- The hypotheses of C99 for bandits are met by a call that fails. -/
example : ∃ w, Workspace.new crashHash (crashGlobal 2) crashIps = .ok w ∧ crashIps.NoElementwise ∧ (crashWide 0).Valid ∧
    (Session.attempt false ⟨w, crashWide⟩ (.predict 0)).2 = .error .index := by
  refine ⟨_, rfl, trivial, ⟨?_, ?_⟩, by decide +kernel⟩
  · intro s hs
    simp at hs
    subst hs
    exact crashFeat_wf _ _
  · intro a ha
    simp at ha
    rcases ha with rfl | rfl <;> exact crashFeat_wf _ _

end witnesses

section kindExamples
attribute [local instance] intFlt

/-- A bandit example and an example of another kind. -/
def tinyMixed : Nat → Features Int
  | 0 => tinyCb
  | _ => .simple (tinyFeat 1#32 1)

/-- The hypotheses of C99 about mistaken kinds and about usable models are met: a call with an example of another kind and a call with a label of another
kind fail, and the model goes on with well-formed calls. -/
example (dbg : Bool) : ∃ w S t, Workspace.new tinyHash tinyGlobal tinySquare = .ok w ∧ tinySquare.typeOf = some t ∧ tinySquare.NoElementwise ∧ tinySquare.NoUniform ∧
    (Session.attempts dbg ⟨w, tinyMixed⟩ [.predict 1]).1 = S ∧
    (Call.predict 1 : Call Int).WrongFeatures t tinyMixed ∧ (Call.learn 0 (.simple ⟨1, 1⟩) : Call Int).WrongLabel t ∧
    ∀ call ∈ [Call.predict 0], SafeCall dbg tinyGlobal.numBits tinySquare t S.ex call := by
  refine ⟨_, _, ⟨.cb, .sparseCBAdf, .actionProbs⟩, rfl, rfl, trivial, ⟨by decide, trivial⟩, rfl, (fun h => by cases h), (fun h => by cases h), ?_⟩
  intro call hcall
  simp only [List.mem_singleton] at hcall
  subst hcall
  exact ⟨tiny_safeExample dbg, fun _ => show tinyCb.actionList ≠ [] by simp [tinyCb, Features.actionList]⟩

end kindExamples

end Rml
