import Verif.Lemmas.Profile2
import Verif.Props.Python

/-! C106 for Python sessions: a debug and a release build of the package return the same. -/

set_option linter.unusedSectionVars false

namespace Rml
namespace Py
open Text Cli
variable {F : Type} [Flt F] {N : Type}

/-- The package built with the debug profile or the release profile. -/
def Env.built (e : Env F N) (dbg : Bool) : Env F N := { e with x := { e.x with dbg := dbg } }

/-- Equal, or a panic of the debug build. -/
def Pan {α : Type} (x y : ParseOut α) : Prop := x = y ∨ x = .panic

theorem vw_built (pr : Vw.Parser F) (pool : Pool (SparseFeatures F)) (c : Str) : Pan (Vw.parseOut (pr.profile true) pool c) (Vw.parseOut (pr.profile false) pool c) := by
  unfold Vw.parseOut
  rcases Vw.parseChunk_same pr pool c with e | ⟨e, he, e1⟩
  · rw [e]; exact .inl rfl
  · rw [e1]; exact .inr rfl

theorem js_built (pr : Js.Parser F N) (pool : Pool (SparseFeatures F)) (c : Str) : Pan (Js.parseOut (pr.profile true) pool c) (Js.parseOut (pr.profile false) pool c) := by
  unfold Js.parseOut
  rcases Js.parseChunk_agrees pr pool c with e | ⟨e, he, e1⟩
  · rw [e]; exact .inl rfl
  · rw [e1]; exact .inr rfl

theorem ds_built (pr : Js.Parser F N) (pool : Pool (SparseFeatures F)) (c : Str) : Pan (Ds.parseOut (pr.profile true) pool c) (Ds.parseOut (pr.profile false) pool c) := by
  unfold Ds.parseOut
  rcases Ds.parseChunk_agrees pr pool c with e | ⟨e, he, e1⟩
  · rw [e]; exact .inl rfl
  · rw [e1]; exact .inr rfl

theorem getParser_built (x : Externals F N) {fmt : DataFormat} {ft : FeaturesType} {lt : LabelType} {seed : U32} {nb : Nat} {p : TextParser F}
    (h : fmt.getParser { x with dbg := true } ft lt seed nb = .ok p) : ∃ p', fmt.getParser { x with dbg := false } ft lt seed nb = .ok p' ∧
      ∀ pool c, Pan (p.parse pool c) (p'.parse pool c) := by
  cases fmt with
  | vwText =>
    simp only [DataFormat.getParser, Except.ok.injEq] at h
    subst h
    exact ⟨_, rfl, vw_built (x.vw ft lt seed nb)⟩
  | dsjson =>
    simp only [DataFormat.getParser] at h ⊢
    split at h
    · cases h
    · split at h
      · cases h
      · simp only [Except.ok.injEq] at h
        subst h
        rw [if_neg (by assumption), if_neg (by assumption)]
        exact ⟨_, rfl, ds_built (x.js ft lt seed nb)⟩
  | json =>
    simp only [DataFormat.getParser, Except.ok.injEq] at h
    subst h
    exact ⟨_, rfl, js_built (x.js ft lt seed nb)⟩

theorem newParser_built (e : Env F N) {s : State F} {fmt : DataFormat} {ft : FeaturesType} {lt : LabelType} {seed : U32} {nb : Nat} {r}
    (h : newParser (e.built true) s fmt ft lt seed nb = .ok r) : newParser (e.built false) s fmt ft lt seed nb = .ok r := by
  obtain ⟨p, h1, h2⟩ := bind_ok.1 h
  obtain ⟨p', h3, -⟩ := getParser_built e.x h1
  exact bind_ok.2 ⟨p', h3, h2⟩

theorem step_built (e : Env F N) (lost : Nat) (s : State F) (c : Call F) {r} (h : step (e.built true) lost s c = .ok r) :
    step (e.built false) lost s c = .ok r := by
  cases c with
  | createParser w fmt =>
    simp only [step, createParser] at h ⊢
    split at h
    · exact newParser_built e h
    · exact h
  | newParser fmt ft lt seed nb => exact newParser_built e h
  | parse p text =>
    simp only [step, parse] at h ⊢
    split at h
    · obtain ⟨tp, h1, h2⟩ := bind_ok.1 h
      obtain ⟨tp', h3, h4⟩ := getParser_built e.x h1
      refine bind_ok.2 ⟨tp', h3, ?_⟩
      rcases h4 s.pool text with h5 | h5
      · rw [← h5]; exact h2
      · rw [h5] at h2; cases h2
    · exact h
  | predict w f =>
    simp only [step, predict] at h ⊢
    split at h
    · obtain ⟨q, h1, h2⟩ := bind_ok.1 h
      exact bind_ok.2 ⟨q, (ws_predict_agrees _ _).ok h1, h2⟩
    · exact h
  | learn w f l =>
    simp only [step, learn] at h ⊢
    split at h
    · obtain ⟨q, h1, h2⟩ := bind_ok.1 h
      exact bind_ok.2 ⟨q, (ws_learn_agrees _ _ _).ok h1, h2⟩
    · exact h
  | predictThenLearn w f l =>
    simp only [step, predictThenLearn] at h ⊢
    split at h
    · obtain ⟨q, h1, h2⟩ := bind_ok.1 h
      exact bind_ok.2 ⟨q, (ws_ptl_agrees _ _ _).ok h1, h2⟩
    · exact h
  | _ => exact h

/-- C106 for Python sessions: whatever a call of a session returns in a debug build of the package, the same call of the same session returns in a release
build. -/
theorem C106_python (e : Env F N) (cs : List (Call F × Nat)) (s : State F) (k : Nat) (r : Ret F)
    (h : (run (e.built true) s cs)[k]? = some (.ok r)) : (run (e.built false) s cs)[k]? = some (.ok r) := by
  induction cs generalizing s k with
  | nil => exact h
  | cons c cs ih =>
    obtain ⟨c, lost⟩ := c
    simp only [run] at h ⊢
    cases hc : step (e.built true) lost s c with
    | error p =>
      rw [hc] at h
      cases k <;> simp at h
    | ok q =>
      obtain ⟨r', s'⟩ := q
      rw [hc] at h
      rw [step_built e lost s c hc]
      cases k with
      | zero => exact h
      | succ k => exact ih s' k h

section examples
attribute [local instance] sintFlt

/-- The last call of the session of C75 predicts in the debug build. -/
example : ((run (exEnv.built true) (start []) (exSession ++ (.predict 0 2, 0) :: (exBetween ++ [(.predict 0 2, 0)]))).map exKind)[14]? = some 20 := by
  decide +kernel

end examples
end Py
end Rml
