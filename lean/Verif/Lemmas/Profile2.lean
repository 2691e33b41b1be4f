import Verif.Lemmas.Profile
import Verif.Lemmas.Command3

/-!
What `train` outputs in the debug profile, it outputs in the release profile too (C106).
-/

set_option linter.unusedSectionVars false

namespace Rml
open Text

theorem i32Pred_agrees (a : Int) : Agrees (i32Pred true a) (i32Pred false a) := by
  unfold i32Pred
  exact .ite (fun _ => .overflow) fun _ => .refl _

theorem u32AddNat_agrees (a b : Nat) : Agrees (u32AddNat true a b) (u32AddNat false a b) := by
  unfold u32AddNat
  exact .ite (fun _ => .refl _) fun _ => .overflow

variable {F : Type} [Flt F]

theorem getValue_agrees (m : Metric F) : Agrees (m.getValue true) (m.getValue false) := by
  cases m with
  | exampleNumber n => exact .ite (fun _ => .refl _) fun _ => (i32Pred_agrees _).bind fun _ => .refl _
  | _ => exact .refl _

theorem inc_agrees (m : TrainManager) : Agrees (m.inc true) (m.inc false) := by
  unfold TrainManager.inc
  refine .ite (fun _ => Agrees.bind ?_ fun _ => (u32AddNat_agrees _ _).bind fun _ => .refl _) fun _ => (u32AddNat_agrees _ _).bind fun _ => .refl _
  unfold OutputPeriod.nextAfter
  cases m.period with
  | additive q => exact u32AddNat_agrees _ _
  | multiplicative f => exact .refl _

theorem processFeatures_agrees (o : TrainOpts) (w : TrainWorld F) (ft : Features F) (l : Option (Label F)) :
    Agrees (processFeatures true o w ft l) (processFeatures false o w ft l) := by
  unfold processFeatures
  refine (Agrees.refl _).bind fun l => .ite (fun _ => ?_) fun _ => ?_
  · refine (ws_ptl_agrees _ _ _).bind fun r => (Agrees.refl _).bind fun ms => (inc_agrees _).bind fun o => ?_
    exact .ite (fun _ => ((Agrees.mapM _ getValue_agrees).bind fun _ => .refl _).bind fun _ => .refl _) fun _ => .refl _
  · exact (ws_learn_agrees _ _ _).bind fun _ => .refl _

theorem finish_agrees (a : Cli.TrainArgs) (g : GlobalConfig) (w : TrainWorld F) : Agrees (Cli.finish true a g w) (Cli.finish false a g w) := by
  unfold Cli.finish
  exact .ite (fun _ => .refl _) fun _ => ((Agrees.mapM _ getValue_agrees).bind fun _ => .refl _).bind fun _ => .refl _

theorem trainLoop_agrees {C : Type} (o : TrainOpts) {parse parse' : Pool (SparseFeatures F) → C → ParseOut ((Features F × Option (Label F)) × Pool (SparseFeatures F))}
    (h : ∀ pool c r, parse pool c = .ok r → parse' pool c = .ok r) (cs : List C) : ∀ (w : TrainWorld F) (pool : Pool (SparseFeatures F)) (w' : TrainWorld F),
    trainLoop true o parse cs w pool = (w', true) → trainLoop false o parse' cs w pool = (w', true) := by
  induction cs with
  | nil => intro w pool w' hw; exact hw
  | cons c cs ih =>
    intro w pool w' hw
    simp only [trainLoop] at hw ⊢
    cases hp : parse pool c with
    | err => rw [hp] at hw; cases hw
    | panic => rw [hp] at hw; cases hw
    | ok r =>
      obtain ⟨⟨ft, l⟩, pool'⟩ := r
      rw [hp] at hw
      rw [h _ _ _ hp]
      simp only at hw ⊢
      cases hq : processFeatures true o w ft l with
      | error e => rw [hq] at hw; cases hw
      | ok q =>
        rw [hq] at hw
        rw [(processFeatures_agrees o w ft l).ok hq]
        exact ih _ _ _ hw

theorem vw_parseOut (pr : Vw.Parser F) (pool : Pool (SparseFeatures F)) (c : Str) (r) (h : Vw.parseOut (pr.profile true) pool c = .ok r) :
    Vw.parseOut (pr.profile false) pool c = .ok r := by
  unfold Vw.parseOut at h ⊢
  rcases Vw.parseChunk_same pr pool c with e | ⟨e, he, e1⟩
  · rw [← e]; exact h
  · rw [e1] at h; cases h

theorem js_parseOut {N : Type} (pr : Js.Parser F N) (pool : Pool (SparseFeatures F)) (c : Str) (r) (h : Js.parseOut (pr.profile true) pool c = .ok r) :
    Js.parseOut (pr.profile false) pool c = .ok r := by
  unfold Js.parseOut at h ⊢
  rcases Js.parseChunk_agrees pr pool c with e | ⟨e, he, e1⟩
  · rw [← e]; exact h
  · rw [e1] at h; cases h

theorem ds_parseOut {N : Type} (pr : Js.Parser F N) (pool : Pool (SparseFeatures F)) (c : Str) (r) (h : Ds.parseOut (pr.profile true) pool c = .ok r) :
    Ds.parseOut (pr.profile false) pool c = .ok r := by
  unfold Ds.parseOut at h ⊢
  rcases Ds.parseChunk_agrees pr pool c with e | ⟨e, he, e1⟩
  · rw [← e]; exact h
  · rw [e1] at h; cases h

namespace Cli
variable {N : Type}

theorem parserFor_release (x : Externals F N) {fmt : DataFormat} {m : Serde.Model F} {p : TextParser F}
    (h : parserFor { x with dbg := true } fmt m = .ok p) : ∃ p', parserFor { x with dbg := false } fmt m = .ok p' ∧ p'.next = p.next ∧
      ∀ pool c r, p.parse pool c = .ok r → p'.parse pool c = .ok r := by
  unfold parserFor at h ⊢
  cases fmt with
  | vwText =>
    simp only [DataFormat.getParser, Except.ok.injEq] at h
    subst h
    exact ⟨_, rfl, rfl, vw_parseOut (x.vw _ _ _ _)⟩
  | dsjson =>
    simp only [DataFormat.getParser] at h ⊢
    split at h
    · cases h
    · split at h
      · cases h
      · simp only [Except.ok.injEq] at h
        subst h
        rw [if_neg (by assumption), if_neg (by assumption)]
        exact ⟨_, rfl, rfl, ds_parseOut (x.js _ _ _ _)⟩
  | json =>
    simp only [DataFormat.getParser, Except.ok.injEq] at h
    subst h
    exact ⟨_, rfl, rfl, js_parseOut (x.js _ _ _ _)⟩

variable [LawfulCmp F] [SignedZero F]

theorem train_release (x : Externals F N) (a : TrainArgs) (hq : a.threads = 0 ∨ 0 < a.queueSize) (fmt : DataFormat) (input : Input F)
    (hs : Saved { x with dbg := true } input) (data : Str) (hc : Clean { x with dbg := true } fmt data) (out : TrainOutput F)
    (h : Train { x with dbg := true } a fmt input data out) : Train { x with dbg := false } a fmt input data out := by
  obtain ⟨p, g, w0, w, h1, h2, h3⟩ := h
  obtain ⟨m, ms, e1, e2, e3, rfl, rfl⟩ := prepare_ok h1
  have ha := saved_alive hs e1
  obtain ⟨p', e2', en, hpp⟩ := parserFor_release x e2
  obtain ⟨P, hpo, hcs⟩ := parser_ok e2 hc
  have s1 := loopEnds_sequential hpo hcs (by exact ha.from_) h2 0
  rw [← trainLoop_eq hpo true a.opts 0 _ _ ⟨[]⟩ hcs ha.from_.pairsOk poolOk_nil] at s1
  have s2 := trainLoop_agrees a.opts hpp _ _ _ _ s1
  rw [← en] at s2
  have hp := prepare_of (x := { x with dbg := false }) (a := a) e1 e2' e3
  have hf := (finish_agrees a m.global w).ok h3
  by_cases h0 : a.threads = 0
  · exact .intro _ _ _ w hp (.single h0 s2) hf
  · have hn : 0 < a.threads := Nat.pos_of_ne_zero h0
    have hq := hq.resolve_left h0
    obtain ⟨P', hpo', hcs'⟩ := parser_ok e2' (show Clean { x with dbg := false } fmt data from hc)
    obtain ⟨s, hr, hl⟩ := run_completes hpo' false a.opts a.queueSize a.threads hn hq _ hcs' (a.start m.ws ms) (by exact ha.from_) (by rw [s2])
    have hlike := trainsLike (n := a.threads) hpo' false a.opts a.queueSize _ hcs' (a.start m.ws ms) (by exact ha.from_) ⟨[]⟩ ⟨[]⟩ .empty .empty s hr
    have := hlike.finished hl
    rw [s2] at this
    exact .intro _ _ _ w hp (.threads s h0 hr hl (Prod.mk.inj this).1.symm) hf

end Cli
end Rml
