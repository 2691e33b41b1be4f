import Verif.Lemmas.Profile2
import Verif.Props.Command
import Verif.Props.Stack

/-!
# C106: debug and release builds

Whatever a program built with the debug profile returns, the program built with the release profile returns too. The only difference between the two is
that the debug build also panics when an integer operation overflows or a debug assertion fails.
-/

set_option linter.unusedSectionVars false

namespace Rml
open Text
variable {F : Type} [Flt F] {N : Type}

/-- C106: for every workspace, all examples and all histories of calls, the two builds end in the same way, with the same model, the same predictions and
the same examples afterwards, or else the debug build stops with an overflow or a failed debug assertion. -/
theorem C106_session (S : Session F) (calls : List (Call F)) :
    S.run true calls = S.run false calls ∨ S.run true calls = .error .overflow ∨ S.run true calls = .error .assert := by
  rcases run_agrees calls S with h | ⟨e, rfl | rfl, h⟩
  · exact .inl h
  · exact .inr (.inl h)
  · exact .inr (.inr h)

/-- C106: what the debug build returns, the release build returns too. -/
theorem C106_release (S : Session F) (calls : List (Call F)) (r) (h : S.run true calls = .ok r) : S.run false calls = .ok r :=
  (run_agrees calls S).ok h

/-- C106 for the parsers: they find the same example and leave the same pool behind, or report the same error. -/
theorem C106_parse_text (pr : Vw.Parser F) (pool : Pool (SparseFeatures F)) (chunk : Str) :
    Vw.parseChunk { pr with dbg := true } pool chunk = Vw.parseChunk { pr with dbg := false } pool chunk ∨
      Vw.parseChunk { pr with dbg := true } pool chunk = .error (.panic .overflow) ∨
      Vw.parseChunk { pr with dbg := true } pool chunk = .error (.panic .assert) := by
  rcases Vw.parseChunk_same pr pool chunk with h | ⟨e, rfl | rfl, h⟩
  · exact .inl h
  · exact .inr (.inl h)
  · exact .inr (.inr h)

theorem C106_parse_json (pr : Js.Parser F N) (pool : Pool (SparseFeatures F)) (chunk : Str) :
    Js.parseChunk { pr with dbg := true } pool chunk = Js.parseChunk { pr with dbg := false } pool chunk ∨
      Js.parseChunk { pr with dbg := true } pool chunk = .error .overflow ∨ Js.parseChunk { pr with dbg := true } pool chunk = .error .assert := by
  rcases Js.parseChunk_agrees pr pool chunk with h | ⟨e, rfl | rfl, h⟩
  · exact .inl h
  · exact .inr (.inl h)
  · exact .inr (.inr h)

theorem C106_parse_dsjson (pr : Js.Parser F N) (pool : Pool (SparseFeatures F)) (chunk : Str) :
    Ds.parseChunk { pr with dbg := true } pool chunk = Ds.parseChunk { pr with dbg := false } pool chunk ∨
      Ds.parseChunk { pr with dbg := true } pool chunk = .error .overflow ∨ Ds.parseChunk { pr with dbg := true } pool chunk = .error .assert := by
  rcases Ds.parseChunk_agrees pr pool chunk with h | ⟨e, rfl | rfl, h⟩
  · exact .inl h
  · exact .inr (.inl h)
  · exact .inr (.inr h)

/-- C106 for `train`: what the debug build outputs, the release build outputs too, with the same options. (With parser threads: in every schedule, by
C70.) -/
theorem C106_train [LawfulCmp F] [SignedZero F] (x : Cli.Externals F N) (a : Cli.TrainArgs) (hq : a.threads = 0 ∨ 0 < a.queueSize) (fmt : Cli.DataFormat)
    (input : Cli.Input F) (hs : Cli.Saved { x with dbg := true } input) (data : Str) (hc : Cli.Clean { x with dbg := true } fmt data)
    (out : Cli.TrainOutput F) (h : Cli.Train { x with dbg := true } a fmt input data out) : Cli.Train { x with dbg := false } a fmt input data out :=
  Cli.train_release x a hq fmt input hs data hc out h

/-! ### Examples -/

section
attribute [local instance] intFlt

/-- The other direction is false: there is an example with an empty namespace for which the release build predicts and the debug build panics. -/
theorem C106_debug_panics : ∃ (S : Session Int) (calls : List (Call Int)) 
    (r : Session Int × List (Call Int × Option (Prediction Int))),
    S.run false calls = .ok r ∧ S.run true calls = .error .assert := by
  obtain ⟨w, _, ⟨p, ft, h, _⟩, h'⟩ := C26_empty_namespace_false
  refine ⟨⟨w, fun _ => tinyEmpty⟩, [.predict 0], (Session.put ⟨w, fun _ => tinyEmpty⟩ w 0 ft, [(.predict 0, some p)]), ?_, ?_⟩
  · simp only [Session.run, Session.step, h]; rfl
  · simp only [Session.run, Session.step, h']; rfl

/-- If the hash of a namespace is the largest 32-bit number, then the index of its second anonymous feature overflows. -/
theorem C106_overflow : ∃ pr : Vw.Parser Int, (∃ r, Vw.parseChunk { pr with dbg := false } ⟨[]⟩ "|x :1 :2".toList = .ok r) ∧
    Vw.parseChunk { pr with dbg := true } ⟨[]⟩ "|x :1 :2".toList = .error (.panic .overflow) := by
  refine ⟨⟨.sparseSimple, .simple, 0#32, 2, fun _ _ => 0xffffffff#32, fun _ => some 1, true⟩, ⟨_, rfl⟩, rfl⟩

end

section
attribute [local instance] sintFlt
attribute [local instance] sint_cmp sint_zero

/-- The hypotheses of `C106_train` are met: a configuration, a file with two examples, and the debug build succeeds. -/
example : ∃ out, Cli.Saved { Cli.exExt with dbg := true } Cli.exConfig ∧ Cli.Clean { Cli.exExt with dbg := true } .vwText Cli.exA ∧
    Cli.Train { Cli.exExt with dbg := true } Cli.exArgs .vwText Cli.exConfig Cli.exA out ∧ out.predictions.length = 2 := by
  have h3 : ((Cli.single Cli.exExt Cli.exArgs .vwText Cli.exConfig Cli.exA).map (·.predictions.length)) = some 2 := by decide +kernel
  obtain ⟨out, h4, h5⟩ := Option.map_eq_some_iff.1 h3
  exact ⟨out, .config _, Cli.exClean _, Cli.single_train rfl h4, h5⟩

end

end Rml
