import Verif.Lemmas.Python
import Verif.Props.Command
import Verif.Props.Serde

/-! C75 and C76: Python sessions. -/

namespace Rml
namespace Py
open Text Cli
variable {F : Type} [Flt F] {N : Type}

theorem session_aux {e : Env F N} : ∀ (cs : List (Call F × Nat)) (s : State F) (h : List (Obj F)), Sim s h → CleanCalls e h (cs.map Prod.fst) →
    DoesAll e h (cs.map Prod.fst) ((run e s cs).map Except.toOption)
  | [], _, _, _, _ => .done
  | (c, lost) :: cs, s, h, hs, hc => by
    have h1 := step_sim (e := e) lost hs c (fun i text fmt ft lt seed nb he hp => by
      subst he
      exact hc.1 [] i text (cs.map Prod.fst) rfl h fmt ft lt seed nb .here hp) (fun j he => hc.2 j (by simp [he]))
    simp only [run, List.map_cons]
    generalize hr : step e lost s c = a at h1 ⊢
    generalize hb : refStep e h c = b at h1
    cases h1 with
    | ok h2 =>
      refine .call (does_of_ref hb) (session_aux cs _ _ h2 ?_)
      refine ⟨?_, fun j hj => hc.2 j (by simp only [List.map_cons, List.mem_cons]; exact .inr hj)⟩
      intro before i text after he h' fmt ft lt seed nb hr' hp
      exact hc.1 (c :: before) i text after (by rw [List.map_cons, he]; rfl) h' fmt ft lt seed nb (.call (does_of_ref hb) hr') hp
    | panic =>
      refine .panic fun r h' hd => ?_
      rw [ref_of_does hd] at hb
      cases hb

omit [Flt F] in
theorem start_sim [Flt F] {models : List (Doc F)} (hm : ∀ d ∈ models, SavedModel d) : Sim (start models) (models.map .bytes) := by
  refine ⟨?_, poolOk_nil⟩
  simp only [start]
  induction models with
  | nil => exact .nil
  | cons d ds ih => exact .cons (.bytes (hm d (by simp))) (ih fun x hx => hm x (by simp [hx]))

/-- C75: every sequence of calls, with any number of workspaces, parsers and feature objects in use at the same time and features coming and going in any
order, returns what it returns on plain values that share nothing; errors and panics included. Missing from the full property: JSON examples with lists of
strings and contextual bandit examples with namespaces without features, for both of which it is false (`C75_json_false`, `C75_empty_false`); and loading
a JSON model that was edited by hand into a stack that no configuration describes (`C75_saved_json`: saved ones are fine). -/
theorem C75_session_partial (e : Env F N) (models : List (Doc F)) (hm : ∀ d ∈ models, SavedModel d) (cs : List (Call F × Nat))
    (hc : CleanCalls e (models.map .bytes) (cs.map Prod.fst)) :
    DoesAll e (models.map .bytes) (cs.map Prod.fst) ((run e (start models) cs).map Except.toOption) :=
  session_aux cs _ _ (start_sim hm) hc

theorem does_unique {e : Env F N} {h : List (Obj F)} {c : Call F} {r r' : Ret F} {h1 h2 : List (Obj F)} (a : Does e h c r h1) (b : Does e h c r' h2) :
    r = r' ∧ h1 = h2 := by
  have := (ref_of_does a).symm.trans (ref_of_does b)
  simpa using this

/-- C75: the calls on plain values leave no choice, so `C75_session_partial` determines the results of a session; in particular the number of objects
that failing calls have lost does not matter. -/
theorem C75_unique (e : Env F N) (h : List (Obj F)) (cs : List (Call F)) (rs rs' : List (Option (Ret F))) (a : DoesAll e h cs rs) (b : DoesAll e h cs rs') :
    rs = rs' := by
  induction a generalizing rs' with
  | done => cases b; rfl
  | call h1 _ ih =>
    cases b with
    | call h2 h3 =>
      obtain ⟨rfl, rfl⟩ := does_unique h1 h2
      rw [ih _ h3]
    | panic h2 => exact (h2 _ _ h1).elim
  | panic h1 =>
    cases b with
    | call h2 h3 => exact (h1 _ _ h2).elim
    | panic h2 => rfl

theorem ptl_red {dbg : Bool} {w w' : Workspace F} {ft ft' : Features F} {l : Label F} {p : Prediction F}
    (h : w.predictThenLearn dbg ft l = .ok (p, w', ft')) : w'.red = w.red := by
  unfold Workspace.predictThenLearn at h
  obtain ⟨⟨⟨p0, s0⟩, ft1, d1⟩, h1, h⟩ := bind_ok.1 h
  simp only [Except.ok.injEq, Prod.mk.injEq] at h
  rw [← h.2.1]

theorem run_red {dbg : Bool} : ∀ (cs : List (Rml.Call F)) {S S' : Session F} {os}, Session.run dbg S cs = .ok (S', os) → S'.w.red = S.w.red
  | [], S, S', os, h => by cases h; rfl
  | c :: cs, S, S', os, h => by
    obtain ⟨⟨S1, o⟩, h1, h⟩ := bind_ok.1 h
    obtain ⟨⟨S2, os2⟩, h2, h⟩ := bind_ok.1 h
    cases h
    rw [run_red cs h2]
    cases c with
    | predict i =>
      obtain ⟨⟨p, ft⟩, h3, h4⟩ := bind_ok.1 h1
      cases h4; rfl
    | learn i l =>
      obtain ⟨⟨w, ft⟩, h3, h4⟩ := bind_ok.1 h1
      cases h4; exact learn_red h3
    | predictThenLearn i l =>
      obtain ⟨⟨p, w, ft⟩, h3, h4⟩ := bind_ok.1 h1
      cases h4; exact ptl_red h3

/-- C75: the JSON model of a workspace, after any history of calls and with numbers that can all be written to JSON, is one of the documents that
`C75_session_partial` allows to be loaded. -/
theorem C75_saved_json [LawfulCmp F] [SignedZero F] (fin : F → Bool) (hf0 : fin Flt.zero = true)
    (order : List (Nat × List (List F)) → List (Nat × List (List F))) (horder : ∀ l, (order l).Perm l) (dbg : Bool) (hash : HashFn)
    (g : GlobalConfig) (c : RedConfig F) (w : Workspace F) (hw : Workspace.new hash g c = .ok w) (ex : Nat → Features F)
    (before : List (Rml.Call F)) (S : Session F) (os) (h : Session.run dbg ⟨w, ex⟩ before = .ok (S, os)) (hfin : Serde.FinRed fin S.w.red S.w.st) :
    ∃ j, Serde.serializeToJson fin order ⟨g, S.w⟩ = .ok j ∧ CleanJson fin j ∧ ∃ m, Serde.deserializeFromJson fin j = .ok m := by
  obtain ⟨j, m', h1, h2, h3, h4, -⟩ := C08_json_same_behaviour fin hf0 order horder dbg hash g c w hw ex before S os h hfin
  refine ⟨j, h1, ?_, m', h3⟩
  intro m hm
  have hdec : Serde.decModel (Serde.encModel fin ⟨g, S.w⟩) = some (Serde.Model.canon ⟨g, S.w⟩) := decModel_encModel hfin
  unfold Serde.deserializeFromJson at hm
  rw [h2] at hm
  change (match Serde.decModel (Serde.encModel fin ⟨g, S.w⟩) with
      | some m => Except.ok m
      | none => Except.error CreateError.invalid) = _ at hm
  rw [hdec] at hm
  cases hm
  exact ⟨hash, g, c, w, hw, run_red _ h⟩

/-- The texts of C52's counterexample: `1` has two strings in a namespace, everything else one. -/
def stringsExt (toF : N → F) (toU : N → Option Nat) : Externals F N :=
  ⟨fun s k => BitVec.ofNat 32 s.length + k, fun _ => none, fun s =>
      if s = ['1'] then some (.obj [("features".toList, Js.renderFeatures [("a".toList, .strings ["x".toList, "y".toList])])])
      else some (.obj [("features".toList, Js.renderFeatures [("a".toList, .strings ["x".toList])])]), toF, toU, toF, true⟩

/-- C75 is false for JSON lists of strings: a session parses an example, drops it, and then panics at another one, which plain values allow to parse. -/
theorem C75_json_false (fin : F → Bool) (toF : N → F) (toU : N → Option Nat) : ∃ (e : Env F N) (cs : List (Call F × Nat)) (rs : List (Option (Ret F))),
    DoesAll e [] (cs.map Prod.fst) rs ∧ (∀ r ∈ rs, r.isSome = true) ∧ none ∈ (run e (start []) cs).map Except.toOption := by
  refine ⟨⟨stringsExt toF toU, fin, id⟩, [(.newParser .json .sparseSimple .simple 0#32 4, 0), (.parse 0 ['1'], 0), (.del 1, 0), (.parse 0 ['2'], 0)],
    [some (.obj 0), some (.parsed 1 none), some .none, some (.parsed 2 none)], ?_, ?_, ?_⟩
  · refine .call (.newParser rfl) (.call (.parse rfl rfl rfl .none) (.call (.del rfl (by simp)) (.call (.parse rfl rfl rfl .none) .done)))
  · simp
  · have : (run (⟨stringsExt toF toU, fin, id⟩ : Env F N) (start [])
      [(.newParser .json .sparseSimple .simple 0#32 4, 0), (.parse 0 ['1'], 0), (.del 1, 0), (.parse 0 ['2'], 0)]).map Except.toOption =
        [some (.obj 0), some (.parsed 1 none), some .none, none] := rfl
    rw [this]
    simp

/-! ### C76 -/

theorem leaves_step {e : Env F N} {h h' : List (Obj F)} {c : Call F} {r : Ret F} {w f : Nat} {m : Serde.Model F} {ft : Features F} (hl : LeavesAlone w f c)
    (hw : h[w]? = some (.workspace m)) (hf : h[f]? = some (.features ft)) (hd : Does e h c r h') :
    h'[w]? = some (.workspace m) ∧ h'[f]? = some (.features ft) := by
  have happ : ∀ o : Obj F, (h ++ [o])[w]? = some (.workspace m) ∧ (h ++ [o])[f]? = some (.features ft) := fun o => by
    obtain ⟨i1, _⟩ := List.getElem?_eq_some_iff.1 hw
    obtain ⟨i2, _⟩ := List.getElem?_eq_some_iff.1 hf
    rw [List.getElem?_append_left i1, List.getElem?_append_left i2]
    exact ⟨hw, hf⟩
  cases hd with
  | fromConfig _ => exact happ _
  | fromModel _ _ => exact happ _
  | fromJsonModel _ => exact happ _
  | newParser _ => exact happ _
  | createParser _ _ => exact happ _
  | newSparse => exact happ _
  | newCbAdf => exact happ _
  | parse _ _ _ _ => exact happ _
  | serialize _ => exact happ _
  | @learn w' _ _ _ _ _ _ h1 _ _ =>
    refine ⟨by rw [List.getElem?_set_ne hl]; exact hw, ?_⟩
    rw [List.getElem?_set_ne (fun h => by subst h; rw [hf] at h1; cases h1)]
    exact hf
  | @predictThenLearn w' _ _ _ _ _ _ _ h1 _ _ _ =>
    refine ⟨by rw [List.getElem?_set_ne hl]; exact hw, ?_⟩
    rw [List.getElem?_set_ne (fun h => by subst h; rw [hf] at h1; cases h1)]
    exact hf
  | del _ _ => exact ⟨by rw [List.getElem?_set_ne hl.1]; exact hw, by rw [List.getElem?_set_ne hl.2]; exact hf⟩
  | _ => exact ⟨hw, hf⟩

theorem predict_inv {e : Env F N} {h h' : List (Obj F)} {w f : Nat} {p : Prediction F} (hd : Does e h (.predict w f) (.prediction p) h') :
    h' = h ∧ ∃ m ft ft', h[w]? = some (.workspace m) ∧ h[f]? = some (.features ft) ∧ m.ws.predict e.x.dbg ft = .ok (p, ft') ∧ ∀ b, p ≠ .binary b := by
  cases hd with
  | predict e1 e2 e3 e4 => exact ⟨rfl, _, _, _, e1, e2, e3, e4⟩

theorem again_aux {e : Env F N} {w f : Nat} {p : Prediction F} {m : Serde.Model F} {ft : Features F} : ∀ (cs : List (Call F)) (h : List (Obj F)) (rs : List (Option (Ret F))),
    (∀ c ∈ cs, LeavesAlone w f c) → h[w]? = some (.workspace m) → h[f]? = some (.features ft) → Does e h (.predict w f) (.prediction p) h →
    DoesAll e h (cs ++ [.predict w f]) rs → ∀ r, rs[cs.length]? = some r → r = some (.prediction p)
  | [], h, rs, _, _, _, hd, ha, r, hr => by
    cases ha with
    | call h1 h2 =>
      obtain ⟨rfl, rfl⟩ := does_unique hd h1
      simpa using hr.symm
    | panic h1 => exact (h1 _ _ hd).elim
  | c :: cs, h, rs, hl, hw, hf, hd, ha, r, hr => by
    cases ha with
    | call h1 h2 =>
      obtain ⟨a, b⟩ := leaves_step (hl c (by simp)) hw hf h1
      refine again_aux cs _ _ (fun x hx => hl x (by simp [hx])) a b ?_ h2 r (by simpa using hr)
      obtain ⟨_, m', ft1, ft', e1, e2, e3, e4⟩ := predict_inv hd
      rw [hw] at e1
      rw [hf] at e2
      cases e1
      cases e2
      exact .predict a b e3 e4
    | panic h1 => simp at hr

theorem again_prefix {e : Env F N} {w f : Nat} {p : Prediction F} (cs1 cs2 : List (Call F)) (hl : ∀ c ∈ cs2, LeavesAlone w f c) :
    ∀ (h : List (Obj F)) (rs : List (Option (Ret F))), DoesAll e h (cs1 ++ .predict w f :: (cs2 ++ [.predict w f])) rs →
      rs[cs1.length]? = some (some (.prediction p)) → ∀ r, rs[cs1.length + 1 + cs2.length]? = some r → r = some (.prediction p) := by
  induction cs1 with
  | nil =>
    intro h rs ha hp r hr
    simp only [List.nil_append, List.length_nil, Nat.zero_add] at ha hp hr
    generalize hq : Call.predict w f :: (cs2 ++ [.predict w f]) = q at ha
    cases ha with
    | done => cases hq
    | call h1 h2 =>
      injection hq with hq1 hq2
      subst hq1 hq2
      simp only [List.getElem?_cons_zero, Option.some.injEq] at hp
      subst hp
      rw [Nat.add_comm, List.getElem?_cons_succ] at hr
      obtain ⟨rfl, m', ft1, ft', e1, e2, e3, e4⟩ := predict_inv h1
      exact again_aux cs2 _ _ hl e1 e2 h1 h2 r hr
    | panic h1 => simp at hp
  | cons c cs1 ih =>
    intro h rs ha hp r hr
    rw [List.cons_append] at ha
    cases ha with
    | call h1 h2 =>
      refine ih _ _ h2 (by simpa using hp) r ?_
      rw [List.length_cons, show cs1.length + 1 + 1 + cs2.length = (cs1.length + 1 + cs2.length) + 1 by omega, List.getElem?_cons_succ] at hr
      exact hr
    | panic h1 => simp at hp

/-- C76: if a workspace has predicted for some features, it predicts the same for them again as long as it has not been trained in between, whatever other
calls were made: predictions, training of other workspaces, parsing, saving, loading, dropping of other objects. Missing from the full property: as in
`C75_session_partial`; `C76_empty_false` shows that namespaces without features cannot be allowed. -/
theorem C76_repeatable_partial (e : Env F N) (models : List (Doc F)) (hm : ∀ d ∈ models, SavedModel d) (cs1 cs2 : List (Call F × Nat)) (w f n1 n2 : Nat)
    (hl : ∀ c ∈ cs2, LeavesAlone w f c.1)
    (hc : CleanCalls e (models.map .bytes) (cs1.map Prod.fst ++ .predict w f :: (cs2.map Prod.fst ++ [.predict w f]))) (p : Prediction F)
    (results : List (Except Panic (Ret F))) (hr : results = run e (start models) (cs1 ++ (.predict w f, n1) :: (cs2 ++ [(.predict w f, n2)])))
    (h1 : results[cs1.length]? = some (.ok (.prediction p))) (r : Except Panic (Ret F)) (h2 : results[cs1.length + 1 + cs2.length]? = some r) :
    r = .ok (.prediction p) := by
  have h3 := C75_session_partial e models hm (cs1 ++ (.predict w f, n1) :: (cs2 ++ [(.predict w f, n2)])) (by simpa using hc)
  rw [← hr] at h3
  simp only [List.map_append, List.map_cons, List.map_nil] at h3
  have h4 := again_prefix (p := p) (cs1.map Prod.fst) (cs2.map Prod.fst) (fun c hc => by
    obtain ⟨x, hx, rfl⟩ := List.mem_map.1 hc
    exact hl x hx) _ _ h3 (by simp [h1, Except.toOption]) r.toOption (by simp [h2])
  cases r with
  | error q => cases h4
  | ok r =>
    simp only [Except.toOption, Option.some.injEq] at h4
    rw [h4]

section examples
attribute [local instance] sintFlt

local instance : DecidablePred Vw.SegmentHasFeature := fun s => by unfold Vw.SegmentHasFeature; infer_instance

def exEnv : Env SInt Int := ⟨exExt, fun _ => true, id⟩

def exDoc : Doc SInt := .obj [("globalConfig".toList, .obj [("numBits".toList, .num (.nat 2))]),
  ("entryReduction".toList, .obj [("typename".toList, .str "Coin".toList)])]

theorem exClean (fmt : DataFormat) (ft : FeaturesType) (lt : LabelType) (seed : U32) (nb : Nat) (text : Str)
    (h : text = "3 |a x".toList ∨ text = "3 |b y".toList) : CleanText exExt fmt ft lt seed nb text := by
  cases fmt with
  | dsjson => trivial
  | json => intro j hj; cases hj
  | vwText =>
    intro _ line hl
    unfold Vw.chunkLines at hl
    revert line
    by_cases hb : Vw.SpansLines (exExt.vw ft lt seed nb)
    · simp only [if_pos hb]
      rcases h with rfl | rfl <;> decide
    · simp only [if_neg hb]
      rcases h with rfl | rfl <;> decide

/-- The JSON model of the new workspace, as `serialize_to_json` gives it. -/
def exJson : Doc SInt :=
  match Cfg.newWorkspace exExt.hash exDoc with
  | .ok m =>
    match Serde.serializeToJson (fun _ => true) id m with
    | .ok d => d
    | .error _ => .null
  | .error _ => .null

theorem exJson_clean : CleanJson exEnv.fin exJson := by
  have h := eq_of_get (Cfg.newWorkspace exExt.hash exDoc) (by decide +kernel)
  generalize Option.get _ _ = m at h
  have h0 := h
  unfold Cfg.newWorkspace at h
  obtain ⟨cfg, _, h⟩ := cbind_ok.1 h
  obtain ⟨c, _, h⟩ := cbind_ok.1 h
  obtain ⟨w, hw, h⟩ := cbind_ok.1 h
  cases h
  have _ : LawfulCmp SInt := sint_cmp
  have _ : SignedZero SInt := sint_zero
  obtain ⟨j, h1, h2, -⟩ := C75_saved_json (fun _ => true) rfl id (fun _ => .refl _) true exExt.hash cfg.global c w hw (fun _ => .simple .new) [] ⟨w, _⟩ [] rfl
    (Serde.finRed_true _ _)
  have h3 : exJson = j := by
    unfold exJson
    rw [h0]
    simp only
    rw [h1]
  rw [h3]
  exact h2

/-- Three workspaces with the same configuration and a parser; the second workspace is the first one, saved and loaded, the third one its JSON model. -/
def exSession : List (Call SInt × Nat) :=
  [(.fromConfig exDoc, 0), (.createParser 0 .vwText, 0), (.parse 1 "3 |a x".toList, 0), (.serialize 0, 0), (.fromModel 3, 0), (.fromJsonModel exJson, 0), (.entryTypes 5, 0)]

/-- Training of the other workspace, dropping its example, and parsing another one with the recycled object. -/
def exBetween : List (Call SInt × Nat) :=
  [(.parse 1 "3 |b y".toList, 0), (.learn 4 6 (.simple ⟨.num 3, .num 1⟩), 0), (.predict 4 2, 0), (.del 6, 0), (.parse 1 "3 |a x".toList, 0), (.predict 5 7, 0)]

def exKind : Except Panic (Ret SInt) → Nat
  | .ok (.obj i) => i
  | .ok (.parsed i _) => 10 + i
  | .ok (.prediction _) => 20
  | .ok (.bytes i _) => 30 + i
  | .ok (.json _) => 40
  | .ok (.types _) => 90
  | .ok .none => 50
  | .ok .runtimeError => 60
  | .ok .typeError => 70
  | .error _ => 80

/-- A session in which everything succeeds meets the hypotheses of C75 and C76. -/
example : (∀ c ∈ exBetween, LeavesAlone 0 2 c.1) ∧
    CleanCalls exEnv (([] : List (Doc SInt)).map .bytes) (exSession.map Prod.fst ++ .predict 0 2 :: (exBetween.map Prod.fst ++ [.predict 0 2])) ∧
    (run exEnv (start []) (exSession ++ (.predict 0 2, 0) :: (exBetween ++ [(.predict 0 2, 0)]))).map exKind =
      [0, 1, 12, 33, 4, 5, 90, 20, 16, 50, 20, 50, 17, 20, 20] := by
  refine ⟨by simp [exBetween, LeavesAlone], ?_, by decide +kernel⟩
  refine ⟨?_, fun j hj => by simp [exSession, exBetween] at hj; rw [hj]; exact exJson_clean⟩
  intro before i text after he h' fmt ft lt seed nb _ _
  have hmem : Call.parse i text ∈ exSession.map Prod.fst ++ .predict 0 2 :: (exBetween.map Prod.fst ++ [.predict 0 2]) := by rw [he]; simp
  simp [exSession, exBetween] at hmem
  refine exClean fmt ft lt seed nb text ?_
  rcases hmem with h | h | h
  · exact .inl (by rw [h.2]; decide)
  · exact .inr (by rw [h.2]; decide)
  · exact .inl (by rw [h.2]; decide)

/-! ### Namespaces without features -/

/-- A release build. -/
def emptyEnv : Env SInt Int := ⟨{ exExt with dbg := false }, fun _ => true, id⟩

/-- A contextual bandit learner that interacts the namespace `a` with itself. -/
def emptyDoc : Doc SInt := .obj [("globalConfig".toList, .obj [("numBits".toList, .num (.nat 2))]),
  ("entryReduction".toList, .obj [("typename".toList, .str "CbAdf".toList), ("config".toList, .obj [("regressor".toList,
    .obj [("typename".toList, .str "ElementwiseInteraction".toList), ("config".toList, .obj [("keepOriginalFeatures".toList, .bool true),
      ("one".toList, .obj [("Name".toList, .str "a".toList)]), ("two".toList, .obj [("Name".toList, .str "a".toList)])])])])])]

/-- The namespace `a` is present in the shared features, but empty. -/
def emptyText : Str := "shared |a\n0:3:3 |a x\n|bb y".toList

/-- Two workspaces and the example. -/
def emptySession : List (Call SInt × Nat) :=
  [(.fromConfig emptyDoc, 0), (.fromConfig emptyDoc, 0), (.createParser 0 .vwText, 0), (.parse 2 emptyText, 0)]

/-- The other workspace learns from the example. -/
def emptyBetween : List (Call SInt × Nat) := [(.learn 1 3 (.cb ⟨0, .num 3, .num 3⟩), 0)]

def emptyAll : List (Call SInt × Nat) := emptySession ++ (.predict 0 3, 0) :: (emptyBetween ++ [(.predict 0 3, 0)])

/-- A prediction, a panic, or something else. -/
def shape : Except Panic (Ret SInt) → Nat
  | .ok (.prediction _) => 1
  | .error _ => 2
  | _ => 0

/-- The calls on plain values, one after the other, if none panics. -/
def refRun (e : Env F N) (h : List (Obj F)) : List (Call F) → Option (List (Option (Ret F)))
  | [] => some []
  | c :: cs =>
    match refStep e h c with
    | .ok (r, h') => (refRun e h' cs).map (some r :: ·)
    | .error _ => none

theorem refRun_all {e : Env F N} : ∀ (cs : List (Call F)) (h : List (Obj F)) (rs : List (Option (Ret F))), refRun e h cs = some rs →
    DoesAll e h cs rs ∧ ∀ r ∈ rs, r.isSome = true
  | [], _, _, hr => by
    simp only [refRun, Option.some.injEq] at hr
    subst hr
    exact ⟨.done, fun _ h => nomatch h⟩
  | c :: cs, h, rs, hr => by
    unfold refRun at hr
    split at hr
    · rename_i r h' h1
      obtain ⟨rs', h2, rfl⟩ := Option.map_eq_some_iff.1 hr
      obtain ⟨h3, h4⟩ := refRun_all cs h' rs' h2
      exact ⟨.call (does_of_ref h1) h3, by simpa using h4⟩
    · cases hr

/-- C75 is false for namespaces without features, in a release build: a session panics that plain values allow to end. -/
theorem C75_empty_false : ∃ (e : Env SInt Int) (cs : List (Call SInt × Nat)) (rs : List (Option (Ret SInt))), e.x.dbg = false ∧
    DoesAll e [] (cs.map Prod.fst) rs ∧ (∀ r ∈ rs, r.isSome = true) ∧ none ∈ (run e (start []) cs).map Except.toOption := by
  have h : (refRun emptyEnv [] (emptyAll.map Prod.fst)).isSome = true := by
    decide +kernel
  obtain ⟨h1, h2⟩ := refRun_all _ _ _ (Option.some_get h).symm
  refine ⟨emptyEnv, emptyAll, _, rfl, h1, h2, ?_⟩
  have h3 : (((run emptyEnv (start []) emptyAll).map Except.toOption).map
    Option.isSome).contains false = true := by decide +kernel
  simpa using h3

/-- C76 is false for namespaces without features, in a release build: a workspace predicts for an example, another workspace learns from the same example,
and then the first workspace panics when it predicts for it again. -/
theorem C76_empty_false : ∃ (e : Env SInt Int) (cs1 cs2 : List (Call SInt × Nat)) (w f : Nat) (p : Prediction SInt) (q : Panic),
    e.x.dbg = false ∧ (∀ c ∈ cs2, LeavesAlone w f c.1) ∧
    (run e (start []) (cs1 ++ (.predict w f, 0) :: (cs2 ++ [(.predict w f, 0)])))[cs1.length]? = some (.ok (.prediction p)) ∧
    (run e (start []) (cs1 ++ (.predict w f, 0) :: (cs2 ++ [(.predict w f, 0)])))[cs1.length + 1 + cs2.length]? = some (.error q) := by
  have h : (run emptyEnv (start []) (emptySession ++ (.predict 0 3, 0) :: (emptyBetween ++ [(.predict 0 3, 0)]))).map shape =
      [0, 0, 0, 0, 1, 0, 2] := by decide +kernel
  generalize hr : run emptyEnv (start []) (emptySession ++ (.predict 0 3, 0) :: (emptyBetween ++ [(.predict 0 3, 0)])) = rs at h
  have h4 : (rs.map shape)[4]? = some 1 := by rw [h]; rfl
  have h6 : (rs.map shape)[6]? = some 2 := by rw [h]; rfl
  rw [List.getElem?_map] at h4 h6
  obtain ⟨a, ha, ha'⟩ := Option.map_eq_some_iff.1 h4
  obtain ⟨b, hb, hb'⟩ := Option.map_eq_some_iff.1 h6
  have ⟨p, hp⟩ : ∃ p, a = .ok (.prediction p) := by
    unfold shape at ha'
    split at ha' <;> first | exact ⟨_, rfl⟩ | cases ha'
  have ⟨q, hq⟩ : ∃ q, b = .error q := by
    unfold shape at hb'
    split at hb' <;> first | exact ⟨_, rfl⟩ | cases hb'
  refine ⟨emptyEnv, emptySession, emptyBetween, 0, 3, p, q, rfl, by simp [emptyBetween, LeavesAlone], ?_, ?_⟩
  · rw [hr, ← hp]; exact ha
  · rw [hr, ← hq]; exact hb

/-- The bytes of a trained model. -/
example : ∃ m : Serde.Model SInt, Cfg.newWorkspace exExt.hash exDoc = .ok m ∧ SavedModel (Serde.serializeModel m) := by
  have h := eq_of_get (Cfg.newWorkspace exExt.hash exDoc) (by decide +kernel)
  exact ⟨_, h, _, _, config_from h, rfl⟩

end examples
end Py
end Rml
