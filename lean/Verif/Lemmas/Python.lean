import Verif.SpecPython
import Verif.Lemmas.PoolTrain
import Verif.Lemmas.Command2
import Verif.Props.Recycle

/-! Lemmas for C75 and C76: a Python session with the shared pool behaves like one with plain values. -/

set_option linter.unusedSectionVars false

namespace Rml
namespace Py
open Text Cli Serde SparseFeatures
variable {F : Type} [Flt F] {N : Type}

/-- `Does` as a function. -/
def refStep (e : Env F N) (h : List (Obj F)) : Call F → M (Ret F × List (Obj F))
  | .fromConfig j =>
    match Cfg.newWorkspace e.x.hash j with
    | .ok m => .ok (.obj h.length, h ++ [.workspace m])
    | .error (.panic p) => .error p
    | .error _ => .error .unwrap
  | .fromModel b =>
    match h[b]? with
    | some (.bytes d) => do let m ← Serde.createFromModel d; .ok (.obj h.length, h ++ [.workspace m])
    | _ => .ok (.typeError, h)
  | .fromJsonModel j =>
    match Serde.deserializeFromJson e.fin j with
    | .ok m => .ok (.obj h.length, h ++ [.workspace m])
    | .error (.panic p) => .error p
    | .error _ => .error .unwrap
  | .createParser w fmt =>
    match h[w]? with
    | some (.workspace m) => do
      let _ ← fmt.getParser e.x m.ws.red.meta.types.inFeatures m.ws.red.meta.types.inLabel m.global.hashSeed m.global.numBits
      .ok (.obj h.length, h ++ [.parser fmt m.ws.red.meta.types.inFeatures m.ws.red.meta.types.inLabel m.global.hashSeed m.global.numBits])
    | _ => .ok (.typeError, h)
  | .newParser fmt ft lt seed nb => do
    let _ ← fmt.getParser e.x ft lt seed nb
    .ok (.obj h.length, h ++ [.parser fmt ft lt seed nb])
  | .newSparse => .ok (.obj h.length, h ++ [.features (.simple .new)])
  | .newCbAdf => .ok (.obj h.length, h ++ [.features (.cbAdf ⟨none, []⟩)])
  | .parse p text =>
    match h[p]? with
    | some (.parser fmt ft lt seed nb) => do
      let tp ← fmt.getParser e.x ft lt seed nb
      match tp.parse ⟨[]⟩ text with
      | .ok ((fs, l), _) => do
        let l ← labelToPy l
        .ok (.parsed h.length l, h ++ [.features fs])
      | .err => .ok (.runtimeError, h)
      | .panic => .error .explicit
    | _ => .ok (.typeError, h)
  | .predict w f =>
    match h[w]?, h[f]? with
    | some (.workspace m), some (.features ft) => do
      let (p, _) ← m.ws.predict e.x.dbg ft
      let p ← predictionToPy p
      .ok (.prediction p, h)
    | _, _ => .ok (.typeError, h)
  | .learn w f l =>
    match h[w]?, h[f]? with
    | some (.workspace m), some (.features ft) => do
      let (ws, _) ← m.ws.learn e.x.dbg ft l.toLabel
      .ok (.none, h.set w (.workspace { m with ws := ws }))
    | _, _ => .ok (.typeError, h)
  | .predictThenLearn w f l =>
    match h[w]?, h[f]? with
    | some (.workspace m), some (.features ft) => do
      let (p, ws, _) ← m.ws.predictThenLearn e.x.dbg ft l.toLabel
      let p ← predictionToPy p
      .ok (.prediction p, h.set w (.workspace { m with ws := ws }))
    | _, _ => .ok (.typeError, h)
  | .serialize w =>
    match h[w]? with
    | some (.workspace m) => .ok (.bytes h.length (Serde.serializeModel m), h ++ [.bytes (Serde.serializeModel m)])
    | _ => .ok (.typeError, h)
  | .serializeToJson w =>
    match h[w]? with
    | some (.workspace m) => do let d ← Serde.serializeToJson e.fin e.order m; .ok (.json d, h)
    | _ => .ok (.typeError, h)
  | .entryTypes w =>
    match h[w]? with
    | some (.workspace m) => .ok (.types m.ws.red.meta.types, h)
    | _ => .ok (.typeError, h)
  | .del i =>
    match h[i]? with
    | some .gone => .ok (.typeError, h)
    | some _ => .ok (.none, h.set i .gone)
    | none => .ok (.typeError, h)

theorem asLabel_eq (l : PyLabel F) : asLabel l = l.toLabel := by cases l <;> rfl

theorem ofLabel_ok {l : Label F} {l' : PyLabel F} : PyLabel.ofLabel l = .ok l' ↔ l = asLabel l' := by
  cases l <;> cases l' <;> simp [PyLabel.ofLabel, asLabel]

theorem pred_ok {p q : Prediction F} : predictionToPy p = .ok q ↔ q = p ∧ ∀ b, p ≠ .binary b := by
  cases p <;> simp [predictionToPy, eq_comm]

theorem label_ok {l : Option (Label F)} {l' : Option (PyLabel F)} :
    labelToPy l = .ok l' ↔ HasLabel l l' := by
  cases l with
  | none =>
    constructor
    · intro h; cases h; exact .none
    · intro h; cases h; rfl
  | some l =>
    constructor
    · intro h
      obtain ⟨a, h1, h2⟩ := bind_ok.1 h
      cases h2
      rw [ofLabel_ok.1 h1]
      exact .some a
    · intro h
      cases h with
      | some a => exact bind_ok.2 ⟨a, ofLabel_ok.2 rfl, rfl⟩

theorem does_of_ref {e : Env F N} {h : List (Obj F)} {c : Call F} {r : Ret F} {h' : List (Obj F)} (hr : refStep e h c = .ok (r, h')) : Does e h c r h' := by
  cases c with
  | fromConfig j =>
    simp only [refStep] at hr
    split at hr
    · rename_i m hm; cases hr; exact .fromConfig hm
    · cases hr
    · cases hr
  | fromModel b =>
    simp only [refStep] at hr
    split at hr
    · rename_i d hd
      obtain ⟨m, h1, h2⟩ := bind_ok.1 hr
      cases h2
      exact .fromModel hd h1
    · rename_i hne; cases hr; exact .typeError fun d hd => hne d hd
  | fromJsonModel j =>
    simp only [refStep] at hr
    split at hr
    · rename_i m hm; cases hr; exact .fromJsonModel hm
    · cases hr
    · cases hr
  | createParser w fmt =>
    simp only [refStep] at hr
    split at hr
    · rename_i m hm
      obtain ⟨p, h1, h2⟩ := bind_ok.1 hr
      cases h2
      exact .createParser hm h1
    · rename_i hne; cases hr; exact .typeError fun d hd => hne d hd
  | newParser fmt ft lt seed nb =>
    obtain ⟨p, h1, h2⟩ := bind_ok.1 hr
    cases h2
    exact .newParser h1
  | newSparse => cases hr; exact .newSparse
  | newCbAdf => cases hr; exact .newCbAdf
  | parse p text =>
    simp only [refStep] at hr
    split at hr
    · rename_i fmt ft lt seed nb hp
      obtain ⟨tp, h1, h2⟩ := bind_ok.1 hr
      split at h2
      · rename_i fs l pool hparse
        obtain ⟨l', h3, h4⟩ := bind_ok.1 h2
        cases h4
        exact .parse hp h1 hparse (label_ok.1 h3)
      · rename_i hparse; cases h2; exact .parseError hp h1 hparse
      · cases h2
    · rename_i hne; cases hr; exact .typeError fun a b c d e he => hne a b c d e he
  | predict w f =>
    simp only [refStep] at hr
    split at hr
    · rename_i m ft hm hf
      obtain ⟨⟨p, ft'⟩, h1, h2⟩ := bind_ok.1 hr
      obtain ⟨q, h3, h4⟩ := bind_ok.1 h2
      cases h4
      obtain ⟨rfl, hb⟩ := pred_ok.1 h3
      exact .predict hm hf h1 hb
    · rename_i hne; cases hr
      refine .typeError ?_
      by_contra hx
      simp only [WrongKind, not_or, not_forall, not_not] at hx
      obtain ⟨⟨m, hm⟩, ft, hf⟩ := hx
      exact hne m ft hm hf
  | learn w f l =>
    simp only [refStep] at hr
    split at hr
    · rename_i m ft hm hf
      obtain ⟨⟨p, ft'⟩, h1, h2⟩ := bind_ok.1 hr
      cases h2
      exact .learn hm hf (by rw [asLabel_eq]; exact h1)
    · rename_i hne; cases hr
      refine .typeError ?_
      by_contra hx
      simp only [WrongKind, not_or, not_forall, not_not] at hx
      obtain ⟨⟨m, hm⟩, ft, hf⟩ := hx
      exact hne m ft hm hf
  | predictThenLearn w f l =>
    simp only [refStep] at hr
    split at hr
    · rename_i m ft hm hf
      obtain ⟨⟨p, ws, ft'⟩, h1, h2⟩ := bind_ok.1 hr
      obtain ⟨q, h3, h4⟩ := bind_ok.1 h2
      cases h4
      obtain ⟨rfl, hb⟩ := pred_ok.1 h3
      exact .predictThenLearn hm hf (by rw [asLabel_eq]; exact h1) hb
    · rename_i hne; cases hr
      refine .typeError ?_
      by_contra hx
      simp only [WrongKind, not_or, not_forall, not_not] at hx
      obtain ⟨⟨m, hm⟩, ft, hf⟩ := hx
      exact hne m ft hm hf
  | serialize w =>
    simp only [refStep] at hr
    split at hr
    · rename_i m hm; cases hr; exact .serialize hm
    · rename_i hne; cases hr; exact .typeError fun d hd => hne d hd
  | serializeToJson w =>
    simp only [refStep] at hr
    split at hr
    · rename_i m hm
      obtain ⟨d, h1, h2⟩ := bind_ok.1 hr
      cases h2
      exact .serializeToJson hm h1
    · rename_i hne; cases hr; exact .typeError fun d hd => hne d hd
  | entryTypes w =>
    simp only [refStep] at hr
    split at hr
    · rename_i m hm; cases hr; exact .entryTypes hm
    · rename_i hne; cases hr; exact .typeError fun d hd => hne d hd
  | del i =>
    simp only [refStep] at hr
    split at hr
    · rename_i hi; cases hr; exact .typeError (.inr hi)
    · rename_i o ho hi; cases hr
      exact .del hi ho
    · rename_i hi; cases hr; exact .typeError (.inl hi)

theorem ref_of_does {e : Env F N} {h : List (Obj F)} {c : Call F} {r : Ret F} {h' : List (Obj F)} (hd : Does e h c r h') : refStep e h c = .ok (r, h') := by
  cases hd with
  | fromConfig h1 => simp only [refStep, h1]
  | fromModel h1 h2 => simp only [refStep, h1, h2, ok_bind]
  | fromJsonModel h1 => simp only [refStep, h1]
  | newParser h1 => simp only [refStep, h1, ok_bind]
  | createParser h1 h2 => simp only [refStep, h1, h2, ok_bind]
  | newSparse => rfl
  | newCbAdf => rfl
  | parse h1 h2 h3 h4 =>
    simp only [refStep, h1, h2, h3, ok_bind, label_ok.2 h4]
  | parseError h1 h2 h3 => simp only [refStep, h1, h2, h3, ok_bind]
  | predict h1 h2 h3 h4 => simp only [refStep, h1, h2, h3, ok_bind, pred_ok.2 ⟨rfl, h4⟩]
  | learn h1 h2 h3 => rw [asLabel_eq] at h3; simp only [refStep, h1, h2, h3, ok_bind]
  | predictThenLearn h1 h2 h3 h4 => rw [asLabel_eq] at h3; simp only [refStep, h1, h2, h3, ok_bind, pred_ok.2 ⟨rfl, h4⟩]
  | serialize h1 => simp only [refStep, h1]
  | serializeToJson h1 h2 => simp only [refStep, h1, h2, ok_bind]
  | entryTypes h1 => simp only [refStep, h1]
  | @del i o h1 h2 => cases o <;> simp_all [refStep]
  | typeError hw =>
    cases c with
    | fromModel b =>
      simp only [refStep]
      split
      · rename_i d hd; exact absurd hd (hw d)
      · rfl
    | createParser w fmt =>
      simp only [refStep]
      split
      · rename_i d hd; exact absurd hd (hw d)
      · rfl
    | parse p text =>
      simp only [refStep]
      split
      · rename_i hd; exact absurd hd (hw _ _ _ _ _)
      · rfl
    | predict w f =>
      simp only [refStep]
      split
      · rename_i h1 h2; exact (hw.elim (fun h => h _ h1) (fun h => h _ h2)).elim
      · rfl
    | learn w f l =>
      simp only [refStep]
      split
      · rename_i h1 h2; exact (hw.elim (fun h => h _ h1) (fun h => h _ h2)).elim
      · rfl
    | predictThenLearn w f l =>
      simp only [refStep]
      split
      · rename_i h1 h2; exact (hw.elim (fun h => h _ h1) (fun h => h _ h2)).elim
      · rfl
    | serialize w =>
      simp only [refStep]
      split
      · rename_i d hd; exact absurd hd (hw d)
      · rfl
    | serializeToJson w =>
      simp only [refStep]
      split
      · rename_i d hd; exact absurd hd (hw d)
      · rfl
    | entryTypes w =>
      simp only [refStep]
      split
      · rename_i d hd; exact absurd hd (hw d)
      · rfl
    | del i =>
      simp only [refStep]
      rcases hw with hw | hw <;> rw [hw]
    | _ => exact hw.elim

theorem does_iff {e : Env F N} {h : List (Obj F)} {c : Call F} {r : Ret F} {h' : List (Obj F)} : Does e h c r h' ↔ refStep e h c = .ok (r, h') :=
  ⟨ref_of_does, does_of_ref⟩

/-! ### The simulation -/

/-- An object of the session and the corresponding plain value. -/
inductive ObjRel : Obj F → Obj F → Prop
  | workspace {m} : m.ws.FromConfig → ObjRel (.workspace m) (.workspace m)
  | parser (fmt ft lt seed nb) : ObjRel (.parser fmt ft lt seed nb) (.parser fmt ft lt seed nb)
  | features {ft gt} : OkEx ft → FtEqv ft gt → ObjRel (.features ft) (.features gt)
  | bytes {d} : SavedModel d → ObjRel (.bytes d) (.bytes d)
  | gone : ObjRel .gone .gone

structure Sim (s : State F) (h : List (Obj F)) : Prop where
  heap : List.Forall₂ ObjRel s.heap h
  pool : PoolOk s.pool

/-- Two results of a call. -/
inductive StepSim : M (Ret F × State F) → M (Ret F × List (Obj F)) → Prop
  | ok {r s h} : Sim s h → StepSim (.ok (r, s)) (.ok (r, h))
  | panic {p} : StepSim (.error p) (.error p)

inductive GetRel : Option (Obj F) → Option (Obj F) → Prop
  | none : GetRel none none
  | some {a b} : ObjRel a b → GetRel (some a) (some b)

theorem Sim.get {s : State F} {h : List (Obj F)} (hs : Sim s h) (i : Nat) : GetRel s.heap[i]? h[i]? := by
  have := hs.heap
  generalize s.heap = a at this
  clear hs
  induction this generalizing i with
  | nil => exact .none
  | cons h1 _ ih =>
    cases i with
    | zero => exact .some h1
    | succ i => simpa using ih i

theorem Sim.length {s : State F} {h : List (Obj F)} (hs : Sim s h) : s.heap.length = h.length := hs.heap.length_eq

theorem Sim.add {s : State F} {h : List (Obj F)} (hs : Sim s h) {a b : Obj F} (hab : ObjRel a b) : Sim (s.add a).2 (h ++ [b]) :=
  ⟨List.rel_append hs.heap (.cons hab .nil), hs.pool⟩

theorem forall₂_set {α β : Type} {R : α → β → Prop} {l : List α} {l' : List β} (h : List.Forall₂ R l l') {a : α} {b : β} (hab : R a b) (i : Nat) :
    List.Forall₂ R (l.set i a) (l'.set i b) := by
  induction h generalizing i with
  | nil => exact .nil
  | cons h1 h2 ih =>
    cases i with
    | zero => exact .cons hab h2
    | succ i => exact .cons h1 (ih i)

theorem Sim.put {s : State F} {h : List (Obj F)} (hs : Sim s h) {a b : Obj F} (hab : ObjRel a b) (i : Nat) : Sim (s.put i a) (h.set i b) :=
  ⟨forall₂_set hs.heap hab i, hs.pool⟩

/-- Replacing an object by one that corresponds to the same value. -/
theorem Sim.same {s : State F} {h : List (Obj F)} (hs : Sim s h) {a b : Obj F} {i : Nat} (hb : h[i]? = some b) (hab : ObjRel a b) : Sim (s.put i a) h := by
  have := hs.put hab i
  obtain ⟨hi, hb⟩ := List.getElem?_eq_some_iff.1 hb
  subst hb
  rwa [List.set_getElem_self] at this

theorem saved_load {d : Doc F} (h : SavedModel d) : ∃ m, Serde.createFromModel d = .ok m ∧ m.ws.FromConfig := by
  obtain ⟨g, w, hw, rfl⟩ := h
  have hdec : Serde.decModel (Serde.encModel (fun _ => true) (⟨g, w⟩ : Serde.Model F)) = some (Serde.Model.canon ⟨g, w⟩) :=
    decModel_encModel (finRed_true _ _)
  refine ⟨Serde.Model.canon ⟨g, w⟩, ?_, ?_⟩
  · simp only [Serde.createFromModel, Serde.serializeModel]
    rw [hdec]
    rfl
  · obtain ⟨hash, g0, c, w0, e1, e2⟩ := hw
    exact ⟨hash, g0, c, w0, e1, e2⟩

theorem config_from {hash : HashFn} {j : Doc F} {m : Serde.Model F} (hn : Cfg.newWorkspace hash j = .ok m) : m.ws.FromConfig := by
  unfold Cfg.newWorkspace at hn
  obtain ⟨cfg, _, hn⟩ := cbind_ok.1 hn
  obtain ⟨c, _, hn⟩ := cbind_ok.1 hn
  obtain ⟨w, hw, hn⟩ := cbind_ok.1 hn
  simp only [Except.ok.injEq] at hn
  subst hn
  exact ⟨hash, _, c, w, hw, rfl⟩

theorem made_okEx {e : Prop} {ft : Features F} (h : FtMade e ft) (he : (∃ f, ft = .cbAdf f) → e) : OkEx ft := by
  apply okEx_of_valid
  cases ft with
  | simple f => exact ⟨h.wf, h.noComposite⟩
  | cbAdf f =>
    have he := he ⟨f, rfl⟩
    exact ⟨fun s hs => ⟨(h.1 s hs).wf, (h.1 s hs).noComposite, (h.1 s hs).noEmpty he⟩, fun a ha => ⟨(h.2 a ha).wf, (h.2 a ha).noComposite, (h.2 a ha).noEmpty he⟩⟩

theorem vw_simple (pr : Vw.Parser F) (h : pr.isMultiline = false) (pool : Pool (SparseFeatures F)) (chunk : Text.Str) :
    OkE (fun x : (Features F × Option (Label F)) × Pool (SparseFeatures F) => ∃ f, x.1.1 = .simple f) (Vw.parseChunk pr pool chunk) := by
  unfold Vw.parseChunk
  rw [if_neg (by simp [h])]
  refine (OkE.triv _).bind fun a _ => ?_
  obtain ⟨r, d⟩ := a
  refine OkE.bind (Q := fun x : Features F × Option (Label F) => ∃ f, x.1 = .simple f) ?_ fun r hr => OkE.ok hr
  unfold Vw.finalizeSingleline
  split
  · exact OkE.ok ⟨_, rfl⟩
  · exact OkE.error _
  · exact OkE.ok ⟨_, rfl⟩

theorem js_simple (pr : Js.Parser F N) (h : pr.featuresType = .sparseSimple) (pool : Pool (SparseFeatures F)) (chunk : Text.Str) :
    OkE (fun x : (Features F × Option (Label F)) × Pool (SparseFeatures F) => ∃ f, x.1.1 = .simple f) (Js.parseChunk pr pool chunk) := by
  unfold Js.parseChunk
  refine (OkE.triv _).bind fun j _ => ?_
  refine OkE.bind (Q := fun x : Features F × Pool (SparseFeatures F) => ∃ f, x.1 = .simple f) ?_ fun r hr => ?_
  · unfold Js.parseFeatures
    rw [h]
    simp only
    split
    · exact OkE.error _
    · exact (OkE.triv _).bind fun f _ => OkE.ok ⟨_, rfl⟩
  · obtain ⟨f, p⟩ := r
    exact (OkE.triv _).bind fun l _ => OkE.ok hr

theorem clean_okEx {x : Externals F N} {fmt : DataFormat} {ft : FeaturesType} {lt : LabelType} {seed : U32} {nb : Nat} {text : Str} {p : TextParser F}
    (hp : fmt.getParser x ft lt seed nb = .ok p) (hc : CleanText x fmt ft lt seed nb text) {pool : Pool (SparseFeatures F)} (hpool : PoolOk pool)
    {r : (Features F × Option (Label F)) × Pool (SparseFeatures F)} (hr : p.parse pool text = .ok r) : OkEx r.1.1 := by
  cases fmt with
  | vwText =>
    simp only [DataFormat.getParser, Except.ok.injEq] at hp
    subst hp
    simp only [Vw.parseOut] at hr
    have h2 := Vw.parseChunk_made (e := Vw.ChunkFull (x.vw ft lt seed nb) text) (x.vw ft lt seed nb) hpool text id
    have h3 := vw_simple (x.vw ft lt seed nb) (pool := pool) (chunk := text)
    generalize Vw.parseChunk (x.vw ft lt seed nb) pool text = a at hr h2 h3
    cases a with
    | error e => cases e <;> cases hr
    | ok a =>
      simp only [ParseOut.ok.injEq] at hr
      subst hr
      refine made_okEx (h2 _ rfl).1 fun ⟨f, hf⟩ => ?_
      cases hm : (x.vw ft lt seed nb).isMultiline with
      | true =>
        simp only [Vw.Parser.isMultiline, Externals.vw, Bool.and_eq_true] at hm
        exact hc ⟨of_decide_eq_true hm.1, of_decide_eq_true hm.2⟩
      | false =>
        obtain ⟨g, hg⟩ := h3 hm _ rfl
        rw [hf] at hg
        cases hg
  | dsjson =>
    simp only [DataFormat.getParser] at hp
    split at hp
    · cases hp
    · split at hp
      · cases hp
      · simp only [Except.ok.injEq] at hp
        subst hp
        simp only [Ds.parseOut] at hr
        have h2 := Ds.parseChunk_made (x.js ft lt seed nb) hpool text
        generalize Ds.parseChunk (x.js ft lt seed nb) pool text = a at hr h2
        cases a with
        | error e => cases hr
        | ok a =>
          simp only [ParseOut.ok.injEq] at hr
          subst hr
          exact made_okEx (h2 _ rfl).1 fun _ => trivial
  | json =>
    simp only [DataFormat.getParser, Except.ok.injEq] at hp
    subst hp
    simp only [Js.parseOut] at hr
    have h2 := Js.parseChunk_made (e := ∀ j, (x.js ft lt seed nb).parseJson text = some j → Js.DocFull j) (x.js ft lt seed nb) hpool text id
    have h3 := js_simple (x.js ft lt seed nb) (pool := pool) (chunk := text)
    generalize Js.parseChunk (x.js ft lt seed nb) pool text = a at hr h2 h3
    cases a with
    | error e => cases hr
    | ok a =>
      simp only [ParseOut.ok.injEq] at hr
      subst hr
      refine made_okEx (h2 _ rfl).1 fun ⟨f, hf⟩ j hj => ?_
      cases ft with
      | sparseCBAdf => exact (hc j hj).2 rfl
      | sparseSimple =>
        obtain ⟨g, hg⟩ := h3 rfl _ rfl
        rw [hf] at hg
        cases hg

theorem clean_parser {x : Externals F N} {fmt : DataFormat} {ft : FeaturesType} {lt : LabelType} {seed : U32} {nb : Nat} {text : Str} {p : TextParser F}
    (hp : fmt.getParser x ft lt seed nb = .ok p) (hc : CleanText x fmt ft lt seed nb text) {pool : Pool (SparseFeatures F)} (hpool : PoolOk pool) :
    OutRel ParsedRel (p.parse pool text) (p.parse ⟨[]⟩ text) := by
  cases fmt with
  | vwText =>
    simp only [DataFormat.getParser, Except.ok.injEq] at hp
    subst hp
    exact vw_ok _ pool hpool text trivial
  | dsjson =>
    simp only [DataFormat.getParser] at hp
    split at hp
    · cases hp
    · split at hp
      · cases hp
      · simp only [Except.ok.injEq] at hp
        subst hp
        exact ds_ok _ pool hpool text trivial
  | json =>
    simp only [DataFormat.getParser, Except.ok.injEq] at hp
    subst hp
    exact js_ok _ pool hpool text fun j hj => (hc j hj).1

theorem drop_ok {p : Pool (SparseFeatures F)} (h : PoolOk p) (n : Nat) : PoolOk (⟨p.objects.drop n⟩ : Pool (SparseFeatures F)) :=
  fun f hf => h f (List.mem_of_mem_drop hf)

theorem ptl_eq {w : Workspace F} (hp : w.red.PairsOk) {ft gt : Features F} (he : FtEqv ft gt) (dbg : Bool) (l : Label F) {e : Panic}
    (h : w.predictThenLearn dbg ft l = .error e) : w.predictThenLearn dbg gt l = .error e := by
  have h1 := ((ptlImpl_nice dbg w.red hp w.st l 0).wrap dbg w.red.meta 0).congr (d := 0) he
  unfold Workspace.predictThenLearn Red.predictThenLearn at h ⊢
  generalize wrapCall dbg w.red.meta ft 0 0 _ = a at h h1
  generalize wrapCall dbg w.red.meta gt 0 0 _ = b at h1 ⊢
  cases a with
  | ok a => cases h
  | error p =>
    cases b with
    | ok b => exact h1.elim
    | error q => cases h; exact congrArg Except.error (Eq.symm h1)

theorem okEx_simple {f : SparseFeatures F} (h : f.Inv0 ∧ ∀ ns, f.vw ns = ([], [], false)) : OkEx (.simple f) := ⟨h.1, fun ns _ => h.2 ns⟩

theorem step_sim {e : Env F N} (lost : Nat) {s : State F} {h : List (Obj F)} (hs : Sim s h) (c : Call F)
    (hc : ∀ i text fmt ft lt seed nb, c = .parse i text → h[i]? = some (.parser fmt ft lt seed nb) → CleanText e.x fmt ft lt seed nb text)
    (hj : ∀ j, c = .fromJsonModel j → CleanJson e.fin j) :
    StepSim (step e lost s c) (refStep e h c) := by
  cases c with
  | fromConfig j =>
    simp only [step, fromConfig, refStep]
    cases hn : Cfg.newWorkspace e.x.hash j with
    | ok m =>
      simp only [State.add, hs.length]
      exact .ok (hs.add (.workspace (config_from hn)))
    | error er => cases er <;> exact .panic
  | fromModel b =>
    simp only [step, fromModel, refStep]
    have hg := hs.get b
    generalize s.heap[b]? = x at hg ⊢
    generalize h[b]? = y at hg ⊢
    cases hg with
    | none => exact .ok hs
    | some ho =>
      cases ho with
      | bytes hd =>
        obtain ⟨m, h1, h2⟩ := saved_load hd
        simp only [h1, ok_bind, State.add, hs.length]
        exact .ok (hs.add (.workspace h2))
      | _ => exact .ok hs
  | fromJsonModel j =>
    simp only [step, fromJsonModel, refStep]
    cases hn : Serde.deserializeFromJson e.fin j with
    | ok m =>
      simp only [State.add, hs.length]
      exact .ok (hs.add (.workspace (hj j rfl m hn)))
    | error er => cases er <;> exact .panic
  | createParser w fmt =>
    simp only [step, createParser, refStep]
    have hg := hs.get w
    generalize s.heap[w]? = x at hg ⊢
    generalize h[w]? = y at hg ⊢
    cases hg with
    | none => exact .ok hs
    | some ho =>
      cases ho with
      | workspace hm =>
        simp only [newParser]
        cases DataFormat.getParser e.x fmt _ _ _ _ with
        | error p => exact .panic
        | ok p =>
          simp only [ok_bind, State.add, hs.length]
          exact .ok (hs.add (.parser ..))
      | _ => exact .ok hs
  | newParser fmt ft lt seed nb =>
    simp only [step, newParser, refStep]
    cases DataFormat.getParser e.x fmt _ _ _ _ with
    | error p => exact .panic
    | ok p =>
      simp only [ok_bind, State.add, hs.length]
      exact .ok (hs.add (.parser ..))
  | newSparse =>
    simp only [step, newSparse, refStep, State.add, hs.length]
    have h1 := pool_one hs.pool
    have h2 : Sim { s with pool := (s.pool.getObject SparseFeatures.new).2 } h := ⟨hs.heap, h1.2⟩
    refine .ok (h2.add (.features (okEx_simple h1.1) (FtEqv.simple ⟨h1.1.1, new_inv0, fun ns => ?_⟩)))
    rw [h1.1.2]
    rfl
  | newCbAdf =>
    simp only [step, newCbAdf, refStep, State.add, hs.length]
    have h1 : OkEx (.cbAdf ⟨none, []⟩ : Features F) := CbGood.mk (fun _ h => nomatch h) (fun _ h => nomatch h)
    exact .ok (hs.add (.features h1 h1.refl))
  | parse p text =>
    simp only [step, parse, refStep]
    have hg := hs.get p
    have hc := hc p text
    generalize s.heap[p]? = x at hg ⊢
    generalize h[p]? = y at hg hc ⊢
    cases hg with
    | none => exact .ok hs
    | some ho =>
      cases ho with
      | parser fmt ft lt seed nb =>
        have hc := hc fmt ft lt seed nb rfl rfl
        simp only
        cases hp : DataFormat.getParser e.x fmt ft lt seed nb with
        | error p => exact .panic
        | ok tp =>
          simp only [ok_bind]
          have h1 := clean_parser hp hc hs.pool
          have h1' := @clean_okEx F _ N e.x fmt ft lt seed nb text tp hp hc s.pool hs.pool
          generalize tp.parse s.pool text = a at h1 h1' ⊢
          generalize tp.parse ⟨[]⟩ text = b at h1 ⊢
          cases h1 with
          | @ok r r' hr =>
            obtain ⟨⟨fs, l⟩, pool⟩ := r
            obtain ⟨⟨fs', l'⟩, pool'⟩ := r'
            obtain ⟨h2, h3, -, h5⟩ := hr
            have h4 := h1' rfl
            simp only at h2 h3 h4 h5
            subst h2
            simp only
            generalize labelToPy l = q
            cases q with
            | error p => exact .panic
            | ok l1 =>
              simp only [ok_bind, State.add, hs.length]
              have h6 : Sim { s with pool := pool } h := ⟨hs.heap, h5⟩
              exact .ok (h6.add (.features h4 h3))
          | err => exact .ok ⟨hs.heap, drop_ok hs.pool lost⟩
          | panic => exact .panic
      | _ => exact .ok hs
  | predict w f =>
    simp only [step, predict, refStep]
    have hw := hs.get w
    have hf := hs.get f
    have hff := @Sim.same F _ s h hs
    generalize s.heap[w]? = x at hw ⊢
    generalize hy : h[w]? = y at hw ⊢
    generalize s.heap[f]? = x' at hf ⊢
    generalize hy' : h[f]? = y' at hf ⊢
    cases hw with
    | none => exact .ok hs
    | some hw =>
      cases hw with
      | @workspace m hm =>
        cases hf with
        | none => exact .ok hs
        | some hf =>
          cases hf with
          | @features ft gt hok he =>
            simp only
            cases hp : m.ws.predict e.x.dbg ft with
            | error p =>
              have h1 := predict_eq hm.pairsOk he e.x.dbg
              rw [hp] at h1
              cases hq : m.ws.predict e.x.dbg gt with
              | ok r => rw [hq] at h1; cases h1
              | error q => rw [hq] at h1; cases h1; exact .panic
            | ok r =>
              obtain ⟨p, ft'⟩ := r
              obtain ⟨h1, gt', h2, h3⟩ := ws_predict hm.pairsOk hok he hp
              rw [h2]
              simp only [ok_bind]
              cases predictionToPy p with
              | error q => exact .panic
              | ok q => exact .ok (hs.same hy' (.features (hok.of_eqv h1.symm) (h1.trans he)))
          | _ => exact .ok hs
      | _ => exact .ok hs
  | learn w f l =>
    simp only [step, learn, refStep]
    have hw := hs.get w
    have hf := hs.get f
    generalize s.heap[w]? = x at hw ⊢
    generalize hy : h[w]? = y at hw ⊢
    generalize s.heap[f]? = x' at hf ⊢
    generalize hy' : h[f]? = y' at hf ⊢
    cases hw with
    | none => exact .ok hs
    | some hw =>
      cases hw with
      | @workspace m hm =>
        cases hf with
        | none => exact .ok hs
        | some hf =>
          cases hf with
          | @features ft gt hok he =>
            simp only
            have hne : w ≠ f := fun h => by subst h; rw [hy] at hy'; cases hy'
            cases hp : m.ws.learn e.x.dbg ft l.toLabel with
            | error p =>
              have h1 := learn_eq hm.pairsOk he e.x.dbg l.toLabel
              rw [hp] at h1
              cases hq : m.ws.learn e.x.dbg gt l.toLabel with
              | ok r => rw [hq] at h1; cases h1
              | error q => rw [hq] at h1; cases h1; exact .panic
            | ok r =>
              obtain ⟨ws, ft'⟩ := r
              obtain ⟨h0, h1, gt', h2, h3⟩ := ws_learn hm.pairsOk hok he hp
              rw [h2]
              simp only [ok_bind]
              have hm' : (⟨m.global, ws⟩ : Serde.Model F).ws.FromConfig := by
                obtain ⟨hash, g0, c, w0, e1, e2⟩ := hm
                exact ⟨hash, g0, c, w0, e1, h0.trans e2⟩
              exact .ok ((hs.put (.workspace hm') w).same (b := .features gt) (by rw [List.getElem?_set_ne hne]; exact hy')
                (.features (hok.of_eqv h1.symm) (h1.trans he)))
          | _ => exact .ok hs
      | _ => exact .ok hs
  | predictThenLearn w f l =>
    simp only [step, predictThenLearn, refStep]
    have hw := hs.get w
    have hf := hs.get f
    generalize s.heap[w]? = x at hw ⊢
    generalize hy : h[w]? = y at hw ⊢
    generalize s.heap[f]? = x' at hf ⊢
    generalize hy' : h[f]? = y' at hf ⊢
    cases hw with
    | none => exact .ok hs
    | some hw =>
      cases hw with
      | @workspace m hm =>
        cases hf with
        | none => exact .ok hs
        | some hf =>
          cases hf with
          | @features ft gt hok he =>
            simp only
            have hne : w ≠ f := fun h => by subst h; rw [hy] at hy'; cases hy'
            cases hp : m.ws.predictThenLearn e.x.dbg ft l.toLabel with
            | error p => rw [ptl_eq hm.pairsOk he e.x.dbg l.toLabel hp]; exact .panic
            | ok r =>
              obtain ⟨p, ws, ft'⟩ := r
              obtain ⟨h0, h1, gt', h2, h3⟩ := ws_ptl hm.pairsOk hok he hp
              rw [h2]
              simp only [ok_bind]
              have hm' : (⟨m.global, ws⟩ : Serde.Model F).ws.FromConfig := by
                obtain ⟨hash, g0, c, w0, e1, e2⟩ := hm
                exact ⟨hash, g0, c, w0, e1, h0.trans e2⟩
              cases predictionToPy p with
              | error q => exact .panic
              | ok q =>
                exact .ok ((hs.put (.workspace hm') w).same (b := .features gt) (by rw [List.getElem?_set_ne hne]; exact hy')
                  (.features (hok.of_eqv h1.symm) (h1.trans he)))
          | _ => exact .ok hs
      | _ => exact .ok hs
  | serialize w =>
    simp only [step, serialize, refStep]
    have hg := hs.get w
    generalize s.heap[w]? = x at hg ⊢
    generalize h[w]? = y at hg ⊢
    cases hg with
    | none => exact .ok hs
    | some ho =>
      cases ho with
      | @workspace m hm =>
        simp only [State.add, hs.length]
        exact .ok (hs.add (.bytes ⟨m.global, m.ws, hm, rfl⟩))
      | _ => exact .ok hs
  | serializeToJson w =>
    simp only [step, serializeToJson, refStep]
    have hg := hs.get w
    generalize s.heap[w]? = x at hg ⊢
    generalize h[w]? = y at hg ⊢
    cases hg with
    | none => exact .ok hs
    | some ho =>
      cases ho with
      | @workspace m hm =>
        simp only
        cases Serde.serializeToJson e.fin e.order m with
        | error p => exact .panic
        | ok d => exact .ok hs
      | _ => exact .ok hs
  | entryTypes w =>
    simp only [step, entryTypes, refStep]
    have hg := hs.get w
    generalize s.heap[w]? = x at hg ⊢
    generalize h[w]? = y at hg ⊢
    cases hg with
    | none => exact .ok hs
    | some ho =>
      cases ho with
      | @workspace m hm => exact .ok hs
      | _ => exact .ok hs
  | del i =>
    simp only [step, del, refStep]
    have hg := hs.get i
    generalize s.heap[i]? = x at hg ⊢
    generalize h[i]? = y at hg ⊢
    cases hg with
    | none => exact .ok hs
    | some ho =>
      cases ho with
      | features hok he =>
        have h1 := hs.put (F := F) .gone i
        exact .ok ⟨h1.heap, giveBack_ok he hs.pool⟩
      | gone => exact .ok hs
      | _ => exact .ok (hs.put .gone i)

end Py
end Rml
