import Verif.Lemmas.Command
import Verif.Props.Coin

/-! Lemmas for the theorems about the commands: models that are saved and loaded again. -/

set_option linter.unusedSectionVars false

namespace Rml
open Text SparseFeatures Serde
variable {F : Type} [Flt F] {N : Type}

section
variable {R : Coin F → Coin F → Prop} {dbg : Bool}

theorem ws_learn_sim (hl : ∀ c c' f l w, R c c' → RelM R (Coin.learn dbg c f l w) (Coin.learn dbg c' f l w)) {w w' : Workspace F} (h : SimWs R w w')
    (ft : Features F) (l : Label F) :
    RelM (fun x y => SimWs R x.1 y.1 ∧ x.2 = y.2) (w.learn dbg ft l) (w'.learn dbg ft l) := by
  obtain ⟨st', rfl, hs⟩ := h
  unfold Workspace.learn Red.learn
  refine RelM.bind (wrapCall_sim (fun ft d => learnImpl_sim hl _ _ _ ft l d hs)) ?_
  rintro ⟨s1, ft, d1⟩ ⟨s1', ft', d1'⟩ _ _ ⟨h1, h2⟩
  simp only [Prod.mk.injEq] at h2
  obtain ⟨rfl, rfl⟩ := h2
  exact ⟨⟨s1', rfl, h1⟩, rfl⟩

theorem ws_ptl_sim (hp : ∀ c c' f, R c c' → Coin.predict dbg c f = Coin.predict dbg c' f)
    (hl : ∀ c c' f l w, R c c' → RelM R (Coin.learn dbg c f l w) (Coin.learn dbg c' f l w)) {w w' : Workspace F} (h : SimWs R w w')
    (ft : Features F) (l : Label F) :
    RelM (fun x y => x.1 = y.1 ∧ SimWs R x.2.1 y.2.1 ∧ x.2.2 = y.2.2) (w.predictThenLearn dbg ft l) (w'.predictThenLearn dbg ft l) := by
  obtain ⟨st', rfl, hs⟩ := h
  unfold Workspace.predictThenLearn Red.predictThenLearn
  refine RelM.bind (wrapCall_sim (fun ft d => ptlImpl_sim hp hl _ _ _ ft l d 0 hs)) ?_
  rintro ⟨⟨p, s1⟩, ft, d1⟩ ⟨⟨p', s1'⟩, ft', d1'⟩ _ _ ⟨⟨h0, h1⟩, h2⟩
  simp only [Prod.mk.injEq] at h2 h0
  obtain ⟨rfl, rfl⟩ := h2
  subst h0
  exact ⟨rfl, ⟨s1', rfl, h1⟩, rfl⟩

end

namespace Cli

/-- The invariant of a workspace that was created from a configuration and trained, saved and loaded any number of times. -/
structure Alive (g : GlobalConfig) (w : Workspace F) : Prop where
  from_ : w.FromConfig
  inv : CoinInv g.numBits 1 w.coin
  plain : ∀ i, i < 2 ^ g.numBits → PlainS (w.coin.weights.wst i)
  range : w.coin.RangeOk

section
variable [LawfulCmp F] [SignedZero F]

theorem alive_new {hash : HashFn} {g : GlobalConfig} {c : RedConfig F} {w : Workspace F} (hw : Workspace.new hash g c = .ok w) : Alive g w := by
  obtain ⟨r, h1, h2⟩ : ∃ r, Session.run false ⟨w, fun _ => .simple .new⟩ [] = .ok r ∧ r.1.w = w := ⟨_, rfl, rfl⟩
  have h3 := session_inv hw h1
  have h4 := session_plain hw h1
  rw [h2] at h3 h4
  obtain ⟨cfg, h5⟩ := (built_of_new hw).coin_new
  exact ⟨⟨hash, g, c, w, hw, rfl⟩, h3, h4, new_rangeOk (by omega) h5⟩

theorem trained_range {dbg : Bool} {nb : Nat} (es : List (TrainEx F)) {c c' : Coin F} (h : c.Ok nb) (hr : c.RangeOk) (ht : c.trainAll dbg es = .ok c') :
    c'.RangeOk :=
  (Coin.trainAll_induct (dbg := dbg) (nb := nb) (fun _ c => c.RangeOk)
    (fun _ c _ e hc h2 hl => (rangeInv_step (ls := [c.minLabel, c.maxLabel]) e hc ⟨h2, by simp, by simp⟩ hl).ok) es [] c c' h hr ht).2

theorem Alive.learn {dbg : Bool} {g : GlobalConfig} {w w' : Workspace F} {ft ft' : Features F} {l : Label F} (h : Alive g w)
    (hl : w.learn dbg ft l = .ok (w', ft')) : Alive g w' := by
  have hs : Session.run dbg ⟨w, fun _ => ft⟩ [.learn 0 l] = .ok (Session.put ⟨w, fun _ => ft⟩ w' 0 ft', [(.learn 0 l, none)]) := by
    simp only [Session.run, Session.step]
    rw [hl]
    rfl
  obtain ⟨es, h2⟩ := run_trains _ hs
  simp only [Session.put] at h2
  obtain ⟨hash, g0, c, w0, e1, e2⟩ := h.from_
  exact ⟨⟨hash, g0, c, w0, e1, by rw [learn_red hl, e2]⟩, trained_inv es h.inv h2, trained_plain es h.inv.ok h.plain h2,
    trained_range es h.inv.ok h.range h2⟩

theorem Alive.learnSeq {dbg : Bool} {parse : Parse F} {g : GlobalConfig} (cs : List Str) : ∀ {w w' : Workspace F}, Alive g w →
    learnSeq dbg parse cs w = some w' → Alive g w' := by
  induction cs with
  | nil =>
    intro w w' h hl
    simp only [Cli.learnSeq, Option.some.injEq] at hl
    exact hl ▸ h
  | cons c cs ih =>
    intro w w' h hl
    simp only [Cli.learnSeq] at hl
    split at hl
    · split at hl
      · rename_i h1
        exact ih (h.learn h1) hl
      · cases hl
    · cases hl

theorem Alive.sim {g : GlobalConfig} {w : Workspace F} (h : Alive g w) : SimWs (Twin g.numBits) w (Serde.Model.canon ⟨g, w⟩).ws :=
  ⟨canonRed w.red w.st, rfl, canonRed_sim _ _ ⟨canon_sim h.inv.ok h.plain, h.inv, canon_inv h.inv⟩⟩

theorem canonRed_coin (r : Red F) : ∀ s : r.State, r.coinOf (canonRed r s) = (r.coinOf s).canon := by
  induction r with
  | coin m => intro s; rfl
  | binary m r ih => intro s; exact ih s
  | cbAdf m t r ih => intro s; exact ih s.2
  | greedy m e r ih => intro s; exact ih s
  | softmax m a b r ih => intro s; exact ih s.2
  | squareCb m a b c r ih => intro s; exact ih s.2
  | debug m r ih => intro s; exact ih s
  | elementwise m a b c r ih => intro s; exact ih s

theorem canonZ_plain' {x : F} (h : Flt.Plain x) : Flt.Plain (canonZ x) := by rw [canonZ_plain h]; exact h

theorem Alive.canon {g : GlobalConfig} {w : Workspace F} (h : Alive g w) : Alive g (Serde.Model.canon ⟨g, w⟩).ws := by
  obtain ⟨hash, g0, c, w0, e1, e2⟩ := h.from_
  have hc : (Serde.Model.canon ⟨g, w⟩).ws.coin = w.coin.canon := canonRed_coin _ _
  refine ⟨⟨hash, g0, c, w0, e1, e2⟩, ?_, ?_, ?_⟩
  rotate_left 2
  · rw [hc]
    exact ⟨h.range.min_num, h.range.max_num, h.range.le⟩
  · rw [hc]
    exact canon_inv h.inv
  · rw [hc]
    intro i hi
    have hp := h.plain i hi
    show PlainS (w.coin.weights.canon.wst i)
    rw [canon_wst h.inv.ok.table hi]
    exact ⟨canonZ_plain' hp.zt, canonZ_plain' hp.g2, canonZ_plain' hp.mx, canonZ_plain' hp.we, canonZ_plain' hp.mg, by
      rw [canonZ_plain hp.mg]; exact hp.mg0⟩

theorem load_saved (g : GlobalConfig) (w : Workspace F) (hash : HashFn) :
    (Input.inputModel (serializeModel ⟨g, w⟩)).load hash = .ok (Serde.Model.canon ⟨g, w⟩) := by
  have hdec : decModel (encModel (fun _ => true) ⟨g, w⟩) = some (Serde.Model.canon ⟨g, w⟩) := decModel_encModel (finRed_true _ _)
  simp only [Input.load, createFromModel, serializeModel]
  rw [hdec]
  rfl

theorem load_config {hash : HashFn} {j : Doc F} {m : Serde.Model F} (h : (Input.config j).load hash = .ok m) : Alive m.global m.ws := by
  simp only [Input.load] at h
  cases hn : Cfg.newWorkspace hash j with
  | error e => rw [hn] at h; cases e <;> cases h
  | ok m' =>
    rw [hn] at h
    simp only [orFail, Except.ok.injEq] at h
    subst h
    unfold Cfg.newWorkspace at hn
    obtain ⟨cfg, _, hn⟩ := cbind_ok.1 hn
    obtain ⟨c, _, hn⟩ := cbind_ok.1 hn
    obtain ⟨w, hw, hn⟩ := cbind_ok.1 hn
    simp only [Except.ok.injEq] at hn
    subst hn
    exact alive_new hw

section seq
variable {dbg : Bool} {parse : Parse F} {nb : Nat}

theorem learnSeq_sim (cs : List Str) : ∀ {w w' w1 : Workspace F}, SimWs (Twin nb) w w' → learnSeq dbg parse cs w = some w1 →
    ∃ w1', learnSeq dbg parse cs w' = some w1' ∧ SimWs (Twin nb) w1 w1' := by
  induction cs with
  | nil =>
    intro w w' w1 h hl
    simp only [Cli.learnSeq, Option.some.injEq] at hl
    exact ⟨w', rfl, hl ▸ h⟩
  | cons c cs ih =>
    intro w w' w1 h hl
    simp only [Cli.learnSeq] at hl ⊢
    split at hl
    · rename_i ft l pl hpc
      split at hl
      · rename_i w2 ft2 h1
        obtain ⟨⟨w2', ft2'⟩, h2, h3, _⟩ := (ws_learn_sim (R := Twin nb) (fun c c' f l w hR => twin_learn dbg hR f l w) h ft l).ok_left h1
        rw [h2]
        exact ih h3 hl
      · cases hl
    · cases hl

theorem playSeq_sim (cs : List Str) : ∀ {w w' w1 : Workspace F} {ps}, SimWs (Twin nb) w w' → playSeq dbg parse cs w = some (w1, ps) →
    ∃ w1', playSeq dbg parse cs w' = some (w1', ps) ∧ SimWs (Twin nb) w1 w1' := by
  induction cs with
  | nil =>
    intro w w' w1 ps h hl
    simp only [playSeq, Option.some.injEq, Prod.mk.injEq] at hl
    obtain ⟨rfl, rfl⟩ := hl
    exact ⟨w', rfl, h⟩
  | cons c cs ih =>
    intro w w' w1 ps h hl
    simp only [playSeq] at hl ⊢
    split at hl
    · rename_i ft l pl hpc
      split at hl
      · rename_i p w2 ft2 h1
        obtain ⟨⟨p', w2', ft2'⟩, h2, h3, h4, _⟩ := (ws_ptl_sim (R := Twin nb) (fun c c' f hR => predict_sim dbg hR.1 f)
          (fun c c' f l w hR => twin_learn dbg hR f l w) h ft l).ok_left h1
        simp only at h3
        subst h3
        rw [h2]
        obtain ⟨⟨w3, qs⟩, h5, h6⟩ := Option.map_eq_some_iff.1 hl
        obtain ⟨w3', h7, h8⟩ := ih h4 h5
        simp only [Prod.mk.injEq] at h6
        obtain ⟨rfl, rfl⟩ := h6
        exact ⟨w3', by simp only [h7, Option.map_some], h8⟩
      · cases hl
    · cases hl

end seq

/-! ### The parsers of the formats -/

/-- The parser for a model. -/
def parserFor (x : Externals F N) (fmt : DataFormat) (m : Serde.Model F) : M (TextParser F) :=
  fmt.getParser x m.ws.red.meta.types.inFeatures m.ws.red.meta.types.inLabel m.global.hashSeed m.global.numBits

theorem parser_ok {x : Externals F N} {fmt : DataFormat} {m : Serde.Model F} {p : TextParser F} {data : Str} (hp : parserFor x fmt m = .ok p)
    (hc : Clean x fmt data) : ∃ P, ParserOk P p.parse ∧ ∀ c ∈ chunksOf p.next data, P c := by
  unfold parserFor at hp
  cases fmt with
  | vwText =>
    simp only [DataFormat.getParser, Except.ok.injEq] at hp
    subst hp
    exact ⟨_, vw_ok _, fun _ _ => trivial⟩
  | dsjson =>
    simp only [DataFormat.getParser] at hp
    split at hp
    · cases hp
    · split at hp
      · cases hp
      · simp only [Except.ok.injEq] at hp
        subst hp
        exact ⟨_, ds_ok _, fun _ _ => trivial⟩
  | json =>
    simp only [DataFormat.getParser, Except.ok.injEq] at hp
    subst hp
    exact ⟨_, js_ok _, fun c hcs => hc rfl _ (Js.reads_chunksOf _) c hcs⟩

theorem chunks_append {x : Externals F N} {fmt : DataFormat} {m : Serde.Model F} {p : TextParser F} {A B : Str} (hp : parserFor x fmt m = .ok p)
    (hA : WholeExamples (spansLines fmt m) A) : chunksOf p.next (A ++ B) = chunksOf p.next A ++ chunksOf p.next B := by
  unfold parserFor at hp
  cases fmt with
  | vwText =>
    simp only [DataFormat.getParser, Except.ok.injEq] at hp
    subst hp
    exact (Vw.reads_chunksOf _ _).unique (Vw.reads_append hA (Vw.reads_chunksOf _ _) (Vw.reads_chunksOf _ _))
  | dsjson =>
    simp only [DataFormat.getParser] at hp
    split at hp
    · cases hp
    · split at hp
      · cases hp
      · simp only [Except.ok.injEq] at hp
        subst hp
        exact (Js.reads_chunksOf _).unique (Js.reads_append hA (Js.reads_chunksOf _) (Js.reads_chunksOf _))
  | json =>
    simp only [DataFormat.getParser, Except.ok.injEq] at hp
    subst hp
    exact (Js.reads_chunksOf _).unique (Js.reads_append hA (Js.reads_chunksOf _) (Js.reads_chunksOf _))

theorem clean_append {x : Externals F N} {fmt : DataFormat} {m : Serde.Model F} {A B : Str} (hA : WholeExamples (spansLines fmt m) A)
    (h1 : Clean x fmt A) (h2 : Clean x fmt B) : Clean x fmt (A ++ B) := by
  rintro rfl cs hcs c hc
  rw [hcs.unique (Js.reads_append hA (Js.reads_chunksOf _) (Js.reads_chunksOf _))] at hc
  rcases List.mem_append.1 hc with hc | hc
  · exact h1 rfl _ (Js.reads_chunksOf _) c hc
  · exact h2 rfl _ (Js.reads_chunksOf _) c hc

/-! ### The command -/

theorem prepare_ok {x : Externals F N} {a : TrainArgs} {fmt : DataFormat} {input : Input F} {p : TextParser F} {g : GlobalConfig} {w0 : TrainWorld F}
    (h : prepare x a fmt input = .ok (p, g, w0)) : ∃ m ms, input.load x.hash = .ok m ∧ parserFor x fmt m = .ok p ∧ a.makeMetrics = .ok ms ∧
      g = m.global ∧ w0 = a.start m.ws ms := by
  unfold prepare at h
  cases hl : input.load x.hash with
  | error e => rw [hl] at h; cases h
  | ok m =>
    rw [hl] at h
    change (orPanic (parserFor x fmt m) >>= _) = _ at h
    cases hp : parserFor x fmt m with
    | error e => rw [hp] at h; cases h
    | ok p' =>
      rw [hp] at h
      change (orPanic a.makeMetrics >>= _) = _ at h
      cases hm : (a.makeMetrics : M (List (Metric F))) with
      | error e => rw [hm] at h; cases h
      | ok ms =>
        rw [hm] at h
        change Except.ok (p', m.global, a.start m.ws ms) = _ at h
        simp only [Except.ok.injEq, Prod.mk.injEq] at h
        obtain ⟨rfl, rfl, rfl⟩ := h
        exact ⟨m, ms, rfl, hp, rfl, rfl, rfl⟩

theorem prepare_of {x : Externals F N} {a : TrainArgs} {fmt : DataFormat} {input : Input F} {p : TextParser F} {m : Serde.Model F} {ms}
    (h1 : input.load x.hash = .ok m) (h2 : parserFor x fmt m = .ok p) (h3 : a.makeMetrics = .ok ms) :
    prepare x a fmt input = .ok (p, m.global, a.start m.ws ms) := by
  unfold prepare
  rw [h1]
  change (orPanic (parserFor x fmt m) >>= _) = _
  rw [h2]
  change (orPanic a.makeMetrics >>= _) = _
  rw [h3]
  rfl

theorem loopEnds_sequential {P : Str → Prop} {p : TextParser F} (hp : ParserOk P p.parse) {dbg : Bool} {a : TrainArgs} {cs : List Str} (hcs : ∀ c ∈ cs, P c)
    {w0 w : TrainWorld F} (hw : w0.ws.FromConfig) (h : LoopEnds dbg a p cs w0 w) (q : Nat) :
    ((trainPoolPipe dbg a.opts q p.parse).withObjects ⟨[]⟩).sequential cs w0 = (w, true) := by
  rw [← trainLoop_eq hp dbg a.opts q cs w0 ⟨[]⟩ hcs hw.pairsOk poolOk_nil]
  cases h with
  | single _ h => exact h
  | threads s _ h1 h2 h3 =>
    rw [(trainsLike hp dbg a.opts a.queueSize cs hcs w0 hw ⟨[]⟩ ⟨[]⟩ .empty .empty s h1).finished h2, h3]

theorem finish_ok {dbg : Bool} {a : TrainArgs} {g : GlobalConfig} {w : TrainWorld F} {out : TrainOutput F} (h : finish dbg a g w = .ok out) :
    out.model = serializeModel ⟨g, w.ws⟩ ∧ out.predictions = w.predictions := by
  unfold finish at h
  by_cases hq : a.quiet = true
  · rw [if_pos hq] at h
    obtain ⟨rows, _, h⟩ := bind_ok.1 h
    simp only [Except.ok.injEq] at h
    subst h
    exact ⟨rfl, rfl⟩
  · rw [if_neg hq] at h
    obtain ⟨rows, _, h⟩ := bind_ok.1 h
    simp only [Except.ok.injEq] at h
    subst h
    exact ⟨rfl, rfl⟩

theorem train_result {x : Externals F N} {a : TrainArgs} {fmt : DataFormat} {input : Input F} {data : Str} {out : TrainOutput F} {m : Serde.Model F}
    (h : Train x a fmt input data out) (hm : input.load x.hash = .ok m) (ha : Alive m.global m.ws) (hc : Clean x fmt data) :
    ∃ p w, parserFor x fmt m = .ok p ∧ learnSeq x.dbg p.parse (chunksOf p.next data) m.ws = some w ∧ out.model = serializeModel ⟨m.global, w⟩ ∧
      if a.predictions then playSeq x.dbg p.parse (chunksOf p.next data) m.ws = some (w, out.predictions) else out.predictions = [] := by
  obtain ⟨p, g, w0, w, h1, h2, h3⟩ := h
  obtain ⟨m', ms, e1, e2, e3, rfl, rfl⟩ := prepare_ok h1
  rw [hm] at e1
  cases e1
  obtain ⟨P, hp, hcs⟩ := parser_ok e2 hc
  have h4 := loopEnds_sequential hp hcs (w0 := a.start m.ws ms) ha.from_ h2 0
  obtain ⟨h5, h6⟩ := sequential_learns hp x.dbg a.opts 0 _ _ _ hcs ha.from_.pairsOk h4
  obtain ⟨h7, h8⟩ := finish_ok h3
  refine ⟨p, w.ws, e2, h5, h7, ?_⟩
  cases hpr : a.predictions with
  | true =>
    have : a.opts.predictionsFile = true := hpr
    rw [this] at h6
    simp only [if_true] at h6 ⊢
    obtain ⟨ps, g1, g2⟩ := h6
    rw [h8, g2]
    exact g1
  | false =>
    have : a.opts.predictionsFile = false := hpr
    rw [this] at h6
    simp only [Bool.false_eq_true, if_false] at h6 ⊢
    rw [h8, h6]
    rfl

theorem saved_alive {x : Externals F N} {input : Input F} (h : Saved x input) : ∀ {m : Serde.Model F}, input.load x.hash = .ok m →
    Alive m.global m.ws := by
  induction h with
  | config j => exact fun h => load_config h
  | @trained a fmt input data out hs ht hc ih =>
    intro m hm
    have hload : ∃ m0, input.load x.hash = .ok m0 := by
      obtain ⟨p, g, w0, w, h1, _, _⟩ := ht
      obtain ⟨m', ms, e1, _⟩ := prepare_ok h1
      exact ⟨m', e1⟩
    obtain ⟨m0, hm0⟩ := hload
    obtain ⟨p, w, _, h2, h3, _⟩ := train_result ht hm0 (ih hm0) hc
    rw [h3, load_saved] at hm
    cases hm
    exact ((ih hm0).learnSeq _ h2).canon

theorem quiet_train {x : Externals F N} {fmt : DataFormat} {input : Input F} {data : Str} {m : Serde.Model F} {p : TextParser F} {w : Workspace F}
    (per : OutputPeriod) (hm : input.load x.hash = .ok m) (ha : Alive m.global m.ws) (hc : Clean x fmt data) (hp : parserFor x fmt m = .ok p)
    (h : learnSeq x.dbg p.parse (chunksOf p.next data) m.ws = some w) :
    Train x (quietly per) fmt input data ⟨[], [], serializeModel ⟨m.global, w⟩⟩ := by
  obtain ⟨P, hpo, hcs⟩ := parser_ok hp hc
  refine .intro p m.global ((quietly per).start m.ws [.exampleNumber 0]) { (quietly per).start m.ws [.exampleNumber 0] with ws := w } (prepare_of hm hp ?_)
    (.single rfl ?_) ?_
  · rfl
  · rw [trainLoop_eq hpo x.dbg _ 0 _ _ _ hcs ha.from_.pairsOk poolOk_nil]
    exact quiet_sequential x.dbg 0 _ _ w h
  · rfl

end
end Cli
end Rml
