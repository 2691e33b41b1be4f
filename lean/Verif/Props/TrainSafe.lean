import Verif.Props.Safe
import Verif.Props.Play
import Verif.Props.ParsedFit
import Verif.SpecTrainOut
import Verif.Lemmas.TrainOut

/-!
C81: training on data that can be parsed does not fail. If every example of the data can be parsed and has a label, then `train` succeeds, for a new
model and for one that was saved before.
-/

set_option linter.unusedSectionVars false

namespace Rml
open Text SparseFeatures
variable {F : Type} [Flt F] {N : Type}

theorem Built.noElementwise {hash : HashFn} {g : GlobalConfig} {nma : Nat} {c : RedConfig F} {x : (r : Red F) × r.State} (hb : Built hash g nma c x) :
    (x.1.NoElementwise → c.NoElementwise) ∧ x.1.cbMode = c.cbMode := by
  induction hb with
  | coin _ => exact ⟨id, rfl⟩
  | binary _ _ ih => exact ih
  | cbAdf _ _ ih => exact ⟨ih.1, rfl⟩
  | greedy _ _ ih => exact ih
  | softmax _ _ ih => exact ih
  | squareCb _ _ _ ih => exact ih
  | debug _ _ ih => exact ih
  | elementwise _ _ ih => exact ⟨False.elim, ih.2⟩

/-- The types of a model: bandit features come with bandit labels. -/
theorem Built.cbTypes {hash : HashFn} {g : GlobalConfig} {nma : Nat} {c : RedConfig F} {x : (r : Red F) × r.State} (hb : Built hash g nma c x) :
    x.1.meta.types.inFeatures = .sparseCBAdf ↔ x.1.meta.types.inLabel = .cb := by
  induction hb with
  | coin _ => simp [Red.meta, coinTypes, cbAdfTypes, exploreTypes]
  | @binary rc x _ hc ih =>
    have hc := checkOk_iff.1 hc
    simp only [binaryTypes, Option.some.injEq] at hc
    show x.1.meta.types.inFeatures = .sparseCBAdf ↔ LabelType.binary = .cb
    rw [ih, ← hc.1]
    decide
  | cbAdf _ _ _ => simp [Red.meta, coinTypes, cbAdfTypes, exploreTypes]
  | greedy _ _ _ => simp [Red.meta, coinTypes, cbAdfTypes, exploreTypes]
  | softmax _ _ _ => simp [Red.meta, coinTypes, cbAdfTypes, exploreTypes]
  | squareCb _ _ _ _ => simp [Red.meta, coinTypes, cbAdfTypes, exploreTypes]
  | debug _ _ ih => exact ih
  | @elementwise _ _ _ rc x _ hc ih =>
    have hc := checkOk_iff.1 hc
    simp only [elementwiseTypes, Option.some.injEq] at hc
    show FeaturesType.sparseSimple = .sparseCBAdf ↔ x.1.meta.types.inLabel = .cb
    rw [← ih, ← hc.2.1]

section
variable [LawfulCmp F] [SignedZero F]

/-- A trained, saved or loaded model learns from every fitting example. -/
theorem alive_learns {dbg : Bool} (h01 : dbg = true → Flt.lt (Flt.zero : F) Flt.one = true) {g : GlobalConfig} {w : Workspace F} (ha : Cli.Alive g w)
    (he : w.red.NoElementwise) {ex : Features F × Label F} (hf : ex.1.Formed) (hfit : Fitting g.numBits w.red.meta.types.inFeatures w.red.meta.types.inLabel
      (ex.1, some ex.2)) (ht : Trainable dbg w.red.cbMode ex) : ∃ w' ft', w.learn dbg ex.1 ex.2 = .ok (w', ft') ∧ w'.red = w.red := by
  obtain ⟨hash, g0, c, ⟨red0, s0⟩, h1, h2⟩ := ha.from_
  obtain ⟨red, s⟩ := w
  simp only at h2
  subst h2
  have hb := built_of_new h1
  have hne := hb.noElementwise
  have hok : Ready dbg ex.1 := ready_of hf ht.valid
  have htame : TameFt dbg g.numBits ex.1 := fun f hf => ⟨(hfit.fit f hf).fits, fun hd => ht.settled hd f hf⟩
  have hfine : LabelFine dbg c.cbMode ex.1 ex.2 := ⟨ht.positive, by rw [← hne.2]; exact ht.chosen⟩
  obtain ⟨s', ft', h3⟩ := learn_safe (nb := g.numBits) h01 hb (hne.1 he) s ex.1 ex.2 0 ⟨ha.inv.ok, ha.range⟩ hok htame hfit.type (hfit.label _ rfl) hfine
    (by decide)
  have hw := wrap_safe (learnImpl_nice dbg red hb.pairsOk s ex.2) red hok htame (by decide : (0 : Nat) < 256) h3
  refine ⟨⟨red, s'⟩, ft', ?_, rfl⟩
  unfold Workspace.learn Red.learn
  simp only
  rw [hw, ok_bind]

theorem alive_learns_all {dbg : Bool} (h01 : dbg = true → Flt.lt (Flt.zero : F) Flt.one = true) {g : GlobalConfig} (exs : List (Features F × Label F)) :
    ∀ {w : Workspace F}, Cli.Alive g w → w.red.NoElementwise → (∀ ex ∈ exs, ex.1.Formed ∧
      Fitting g.numBits w.red.meta.types.inFeatures w.red.meta.types.inLabel (ex.1, some ex.2) ∧ Trainable dbg w.red.cbMode ex) →
    ∃ w', Cli.Learns dbg w exs w' := by
  induction exs with
  | nil => exact fun _ _ _ => ⟨_, .nil⟩
  | cons ex exs ih =>
    intro w ha he h
    obtain ⟨h1, h2, h3⟩ := h ex (by simp)
    obtain ⟨w1, ft1, h4, h5⟩ := alive_learns h01 ha he h1 h2 h3
    obtain ⟨w', h6⟩ := ih (ha.learn h4) (by rw [h5]; exact he) (by rw [h5]; exact fun x hx => h x (List.mem_cons_of_mem _ hx))
    exact ⟨w', .cons h4 h6⟩

namespace Cli

theorem forall₂_mem_left {α β : Type} {R : α → β → Prop} {l : List α} {l' : List β} (h : List.Forall₂ R l l') {a : α} (ha : a ∈ l) :
    ∃ b, b ∈ l' ∧ R a b := by
  induction h with
  | nil => cases ha
  | cons h1 _ ih =>
    rcases List.mem_cons.1 ha with rfl | ha
    · exact ⟨_, by simp, h1⟩
    · obtain ⟨b, h2, h3⟩ := ih ha
      exact ⟨b, List.mem_cons_of_mem _ h2, h3⟩

/-- What the parsers make for a model. -/
theorem parsed_fitting {x : Externals F N} {fmt : DataFormat} {m : Serde.Model F} (ha : Alive m.global m.ws) (hf : FormatFits fmt m) {text : Str}
    {ex : Features F × Label F} (h : Parsed x fmt m text ex) :
    ex.1.Formed ∧ Fitting m.global.numBits m.ws.red.meta.types.inFeatures m.ws.red.meta.types.inLabel (ex.1, some ex.2) := by
  obtain ⟨hash, g0, c, w0, h1, h2⟩ := ha.from_
  have hty : w0.red.meta.types.inFeatures = .sparseCBAdf ↔ w0.red.meta.types.inLabel = .cb := (built_of_new h1).cbTypes
  rw [← h2] at hty
  unfold Parsed at h
  cases fmt with
  | vwText =>
    obtain ⟨pool, h⟩ := h
    exact ⟨(C67_vw _ _ .empty _ _ h).1, (Vw.parseChunk_fit _ hty (PoolOk.fit (pool_objects .empty) _) _ _ h).1⟩
  | json =>
    obtain ⟨pool, h⟩ := h
    exact ⟨(C67_json _ _ .empty _ _ h).1, (Js.parseChunk_fit _ (PoolOk.fit (pool_objects .empty) _) _ _ h).1⟩
  | dsjson =>
    obtain ⟨pool, h⟩ := h
    obtain ⟨e1, e2⟩ := hf rfl
    rw [e1, e2]
    have hfit := (Ds.parseChunk_fit _ (PoolOk.fit (pool_objects .empty) _) _ _ h).1
    refine ⟨?_, hfit⟩
    exact (Ds.parseChunk_made _ (pool_objects .empty) _ _ h).1.formed

/-- C81. Start from a configuration or a model that `train` has written, with no ElementwiseInteraction. If every example of the data can be parsed, has a
label and is trainable, then training succeeds, without threads and quietly: the model that is written is that of learning the examples one after
the other. (C70 has the same for any number of threads.) -/
theorem C81_train (x : Externals F N) (h01 : x.dbg = true → Flt.lt (Flt.zero : F) Flt.one = true) (fmt : DataFormat) (input : Input F)
    (hs : Saved x input) (m : Serde.Model F) (hm : input.load x.hash = .ok m) (he : m.ws.red.NoElementwise) (hf : FormatFits fmt m) (data : Str)
    (hc : Clean x fmt data) (cs : List Str) (hd : Examples x fmt m data cs) (exs : List (Features F × Label F)) (hp : List.Forall₂ (Parsed x fmt m) cs exs)
    (ht : ∀ ex ∈ exs, Trainable x.dbg m.ws.red.cbMode ex) (per : OutputPeriod) :
    ∃ w, Learns x.dbg m.ws exs w ∧ Train x (quietly per) fmt input data ⟨[], [], Serde.serializeModel ⟨m.global, w⟩⟩ := by
  have ha := saved_alive hs hm
  have hall : ∀ ex ∈ exs, ex.1.Formed ∧ Fitting m.global.numBits m.ws.red.meta.types.inFeatures m.ws.red.meta.types.inLabel (ex.1, some ex.2) := by
    intro ex hex
    clear hd ht
    induction hp with
    | nil => cases hex
    | cons h1 _ ih =>
      rcases List.mem_cons.1 hex with rfl | hex
      · exact parsed_fitting ha hf h1
      · exact ih hex
  obtain ⟨w, hw⟩ := alive_learns_all h01 exs ha he fun ex hex => ⟨(hall ex hex).1, (hall ex hex).2, ht ex hex⟩
  exact ⟨w, hw, C77_quiet_succeeds x fmt input hs m hm hf data hc cs hd exs hp w hw per⟩

end Cli

/-! ### C82 -/

theorem Built.noUniform {hash : HashFn} {g : GlobalConfig} {nma : Nat} {c : RedConfig F} {x : (r : Red F) × r.State} (hb : Built hash g nma c x)
    (h : x.1.NoUniform) : c.NoUniform := by
  induction hb with
  | coin _ => trivial
  | binary _ _ ih => exact ih h
  | cbAdf _ _ ih => exact ih h
  | greedy _ _ ih => exact ih h
  | softmax _ _ ih => exact ⟨h.1, ih h.2⟩
  | squareCb _ _ _ ih => exact ⟨h.1, ih h.2⟩
  | debug _ _ ih => exact ih h
  | elementwise _ _ ih => exact ih h

/-- A trained, saved or loaded model predicts and learns from every fitting example. -/
theorem alive_plays {dbg : Bool} (h01 : dbg = true → Flt.lt (Flt.zero : F) Flt.one = true) {g : GlobalConfig} {w : Workspace F} (ha : Cli.Alive g w)
    (he : w.red.NoElementwise) (hu : w.red.NoUniform) {ex : Features F × Label F} (hf : ex.1.Formed)
    (hfit : Fitting g.numBits w.red.meta.types.inFeatures w.red.meta.types.inLabel (ex.1, some ex.2)) (ht : Trainable dbg w.red.cbMode ex)
    (hact : w.red.meta.types.outPrediction = .actionProbs → ex.1.actionList ≠ []) :
    ∃ p w' ft', w.predictThenLearn dbg ex.1 ex.2 = .ok (p, w', ft') ∧ w'.red = w.red ∧ Cli.Alive g w' ∧ ft'.countAll = ex.1.countAll ∧
      p.ty = w.red.meta.types.outPrediction ∧ ∀ f ps, ex.1 = .cbAdf f → p = .actionProbs ps → ps.map (·.1) = List.range f.actions.length := by
  obtain ⟨hash, g0, c, ⟨red0, s0⟩, h1, h2⟩ := ha.from_
  obtain ⟨red, s⟩ := w
  simp only at h2
  subst h2
  have hb := built_of_new h1
  have hne := hb.noElementwise
  have hok : Ready dbg ex.1 := ready_of hf ht.valid
  have htame : TameFt dbg g.numBits ex.1 := fun f hf => ⟨(hfit.fit f hf).fits, fun hd => ht.settled hd f hf⟩
  have hfine : LabelFine dbg c.cbMode ex.1 ex.2 := ⟨ht.positive, by rw [← hne.2]; exact ht.chosen⟩
  obtain ⟨p, s', ft', h3, _⟩ := ptl_safe (G := CoinGood g.numBits) (nb := g.numBits) (fun _ h => h) (fun c f hg hf => hg.predict dbg hf) h01 hb (hne.1 he) (probsOk_of_noUniform c (hb.noUniform hu)) s ex.1 ex.2 0
    ⟨ha.inv.ok, ha.range⟩ hok htame hfit.type hact (hfit.label _ rfl) hfine (by decide)
  have hw := wrap_safe (ptlImpl_nice dbg red hb.pairsOk s ex.2 0) red hok htame (by decide : (0 : Nat) < 256) h3
  have hr : Workspace.predictThenLearn dbg ⟨red, s⟩ ex.1 ex.2 = .ok (p, ⟨red, s'⟩, ft') := by
    unfold Workspace.predictThenLearn Red.predictThenLearn
    simp only
    rw [hw, ok_bind]
  obtain ⟨ft0, g1⟩ := ptl_predicts (w := ⟨red, s⟩) hb.pairsOk hok.plain hr
  obtain ⟨ftl, g2⟩ := ptl_learns (w := ⟨red, s⟩) hb.pairsOk hok.plain hr
  have g3 : ∃ ft1 d1 d2, red.predictImpl dbg s ex.1 d1 = .ok (p, ft1, d2) := by
    unfold Workspace.predict Red.predict at g1
    obtain ⟨⟨q, fa, da⟩, g4, g5⟩ := bind_ok.1 g1
    simp only [Except.ok.injEq, Prod.mk.injEq] at g5
    obtain ⟨rfl, rfl⟩ := g5
    obtain ⟨d1, d2, _, g6, _⟩ := wrapCall_ok g4
    exact ⟨_, _, _, g6⟩
  obtain ⟨ft1, d1, d2, g3⟩ := g3
  refine ⟨p, ⟨red, s'⟩, ft', hr, rfl, ha.learn g2, ptl_count (w := ⟨red, s⟩) hb.pairsOk hok.plain hr, ?_, fun f ps hf hps => ?_⟩
  · exact (((hb.predict_typed dbg s) ex.1 d1 hfit.type).2 _ _ _ g3).1
  · rw [hf] at g3
    exact predict_ids dbg red f s d1 g3 _ (by rw [hps]; rfl)

namespace Cli

/-- C81, in the release profile and without the mtr mode this is all that training needs: it succeeds if and only if every example can be parsed and
has a label. -/
theorem C81_release (x : Externals F N) (hx : x.dbg = false) (fmt : DataFormat) (input : Input F) (hs : Saved x input) (m : Serde.Model F)
    (hm : input.load x.hash = .ok m) (he : m.ws.red.NoElementwise) (hmode : m.ws.red.cbMode ≠ some .mtr) (data : Str) (hc : Clean x fmt data)
    (cs : List Str) (hd : Examples x fmt m data cs) (per : OutputPeriod) :
    (∃ out, Train x (quietly per) fmt input data out) ↔ FormatFits fmt m ∧ ∀ c ∈ cs, ∃ ex, Parsed x fmt m c ex := by
  constructor
  · rintro ⟨out, h⟩
    obtain ⟨h1, cs', exs, w, h2, h3, -⟩ := C77_train x fmt input hs m hm data hc _ _ h
    obtain ⟨p, hpf⟩ := fits_parser x h1
    refine ⟨h1, ?_⟩
    rw [← examples_chunks hpf hd, examples_chunks hpf h2]
    intro c hcc
    exact (forall₂_mem_left h3 hcc).imp fun ex h => h.2
  · rintro ⟨hf, h⟩
    obtain ⟨exs, h⟩ : ∃ exs, List.Forall₂ (Parsed x fmt m) cs exs := by
      clear hd
      induction cs with
      | nil => exact ⟨[], .nil⟩
      | cons c cs ih =>
        obtain ⟨ex, h1⟩ := h c (by simp)
        obtain ⟨exs, h2⟩ := ih fun c' hc' => h c' (List.mem_cons_of_mem _ hc')
        exact ⟨ex :: exs, .cons h1 h2⟩
    obtain ⟨w, -, h1⟩ := C81_train x (by rw [hx]; exact fun h => nomatch h) fmt input hs m hm he hf data hc cs hd exs h
      (fun ex _ => ⟨fun h => absurd (hx.symm.trans h) (by decide), fun h => absurd (hx.symm.trans h) (by decide),
        fun h => absurd (hx.symm.trans h) (by decide), fun h => absurd h hmode⟩) per
    exact ⟨_, h1⟩

/-- A point that every metric of the run accepts. -/
structure Suits (names : List Str) (t : TypeDesc) (l : Label F) (p : Prediction F) : Prop where
  label : l.ty = t.inLabel
  pred : p.ty = t.outPrediction
  chosen : "ips".toList ∈ names → ∀ cl ps, l = .cb cl → p = .actionProbs ps → cl.action ∈ ps.map (·.1)

/-- What is known of each example of a run with output. -/
structure GoodEx (dbg : Bool) (names : List Str) (g : GlobalConfig) (r : Red F) (ex : Features F × Label F) : Prop where
  formed : ex.1.Formed
  fit : Fitting g.numBits r.meta.types.inFeatures r.meta.types.inLabel (ex.1, some ex.2)
  train : Trainable dbg r.cbMode ex
  actions : r.meta.types.outPrediction = .actionProbs → ex.1.actionList ≠ []
  ips : "ips".toList ∈ names → ∀ f cl, ex = (.cbAdf f, .cb cl) → cl.action < f.actions.length

theorem noisy_loop {dbg : Bool} (h01 : dbg = true → Flt.lt (Flt.zero : F) Flt.one = true) {o : TrainOpts} (ho : o.quiet = false ∨ o.predictionsFile = true)
    (q : Nat) {parse : Parse F} {Q : Str → Features F × Label F → Prop} (hQ : ∀ c ex, Q c ex ↔ ∃ pool, parse ⟨[]⟩ c = .ok ((ex.1, some ex.2), pool))
    {g : GlobalConfig} {names : List Str} {cs : List Str} {exs : List (Features F × Label F)} (hp : List.Forall₂ Q cs exs) : ∀ (w : TrainWorld F),
    Alive g w.ws → w.ws.red.NoElementwise → w.ws.red.NoUniform → (∀ ex ∈ exs, GoodEx dbg names g w.ws.red ex) →
    (∀ m ∈ w.metrics, ∀ l p, Suits names w.ws.red.meta.types l p → Accepts l p m) →
    (∀ m ∈ w.metrics, Room (exs.map (fun ex => ex.1.countAll)).sum exs.length m) → (exs = [] → ∀ m ∈ w.metrics, o.quiet = false → Shown m) →
    (∃ bs mg, TrainManager.run dbg exs.length w.manager = .ok (bs, mg)) →
    ∃ w', ((trainPoolPipe dbg o q parse).withObjects ⟨[]⟩).sequential cs w = (w', true) ∧ ∀ m ∈ w'.metrics, o.quiet = false → Shown m := by
  induction hp with
  | nil => intro w _ _ _ _ _ _ hs _; exact ⟨w, rfl, hs rfl⟩
  | @cons c ex cs exs h1 _ ih =>
    intro w ha he hu hex hm hroom _ ⟨bs, mg, hrun⟩
    have hx := hex ex (by simp)
    obtain ⟨pool, hpc⟩ := (hQ c ex).1 h1
    obtain ⟨p, ws, ft', g1, g2, g3, g4, g5, g6⟩ := alive_plays h01 ha he hu hx.formed hx.fit hx.train hx.actions
    have hsuit : Suits names w.ws.red.meta.types ex.2 p := by
      refine ⟨hx.fit.label _ rfl, g5, fun hi cl ps hl hps => ?_⟩
      have hfm : ∃ f, ex.1 = .cbAdf f := by
        obtain ⟨hash, g0, c0, w0, e1, e2⟩ := ha.from_
        have hty : w0.red.meta.types.inFeatures = .sparseCBAdf ↔ w0.red.meta.types.inLabel = .cb := (built_of_new e1).cbTypes
        rw [← e2] at hty
        refine cb_of_ty (hx.fit.type.trans (hty.2 ?_))
        rw [← hx.fit.label _ rfl, hl]
        rfl
      obtain ⟨f, hf⟩ := hfm
      rw [g6 f ps hf hps, List.mem_range]
      exact hx.ips hi f cl (by rw [← hf, ← hl])
    obtain ⟨w', ft'', k1, k2, k3, k4, bs', k5⟩ := process_ok ho g1 g4 (n := (exs.map (fun ex => ex.1.countAll)).sum) (k := exs.length)
      (fun m hmm => ⟨hm m hmm _ _ hsuit, by simpa using hroom m hmm⟩) hrun (As := Suits names w.ws.red.meta.types) hm
    obtain ⟨w2, i1, i2⟩ := ih w' (by rw [k2]; exact g3) (by rw [k2, g2]; exact he) (by rw [k2, g2]; exact hu)
      (by rw [k2, g2]; exact fun e h => hex e (List.mem_cons_of_mem _ h)) (by rw [k2, g2]; exact k4) (fun m hmm => (k3 m hmm).1)
      (fun _ m hmm _ => (k3 m hmm).2) ⟨bs', mg, k5⟩
    refine ⟨w2, ?_, i2⟩
    simp only [Pipe.sequential, PoolPipe.withObjects, trainPoolPipe, hpc]
    rw [k1]
    simp only [Option.map_some]
    exact i1

theorem known_metric {name : Str} (h : name = "mse".toList ∨ name = "ips".toList ∨ name = "parsed_features".toList ∨ name = "example_number".toList) :
    ∃ m, (getMetric name : Option (Metric F)) = some m := by
  rcases h with rfl | rfl | rfl | rfl <;> exact ⟨_, rfl⟩

/-- The metric that a name stands for is accepted and has room. -/
theorem metric_start {a : TrainArgs} {m : Serde.Model F} {exs : List (Features F × Label F)} (h : OutputFits a m exs) {name : Str}
    (hn : name = "example_number".toList ∨ name ∈ a.metrics.getD []) {mt : Metric F} (hg : getMetric name = some mt) :
    (∀ l p, Suits (a.metrics.getD []) m.ws.red.meta.types l p → Accepts l p mt) ∧ Room (exs.map (fun ex => ex.1.countAll)).sum exs.length mt := by
  have hcount : exs.map (fun ex => ex.1.countAll) = exs.map (fun ex => numFeatures ex.1) := List.map_congr_left fun ex _ => numFeatures_eq ex.1
  unfold getMetric at hg
  split at hg
  · rename_i e
    cases hg
    have hmem : "mse".toList ∈ a.metrics.getD [] := by
      rcases hn with hn | hn
      · rw [hn] at e; exact absurd e (by decide)
      · rw [← e]; exact hn
    obtain ⟨e1, e2⟩ := h.mse hmem
    exact ⟨fun l p hs => ⟨hs.label.trans e1, hs.pred.trans e2⟩, trivial⟩
  · split at hg
    · rename_i e
      cases hg
      have hmem : "ips".toList ∈ a.metrics.getD [] := by
        rcases hn with hn | hn
        · rw [hn] at e; exact absurd e (by decide)
        · rw [← e]; exact hn
      obtain ⟨e1, e2, _⟩ := h.ips hmem
      refine ⟨fun l p hs => ?_, trivial⟩
      have hl := hs.label.trans e1
      have hp := hs.pred.trans e2
      cases l <;> simp [Label.ty] at hl
      cases p <;> simp [Prediction.ty] at hp
      exact ⟨_, _, rfl, rfl, hs.chosen hmem _ _ rfl rfl⟩
    · split at hg
      · rename_i e
        cases hg
        have hmem : "parsed_features".toList ∈ a.metrics.getD [] := by
          rcases hn with hn | hn
          · rw [hn] at e; exact absurd e (by decide)
          · rw [← e]; exact hn
        refine ⟨fun _ _ _ => trivial, ?_⟩
        simp only [Room, Nat.zero_add]
        rw [hcount]
        exact h.features hmem
      · split at hg
        · cases hg
          refine ⟨fun _ _ _ => trivial, ?_⟩
          simp only [Room, Nat.zero_add]
          exact h.examples
        · cases hg

/-- C82. Start from a configuration or a model that `train` has written, with no ElementwiseInteraction and with uniform epsilons 0. If every example of the
data can be parsed, has a label and is trainable, and the options fit the model and the examples, then training with output succeeds. (C77 and C78 say
what it writes, and C70 that any number of threads does the same.) -/
theorem C82_train (x : Externals F N) (h01 : x.dbg = true → Flt.lt (Flt.zero : F) Flt.one = true) (fmt : DataFormat) (input : Input F)
    (hs : Saved x input) (m : Serde.Model F) (hm : input.load x.hash = .ok m) (he : m.ws.red.NoElementwise) (hu : m.ws.red.NoUniform)
    (hf : FormatFits fmt m) (data : Str) (hc : Clean x fmt data) (cs : List Str) (hd : Examples x fmt m data cs) (exs : List (Features F × Label F))
    (hp : List.Forall₂ (Parsed x fmt m) cs exs) (ht : ∀ ex ∈ exs, Trainable x.dbg m.ws.red.cbMode ex) (a : TrainArgs) (hth : a.threads = 0)
    (hq : a.quiet = false ∨ a.predictions = true) (ho : OutputFits a m exs) : ∃ out, Train x a fmt input data out := by
  have ha := saved_alive hs hm
  obtain ⟨p, hpf⟩ := fits_parser x hf
  obtain ⟨P, hpo, hcs⟩ := parser_ok hpf hc
  have hall : ∀ ex ∈ exs, GoodEx x.dbg (a.metrics.getD []) m.global m.ws.red ex := by
    intro ex hex
    have : ex.1.Formed ∧ Fitting m.global.numBits m.ws.red.meta.types.inFeatures m.ws.red.meta.types.inLabel (ex.1, some ex.2) := by
      clear hd ht ho
      induction hp with
      | nil => cases hex
      | cons h1 _ ih =>
        rcases List.mem_cons.1 hex with rfl | hex
        · exact parsed_fitting ha hf h1
        · exact ih hex
    exact ⟨this.1, this.2, ht ex hex, fun h => ho.actions h ex hex, fun hi => (ho.ips hi).2.2 ex hex⟩
  obtain ⟨ms, hms, hmq⟩ : ∃ ms, a.makeMetrics = .ok ms ∧ ∀ mt ∈ ms, ∃ name : Str, (name = "example_number".toList ∨ name ∈ a.metrics.getD []) ∧
      (getMetric name : Option (Metric F)) = some mt := by
    unfold TrainArgs.makeMetrics
    have e : (getMetric "example_number".toList : Option (Metric F)) = some (.exampleNumber 0) := rfl
    rw [e]
    have e0 : (unwrapOpt (some (.exampleNumber 0)) : M (Metric F)) = .ok (.exampleNumber 0) := rfl
    rw [e0, ok_bind]
    cases hmm : a.metrics with
    | none => exact ⟨_, rfl, fun mt h => ⟨_, .inl rfl, by rw [List.mem_singleton.1 h]; exact e⟩⟩
    | some names =>
      obtain ⟨r, h1, h2⟩ := mapM_ok (f := fun n => (unwrapOpt (getMetric n) : M (Metric F))) (Q := fun mt => ∃ name ∈ names, getMetric name = some mt)
        (l := names) (by
          intro n hn
          obtain ⟨mt, h⟩ := known_metric (F := F) (ho.known n (by rw [hmm]; exact hn))
          exact ⟨mt, by rw [h]; rfl, n, hn, h⟩)
      refine ⟨_, by simp only; rw [h1, ok_bind], fun mt h => ?_⟩
      rcases List.mem_cons.1 h with rfl | h
      · exact ⟨_, .inl rfl, e⟩
      · obtain ⟨name, h3, h4⟩ := h2 mt h
        exact ⟨name, .inr h3, h4⟩
  obtain ⟨bs, mg, hrun, _⟩ := C57_rule x.dbg a.progress exs.length (by have := ho.examples; omega) ho.period
  have hcs' := hcs
  rw [examples_chunks hpf hd] at hcs'
  obtain ⟨w, h1, h2⟩ := noisy_loop (o := a.opts) h01 hq 0 (parsed_iff hpf) hp (a.start m.ws ms) ha he hu hall
    (fun mt hmt => by
      obtain ⟨name, h1, h2⟩ := hmq mt hmt
      exact (metric_start ho h1 h2).1)
    (fun mt hmt => by
      obtain ⟨name, h1, h2⟩ := hmq mt hmt
      exact (metric_start ho h1 h2).2)
    (fun h0 mt _ hqq => absurd h0 (ho.some hqq)) ⟨bs, mg, hrun⟩
  have hfin : ∃ out, finish x.dbg a m.global w = .ok out := by
    unfold finish
    cases hqq : a.quiet with
    | true => exact ⟨_, rfl⟩
    | false =>
      obtain ⟨r, h3, _⟩ := mapM_ok (f := fun m : Metric F => m.getValue x.dbg) (Q := fun _ => True) (l := w.metrics) (fun mt hmt => by
        obtain ⟨v, hv⟩ := shown_value x.dbg (h2 mt hmt hqq)
        exact ⟨v, hv, trivial⟩)
      simp only [Bool.false_eq_true, if_false]
      rw [h3, ok_bind, ok_bind]
      exact ⟨_, rfl⟩
  obtain ⟨out, hfin⟩ := hfin
  refine ⟨out, .intro p m.global (a.start m.ws ms) w (prepare_of hm hpf hms) (.single hth ?_) hfin⟩
  rw [trainLoop_eq hpo x.dbg _ 0 _ _ _ hcs (by exact ha.from_.pairsOk) poolOk_nil, examples_chunks hpf hd]
  exact h1

section examples
attribute [local instance] sintFlt sint_cmp sint_zero

theorem settled_sint (v : SInt) : Settled v := by
  have h : Flt.sub v v = SInt.num 0 := by
    show SInt.num (v.val - v.val) = _
    rw [Int.sub_self]
  unfold Settled
  rw [h]
  decide

/-- C81, C82: the hypotheses are met, in the debug profile, by a configuration and two examples, with all kinds of output. -/
example : ∃ cs exs, (exExt.dbg = true → Flt.lt (Flt.zero : SInt) Flt.one = true) ∧ Saved exExt exConfig ∧ exConfig.load exExt.hash = .ok exLoad ∧
    exLoad.ws.red.NoElementwise ∧ exLoad.ws.red.NoUniform ∧ FormatFits .vwText exLoad ∧ Clean exExt .vwText exA ∧ Examples exExt .vwText exLoad exA cs ∧
    List.Forall₂ (Parsed exExt .vwText exLoad) cs exs ∧ (∀ ex ∈ exs, Trainable exExt.dbg exLoad.ws.red.cbMode ex) ∧ exArgs.threads = 0 ∧
    exArgs.quiet = false ∧ OutputFits exArgs exLoad exs ∧ exs.length = 2 := by
  have h3 : ((single exExt exArgs .vwText exConfig exA).map (·.predictions.length)) = some 2 := by decide +kernel
  obtain ⟨out, h4, h5⟩ := Option.map_eq_some_iff.1 h3
  obtain ⟨h6, cs, exs, w, h7, h8, h9, _, h10, _⟩ := C77_train exExt .vwText exConfig (.config _) exLoad exLoad_eq exA (exClean _) exArgs out
    (single_train rfl h4)
  have hlen : exs.length = 2 := by rw [← h5, ← (h10 rfl).length]
  have hty : exLoad.ws.red.meta.types.inLabel = .simple ∧ exLoad.ws.red.meta.types.outPrediction = .scalar ∧
    exLoad.ws.red.meta.types.inFeatures = .sparseSimple ∧ exLoad.ws.red.cbMode = none := by decide +kernel
  have hc : ∃ a, exLoad.ws.red = .coin a := by
    have : (match exLoad.ws.red with | .coin _ => true | _ => false) = true := by decide +kernel
    split at this
    · exact ⟨_, by assumption⟩
    · cases this
  obtain ⟨ma, hc⟩ := hc
  refine ⟨cs, exs, fun _ => by decide, .config _, exLoad_eq, ?_, ?_, h6, exClean _, h7, h8, ?_, rfl, rfl, ?_, hlen⟩
  · rw [hc]; trivial
  · rw [hc]; trivial
  · intro ex hex
    obtain ⟨c, _, hp⟩ := forall₂_mem_left h8.flip hex
    have := parsed_fitting (saved_alive (.config _) exLoad_eq) h6 hp
    obtain ⟨f, l⟩ := ex
    refine ⟨fun _ => ?_, fun _ f _ iv _ => settled_sint _, fun _ cl hl => ?_, fun h => ?_⟩
    · have h1 := this.1
      have h2 := this.2.type
      cases f with
      | simple f => exact h1
      | cbAdf f => rw [hty.2.2.1] at h2; cases h2
    · have h2 := this.2.label _ rfl
      rw [hty.1] at h2
      simp only at hl
      subst hl
      cases h2
    · rw [hty.2.2.2] at h
      cases h
  · refine ⟨fun _ h => ?_, fun n hn => ?_, fun _ => ⟨hty.1, hty.2.1⟩, fun h => ?_, fun h => ?_, by rw [hlen]; decide, fun q hq => ?_, fun h => ?_⟩
    · rw [h] at hlen; cases hlen
    · have : n = "mse".toList := by simpa [exArgs] using hn
      exact .inl this
    · exact absurd h (by decide)
    · exact absurd h (by decide)
    · cases hq
      rw [hlen]
      decide
    · rw [hty.2.1] at h
      cases h

end examples
end Cli
end
end Rml
