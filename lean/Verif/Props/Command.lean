import Verif.Lemmas.Command3

/-!
# C69 to C73: the commands

C69: resumed training. C70: options that are about output and speed. C71: data without examples. C72: the `--progress` option. C73: `export-model` and
`import-model`.
-/

set_option linter.unusedSectionVars false

namespace Rml
namespace Cli
open Text Serde
variable {F : Type} [Flt F] {N : Type}

section
variable [LawfulCmp F] [SignedZero F]

theorem learnSeq_red {dbg : Bool} {parse : Parse F} (cs : List Str) : ∀ {w w' : Workspace F}, learnSeq dbg parse cs w = some w' → w'.red = w.red := by
  induction cs with
  | nil => intro w w' h; simp only [learnSeq, Option.some.injEq] at h; rw [h]
  | cons c cs ih =>
    intro w w' h
    simp only [learnSeq] at h
    split at h
    · split at h
      · rename_i h1
        rw [ih h, learn_red h1]
      · cases h
    · cases h

theorem parserFor_congr {x : Externals F N} {fmt : DataFormat} {m m' : Serde.Model F} (hg : m.global = m'.global) (hr : m.ws.red = m'.ws.red) :
    parserFor x fmt m = parserFor x fmt m' := by unfold parserFor; rw [hg, hr]

/-! ### C69 -/

/-- C69: train on `A`, save the model, train it further on `B`: the saved model is the one that training on `A` followed by `B` saves, and the
predictions are the same, whatever the options of the three runs. `input` is a configuration or itself a model file that was saved by `train`. -/
theorem C69_resumed_training (x : Externals F N) (fmt : DataFormat) (input : Input F) (hs : Saved x input) (m : Serde.Model F)
    (hm : input.load x.hash = .ok m) (A B : Str) (hA : WholeExamples (spansLines fmt m) A) (hcA : Clean x fmt A) (hcB : Clean x fmt B)
    (a1 a2 a : TrainArgs) (out1 out2 out : TrainOutput F) (h1 : Train x a1 fmt input A out1) (h2 : Train x a2 fmt (.inputModel out1.model) B out2)
    (h : Train x a fmt input (A ++ B) out) :
    out.model = out2.model ∧
      (a1.predictions = true → a2.predictions = true → a.predictions = true → out.predictions = out1.predictions ++ out2.predictions) := by
  have ha := saved_alive hs hm
  obtain ⟨p, w, e1, l1, r1, p1⟩ := train_result h1 hm ha hcA
  obtain ⟨p', w', e, l, r, p'⟩ := train_result h hm ha (clean_append hA hcA hcB)
  rw [e1] at e
  cases e
  rw [chunks_append e1 hA] at l p'
  rw [learnSeq_append, l1, Option.bind_some] at l
  have ha1 := ha.learnSeq _ l1
  have hload := load_saved m.global w x.hash
  rw [r1] at h2
  have hred : m.ws.red = w.red := (learnSeq_red _ l1).symm
  obtain ⟨p2, w2, e2, l2, r2, p2'⟩ := train_result h2 hload ha1.canon hcB
  rw [← parserFor_congr (m := m) (m' := Serde.Model.canon ⟨m.global, w⟩) rfl hred, e1] at e2
  cases e2
  obtain ⟨w3, l3, s3⟩ := learnSeq_sim _ ha1.sim l
  rw [l2] at l3
  cases l3
  refine ⟨?_, fun q1 q2 q => ?_⟩
  · rw [r, r2]
    exact encModel_eq SignedZero.zero_eq _ m.global s3
  · rw [q1] at p1
    rw [q2] at p2'
    rw [q] at p'
    simp only [if_true] at p1 p2' p'
    rw [playSeq_append, p1, Option.bind_some] at p'
    obtain ⟨⟨w4, ps⟩, g1, g2⟩ := Option.map_eq_some_iff.1 p'
    obtain ⟨w5, g3, _⟩ := playSeq_sim _ ha1.sim g1
    rw [p2'] at g3
    simp only [Option.some.injEq, Prod.mk.injEq] at g3 g2
    rw [← g2.2, g3.2]

/-- C69: if training in two steps succeeds, so does training in one step (quietly: the options about output can make a run fail, see C71). -/
theorem C69_one_step_succeeds (x : Externals F N) (fmt : DataFormat) (input : Input F) (hs : Saved x input) (m : Serde.Model F)
    (hm : input.load x.hash = .ok m) (A B : Str) (hA : WholeExamples (spansLines fmt m) A) (hcA : Clean x fmt A) (hcB : Clean x fmt B)
    (a1 a2 : TrainArgs) (out1 out2 : TrainOutput F) (h1 : Train x a1 fmt input A out1) (h2 : Train x a2 fmt (.inputModel out1.model) B out2)
    (per : OutputPeriod) : ∃ out, Train x (quietly per) fmt input (A ++ B) out := by
  have ha := saved_alive hs hm
  obtain ⟨p, w, e1, l1, r1, _⟩ := train_result h1 hm ha hcA
  have ha1 := ha.learnSeq _ l1
  rw [r1] at h2
  have hred : m.ws.red = w.red := (learnSeq_red _ l1).symm
  obtain ⟨p2, w2, e2, l2, _⟩ := train_result h2 (load_saved m.global w x.hash) ha1.canon hcB
  rw [← parserFor_congr (m := m) (m' := Serde.Model.canon ⟨m.global, w⟩) rfl hred, e1] at e2
  cases e2
  obtain ⟨w3, l3, _⟩ := learnSeq_sim _ (simWs_symm ha1.sim) l2
  exact ⟨_, quiet_train per hm ha (clean_append hA hcA hcB) e1 (by rw [chunks_append e1 hA, learnSeq_append, l1]; exact l3)⟩

/-- C69: if training in one step succeeds, so does training in two steps. -/
theorem C69_two_steps_succeed (x : Externals F N) (fmt : DataFormat) (input : Input F) (hs : Saved x input) (m : Serde.Model F)
    (hm : input.load x.hash = .ok m) (A B : Str) (hA : WholeExamples (spansLines fmt m) A) (hcA : Clean x fmt A) (hcB : Clean x fmt B)
    (a : TrainArgs) (out : TrainOutput F) (h : Train x a fmt input (A ++ B) out) (per : OutputPeriod) :
    ∃ out1 out2, Train x (quietly per) fmt input A out1 ∧ Train x (quietly per) fmt (.inputModel out1.model) B out2 := by
  have ha := saved_alive hs hm
  obtain ⟨p, w', e1, l, _⟩ := train_result h hm ha (clean_append hA hcA hcB)
  rw [chunks_append e1 hA, learnSeq_append] at l
  obtain ⟨w, l1, l2⟩ := Option.bind_eq_some_iff.1 l
  have ha1 := ha.learnSeq _ l1
  have hred : m.ws.red = w.red := (learnSeq_red _ l1).symm
  obtain ⟨w3, l3, _⟩ := learnSeq_sim _ ha1.sim l2
  exact ⟨_, _, quiet_train per hm ha hcA e1 l1, quiet_train per (load_saved m.global w x.hash) ha1.canon hcB
    (by rw [← parserFor_congr (m := m) (m' := Serde.Model.canon ⟨m.global, w⟩) rfl hred, e1]) l3⟩

/-! ### C70 -/

/-- C70: options about output and speed have no influence on the saved model, and none on the predictions. -/
theorem C70_same_model (x : Externals F N) (fmt : DataFormat) (input : Input F) (hs : Saved x input) (m : Serde.Model F)
    (hm : input.load x.hash = .ok m) (data : Str) (hc : Clean x fmt data) (a b : TrainArgs) (out out' : TrainOutput F)
    (h : Train x a fmt input data out) (h' : Train x b fmt input data out') :
    out.model = out'.model ∧ (a.predictions = true → b.predictions = true → out.predictions = out'.predictions) ∧
      (a.predictions = false → out.predictions = []) := by
  have ha := saved_alive hs hm
  obtain ⟨p, w, e1, l1, r1, p1⟩ := train_result h hm ha hc
  obtain ⟨p', w', e2, l2, r2, p2⟩ := train_result h' hm ha hc
  rw [e1] at e2
  cases e2
  rw [l1] at l2
  cases l2
  refine ⟨by rw [r1, r2], fun q1 q2 => ?_, fun q => ?_⟩
  · rw [q1] at p1
    rw [q2] at p2
    simp only [if_true] at p1 p2
    rw [p1] at p2
    simp only [Option.some.injEq, Prod.mk.injEq, true_and] at p2
    exact p2
  · rw [q] at p1
    simpa using p1

/-- C70: if a run with some options succeeds, then so does the run without output and threads, with the same model. -/
theorem C70_quiet_succeeds (x : Externals F N) (fmt : DataFormat) (input : Input F) (hs : Saved x input) (m : Serde.Model F)
    (hm : input.load x.hash = .ok m) (data : Str) (hc : Clean x fmt data) (a : TrainArgs) (out : TrainOutput F)
    (h : Train x a fmt input data out) (per : OutputPeriod) : Train x (quietly per) fmt input data ⟨[], [], out.model⟩ := by
  have ha := saved_alive hs hm
  obtain ⟨p, w, e1, l1, r1, p1⟩ := train_result h hm ha hc
  rw [r1]
  exact quiet_train per hm ha hc e1 l1

theorem makeMetrics_congr {a b : TrainArgs} (h : a.metrics = b.metrics) : (a.makeMetrics : M (List (Metric F))) = b.makeMetrics := by
  unfold TrainArgs.makeMetrics; rw [h]

theorem finish_congr {a b : TrainArgs} (h : a.quiet = b.quiet) (dbg : Bool) (g : GlobalConfig) (w : TrainWorld F) : finish dbg a g w = finish dbg b g w := by
  unfold finish; rw [h]

/-- C70: the number of threads and the size of the queues have no influence on anything that a run outputs. -/
theorem C70_threads_same_output (x : Externals F N) (fmt : DataFormat) (input : Input F) (hs : Saved x input) (m : Serde.Model F)
    (hm : input.load x.hash = .ok m) (data : Str) (hc : Clean x fmt data) (a b : TrainArgs) (hab : SameOutputOptions a b) (out out' : TrainOutput F)
    (h : Train x a fmt input data out) (h' : Train x b fmt input data out') : out = out' := by
  have ha := saved_alive hs hm
  obtain ⟨p, g, w0, w, h1, h2, h3⟩ := h
  obtain ⟨p', g', w0', w', h1', h2', h3'⟩ := h'
  obtain ⟨m1, ms, e1, e2, e3, rfl, rfl⟩ := prepare_ok h1
  obtain ⟨m1', ms', e1', e2', e3', rfl, rfl⟩ := prepare_ok h1'
  rw [hm] at e1 e1'
  cases e1
  cases e1'
  rw [e2] at e2'
  cases e2'
  rw [makeMetrics_congr hab.2.2.2, e3'] at e3
  cases e3
  obtain ⟨P, hpo, hcs⟩ := parser_ok e2 hc
  have s1 := loopEnds_sequential hpo hcs (by exact ha.from_) h2 0
  have s2 := loopEnds_sequential hpo hcs (by exact ha.from_) h2' 0
  have eo : a.opts = b.opts := by unfold TrainArgs.opts; rw [hab.1, hab.2.1]
  have es : a.start m.ws ms = b.start m.ws ms := by unfold TrainArgs.start; rw [hab.2.2.1]
  rw [eo, es, s2] at s1
  simp only [Prod.mk.injEq, and_true] at s1
  rw [← s1, finish_congr hab.1, h3'] at h3
  cases h3
  rfl

/-- C70: if the run without threads succeeds, then so does every run with threads: no schedule leads to a state in which no thread can go on and
the output is anything else. `prepare` is everything that happens before the loop. -/
theorem C70_threads_succeed (x : Externals F N) (fmt : DataFormat) (input : Input F) (hs : Saved x input) (m : Serde.Model F)
    (hm : input.load x.hash = .ok m) (data : Str) (hc : Clean x fmt data) (a b : TrainArgs) (hab : SameOutputOptions a b)
    (hn : 0 < b.threads) (hq : 0 < b.queueSize) (out : TrainOutput F) (h : Train x a fmt input data out) :
    Train x b fmt input data out ∧
    ∃ p g w0, prepare x b fmt input = .ok (p, g, w0) ∧
      ∀ s : PoolState (SparseFeatures F) Str (Features F × Option (Label F)) (TrainWorld F) b.threads,
        PoolRun (trainPoolPipe x.dbg b.opts b.queueSize p.parse) (chunksOf p.next data) w0 ⟨[]⟩ s →
        (∀ t, (trainPoolPipe x.dbg b.opts b.queueSize p.parse).step t s ≠ .fault) ∧
        ((∀ t s', t ≠ Tid.spurious → (trainPoolPipe x.dbg b.opts b.queueSize p.parse).step (.thread t) s ≠ .next s') →
          s.st.learner = .finished ∧ (∀ k, s.st.workers k = .exited) ∧ finish x.dbg b g s.st.world = .ok out) := by
  have ha := saved_alive hs hm
  obtain ⟨p, g, w0, w, h1, h2, h3⟩ := h
  obtain ⟨m1, ms, e1, e2, e3, rfl, rfl⟩ := prepare_ok h1
  rw [hm] at e1
  cases e1
  obtain ⟨P, hpo, hcs⟩ := parser_ok e2 hc
  have s1 := loopEnds_sequential hpo hcs (by exact ha.from_) h2 0
  rw [← trainLoop_eq hpo x.dbg a.opts 0 _ _ ⟨[]⟩ hcs ha.from_.pairsOk poolOk_nil] at s1
  have eo : a.opts = b.opts := by unfold TrainArgs.opts; rw [hab.1, hab.2.1]
  have es : a.start m.ws ms = b.start m.ws ms := by unfold TrainArgs.start; rw [hab.2.2.1]
  rw [eo, es] at s1
  rw [makeMetrics_congr hab.2.2.2] at e3
  have hp := prepare_of (x := x) (a := b) hm e2 e3
  have hlike : ∀ s, PoolRun (trainPoolPipe x.dbg b.opts b.queueSize p.parse) (chunksOf p.next data) (b.start m.ws ms) ⟨[]⟩ s → _ := fun s hr =>
    trainsLike (n := b.threads) hpo x.dbg b.opts b.queueSize _ hcs (b.start m.ws ms) (by exact ha.from_) ⟨[]⟩ ⟨[]⟩ .empty .empty s hr
  have hfin : ∀ s : PoolState (SparseFeatures F) Str (Features F × Option (Label F)) (TrainWorld F) b.threads,
      PoolRun (trainPoolPipe x.dbg b.opts b.queueSize p.parse) (chunksOf p.next data) (b.start m.ws ms) ⟨[]⟩ s → s.st.learner = .finished →
      s.st.world = w := by
    intro s hr hl
    have := (hlike s hr).finished hl
    rw [s1] at this
    exact (Prod.mk.inj this).1.symm
  constructor
  · obtain ⟨s, hr, hl⟩ := run_completes hpo x.dbg b.opts b.queueSize b.threads hn hq _ hcs (b.start m.ws ms) (by exact ha.from_) (by rw [s1])
    exact .intro _ _ _ w hp (.threads s (by omega) hr hl (hfin s hr hl)) (by rw [← finish_congr hab.1]; exact h3)
  · refine ⟨p, m.global, b.start m.ws ms, hp, fun s hr => ⟨(hlike s hr).noFault, fun hst => ?_⟩⟩
    obtain ⟨_, q2, q3⟩ := (hlike s hr).progress hn hq (by rw [s1]) hst
    exact ⟨q2, q3, by rw [hfin s hr q2, ← finish_congr hab.1]; exact h3⟩

/-! ### C71 -/

theorem examples_chunks {x : Externals F N} {fmt : DataFormat} {m : Serde.Model F} {p : TextParser F} {data : Str} {cs : List Str}
    (hp : parserFor x fmt m = .ok p) (h : Examples x fmt m data cs) : chunksOf p.next data = cs := by
  unfold parserFor at hp
  cases fmt with
  | vwText =>
    simp only [DataFormat.getParser, Except.ok.injEq] at hp
    subst hp
    exact (Vw.reads_chunksOf _ _).unique h
  | dsjson =>
    simp only [DataFormat.getParser] at hp
    split at hp
    · cases hp
    · split at hp
      · cases hp
      · simp only [Except.ok.injEq] at hp
        subst hp
        exact (Js.reads_chunksOf _).unique h
  | json =>
    simp only [DataFormat.getParser, Except.ok.injEq] at hp
    subst hp
    exact (Js.reads_chunksOf _).unique h

theorem fits_parser (x : Externals F N) {fmt : DataFormat} {m : Serde.Model F} (h : FormatFits fmt m) : ∃ p, parserFor x fmt m = .ok p := by
  unfold parserFor
  cases fmt with
  | vwText => exact ⟨_, rfl⟩
  | json => exact ⟨_, rfl⟩
  | dsjson =>
    obtain ⟨h1, h2⟩ := h rfl
    simp only [DataFormat.getParser, h1, h2]
    exact ⟨_, rfl⟩

/-- C71 (a violation): if the data has no examples, `train` fails unless it is quiet, whatever the model and the other options: it panics when it prints the
last row of the table. -/
theorem C71_no_examples_false (x : Externals F N) (fmt : DataFormat) (input : Input F) (hs : Saved x input) (m : Serde.Model F)
    (hm : input.load x.hash = .ok m) (data : Str) (hd : Examples x fmt m data []) (a : TrainArgs) (hq : a.quiet = false) (out : TrainOutput F) :
    ¬ Train x a fmt input data out := by
  rintro ⟨p, g, w0, w, h1, h2, h3⟩
  obtain ⟨m1, ms, e1, e2, e3, rfl, rfl⟩ := prepare_ok h1
  rw [hm] at e1
  cases e1
  have ha := saved_alive hs hm
  rw [examples_chunks e2 hd] at h2
  obtain ⟨P, hpo, -⟩ := parser_ok (data := []) e2 (by
    rintro rfl cs hcs c hc
    have h0 : Js.Reads [] [] := .stop rfl
    rw [hcs.unique h0] at hc
    cases hc)
  have s1 := loopEnds_sequential hpo (cs := []) (by simp) (by exact ha.from_) h2 0
  simp only [Pipe.sequential, Prod.mk.injEq, and_true] at s1
  subst s1
  have hh := makeMetrics_head e3
  unfold finish at h3
  rw [if_neg (by simp [hq])] at h3
  simp only [TrainArgs.start] at h3
  cases ms with
  | nil => cases hh
  | cons m0 rest =>
    simp only [List.head?_cons, Option.some.injEq] at hh
    subst hh
    obtain ⟨rows, h4, _⟩ := bind_ok.1 h3
    obtain ⟨r, h5, _⟩ := bind_ok.1 h4
    rw [List.mapM_cons] at h5
    obtain ⟨v, h6, _⟩ := bind_ok.1 h5
    simp [Metric.getValue] at h6

/-- C71: quietly, training a saved model on data without examples succeeds and writes the same model file. -/
theorem C71_quiet_unchanged_partial (x : Externals F N) (fmt : DataFormat) (d : Doc F) (hs : Saved x (.inputModel d)) (m : Serde.Model F)
    (hm : (Input.inputModel d).load x.hash = .ok m) (data : Str) (hd : Examples x fmt m data []) (hf : FormatFits fmt m) (per : OutputPeriod) :
    Train x (quietly per) fmt (.inputModel d) data ⟨[], [], d⟩ := by
  obtain ⟨p, hp⟩ := fits_parser x hf
  have ha := saved_alive hs hm
  have hc : Clean x fmt data := by
    rintro rfl cs hcs c hc
    rw [hcs.unique hd] at hc
    cases hc
  have := quiet_train per hm ha hc hp (w := m.ws) (by rw [examples_chunks hp hd]; rfl)
  have hd' : serializeModel ⟨m.global, m.ws⟩ = d := by
    obtain ⟨g, w, rfl⟩ := saved_doc hs
    rw [load_saved] at hm
    cases hm
    exact serialize_canon g w
  rwa [hd'] at this

/-- C71: the last row of the table counts the examples from zero. -/
theorem C71_last_row (x : Externals F N) (fmt : DataFormat) (input : Input F) (hs : Saved x input) (m : Serde.Model F)
    (hm : input.load x.hash = .ok m) (data : Str) (hc : Clean x fmt data) (cs : List Str) (hd : Examples x fmt m data cs) (hsz : cs.length < 2 ^ 31)
    (a : TrainArgs) (hq : a.quiet = false) (out : TrainOutput F) (h : Train x a fmt input data out) :
    0 < cs.length ∧ ∃ row, out.rows.getLast? = some row ∧ row.head? = some (.int (cs.length - 1 : Int)) := by
  have hpos : 0 < cs.length := by
    rcases Nat.eq_zero_or_pos cs.length with h0 | h0
    · rw [List.length_eq_zero_iff.1 h0] at hd
      exact absurd h (C71_no_examples_false x fmt input hs m hm data hd a hq out)
    · exact h0
  refine ⟨hpos, ?_⟩
  have ha := saved_alive hs hm
  obtain ⟨p, g, w0, w, h1, h2, h3⟩ := h
  obtain ⟨m1, ms, e1, e2, e3, rfl, rfl⟩ := prepare_ok h1
  rw [hm] at e1
  cases e1
  obtain ⟨P, hpo, hcs⟩ := parser_ok e2 hc
  have s1 := loopEnds_sequential hpo hcs (by exact ha.from_) h2 0
  rw [examples_chunks e2 hd] at s1
  have hh := sequential_count (o := a.opts) hq 0 cs (makeMetrics_head e3 : (a.start m.ws ms).metrics.head? = _) s1
  unfold finish at h3
  rw [if_neg (by simp [hq])] at h3
  obtain ⟨rows, h4, h3⟩ := bind_ok.1 h3
  obtain ⟨r, h5, h4⟩ := bind_ok.1 h4
  simp only [Except.ok.injEq] at h3 h4
  subst h3
  subst h4
  refine ⟨r, by simp, ?_⟩
  cases hm : w.metrics with
  | nil => rw [hm] at hh; cases hh
  | cons m0 rest =>
    rw [hm] at hh h5
    simp only [List.head?_cons, Option.some.injEq] at hh
    subst hh
    rw [List.mapM_cons] at h5
    obtain ⟨v, h6, h5⟩ := bind_ok.1 h5
    obtain ⟨vs, h7, h5⟩ := bind_ok.1 h5
    have : r = v :: vs := by
      have h5 : (Except.ok (v :: vs) : M _) = .ok r := h5
      injection h5 with h5
      exact h5.symm
    rw [this]
    have e : asI32 (0 + cs.length) = (cs.length : Int) := by
      unfold asI32
      rw [Nat.zero_add, Int.bmod_eq_of_le] <;> omega
    simp only [Metric.getValue, e, i32Pred] at h6
    rw [if_neg (by omega), if_neg (by omega)] at h6
    simp only [bind, Except.bind, Except.ok.injEq] at h6
    rw [List.head?_cons, ← h6]

end

/-! ### C72 -/

/-- C72: which texts of `--progress` mean "every `n` examples": the digits of `n`, after up to two plus signs. -/
theorem C72_additive (x : PeriodFns F) (s : Str) (n : Nat) : OutputPeriod.fromStr x s = some (.additive n) ↔
    ∃ ds : List (Fin 10), ds ≠ [] ∧ Vw.decimal ds = n ∧ n < 2 ^ 32 ∧
      (s = ds.map Vw.digitChar ∨ s = '+' :: ds.map Vw.digitChar ∨ s = '+' :: '+' :: ds.map Vw.digitChar) := by
  have hd : ∀ {ds : List (Fin 10)} {c : Char} {t : Str}, c :: t = ds.map Vw.digitChar → c ≠ '+' ∧ c ≠ '*' := by
    intro ds c t h
    cases ds with
    | nil => cases h
    | cons d ds =>
      rw [(List.cons.inj h).1]
      refine ⟨Vw.digitChar_ne_plus d, ?_⟩
      exact (by decide : ∀ d : Fin 10, Vw.digitChar d ≠ '*') d
  unfold OutputPeriod.fromStr
  cases s with
  | nil =>
    constructor
    · intro h; cases h
    · rintro ⟨ds, h1, _, _, h | h | h⟩
      · exact absurd (List.map_eq_nil_iff.1 h.symm) h1
      · cases h
      · cases h
  | cons c t =>
    by_cases hc : c = '+'
    · subst hc
      simp only [startsWith, List.head?_cons, decide_true, if_true, List.tail_cons, Option.map_eq_some_iff, OutputPeriod.additive.injEq]
      constructor
      · rintro ⟨n', h, rfl⟩
        obtain ⟨ds, h1, h2, h3, rfl⟩ := Vw.parseU32_value.1 h
        refine ⟨ds, h1, rfl, h2, ?_⟩
        rcases h3 with rfl | rfl
        · exact .inr (.inl rfl)
        · exact .inr (.inr rfl)
      · rintro ⟨ds, h1, rfl, h2, h | h | h⟩
        · exact absurd rfl (hd h).1
        · exact ⟨_, Vw.parseU32_value.2 ⟨ds, h1, h2, .inl (List.cons.inj h).2, rfl⟩, rfl⟩
        · exact ⟨_, Vw.parseU32_value.2 ⟨ds, h1, h2, .inr (List.cons.inj h).2, rfl⟩, rfl⟩
    · have e1 : startsWith '+' (c :: t) = false := by simp [startsWith, hc]
      rw [if_neg (by simp [e1])]
      by_cases hs : c = '*'
      · subst hs
        rw [if_pos (by simp [startsWith])]
        constructor
        · intro h
          obtain ⟨v, _, h⟩ := Option.map_eq_some_iff.1 h
          cases h
        · rintro ⟨ds, h1, rfl, h2, h | h | h⟩
          · exact absurd rfl (hd h).2
          · exact absurd (List.cons.inj h).1 hc
          · exact absurd (List.cons.inj h).1 hc
      · have e2 : startsWith '*' (c :: t) = false := by simp [startsWith, hs]
        rw [if_neg (by simp [e2])]
        simp only [Option.map_eq_some_iff, OutputPeriod.additive.injEq]
        constructor
        · rintro ⟨n', h, rfl⟩
          obtain ⟨ds, h1, h2, h3, rfl⟩ := Vw.parseU32_value.1 h
          refine ⟨ds, h1, rfl, h2, ?_⟩
          rcases h3 with h3 | h3
          · exact .inl h3
          · exact absurd (List.cons.inj h3).1 hc
        · rintro ⟨ds, h1, rfl, h2, h | h | h⟩
          · exact ⟨_, Vw.parseU32_value.2 ⟨ds, h1, h2, .inl h, rfl⟩, rfl⟩
          · exact absurd (List.cons.inj h).1 hc
          · exact absurd (List.cons.inj h).1 hc

/-- C72: which texts mean "each time the number of examples has grown by a factor": a star and a number. -/
theorem C72_multiplicative (x : PeriodFns F) (s : Str) (f : Nat → Nat) : OutputPeriod.fromStr x s = some (.multiplicative f) ↔
    ∃ t v, s = '*' :: t ∧ x.parseF32 t = some v ∧ f = x.scale v := by
  unfold OutputPeriod.fromStr
  cases s with
  | nil =>
    constructor
    · intro h; cases h
    · rintro ⟨t, v, h, _⟩; cases h
  | cons c t =>
    by_cases hc : c = '+'
    · subst hc
      rw [if_pos (by simp [startsWith])]
      constructor
      · intro h
        obtain ⟨v, _, h⟩ := Option.map_eq_some_iff.1 h
        cases h
      · rintro ⟨t', v, h, _⟩
        cases h
    · rw [if_neg (by simp [startsWith, hc])]
      by_cases hs : c = '*'
      · subst hs
        rw [if_pos (by simp [startsWith])]
        simp only [Option.map_eq_some_iff, List.tail_cons, OutputPeriod.multiplicative.injEq]
        constructor
        · rintro ⟨v, h, rfl⟩
          exact ⟨t, v, rfl, h, rfl⟩
        · rintro ⟨t', v, h, h1, rfl⟩
          exact ⟨v, by rw [(List.cons.inj h).2]; exact h1, rfl⟩
      · rw [if_neg (by simp [startsWith, hs])]
        constructor
        · intro h
          obtain ⟨v, _, h⟩ := Option.map_eq_some_iff.1 h
          cases h
        · rintro ⟨t', v, h, _⟩
          exact absurd (List.cons.inj h).1 hs

/-! ### C73 -/

section
variable [LawfulCmp F] [SignedZero F]

/-- C73: exporting a model file that `train` has written and importing the result gives the same model file, if all numbers in the model are finite (`fin`);
`order` is the order in which a hash map happens to list its entries. -/
theorem C73_export_import (x : Externals F N) (d : Doc F) (hs : Saved x (.inputModel d)) (m : Serde.Model F) (hm : createFromModel d = .ok m)
    (fin : F → Bool) (hf0 : fin Flt.zero = true) (hfin : FinRed fin m.ws.red m.ws.st)
    (order : List (Nat × List (List F)) → List (Nat × List (List F))) (horder : ∀ l, (order l).Perm l) :
    ∃ j, exportModel fin order d = .ok j ∧ importModel fin j = .ok d := by
  have hl : (Input.inputModel d).load x.hash = .ok m := by simp only [Input.load, hm, orPanic]
  have ha := saved_alive hs hl
  obtain ⟨j, h1, h2⟩ := json_roundtrip hf0 horder ha hfin
  refine ⟨j, ?_, ?_⟩
  · unfold exportModel
    rw [hm]
    change orPanic (serializeToJson fin order m) = _
    rw [show m = ⟨m.global, m.ws⟩ from rfl, h1]
    rfl
  · unfold importModel
    rw [h2]
    obtain ⟨g, w, rfl⟩ := saved_doc hs
    rw [load_saved] at hl
    cases hl
    change Except.ok (serializeModel (Serde.Model.canon (Serde.Model.canon ⟨g, w⟩))) = _
    rw [show serializeModel (Serde.Model.canon (Serde.Model.canon ⟨g, w⟩)) = serializeModel (Serde.Model.canon ⟨g, w⟩) from serialize_canon g _, serialize_canon g w]

end
section examples
attribute [local instance] sintFlt
attribute [local instance] sint_cmp sint_zero

/-- The run without threads, as a function. -/
def single (x : Externals F N) (a : TrainArgs) (fmt : DataFormat) (input : Input F) (data : Str) : Option (TrainOutput F) :=
  match prepare x a fmt input with
  | .ok (p, g, w0) =>
    match trainLoop x.dbg a.opts p.parse (chunksOf p.next data) w0 ⟨[]⟩ with
    | (w, true) => (finish x.dbg a g w).toOption
    | _ => none
  | .error _ => none

theorem single_train {x : Externals F N} {a : TrainArgs} {fmt : DataFormat} {input : Input F} {data : Str} {out : TrainOutput F} (h0 : a.threads = 0)
    (h : single x a fmt input data = some out) : Train x a fmt input data out := by
  unfold single at h
  split at h
  · rename_i p g w0 hp
    split at h
    · rename_i w hl
      refine .intro p g w0 w hp (.single h0 hl) ?_
      generalize finish x.dbg a g w = r at h ⊢
      cases r with
      | ok o => simp only [Except.toOption, Option.some.injEq] at h; rw [h]
      | error e => cases h
    · cases h
  · cases h

theorem single_exists {x : Externals F N} {a : TrainArgs} {fmt : DataFormat} {input : Input F} {data : Str} (h0 : a.threads = 0)
    (h : (single x a fmt input data).isSome = true) : ∃ out, Train x a fmt input data out := by
  obtain ⟨out, h⟩ := Option.isSome_iff_exists.1 h
  exact ⟨out, single_train h0 h⟩

def exExt : Externals SInt Int := ⟨fun s k => BitVec.ofNat 32 s.length + k, fun s => if s = ['3'] then some (.num 3) else none, fun _ => none,
  fun n => .num n, fun _ => none, fun n => .num n, true⟩

/-- `{"globalConfig": {"numBits": 2}, "entryReduction": {"typename": "Coin"}}`. -/
def exConfig : Input SInt := .config (.obj [("globalConfig".toList, .obj [("numBits".toList, .num (.nat 2))]),
  ("entryReduction".toList, .obj [("typename".toList, .str "Coin".toList)])])

def exLoad : Serde.Model SInt := (exConfig.load exExt.hash).toOption.get (by decide +kernel)

theorem eq_of_get {α : Type} {ε : Type} (r : Except ε α) (h : r.toOption.isSome = true) : r = .ok (r.toOption.get h) := by
  cases r with
  | error e => cases h
  | ok m => rfl

theorem exLoad_eq : exConfig.load exExt.hash = .ok exLoad := eq_of_get _ _

def exA : Str := "3 |a x\n3 |b y\n".toList
def exB : Str := "3 |a x y\n".toList

/-- Options with output and predictions. -/
def exArgs : TrainArgs := ⟨false, true, .additive 1, some ["mse".toList], 0, 0⟩

theorem exClean (data : Str) : Clean exExt .vwText data := fun h => nomatch h

/-- C69, C70: the hypotheses are met, with two examples in the first step and one in the second, and with output. -/
example : ∃ out1 out2 out, Saved exExt exConfig ∧ exConfig.load exExt.hash = .ok exLoad ∧ WholeExamples (spansLines .vwText exLoad) exA ∧
    Clean exExt .vwText exA ∧ Clean exExt .vwText exB ∧ Train exExt exArgs .vwText exConfig exA out1 ∧
    Train exExt exArgs .vwText (.inputModel out1.model) exB out2 ∧ Train exExt exArgs .vwText exConfig (exA ++ exB) out ∧ out.predictions.length = 3 := by
  have h1 : (single exExt exArgs .vwText exConfig exA).isSome = true := by decide +kernel
  have h2 : (single exExt exArgs .vwText (.inputModel ((single exExt exArgs .vwText exConfig exA).get h1).model) exB).isSome = true := by
    revert h1
    decide +kernel
  have h3 : ((single exExt exArgs .vwText exConfig (exA ++ exB)).map (·.predictions.length)) = some 3 := by decide +kernel
  obtain ⟨out, h4, h5⟩ := Option.map_eq_some_iff.1 h3
  refine ⟨_, _, out, .config _, exLoad_eq, ?_, exClean _, exClean _, single_train rfl (Option.some_get h1).symm, single_train rfl (Option.some_get h2).symm,
    single_train rfl h4, h5⟩
  refine ⟨["3 |a x".toList, "3 |b y".toList], by decide, by decide, fun h => ?_⟩
  have : spansLines .vwText exLoad = false := by decide +kernel
  rw [this] at h
  cases h

/-- C71: a file without examples. -/
example : Examples exExt .vwText exLoad [] [] ∧ exArgs.quiet = false ∧ FormatFits .vwText exLoad :=
  ⟨.stop rfl, rfl, fun h => by cases h⟩

/-- C72. -/
example (x : PeriodFns SInt) : OutputPeriod.fromStr x "++5".toList = some (.additive 5) ∧ OutputPeriod.fromStr x "+5".toList = some (.additive 5) ∧
    OutputPeriod.fromStr x "5".toList = some (.additive 5) ∧ OutputPeriod.fromStr x "-5".toList = none ∧ OutputPeriod.fromStr x "+++5".toList = none :=
  ⟨rfl, rfl, rfl, rfl, rfl⟩

/-- C73: a model that has been trained on two examples. -/
example : ∃ d m, Saved exExt (.inputModel d) ∧ createFromModel d = .ok m ∧ FinRed (fun _ : SInt => true) m.ws.red m.ws.st := by
  have h1 : (single exExt exArgs .vwText exConfig exA).isSome = true := by decide +kernel
  have ht := single_train rfl (Option.some_get h1).symm
  have hs : Saved exExt (.inputModel _) := .trained (.config _) ht (exClean _)
  obtain ⟨g, w, hd⟩ := saved_doc hs
  refine ⟨_, Serde.Model.canon ⟨g, w⟩, hs, ?_, finRed_true _ _⟩
  have := load_saved g w exExt.hash
  simp only [Input.load] at this
  rw [hd]
  generalize createFromModel (serializeModel ⟨g, w⟩) = r at this ⊢
  cases r with
  | ok m => simpa [orPanic] using this
  | error e => cases this

end examples

end Cli
end Rml
