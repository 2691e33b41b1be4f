import Verif.Props.Command
import Verif.Lemmas.Table

/-!
# C77, C78: `train` does what a user of the library would do, and its progress table

`train` parses the examples with recycled feature objects, perhaps in other threads, and calls `predict_then_learn` unless it is quiet. The result is the
same as parsing each example with new objects and calling `learn`, and, for the predictions file, `predict` before it.
-/

set_option linter.unusedSectionVars false

namespace Rml
namespace Cli
open Text Serde
variable {F : Type} [Flt F] [LawfulCmp F] [SignedZero F] {N : Type}

/-- C77: a successful `train` has parsed every example of the data, has learned them in the order of the data, has saved the model that this gives, and has
written for each example the prediction that the model made before it learned this example. -/
theorem C77_train (x : Externals F N) (fmt : DataFormat) (input : Input F) (hs : Saved x input) (m : Serde.Model F)
    (hm : input.load x.hash = .ok m) (data : Str) (hc : Clean x fmt data) (a : TrainArgs) (out : TrainOutput F) (h : Train x a fmt input data out) :
    FormatFits fmt m ∧ ∃ cs exs w, Examples x fmt m data cs ∧ List.Forall₂ (Parsed x fmt m) cs exs ∧ Learns x.dbg m.ws exs w ∧
      out.model = serializeModel ⟨m.global, w⟩ ∧ (a.predictions = true → Plays x.dbg m.ws exs out.predictions) ∧
      (a.predictions = false → out.predictions = []) := by
  have ha := saved_alive hs hm
  obtain ⟨p, w, hp, h1, h2, h3⟩ := train_result h hm ha hc
  obtain ⟨P, hpo, hcs⟩ := parser_ok hp hc
  obtain ⟨exs, h4, h5⟩ := (learnSeq_learns (Q := Parsed x fmt m) (parsed_iff hp) _ _).1 h1
  refine ⟨parser_fits hp, _, exs, w, examples_of hp, h4, h5, h2, fun ht => ?_, fun hf => ?_⟩
  · rw [if_pos ht] at h3
    exact playSeq_plays hpo (parsed_iff hp) _ _ _ hcs ha.from_.pairsOk h3 _ h4
  · rw [if_neg (by rw [hf]; decide)] at h3
    exact h3

/-- C77, the converse: if the format fits the model and all examples can be parsed and learned then the quiet run succeeds with this model. -/
theorem C77_quiet_succeeds (x : Externals F N) (fmt : DataFormat) (input : Input F) (hs : Saved x input) (m : Serde.Model F)
    (hm : input.load x.hash = .ok m) (hf : FormatFits fmt m) (data : Str) (hc : Clean x fmt data) (cs : List Str) (hd : Examples x fmt m data cs)
    (exs : List (Features F × Label F)) (he : List.Forall₂ (Parsed x fmt m) cs exs) (w : Workspace F) (hl : Learns x.dbg m.ws exs w)
    (per : OutputPeriod) : Train x (quietly per) fmt input data ⟨[], [], serializeModel ⟨m.global, w⟩⟩ := by
  obtain ⟨p, hp⟩ := fits_parser x hf
  refine quiet_train per hm (saved_alive hs hm) hc hp ?_
  rw [examples_chunks hp hd]
  exact (learnSeq_learns (Q := Parsed x fmt m) (parsed_iff hp) _ _).2 ⟨exs, he, hl⟩

/-! ### C78 -/

theorem names_metrics {a : TrainArgs} {ms : List (Metric F)} (h : a.makeMetrics = .ok ms) :
    List.Forall₂ (fun name m => getMetric name = some m) ("example_number".toList :: a.metrics.getD []) ms := by
  unfold TrainArgs.makeMetrics at h
  obtain ⟨m0, h0, h⟩ := bind_ok.1 h
  have un : ∀ {name : Str} {m : Metric F}, unwrapOpt (getMetric name) = .ok m → getMetric name = some m := by
    intro name m h
    cases hg : (getMetric name : Option (Metric F)) with
    | none => rw [hg] at h; cases h
    | some m' => rw [hg] at h; simp only [unwrapOpt, Except.ok.injEq] at h; rw [h]
  cases hm : a.metrics with
  | none =>
    rw [hm] at h
    simp only [Except.ok.injEq] at h
    subst h
    exact .cons (un h0) .nil
  | some names =>
    rw [hm] at h
    simp only at h
    obtain ⟨rest, h1, h⟩ := bind_ok.1 h
    simp only [Except.ok.injEq] at h
    subst h
    exact .cons (un h0) ((mapM_forall₂ h1).imp fun _ _ h => un h)

theorem table_run (x : Externals F N) (fmt : DataFormat) (input : Input F) (hs : Saved x input) (m : Serde.Model F)
    (hm : input.load x.hash = .ok m) (data : Str) (hc : Clean x fmt data) (a : TrainArgs) (hq : a.quiet = false) (cs : List Str)
    (hd : Examples x fmt m data cs) (hsz : cs.length < 2 ^ 31) (out : TrainOutput F) (h : Train x a fmt input data out) :
    ∃ exs ps bs m', List.Forall₂ (Parsed x fmt m) cs exs ∧ Plays x.dbg m.ws exs ps ∧
      TrainManager.run x.dbg cs.length (TrainManager.new a.progress) = .ok (bs, m') ∧
      List.Forall₂ (fun k row => RowIs ("example_number".toList :: a.metrics.getD []) ((exs.zip ps).take k) row) (rowsAfter bs ++ [cs.length]) out.rows := by
  have ha := saved_alive hs hm
  obtain ⟨p, g, w0, w, h1, h2, h3⟩ := h
  obtain ⟨m1, ms, e1, e2, e3, rfl, rfl⟩ := prepare_ok h1
  rw [hm] at e1
  cases e1
  obtain ⟨P, hpo, hcs⟩ := parser_ok e2 hc
  have s1 := loopEnds_sequential hpo hcs (by exact ha.from_) h2 0
  have hcs' := hcs
  rw [examples_chunks e2 hd] at s1 hcs'
  obtain ⟨exs, ps, bs, rows, i1, i2, i3, i4, i5, i6, _⟩ := sequential_table hpo x.dbg a.opts hq 0 (Q := Parsed x fmt m) (parsed_iff e2) cs _ _ hcs'
    ha.from_.pairsOk s1
  have hlen : (exs.zip ps).length = cs.length := by rw [List.length_zip, i2.length, Nat.min_self, i1.length_eq]
  refine ⟨exs, ps, bs, w.manager, i1, i2, i3, ?_⟩
  have hrow : ∀ {k : Nat} {row : List (MetricValue F)}, RowFrom x.dbg ms ((exs.zip ps).take k) row →
      RowIs ("example_number".toList :: a.metrics.getD []) ((exs.zip ps).take k) row := by
    intro k row hr
    refine forall₂_comp ?_ (names_metrics e3) hr
    rintro name m0 v n1 ⟨m2, n2, n3⟩
    refine metric_is n1 n2 n3 ?_
    rw [List.length_take, hlen]
    omega
  unfold finish at h3
  rw [if_neg (by simp [hq])] at h3
  obtain ⟨rows', h4, h3⟩ := bind_ok.1 h3
  obtain ⟨r, h5, h4⟩ := bind_ok.1 h4
  simp only [Except.ok.injEq] at h3 h4
  subst h3
  subst h4
  simp only [i5, TrainArgs.start, List.nil_append]
  refine List.rel_append (i6.imp fun k row hr => hrow hr) (.cons (hrow ?_) .nil)
  rw [List.take_of_length_le (by omega)]
  exact forall₂_comp (fun m m' v f1 f2 => ⟨m', f1, f2⟩) i4 (mapM_forall₂ h5)

/-- C78: the table of a successful run. A row is printed after the examples that the period selects, and once more at the end. Every row has the values of
the metrics for the examples up to there, with the predictions that were made before learning them. -/
theorem C78_table (x : Externals F N) (fmt : DataFormat) (input : Input F) (hs : Saved x input) (m : Serde.Model F)
    (hm : input.load x.hash = .ok m) (data : Str) (hc : Clean x fmt data) (a : TrainArgs) (hq : a.quiet = false) (cs : List Str)
    (hd : Examples x fmt m data cs) (hsz : cs.length < 2 ^ 31) (hper : ∀ q, a.progress = .additive q → cs.length + q ≤ 2 ^ 32)
    (out : TrainOutput F) (h : Train x a fmt input data out) :
    ∃ exs ps bs, List.Forall₂ (Parsed x fmt m) cs exs ∧ Plays x.dbg m.ws exs ps ∧ bs.length = cs.length ∧ Follows a.progress.schedule bs ∧
      List.Forall₂ (fun k row => RowIs ("example_number".toList :: a.metrics.getD []) ((exs.zip ps).take k) row) (rowsAfter bs ++ [cs.length]) out.rows := by
  obtain ⟨exs, ps, bs, m1, h1, h2, h3, h4⟩ := table_run x fmt input hs m hm data hc a hq cs hd hsz out h
  obtain ⟨bs', m', g1, g2, g3⟩ := C57_rule x.dbg a.progress cs.length (by omega) hper
  rw [g1] at h3
  simp only [Except.ok.injEq, Prod.mk.injEq] at h3
  obtain ⟨rfl, _⟩ := h3
  exact ⟨exs, ps, bs', h1, h2, g2, g3, h4⟩

/-- C78 for an additive period: a row after the first example and after every `q` further ones, and the last row. -/
theorem C78_additive (x : Externals F N) (fmt : DataFormat) (input : Input F) (hs : Saved x input) (m : Serde.Model F)
    (hm : input.load x.hash = .ok m) (data : Str) (hc : Clean x fmt data) (a : TrainArgs) (hq : a.quiet = false) (cs : List Str)
    (hd : Examples x fmt m data cs) (hsz : cs.length < 2 ^ 31) (q : Nat) (hp : a.progress = .additive q) (hq0 : 0 < q) (hq1 : cs.length + q ≤ 2 ^ 32)
    (out : TrainOutput F) (h : Train x a fmt input data out) :
    ∃ exs ps, List.Forall₂ (Parsed x fmt m) cs exs ∧ Plays x.dbg m.ws exs ps ∧
      List.Forall₂ (fun k row => RowIs ("example_number".toList :: a.metrics.getD []) ((exs.zip ps).take k) row)
        (((List.range cs.length).filter (fun i => i % q = 0)).map (· + 1) ++ [cs.length]) out.rows := by
  obtain ⟨exs, ps, bs, m1, h1, h2, h3, h4⟩ := table_run x fmt input hs m hm data hc a hq cs hd hsz out h
  refine ⟨exs, ps, h1, h2, ?_⟩
  obtain ⟨m', g1⟩ := C57_additive x.dbg q hq0 cs.length hq1
  rw [hp, g1] at h3
  simp only [Except.ok.injEq, Prod.mk.injEq] at h3
  obtain ⟨rfl, _⟩ := h3
  have e : rowsAfter ((List.range cs.length).map (fun i => decide (q ∣ i))) = ((List.range cs.length).filter (fun i => i % q = 0)).map (· + 1) := by
    unfold rowsAfter
    rw [List.length_map, List.length_range]
    congr 1
    refine List.filter_congr fun i hi => ?_
    have hi' := List.mem_range.1 hi
    simp [List.getElem?_map, List.getElem?_range hi', Nat.dvd_iff_mod_eq_zero]
  rw [← e]
  exact h4

section examples
attribute [local instance] sintFlt sint_cmp sint_zero

/-- C77: a run with output over two examples meets the hypotheses. -/
example : ∃ out, Saved exExt exConfig ∧ exConfig.load exExt.hash = .ok exLoad ∧ Clean exExt .vwText exA ∧ Train exExt exArgs .vwText exConfig exA out ∧
    exArgs.predictions = true ∧ out.predictions.length = 2 := by
  have h3 : ((single exExt exArgs .vwText exConfig exA).map (·.predictions.length)) = some 2 := by decide +kernel
  obtain ⟨out, h4, h5⟩ := Option.map_eq_some_iff.1 h3
  exact ⟨out, .config _, exLoad_eq, exClean _, single_train rfl h4, rfl, h5⟩

/-- C77, the converse: so the examples of this run can be parsed and learned. -/
example : ∃ cs exs w, FormatFits .vwText exLoad ∧ Examples exExt .vwText exLoad exA cs ∧ List.Forall₂ (Parsed exExt .vwText exLoad) cs exs ∧
    Learns exExt.dbg exLoad.ws exs w ∧ exs.length = 2 := by
  have h3 : ((single exExt exArgs .vwText exConfig exA).map (·.predictions.length)) = some 2 := by decide +kernel
  obtain ⟨out, h4, h5⟩ := Option.map_eq_some_iff.1 h3
  obtain ⟨h6, cs, exs, w, h7, h8, h9, _, h10, _⟩ := C77_train exExt .vwText exConfig (.config _) exLoad exLoad_eq exA (exClean _) exArgs out
    (single_train rfl h4)
  refine ⟨cs, exs, w, h6, h7, h8, h9, ?_⟩
  rw [← h5, ← (h10 rfl).length]

/-- C78: a run over three examples, with a row after every second example. -/
example : ∃ out, Saved exExt exConfig ∧ exConfig.load exExt.hash = .ok exLoad ∧ Clean exExt .vwText (exA ++ exB) ∧
    Train exExt { exArgs with progress := .additive 2 } .vwText exConfig (exA ++ exB) out ∧ out.rows.length = 3 ∧
    Examples exExt .vwText exLoad (exA ++ exB) ["3 |a x".toList, "3 |b y".toList, "3 |a x y".toList] := by
  have h3 : ((single exExt { exArgs with progress := .additive 2 } .vwText exConfig (exA ++ exB)).map (·.rows.length)) = some 3 := by decide +kernel
  obtain ⟨out, h4, h5⟩ := Option.map_eq_some_iff.1 h3
  refine ⟨out, .config _, exLoad_eq, exClean _, single_train rfl h4, h5, ?_⟩
  have h6 : chunksOf (Vw.getNextChunk (vwFor exExt exLoad)) (exA ++ exB) = ["3 |a x".toList, "3 |b y".toList, "3 |a x y".toList] := by decide +kernel
  rw [← h6]
  exact Vw.reads_chunksOf _ _

end examples

end Cli
end Rml
