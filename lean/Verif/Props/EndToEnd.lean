import Verif.Lemmas.PoolTrain
import Verif.Props.Recycle
import Verif.Props.Stack

/-!
# C67, C68: from text to a trained model

C67: the examples that the parsers make are those that the theorems about reductions are about (`Features.Valid`). C68: training from text with any
number of parser threads, with a pool of feature objects that all threads share, does what the single-threaded loop does.
-/

set_option linter.unusedSectionVars false

namespace Rml
open Text SparseFeatures
variable {F : Type} [Flt F] {N : Type}

theorem FtMade.formed {e : Prop} {ft : Features F} (h : FtMade e ft) : ft.Formed := by
  cases ft with
  | simple f => exact ⟨h.wf, h.noComposite⟩
  | cbAdf f => exact ⟨fun s hs => ⟨(h.1 s hs).wf, (h.1 s hs).noComposite⟩, fun a ha => ⟨(h.2 a ha).wf, (h.2 a ha).noComposite⟩⟩

theorem FtMade.valid {e : Prop} {ft : Features F} (h : FtMade e ft) (he : (∃ f, ft = .cbAdf f) → e) : ft.Valid := by
  cases ft with
  | simple f => exact ⟨h.wf, h.noComposite⟩
  | cbAdf f =>
    have he := he ⟨f, rfl⟩
    exact ⟨fun s hs => ⟨(h.1 s hs).wf, (h.1 s hs).noComposite, (h.1 s hs).noEmpty he⟩,
      fun a ha => ⟨(h.2 a ha).wf, (h.2 a ha).noComposite, (h.2 a ha).noEmpty he⟩⟩

/-! ## C67 -/

/-- VW text: whatever the chunk and the history of the pool, a parsed example is well-formed; it is valid if it is a simple example or every namespace
written in the chunk has a feature. -/
theorem C67_vw (pr : Vw.Parser F) (pool : Pool (SparseFeatures F)) (hpool : PoolReach pool) (chunk : Str)
    (r : (Features F × Option (Label F)) × Pool (SparseFeatures F)) (h : Vw.parseChunk pr pool chunk = .ok r) :
    r.1.1.Formed ∧ ((∃ f, r.1.1 = .simple f) ∨ Vw.ChunkFull pr chunk → r.1.1.Valid) := by
  have h1 := (Vw.parseChunk_made (e := Vw.ChunkFull pr chunk) pr (pool_objects hpool) chunk id r h).1
  refine ⟨h1.formed, fun h2 => h1.valid fun ⟨f, hf⟩ => ?_⟩
  rcases h2 with ⟨g, hg⟩ | h2
  · rw [hf] at hg
    cases hg
  · exact h2

/-- JSON. -/
theorem C67_json (pr : Js.Parser F N) (pool : Pool (SparseFeatures F)) (hpool : PoolReach pool) (chunk : Str)
    (r : (Features F × Option (Label F)) × Pool (SparseFeatures F)) (h : Js.parseChunk pr pool chunk = .ok r) :
    r.1.1.Formed ∧ ((∃ f, r.1.1 = .simple f) ∨ (∀ j, pr.parseJson chunk = some j → Js.DocFull j) → r.1.1.Valid) := by
  have h1 := (Js.parseChunk_made (e := ∀ j, pr.parseJson chunk = some j → Js.DocFull j) pr (pool_objects hpool) chunk id r h).1
  refine ⟨h1.formed, fun h2 => h1.valid fun ⟨f, hf⟩ => ?_⟩
  rcases h2 with ⟨g, hg⟩ | h2
  · rw [hf] at hg
    cases hg
  · exact h2

/-- DsJson: every parsed example is valid. -/
theorem C67_dsjson (pr : Js.Parser F N) (pool : Pool (SparseFeatures F)) (hpool : PoolReach pool) (chunk : Str)
    (r : (Features F × Option (Label F)) × Pool (SparseFeatures F)) (h : Ds.parseChunk pr pool chunk = .ok r) : r.1.1.Valid :=
  (Ds.parseChunk_made pr (pool_objects hpool) chunk r h).1.valid fun _ => trivial

/-- A namespace without features in VW text for contextual bandits gives an example with a visible empty namespace, which C26 shows to go wrong. -/
theorem C67_empty_namespace_false : ∃ (pr : Vw.Parser F) (chunk : Str) (r : (Features F × Option (Label F)) × Pool (SparseFeatures F)),
    Vw.parseChunk pr ⟨[]⟩ chunk = .ok r ∧ ¬ r.1.1.Valid := by
  refine ⟨⟨.sparseCBAdf, .cb, 0#32, 4, fun s k => BitVec.ofNat 32 s.length + k, fun _ => none, true⟩, "|a\n|b x".toList, _, rfl, fun h => ?_⟩
  exact (h.2 _ (by exact List.mem_cons_self)).2.2 (.named 1#32) _ rfl rfl

/-! ## C68 -/

section generic
variable {C : Type} {n : Nat} {P : C → Prop} {parse : Pool (SparseFeatures F) → C → ParseOut ((Features F × Option (Label F)) × Pool (SparseFeatures F))}

/-- Everything C68 says about one reachable state `s` of the multi-threaded run from `w0`, where `seq` is the outcome of the single-threaded loop:
a learner that has finished has the single-threaded result; if it has failed then the single-threaded loop fails with the same data; no assertion fails; and
if the single-threaded loop succeeds, then some thread can take a step, until all have ended. -/
structure TrainsLike (p : PoolPipe (SparseFeatures F) C (Features F × Option (Label F)) (TrainWorld F)) (seq : TrainWorld F × Bool)
    (s : PoolState (SparseFeatures F) C (Features F × Option (Label F)) (TrainWorld F) n) : Prop where
  finished : s.st.learner = .finished → seq = (s.st.world, true)
  failed : s.st.learner = .dead → seq = (s.st.world, false)
  noFault : ∀ t, p.step t s ≠ .fault
  progress : 0 < n → 0 < p.queueSize → seq.2 = true → (∀ t s', t ≠ Tid.spurious → p.step (.thread t) s ≠ .next s') →
    s.st.input = .done ∧ s.st.learner = .finished ∧ ∀ k, s.st.workers k = .exited

theorem trainsLike (hp : ParserOk P parse) (dbg : Bool) (o : TrainOpts) (q : Nat) (cs : List C) (hcs : ∀ c ∈ cs, P c) (w0 : TrainWorld F)
    (hw : w0.ws.FromConfig) (pool0 pool1 : Pool (SparseFeatures F)) (h0 : PoolReach pool0) (h1 : PoolReach pool1)
    (s : PoolState (SparseFeatures F) C (Features F × Option (Label F)) (TrainWorld F) n) (h : PoolRun (trainPoolPipe dbg o q parse) cs w0 pool0 s) :
    TrainsLike (trainPoolPipe dbg o q parse) (trainLoop dbg o parse cs w0 pool1) s := by
  have hyp := train_hyp hp dbg o q
  obtain ⟨t, ht, hs⟩ := h.sim hyp hcs hw.pairsOk (pool_objects h0)
  rw [trainLoop_eq hp dbg o q cs w0 pool1 hcs hw.pairsOk (pool_objects h1)]
  have hl := hs.st.learner
  refine ⟨fun hf => ?_, fun hf => ?_, fun tid hf => ?_, fun hn hq hseq hstuck => ?_⟩
  · rw [hs.st.world]
    apply C53_same_as_sequential _ _ _ t ht
    rw [hf] at hl
    generalize t.learner = b at hl ⊢
    cases hl
    rfl
  · rw [hs.st.world]
    apply C53_same_failure _ _ _ t ht
    rw [hf] at hl
    generalize t.learner = b at hl ⊢
    cases hl
    rfl
  · have h2 := pool_step hyp hs tid
    rw [hf] at h2
    cases h2 with
    | fault tid h2 => exact C55_no_assertion_fails _ _ _ t ht tid h2
  · obtain ⟨e1, e2, e3, _⟩ := C54_completes _ cs w0 hseq hn hq t ht fun tid t' hne hst => by
      have h2 := pool_step hyp hs (.thread tid)
      generalize hx : (trainPoolPipe dbg o q parse).step (.thread tid) s = x at h2
      cases h2 with
      | thread _ _ _ => exact hstuck tid _ hne hx
      | blocked _ h3 => rw [hst] at h3; cases h3
      | fault _ h3 => rw [hst] at h3; cases h3
    refine ⟨?_, ?_, fun k => ?_⟩
    · rw [hs.st.input, e1]
    · rw [e2] at hl
      generalize s.st.learner = a at hl ⊢
      cases hl
      rfl
    · have h3 := hs.st.workers k
      rw [e3 k] at h3
      generalize s.st.workers k = a at h3 ⊢
      cases h3
      rfl

theorem exec_sim (hp : ParserOk P parse) {dbg : Bool} {o : TrainOpts} {q : Nat} (ts : List (PoolTid n))
    {s s' : PoolState (SparseFeatures F) C (Features F × Option (Label F)) (TrainWorld F) n} {t : PState C (Features F × Option (Label F)) (TrainWorld F) n}
    (hs : PoolSim P (fun w : TrainWorld F => w.ws.red.PairsOk) (fun x y : Features F × Option (Label F) => x.2 = y.2 ∧ FtEqv x.1 y.1)
      (fun f : SparseFeatures F => f.Inv0 ∧ ∀ ns, f.vw ns = ([], [], false)) s t) (h : (trainPoolPipe dbg o q parse).exec ts s = some s') :
    ∃ t', ((trainPoolPipe dbg o q parse).withObjects ⟨[]⟩).exec (ts.filterMap PoolTid.thread?) t = some t' := by
  induction ts generalizing s t with
  | nil => exact ⟨t, rfl⟩
  | cons tid ts ih =>
    simp only [PoolPipe.exec] at h
    have h2 := pool_step (train_hyp hp dbg o q) hs tid
    generalize (trainPoolPipe dbg o q parse).step tid s = x at h h2
    cases h2 with
    | thread tid h3 h4 =>
      obtain ⟨t', ht'⟩ := ih h4 h
      exact ⟨t', by simp only [PoolTid.thread?, List.filterMap_cons, Pipe.exec, h3, ht']⟩
    | take k h4 => exact ih h4 h
    | blocked => cases h
    | fault => cases h
    | noTake => cases h

/-- Besides taking objects from the pool, the threads take at most `20 * chunks + threads + 4` steps, plus two for each spurious wake-up. -/
theorem trains_bounded (hp : ParserOk P parse) (dbg : Bool) (o : TrainOpts) (q : Nat) (cs : List C) (hcs : ∀ c ∈ cs, P c) (w0 : TrainWorld F)
    (hw : w0.ws.FromConfig) (pool0 : Pool (SparseFeatures F)) (h0 : PoolReach pool0) (ts : List (PoolTid n))
    (s : PoolState (SparseFeatures F) C (Features F × Option (Label F)) (TrainWorld F) n)
    (h : (trainPoolPipe dbg o q parse).exec ts (PoolState.init cs w0 pool0) = some s) :
    (ts.filterMap PoolTid.thread?).countP (· != .spurious) ≤ 20 * cs.length + n + 4 + 2 * (ts.filterMap PoolTid.thread?).countP (· == .spurious) := by
  obtain ⟨t, _, hs⟩ := (PoolRun.start (n := n)).sim (train_hyp hp dbg o q) hcs hw.pairsOk (pool_objects h0)
  have hs : PoolSim P (fun w : TrainWorld F => w.ws.red.PairsOk) (fun x y : Features F × Option (Label F) => x.2 = y.2 ∧ FtEqv x.1 y.1)
      (fun f : SparseFeatures F => f.Inv0 ∧ ∀ ns, f.vw ns = ([], [], false)) (PoolState.init cs w0 pool0 : PoolState _ _ _ _ n) (PState.init cs w0) :=
    ⟨SRel.init cs w0 hcs hw.pairsOk, pool_objects h0, fun _ _ h => nomatch h⟩
  obtain ⟨t', ht'⟩ := exec_sim hp ts hs h
  exact C54_terminates _ cs w0 _ t' ht'

end generic

/-- C68, VW text: for every parser, options, number of threads, queue size, input, model and history of the pool, and every schedule. -/
theorem C68_vw {n : Nat} (pr : Vw.Parser F) (dbg : Bool) (o : TrainOpts) (q : Nat) (cs : List Str)
    (w0 : TrainWorld F) (hw : w0.ws.FromConfig) (pool0 pool1 : Pool (SparseFeatures F)) (h0 : PoolReach pool0) (h1 : PoolReach pool1)
    (s : PoolState (SparseFeatures F) Str (Features F × Option (Label F)) (TrainWorld F) n)
    (h : PoolRun (trainPoolPipe dbg o q (Vw.parseOut pr)) cs w0 pool0 s) :
    TrainsLike (trainPoolPipe dbg o q (Vw.parseOut pr)) (trainLoop dbg o (Vw.parseOut pr) cs w0 pool1) s :=
  trainsLike (vw_ok pr) dbg o q cs (fun _ _ => trivial) w0 hw pool0 pool1 h0 h1 s h

/-- C68, DsJson: every input. -/
theorem C68_dsjson {n : Nat} (pr : Js.Parser F N) (dbg : Bool) (o : TrainOpts) (q : Nat) (cs : List Str)
    (w0 : TrainWorld F) (hw : w0.ws.FromConfig) (pool0 pool1 : Pool (SparseFeatures F)) (h0 : PoolReach pool0) (h1 : PoolReach pool1)
    (s : PoolState (SparseFeatures F) Str (Features F × Option (Label F)) (TrainWorld F) n)
    (h : PoolRun (trainPoolPipe dbg o q (Ds.parseOut pr)) cs w0 pool0 s) :
    TrainsLike (trainPoolPipe dbg o q (Ds.parseOut pr)) (trainLoop dbg o (Ds.parseOut pr) cs w0 pool1) s :=
  trainsLike (ds_ok pr) dbg o q cs (fun _ _ => trivial) w0 hw pool0 pool1 h0 h1 s h

/-- C68, JSON documents without lists of strings. Missing from the full property: documents with lists of strings, for which it depends on the schedule
whether training panics (`C68_json_false`). -/
theorem C68_json_partial {n : Nat} (pr : Js.Parser F N) (dbg : Bool) (o : TrainOpts) (q : Nat) (cs : List Str)
    (hcs : ∀ c ∈ cs, ∀ j, pr.parseJson c = some j → Js.DocNoStringLists j)
    (w0 : TrainWorld F) (hw : w0.ws.FromConfig) (pool0 pool1 : Pool (SparseFeatures F)) (h0 : PoolReach pool0) (h1 : PoolReach pool1)
    (s : PoolState (SparseFeatures F) Str (Features F × Option (Label F)) (TrainWorld F) n)
    (h : PoolRun (trainPoolPipe dbg o q (Js.parseOut pr)) cs w0 pool0 s) :
    TrainsLike (trainPoolPipe dbg o q (Js.parseOut pr)) (trainLoop dbg o (Js.parseOut pr) cs w0 pool1) s :=
  trainsLike (js_ok pr) dbg o q cs hcs w0 hw pool0 pool1 h0 h1 s h

/-- C68: every schedule ends; VW text. -/
theorem C68_vw_terminates {n : Nat} (pr : Vw.Parser F) (dbg : Bool) (o : TrainOpts) (q : Nat) (cs : List Str)
    (w0 : TrainWorld F) (hw : w0.ws.FromConfig) (pool0 : Pool (SparseFeatures F))
    (h0 : PoolReach pool0) (ts : List (PoolTid n)) (s : PoolState (SparseFeatures F) Str (Features F × Option (Label F)) (TrainWorld F) n)
    (h : (trainPoolPipe dbg o q (Vw.parseOut pr)).exec ts (PoolState.init cs w0 pool0) = some s) :
    (ts.filterMap PoolTid.thread?).countP (· != .spurious) ≤ 20 * cs.length + n + 4 + 2 * (ts.filterMap PoolTid.thread?).countP (· == .spurious) :=
  trains_bounded (vw_ok pr) dbg o q cs (fun _ _ => trivial) w0 hw pool0 h0 ts s h

/-- C68: every schedule ends; DsJson. -/
theorem C68_dsjson_terminates {n : Nat} (pr : Js.Parser F N) (dbg : Bool) (o : TrainOpts) (q : Nat) (cs : List Str) (w0 : TrainWorld F)
    (hw : w0.ws.FromConfig) (pool0 : Pool (SparseFeatures F)) (h0 : PoolReach pool0) (ts : List (PoolTid n))
    (s : PoolState (SparseFeatures F) Str (Features F × Option (Label F)) (TrainWorld F) n)
    (h : (trainPoolPipe dbg o q (Ds.parseOut pr)).exec ts (PoolState.init cs w0 pool0) = some s) :
    (ts.filterMap PoolTid.thread?).countP (· != .spurious) ≤ 20 * cs.length + n + 4 + 2 * (ts.filterMap PoolTid.thread?).countP (· == .spurious) :=
  trains_bounded (ds_ok pr) dbg o q cs (fun _ _ => trivial) w0 hw pool0 h0 ts s h

section examples
attribute [local instance] intFlt

/-- Two JSON examples; the namespace `a` has two strings in the first and one in the second. -/
def listsJs : Js.Parser Int Int := ⟨.sparseSimple, .simple, 0#32, 2, fun s k => BitVec.ofNat 32 s.length + k, fun s =>
    if s = ['1'] then some (.obj [("label".toList, .num 3), ("features".toList, Js.renderFeatures [("a".toList, .strings ["x".toList, "y".toList])])])
    else some (.obj [("label".toList, .num 3), ("features".toList, Js.renderFeatures [("a".toList, .strings ["x".toList])])]),
  id, fun n => some n.toNat, id, true⟩

/-- The same examples as VW text. -/
def tinyVw : Vw.Parser Int := ⟨.sparseSimple, .simple, 0#32, 2, fun s k => BitVec.ofNat 32 s.length + k, fun s => if s = ['3'] then some 3 else none, true⟩

def tinyWs : Workspace Int := (Workspace.new tinyHash tinyGlobal (.coin CoinConfig.dflt)).toOption.get rfl

theorem tinyWs_fromConfig : tinyWs.FromConfig := ⟨tinyHash, tinyGlobal, .coin CoinConfig.dflt, tinyWs, rfl, rfl⟩

def tinyWorld : TrainWorld Int := ⟨tinyWs, [.mse 0 0, .exampleNumber 0], .new (.additive 1), [], []⟩

def tinyOpts : TrainOpts := ⟨false, true⟩

/-- Steps of the only parser thread for a chunk: receive, take the input; take an object; parse, write the result, wake the learner. -/
def poolTurn : List (PoolTid 1) := List.replicate 3 (.thread (.worker 0)) ++ [.take 0] ++ List.replicate 5 (.thread (.worker 0))

/-- Both chunks are parsed before the learner starts. -/
def parseFirst : List (PoolTid 1) := List.replicate 6 (.thread .input) ++ poolTurn ++ poolTurn ++ List.replicate 3 (.thread .input) ++
  [.thread (.worker 0)] ++ List.replicate 11 (.thread .learner)

/-- The second chunk is parsed after the first example has been learned, with its object. -/
def learnFirst : List (PoolTid 1) := List.replicate 6 (.thread .input) ++ poolTurn ++ List.replicate 5 (.thread .learner) ++ poolTurn ++
  List.replicate 5 (.thread .learner) ++ List.replicate 3 (.thread .input) ++ [.thread (.worker 0), .thread .learner]

def isFinished {C R W : Type} {n : Nat} (s : PState C R W n) : Bool := match s.learner with | .finished => true | _ => false

theorem PoolRun.exec {O C R W : Type} {n : Nat} {p : PoolPipe O C R W} {cs : List C} {w0 : W} {pool0 : Pool O} (ts : List (PoolTid n))
    {s s' : PoolState O C R W n} (h : PoolRun p cs w0 pool0 s) (he : p.exec ts s = some s') : PoolRun p cs w0 pool0 s' := by
  induction ts generalizing s with
  | nil => simp only [PoolPipe.exec, Option.some.injEq] at he; rwa [← he]
  | cons t ts ih =>
    simp only [PoolPipe.exec] at he
    cases hs : p.step t s with
    | next s1 => rw [hs] at he; exact ih (h.step s s1 t hs) he
    | blocked => rw [hs] at he; simp at he
    | fault => rw [hs] at he; simp at he

theorem get_of_exec {α β : Type} {x : Option α} {a : α} {f : α → β} {b : β} (h : x = some a) (hb : x.map f = some b) : f a = b := by
  rw [h] at hb
  exact Option.some.inj hb

theorem isFinished_iff {C R W : Type} {n : Nat} {s : PState C R W n} (h : isFinished s = true) : s.learner = .finished := by
  unfold isFinished at h
  split at h
  · assumption
  · cases h

/-- C68 fails for JSON documents with lists of strings: the single-threaded loop panics on the second example, while with one parser thread there is a
schedule with which training succeeds. -/
theorem C68_json_false : ∃ (pr : Js.Parser Int Int) (o : TrainOpts) (cs : List Str) (w0 : TrainWorld Int)
    (s : PoolState (SparseFeatures Int) Str (Features Int × Option (Label Int)) (TrainWorld Int) 1), w0.ws.FromConfig ∧
      PoolRun (trainPoolPipe true o 2 (Js.parseOut pr)) cs w0 ⟨[]⟩ s ∧ s.st.learner = .finished ∧
      (trainLoop true o (Js.parseOut pr) cs w0 ⟨[]⟩).2 = false := by
  cases he : (trainPoolPipe true tinyOpts 2 (Js.parseOut listsJs)).exec parseFirst (PoolState.init [['1'], ['2']] tinyWorld ⟨[]⟩) with
  | none => exact absurd (congrArg Option.isSome he) (by decide +kernel)
  | some s =>
    refine ⟨listsJs, tinyOpts, _, tinyWorld, s, tinyWs_fromConfig, PoolRun.start.exec parseFirst he, ?_, ?_⟩
    · exact isFinished_iff (get_of_exec (f := fun s => isFinished s.st) he (by decide +kernel))
    · decide +kernel

/-- C68: a run with a parser thread that uses an object the learner has returned, from VW text to the trained model, and the hypotheses are met. -/
example : ∃ (w0 : TrainWorld Int) (s : PoolState (SparseFeatures Int) Str (Features Int × Option (Label Int)) (TrainWorld Int) 1), w0.ws.FromConfig ∧
      ¬ Vw.SpansLines tinyVw ∧ PoolRun (trainPoolPipe true tinyOpts 2 (Vw.parseOut tinyVw)) ["3 |a x y".toList, "3 |a x".toList] w0 ⟨[]⟩ s ∧
      s.st.learner = .finished ∧ s.st.world.predictions.length = 2 := by
  cases he : (trainPoolPipe true tinyOpts 2 (Vw.parseOut tinyVw)).exec learnFirst
      (PoolState.init ["3 |a x y".toList, "3 |a x".toList] tinyWorld ⟨[]⟩) with
  | none => exact absurd (congrArg Option.isSome he) (by decide +kernel)
  | some s =>
    refine ⟨tinyWorld, s, tinyWs_fromConfig, by decide, PoolRun.start.exec learnFirst he, ?_, ?_⟩
    · exact isFinished_iff (get_of_exec (f := fun s => isFinished s.st) he (by decide +kernel))
    · exact get_of_exec (f := fun s => s.st.world.predictions.length) (b := 2) he (by decide +kernel)

/-- C67: contextual bandit text in which all namespaces have a feature. -/
example : Vw.ChunkFull (⟨.sparseCBAdf, .cb, 0#32, 4, tinyHash, fun _ => none, true⟩ : Vw.Parser Int) "shared |a x\n0:1:1 |b y z\n| w".toList := by
  intro line hl s hs
  have e : Vw.chunkLines (⟨.sparseCBAdf, .cb, 0#32, 4, tinyHash, fun _ => none, true⟩ : Vw.Parser Int) "shared |a x\n0:1:1 |b y z\n| w".toList =
      ["shared |a x".toList, "0:1:1 |b y z".toList, "| w".toList] := by decide +kernel
  rw [e] at hl
  simp only [List.mem_cons, List.not_mem_nil, or_false] at hl
  rcases hl with rfl | rfl | rfl
  · have e2 : (split '|' "shared |a x".toList).tail = ["a x".toList] := by decide +kernel
    rw [e2, List.mem_singleton] at hs
    subst hs
    unfold Vw.SegmentHasFeature
    decide +kernel
  · have e2 : (split '|' "0:1:1 |b y z".toList).tail = ["b y z".toList] := by decide +kernel
    rw [e2, List.mem_singleton] at hs
    subst hs
    unfold Vw.SegmentHasFeature
    decide +kernel
  · have e2 : (split '|' "| w".toList).tail = [" w".toList] := by decide +kernel
    rw [e2, List.mem_singleton] at hs
    subst hs
    unfold Vw.SegmentHasFeature
    decide +kernel

/-- C67: a document in which all namespaces have a feature. -/
example : Js.DocFull (.obj [("features".toList, .obj [("a".toList, .arr [.num 1, .num 2]), ("b".toList, .obj [("x".toList, .bool true)])])] : Json Int) := by
  refine ⟨?_, ?_, ?_⟩
  · intro l hl e he l' h
    simp only [valueOf_eq, Js.getV, Json.get?] at hl
    injection hl with hl
    subst hl
    simp only [List.mem_cons, List.not_mem_nil, or_false] at he
    rcases he with rfl | rfl
    · cases h
    · cases h
      exact ⟨_, List.mem_cons_self, by simp⟩
  · intro l hl
    cases hl
  · intro l hl
    cases hl

end examples

end Rml
