import Verif.Model.PoolTrain
import Verif.Props.Pipeline
import Verif.Lemmas.Parsed
import Verif.Lemmas.Loose

/-! Lemmas for C68: the pipeline with the pool runs like the pipeline in which every chunk is parsed with new objects. -/

set_option linter.unusedSectionVars false

namespace Rml
section sim
variable {C R W : Type} {n : Nat}

/-- The same kind of outcome, with related values. -/
inductive OutRel (RR : R → R → Prop) : ParseOut R → ParseOut R → Prop
  | ok {r r'} : RR r r' → OutRel RR (.ok r) (.ok r')
  | err : OutRel RR .err .err
  | panic : OutRel RR .panic .panic

inductive ResultRel (RR : R → R → Prop) : Option (ParseOut R) → Option (ParseOut R) → Prop
  | none : ResultRel RR none none
  | some {a b} : OutRel RR a b → ResultRel RR (some a) (some b)

structure SlotRel (P : C → Prop) (RR : R → R → Prop) (a b : Slot C R) : Prop where
  ready : a.ready = b.ready
  input : a.input = b.input
  chunk : ∀ c, a.input = some c → P c
  result : ResultRel RR a.result b.result

inductive WRel (P : C → Prop) (RR : R → R → Prop) : WPhase C R → WPhase C R → Prop
  | idle : WRel P RR .idle .idle
  | got (i) : WRel P RR (.got i) (.got i)
  | take (i) : WRel P RR (.take i) (.take i)
  | parsing (i c) : P c → WRel P RR (.parsing i c) (.parsing i c)
  | parsed (i) {a b} : OutRel RR a b → WRel P RR (.parsed i a) (.parsed i b)
  | writing (i) {a b} : OutRel RR a b → WRel P RR (.writing i a) (.writing i b)
  | written (i) : WRel P RR (.written i) (.written i)
  | waking (i) : WRel P RR (.waking i) (.waking i)
  | exited : WRel P RR .exited .exited
  | dead : WRel P RR .dead .dead

inductive LRel (RR : R → R → Prop) : LPhase R → LPhase R → Prop
  | idle : LRel RR .idle .idle
  | checking (i) : LRel RR (.checking i) (.checking i)
  | waiting (i) : LRel RR (.waiting i) (.waiting i)
  | asleep (i) : LRel RR (.asleep i) (.asleep i)
  | ready (i) : LRel RR (.ready i) (.ready i)
  | taking (i) : LRel RR (.taking i) (.taking i)
  | processing {a b} : OutRel RR a b → LRel RR (.processing a) (.processing b)
  | finished : LRel RR .finished .finished
  | dead : LRel RR .dead .dead

/-- The same state up to related parse results; all chunks satisfy `P` and the world satisfies `Q`. -/
structure SRel (P : C → Prop) (Q : W → Prop) (RR : R → R → Prop) (s t : PState C R W n) : Prop where
  toRead : s.toRead = t.toRead
  chunks : ∀ c ∈ s.toRead, P c
  slots : ∀ i, SlotRel P RR (s.slots i) (t.slots i)
  made : s.made = t.made
  input : s.input = t.input
  parseQ : s.parseQ = t.parseQ
  learnQ : s.learnQ = t.learnQ
  parseOpen : s.parseOpen = t.parseOpen
  learnOpen : s.learnOpen = t.learnOpen
  workers : ∀ k, WRel P RR (s.workers k) (t.workers k)
  learner : LRel RR s.learner t.learner
  world : s.world = t.world
  good : Q s.world
  fills : s.fills = t.fills
  reads : s.reads = t.reads

inductive StepRel {S : Type} (T : S → S → Prop) : StepRes S → StepRes S → Prop
  | blocked : StepRel T .blocked .blocked
  | fault : StepRel T .fault .fault
  | next {s t} : T s t → StepRel T (.next s) (.next t)

variable {P : C → Prop} {Q : W → Prop} {RR : R → R → Prop}

theorem SRel.init (cs : List C) (w : W) (hcs : ∀ c ∈ cs, P c) (hw : Q w) : SRel P Q RR (PState.init cs w : PState C R W n) (PState.init cs w) :=
  ⟨rfl, hcs, fun _ => ⟨rfl, rfl, (fun _ h => nomatch h), .none⟩, rfl, rfl, rfl, rfl, rfl, rfl, fun _ => .idle, .idle, rfl, hw, rfl, rfl⟩

theorem SRel.setWorker {s t : PState C R W n} (h : SRel P Q RR s t) (k : Fin n) {a b : WPhase C R} (hab : WRel P RR a b) :
    SRel P Q RR (s.setWorker k a) (t.setWorker k b) :=
  { h with
    workers := fun j => by
      unfold PState.setWorker
      simp only
      split
      · exact hab
      · exact h.workers j }

theorem SRel.setSlot {s t : PState C R W n} (h : SRel P Q RR s t) (i : Nat) {f g : Slot C R → Slot C R}
    (hfg : ∀ x y, SlotRel P RR x y → SlotRel P RR (f x) (g y)) : SRel P Q RR (s.setSlot i f) (t.setSlot i g) :=
  { h with
    slots := fun j => by
      unfold PState.setSlot
      simp only
      split
      · exact hfg _ _ (h.slots j)
      · exact h.slots j }

/-- Two pipelines with related parsers and the same learner. -/
structure PipeRel (P : C → Prop) (Q : W → Prop) (RR : R → R → Prop) (p q : Pipe C R W) : Prop where
  queue : p.queueSize = q.queueSize
  parse : ∀ c, P c → OutRel RR (p.parse c) (q.parse c)
  process : ∀ w r r', Q w → RR r r' → p.process w r = q.process w r'
  good : ∀ w r r' w', Q w → RR r r' → p.process w r = some w' → Q w'

theorem input_sim {p q : Pipe C R W} (hp : PipeRel P Q RR p q) {s t : PState C R W n} (h : SRel P Q RR s t) :
    StepRel (SRel P Q RR) (p.stepInput s) (q.stepInput t) := by
  unfold Pipe.stepInput
  rw [← h.input]
  cases hi : s.input with
  | reading =>
    simp only
    rw [← h.toRead]
    cases hr : s.toRead with
    | nil => exact .next { h with input := rfl, toRead := rfl, chunks := fun _ hc => nomatch hc }
    | cons c cs =>
      have hc := h.chunks
      rw [hr] at hc
      have h1 := h.setSlot s.made (f := fun _ => ⟨false, none, some c⟩) (g := fun _ => ⟨false, none, some c⟩)
        (fun x y _ => ⟨rfl, rfl, fun d hd => by cases hd; exact hc c (by simp), .none⟩)
      refine .next ?_
      rw [← h.made]
      exact { h1 with toRead := rfl, chunks := fun d hd => hc d (by simp [hd]), made := rfl, input := rfl }
  | sendParse i =>
    simp only
    rw [← h.parseQ, ← hp.queue]
    split
    · exact .next { h with parseQ := rfl, input := rfl }
    · exact .blocked
  | sendLearn i =>
    simp only
    rw [← h.learnQ, ← hp.queue]
    split
    · exact .next { h with learnQ := rfl, input := rfl }
    · exact .blocked
  | dropParse => exact .next { h with parseOpen := rfl, input := rfl }
  | dropLearn => exact .next { h with learnOpen := rfl, input := rfl }
  | done => exact .blocked

theorem worker_sim {p q : Pipe C R W} (hp : PipeRel P Q RR p q) {s t : PState C R W n} (h : SRel P Q RR s t) (k : Fin n) :
    StepRel (SRel P Q RR) (p.stepWorker k s) (q.stepWorker k t) := by
  unfold Pipe.stepWorker
  have hw := h.workers k
  generalize s.workers k = a at hw ⊢
  generalize t.workers k = b at hw ⊢
  cases hw with
  | idle =>
    simp only
    rw [← h.parseQ, ← h.parseOpen]
    cases hr : s.parseQ with
    | nil =>
      simp only
      split
      · exact .blocked
      · exact .next (h.setWorker k .exited)
    | cons i is => exact .next { h.setWorker k (.got i) with parseQ := rfl }
  | got i =>
    simp only
    rw [← (h.slots i).ready]
    split
    · exact .fault
    · exact .next (h.setWorker k (.take i))
  | take i =>
    simp only
    rw [← (h.slots i).input]
    cases hc : (s.slots i).input with
    | none => exact .fault
    | some c =>
      exact .next ((h.setSlot i (f := fun x => { x with input := none }) (g := fun x => { x with input := none }) (fun x y hxy =>
        ⟨hxy.ready, rfl, (fun _ hd => nomatch hd), hxy.result⟩)).setWorker k (.parsing i c ((h.slots i).chunk c hc)))
  | parsing i c hc =>
    simp only
    have h1 := hp.parse c hc
    generalize p.parse c = x at h1 ⊢
    generalize q.parse c = y at h1 ⊢
    cases h1 with
    | ok hr => exact .next (h.setWorker k (.parsed i (.ok hr)))
    | err => exact .next (h.setWorker k (.parsed i .err))
    | panic => exact .next (h.setWorker k .dead)
  | parsed i hr =>
    simp only
    rw [← (h.slots i).ready]
    split
    · exact .fault
    · exact .next (h.setWorker k (.writing i hr))
  | @writing i a b hr =>
    have h1 := (h.setSlot i (f := fun x => { x with result := some a }) (g := fun x => { x with result := some b }) (fun x y hxy => ⟨hxy.ready, hxy.input, hxy.chunk, .some hr⟩)).setWorker k (.written i)
    exact .next { h1 with fills := congrArg (· ++ [i]) h.fills }
  | written i => exact .next ((h.setSlot i (f := fun x => { x with ready := true }) (g := fun x => { x with ready := true }) (fun x y hxy => ⟨rfl, hxy.input, hxy.chunk, hxy.result⟩)).setWorker k (.waking i))
  | waking i =>
    refine .next { h.setWorker k .idle with learner := ?_ }
    have hl := h.learner
    simp only
    generalize s.learner = a at hl ⊢
    generalize t.learner = b at hl ⊢
    cases hl with
    | asleep j =>
      simp only
      split
      · exact .checking j
      · exact .asleep j
    | idle => exact .idle
    | checking i => exact .checking i
    | waiting i => exact .waiting i
    | ready i => exact .ready i
    | taking i => exact .taking i
    | processing h => exact .processing h
    | finished => exact .finished
    | dead => exact .dead
  | exited => exact .blocked
  | dead => exact .blocked

theorem learner_sim {p q : Pipe C R W} (hp : PipeRel P Q RR p q) {s t : PState C R W n} (h : SRel P Q RR s t) :
    StepRel (SRel P Q RR) (p.stepLearner s) (q.stepLearner t) := by
  unfold Pipe.stepLearner
  have hl := h.learner
  generalize s.learner = a at hl ⊢
  generalize t.learner = b at hl ⊢
  cases hl with
  | idle =>
    simp only
    rw [← h.learnQ, ← h.learnOpen]
    cases hr : s.learnQ with
    | nil =>
      simp only
      split
      · exact .blocked
      · exact .next { h with learner := .finished, learnQ := rfl, learnOpen := rfl }
    | cons i is => exact .next { h with learner := .checking i, learnQ := rfl, learnOpen := rfl }
  | checking i =>
    simp only
    rw [← (h.slots i).ready]
    split
    · exact .next { h with learner := .ready i }
    · exact .next { h with learner := .waiting i }
  | waiting i =>
    simp only
    rw [← (h.slots i).ready]
    split
    · exact .next { h with learner := .checking i }
    · exact .next { h with learner := .asleep i }
  | asleep i => exact .blocked
  | ready i =>
    simp only
    rw [← (h.slots i).ready]
    split
    · exact .next { h with learner := .taking i }
    · exact .fault
  | taking i =>
    simp only
    have h1 := (h.slots i).result
    generalize (s.slots i).result = a at h1 ⊢
    generalize (t.slots i).result = b at h1 ⊢
    cases h1 with
    | none => exact .fault
    | some hr =>
      have h1 := h.setSlot i (f := fun x => { x with result := none }) (g := fun x => { x with result := none }) (fun x y hxy =>
        ⟨hxy.ready, hxy.input, hxy.chunk, .none⟩)
      exact .next { h1 with learner := .processing hr, reads := congrArg (· ++ [i]) h.reads }
  | processing hr =>
    simp only
    cases hr with
    | ok hr =>
      simp only
      have h1 := hp.process s.world _ _ h.good hr
      rw [← h.world, ← h1]
      split
      · rename_i w hw
        exact .next { h with learner := .idle, world := rfl, good := hp.good _ _ _ _ h.good hr hw }
      · exact .next { h with learner := .dead, world := rfl }
    | err => exact .next { h with learner := .dead }
    | panic => exact .next { h with learner := .dead }
  | finished => exact .blocked
  | dead => exact .blocked

theorem pipe_step_sim {p q : Pipe C R W} (hp : PipeRel P Q RR p q) {s t : PState C R W n} (h : SRel P Q RR s t) (tid : Tid n) :
    StepRel (SRel P Q RR) (p.step tid s) (q.step tid t) := by
  cases tid with
  | input => exact input_sim hp h
  | worker k => exact worker_sim hp h k
  | learner => exact learner_sim hp h
  | spurious =>
    simp only [Pipe.step]
    have hl := h.learner
    generalize s.learner = a at hl ⊢
    generalize t.learner = b at hl ⊢
    cases hl with
    | asleep i => exact .next { h with learner := .checking i }
    | _ => exact .blocked

end sim

section pool
variable {O C R W : Type} {n : Nat}

/-- What makes the pool invisible: `G` holds for all objects of the pool, parsing with such objects gives related results, and the learner treats
related results alike. -/
structure PoolHyp (P : C → Prop) (Q : W → Prop) (RR : R → R → Prop) (G : O → Prop) (p : PoolPipe O C R W) : Prop where
  fresh : G p.fresh
  parse : ∀ objs : Pool O, (∀ o ∈ objs.objects, G o) → ∀ c, P c → OutRel RR (p.parse objs c) (p.parse ⟨[]⟩ c)
  process : ∀ w r r', Q w → RR r r' → (p.process w r).map (·.1) = (p.process w r').map (·.1)
  good : ∀ w r r' w' x, Q w → RR r r' → p.process w r = some (w', x) →
    Q w' ∧ ∀ pool : Pool O, (∀ o ∈ pool.objects, G o) → ∀ o ∈ (p.giveBack x pool).objects, G o

variable {P : C → Prop} {Q : W → Prop} {RR : R → R → Prop} {G : O → Prop}

theorem PoolHyp.rel {p : PoolPipe O C R W} (hp : PoolHyp P Q RR G p) {objs : Pool O} (ho : ∀ o ∈ objs.objects, G o) :
    PipeRel P Q RR (p.withObjects objs) (p.withObjects ⟨[]⟩) := by
  refine ⟨rfl, hp.parse objs ho, hp.process, fun w r r' w' hw hr h => ?_⟩
  obtain ⟨⟨w1, x⟩, h1, h2⟩ := Option.map_eq_some_iff.1 h
  simp only at h2
  subst h2
  exact (hp.good w r r' w1 x hw hr h1).1

theorem get_good {o : O} (ho : G o) {pool : Pool O} (h : ∀ o ∈ pool.objects, G o) : G (pool.getObject o).1 ∧ ∀ x ∈ (pool.getObject o).2.objects, G x := by
  unfold Pool.getObject
  cases hp : pool.objects with
  | nil => exact ⟨ho, by rw [hp]; simp⟩
  | cons a t =>
    rw [hp] at h
    exact ⟨h a (by simp), fun x hx => h x (by simp [hx])⟩

/-- A state of the pipeline with the pool and the corresponding state with new objects. -/
structure PoolSim (P : C → Prop) (Q : W → Prop) (RR : R → R → Prop) (G : O → Prop) (s : PoolState O C R W n) (t : PState C R W n) : Prop where
  st : SRel P Q RR s.st t
  pool : ∀ o ∈ s.pool.objects, G o
  taken : ∀ k, ∀ o ∈ s.taken k, G o

theorem poolAfter_good {p : PoolPipe O C R W} (hp : PoolHyp P Q RR G p) {s : PoolState O C R W n} {t : PState C R W n} (h : PoolSim P Q RR G s t) :
    ∀ o ∈ (p.poolAfter s).objects, G o := by
  unfold PoolPipe.poolAfter
  have hl := h.st.learner
  generalize s.st.learner = a at hl ⊢
  generalize t.learner = b at hl ⊢
  cases hl with
  | processing hr =>
    cases hr with
    | ok hr =>
      simp only
      split
      · rename_i w' r' hw
        exact (hp.good _ _ _ _ _ h.st.good hr hw).2 s.pool h.pool
      · exact h.pool
    | err => exact h.pool
    | panic => exact h.pool
  | _ => exact h.pool

/-- Every step is a step of the pipeline with new objects, or takes an object. -/
inductive PoolStepRel (P : C → Prop) (Q : W → Prop) (RR : R → R → Prop) (G : O → Prop) (q : Pipe C R W) (t : PState C R W n) :
    PoolTid n → StepRes (PoolState O C R W n) → Prop where
  | thread (tid : Tid n) {s' t'} : q.step tid t = .next t' → PoolSim P Q RR G s' t' → PoolStepRel P Q RR G q t (.thread tid) (.next s')
  | blocked (tid : Tid n) : q.step tid t = .blocked → PoolStepRel P Q RR G q t (.thread tid) .blocked
  | fault (tid : Tid n) : q.step tid t = .fault → PoolStepRel P Q RR G q t (.thread tid) .fault
  | take (k : Fin n) {s'} : PoolSim P Q RR G s' t → PoolStepRel P Q RR G q t (.take k) (.next s')
  | noTake (k : Fin n) : PoolStepRel P Q RR G q t (.take k) .blocked

theorem pool_step {p : PoolPipe O C R W} (hp : PoolHyp P Q RR G p) {s : PoolState O C R W n} {t : PState C R W n} (h : PoolSim P Q RR G s t)
    (tid : PoolTid n) : PoolStepRel P Q RR G (p.withObjects ⟨[]⟩) t tid (p.step tid s) := by
  cases tid with
  | take k =>
    simp only [PoolPipe.step]
    split
    · have h1 := get_good hp.fresh h.pool
      refine .take k ⟨h.st, h1.2, fun j => ?_⟩
      simp only
      split
      · intro o ho
        rcases List.mem_append.1 ho with ho | ho
        · exact h.taken j o ho
        · rw [List.mem_singleton.1 ho]
          exact h1.1
      · exact h.taken j
    · exact .noTake k
  | thread tid =>
    cases tid with
    | worker k =>
      simp only [PoolPipe.step]
      have h1 := worker_sim (hp.rel (objs := ⟨s.taken k⟩) (h.taken k)) h.st k
      generalize (p.withObjects ⟨s.taken k⟩).stepWorker k s.st = a at h1 ⊢
      generalize hb : (p.withObjects ⟨[]⟩).stepWorker k t = b at h1
      cases h1 with
      | blocked => exact .blocked _ hb
      | fault => exact .fault _ hb
      | next h1 =>
        refine .thread _ hb ⟨h1, h.pool, fun j => ?_⟩
        simp only
        generalize (decide (j = k) && _) = b
        cases b with
        | true => exact fun _ h => nomatch h
        | false => exact h.taken j
    | input =>
      simp only [PoolPipe.step]
      have h1 := pipe_step_sim (hp.rel (objs := ⟨[]⟩) (by simp)) h.st .input
      generalize (p.withObjects ⟨[]⟩).step .input s.st = a at h1 ⊢
      generalize hb : (p.withObjects ⟨[]⟩).step .input t = b at h1
      cases h1 with
      | blocked => exact .blocked _ hb
      | fault => exact .fault _ hb
      | next h1 => exact .thread _ hb ⟨h1, h.pool, h.taken⟩
    | learner =>
      simp only [PoolPipe.step]
      have h1 := pipe_step_sim (hp.rel (objs := ⟨[]⟩) (by simp)) h.st .learner
      generalize (p.withObjects ⟨[]⟩).step .learner s.st = a at h1 ⊢
      generalize hb : (p.withObjects ⟨[]⟩).step .learner t = b at h1
      cases h1 with
      | blocked => exact .blocked _ hb
      | fault => exact .fault _ hb
      | next h1 => exact .thread _ hb ⟨h1, poolAfter_good hp h, h.taken⟩
    | spurious =>
      simp only [PoolPipe.step]
      have h1 := pipe_step_sim (hp.rel (objs := ⟨[]⟩) (by simp)) h.st .spurious
      generalize (p.withObjects ⟨[]⟩).step .spurious s.st = a at h1 ⊢
      generalize hb : (p.withObjects ⟨[]⟩).step .spurious t = b at h1
      cases h1 with
      | blocked => exact .blocked _ hb
      | fault => exact .fault _ hb
      | next h1 => exact .thread _ hb ⟨h1, h.pool, h.taken⟩

theorem PoolRun.sim {p : PoolPipe O C R W} (hp : PoolHyp P Q RR G p) {cs : List C} {w0 : W} {pool0 : Pool O} (hcs : ∀ c ∈ cs, P c) (hw : Q w0)
    (hpool : ∀ o ∈ pool0.objects, G o) {s : PoolState O C R W n} (h : PoolRun p cs w0 pool0 s) :
    ∃ t, Reach (p.withObjects ⟨[]⟩) cs w0 t ∧ PoolSim P Q RR G s t := by
  induction h with
  | start => exact ⟨_, .start, SRel.init cs w0 hcs hw, hpool, fun _ _ h => nomatch h⟩
  | step s s' tid _ hs ih =>
    obtain ⟨t, ht, hsim⟩ := ih
    have h1 := pool_step hp hsim tid
    rw [hs] at h1
    cases h1 with
    | thread tid hb h2 => exact ⟨_, ht.step _ _ tid hb, h2⟩
    | take k h2 => exact ⟨t, ht, h2⟩

end pool
end Rml

namespace Rml
open SparseFeatures
variable {F : Type} [Flt F]

theorem countAll_eqv {ft gt : Features F} (h : FtEqv ft gt) : ft.countAll = gt.countAll := by
  cases h with
  | simple h => exact congrArg List.length (allFeatures_congr h.left h.right h.view)
  | @cb f g h =>
    have h1 : (match f.shared with | some s => s.allFeatures.length | none => 0) = match g.shared with | some s => s.allFeatures.length | none => 0 := by
      have := h.shared
      generalize f.shared = a at this ⊢
      generalize g.shared = b at this ⊢
      cases this with
      | none => rfl
      | some h => exact congrArg List.length (allFeatures_congr h.left h.right h.view)
    have h2 : f.actions.map (fun a => a.allFeatures.length) = g.actions.map (fun a => a.allFeatures.length) := by
      have := h.actions
      generalize f.actions = a at this ⊢
      generalize g.actions = b at this ⊢
      induction this with
      | nil => rfl
      | cons h _ ih => rw [List.map_cons, List.map_cons, ih, allFeatures_congr h.left h.right h.view]
    exact congrArg₂ (· + ·) h1 (congrArg List.sum h2)

theorem addPoint_eqv {ft gt : Features F} (h : FtEqv ft gt) (m : Metric F) (l : Label F) (p : Prediction F) :
    m.addPoint ft l p = m.addPoint gt l p := by
  cases m <;> simp only [Metric.addPoint, countAll_eqv h]

theorem RelM.same {α β : Type} {S : α → β → Prop} {γ : Type} (x : M γ) {f : γ → M α} {g : γ → M β} (h : ∀ a, RelM S (f a) (g a)) :
    RelM S (x >>= f) (x >>= g) := by
  cases x with
  | ok a => exact h a
  | error e => exact rfl

/-- The learner treats two examples that cannot be told apart alike. -/
theorem processFeatures_rel {dbg : Bool} {o : TrainOpts} {w : TrainWorld F} (hp : w.ws.red.PairsOk) {ft gt : Features F} (he : FtEqv ft gt) (l : Option (Label F)) :
    RelM (fun x y => x.1 = y.1 ∧ FtEqv x.2 y.2 ∧ x.1.ws.red = w.ws.red) (processFeatures dbg o w ft l) (processFeatures dbg o w gt l) := by
  unfold processFeatures
  refine RelM.same _ fun l => ?_
  split
  · have h1 : RelM (fun x y : Prediction F × Workspace F × Features F => x.1 = y.1 ∧ x.2.1 = y.2.1 ∧ FtEqv x.2.2 y.2.2 ∧ x.2.1.red = w.ws.red)
        (w.ws.predictThenLearn dbg ft l) (w.ws.predictThenLearn dbg gt l) := by
      unfold Workspace.predictThenLearn
      refine (((ptlImpl_nice dbg w.ws.red hp w.ws.st l 0).wrap dbg w.ws.red.meta 0).congr (d := 0) he).bind
        fun a b _ _ hab => ?_
      obtain ⟨⟨p, s⟩, f, d⟩ := a
      obtain ⟨⟨p', s'⟩, f', d'⟩ := b
      obtain ⟨h1, h2, h3⟩ := hab
      simp only at h1 h2 h3
      cases h1
      exact ⟨rfl, rfl, h2, rfl⟩
    refine h1.bind fun a b _ _ hab => ?_
    obtain ⟨p, ws, f⟩ := a
    obtain ⟨p', ws', g⟩ := b
    obtain ⟨e1, e2, e3, e4⟩ := hab
    simp only at e1 e2 e3 e4
    subst e1 e2
    have hm : (fun m : Metric F => m.addPoint f l p) = fun m => m.addPoint g l p := funext fun m => addPoint_eqv e3 m l p
    simp only [hm]
    refine RelM.same _ fun ms => ?_
    refine RelM.same _ fun x => ?_
    obtain ⟨out, mg⟩ := x
    simp only
    cases out with
    | true => exact RelM.same _ fun row => ⟨rfl, e3, e4⟩
    | false => exact RelM.same _ fun row => ⟨rfl, e3, e4⟩
  · have h1 : RelM (fun x y : Workspace F × Features F => x.1 = y.1 ∧ FtEqv x.2 y.2 ∧ x.1.red = w.ws.red)
        (w.ws.learn dbg ft l) (w.ws.learn dbg gt l) := by
      unfold Workspace.learn
      refine (((learnImpl_nice dbg w.ws.red hp w.ws.st l).wrap dbg w.ws.red.meta 0).congr (d := 0) he).bind
        fun a b _ _ hab => ?_
      obtain ⟨s, f, d⟩ := a
      obtain ⟨s', f', d'⟩ := b
      obtain ⟨h1, h2, h3⟩ := hab
      simp only at h1 h2 h3
      cases h1
      exact ⟨rfl, h2, rfl⟩
    refine h1.bind fun a b _ _ hab => ?_
    obtain ⟨ws, f⟩ := a
    obtain ⟨ws', g⟩ := b
    obtain ⟨e1, e2, e3⟩ := hab
    simp only at e1 e2 e3
    subst e1
    exact ⟨rfl, e2, e3⟩

theorem clear_ok {f : SparseFeatures F} (h : f.Inv0) {p : Pool (SparseFeatures F)} (hp : PoolOk p) : PoolOk (f.clearAndReturn p) := by
  intro g hg
  simp only [SparseFeatures.clearAndReturn, Pool.returnObject, List.mem_cons] at hg
  rcases hg with rfl | hg
  · exact ⟨clear_inv0 h, vw_clear f⟩
  · exact hp g hg

theorem giveBackAll_ok {fs gs : List (SparseFeatures F)} (h : List.Forall₂ Eqv fs gs) {q : Pool (SparseFeatures F)} (hq : PoolOk q) :
    PoolOk (fs.foldl (fun p a => a.clearAndReturn p) q) := by
  induction h generalizing q with
  | nil => exact hq
  | cons h _ ih => exact ih (clear_ok h.left hq)

theorem giveBack_ok {ft gt : Features F} (h : FtEqv ft gt) {p : Pool (SparseFeatures F)} (hp : PoolOk p) : PoolOk (ft.clearAndReturn p) := by
  cases h with
  | simple h => exact clear_ok h.left hp
  | @cb f g h =>
    have h1 : PoolOk (match f.shared with | some s => s.clearAndReturn p | none => p) := by
      have := h.shared
      generalize f.shared = a at this ⊢
      generalize g.shared = b at this
      cases this with
      | none => exact hp
      | some h => exact clear_ok h.left hp
    exact giveBackAll_ok h.actions h1

/-- The results of parsing a chunk with objects of the pool and with new objects. -/
def ParsedRel (x y : (Features F × Option (Label F)) × Pool (SparseFeatures F)) : Prop :=
  x.1.2 = y.1.2 ∧ FtEqv x.1.1 y.1.1 ∧ PlainEx x.1.1 ∧ PoolOk x.2

/-- A parser whose results for chunks with `P` do not depend on the objects. -/
def ParserOk {C : Type} (P : C → Prop) (parse : Pool (SparseFeatures F) → C → ParseOut ((Features F × Option (Label F)) × Pool (SparseFeatures F))) : Prop :=
  ∀ pool, PoolOk pool → ∀ c, P c → OutRel ParsedRel (parse pool c) (parse ⟨[]⟩ c)

theorem train_hyp {C : Type} {P : C → Prop} {parse : Pool (SparseFeatures F) → C → ParseOut ((Features F × Option (Label F)) × Pool (SparseFeatures F))}
    (hp : ParserOk P parse) (dbg : Bool) (o : TrainOpts) (q : Nat) :
    PoolHyp P (fun w : TrainWorld F => w.ws.red.PairsOk) (fun x y : Features F × Option (Label F) => x.2 = y.2 ∧ FtEqv x.1 y.1)
      (fun f : SparseFeatures F => f.Inv0 ∧ ∀ ns, f.vw ns = ([], [], false)) (trainPoolPipe dbg o q parse) := by
  refine ⟨⟨new_inv0, fun _ => rfl⟩, fun objs ho c hc => ?_, fun w r r' hw hr => ?_, fun w r r' w' x hw hr h => ?_⟩
  · simp only [trainPoolPipe]
    have h1 := hp objs ho c hc
    generalize parse objs c = a at h1 ⊢
    generalize parse ⟨[]⟩ c = b at h1 ⊢
    cases h1 with
    | ok h => exact .ok ⟨h.1, h.2.1⟩
    | err => exact .err
    | panic => exact .panic
  · obtain ⟨ft, l⟩ := r
    obtain ⟨gt, l'⟩ := r'
    obtain ⟨h1, h2⟩ := hr
    simp only at h1 h2
    subst h1
    simp only [trainPoolPipe]
    have h4 := processFeatures_rel (dbg := dbg) (o := o) hw h2 l
    generalize processFeatures dbg o w ft l = a at h4 ⊢
    generalize processFeatures dbg o w gt l = b at h4 ⊢
    cases a <;> cases b
    · rfl
    · exact h4.elim
    · exact h4.elim
    · exact congrArg some h4.1
  · obtain ⟨ft, l⟩ := r
    obtain ⟨gt, l'⟩ := r'
    obtain ⟨h1, h2⟩ := hr
    simp only at h1 h2
    subst h1
    simp only [trainPoolPipe] at h
    have h4 := processFeatures_rel (dbg := dbg) (o := o) hw h2 l
    cases ha : processFeatures dbg o w ft l with
    | error e => rw [ha] at h; cases h
    | ok a =>
      rw [ha] at h h4
      obtain ⟨y, _, e1, e2, e3⟩ := h4.ok_left rfl
      simp only [Option.some.injEq, Prod.mk.injEq] at h
      obtain ⟨rfl, rfl⟩ := h
      exact ⟨by rw [e3]; exact hw, fun pool hpool => giveBack_ok e2 hpool⟩

/-- The single-threaded loop with the pool does what the loop with new objects does. -/
theorem trainLoop_eq {C : Type} {P : C → Prop} {parse : Pool (SparseFeatures F) → C → ParseOut ((Features F × Option (Label F)) × Pool (SparseFeatures F))}
    (hp : ParserOk P parse) (dbg : Bool) (o : TrainOpts) (q : Nat) (cs : List C) : ∀ (w : TrainWorld F) (pool : Pool (SparseFeatures F)),
    (∀ c ∈ cs, P c) → w.ws.red.PairsOk → PoolOk pool →
    trainLoop dbg o parse cs w pool = ((trainPoolPipe dbg o q parse).withObjects ⟨[]⟩).sequential cs w := by
  induction cs with
  | nil => intros; rfl
  | cons c cs ih =>
    intro w pool hcs hw hpool
    simp only [trainLoop, Pipe.sequential, PoolPipe.withObjects, trainPoolPipe]
    have h1 := hp pool hpool c (hcs c (by simp))
    generalize parse pool c = a at h1 ⊢
    generalize parse ⟨[]⟩ c = b at h1 ⊢
    cases h1 with
    | err => rfl
    | panic => rfl
    | @ok r r' h =>
      obtain ⟨⟨ft, l⟩, p1⟩ := r
      obtain ⟨⟨gt, l'⟩, p2⟩ := r'
      obtain ⟨h1, h2, _, h4⟩ := h
      simp only at h1 h2 h4
      subst h1
      simp only
      have h5 := processFeatures_rel (dbg := dbg) (o := o) hw h2 l
      generalize processFeatures dbg o w ft l = a at h5 ⊢
      generalize processFeatures dbg o w gt l = b at h5 ⊢
      cases a <;> cases b
      · rfl
      · exact h5.elim
      · exact h5.elim
      · rename_i x y
        obtain ⟨w1, f1⟩ := x
        obtain ⟨w2, f2⟩ := y
        obtain ⟨e1, e2, e3⟩ := h5
        simp only at e1 e2 e3
        subst e1
        exact ih w1 _ (fun c hc => hcs c (by simp [hc])) (by rw [e3]; exact hw) (giveBack_ok e2 h4)

/-! ### The parsers -/

theorem Made.plain {e : Prop} {f : SparseFeatures F} (h : Made e f) : f.Plain := ⟨h.inv, h.hidden, noView_of_wf h.wf h.noComposite⟩

theorem FtMade.plainEx {e : Prop} {ft : Features F} (h : FtMade e ft) : PlainEx ft := by
  cases ft with
  | simple f => exact ⟨h.inv, noView_of_wf h.wf h.noComposite⟩
  | cbAdf f => exact ⟨fun s hs => (h.1 s hs).plain, fun a ha => (h.2 a ha).plain⟩

theorem poolOk_nil : PoolOk (⟨[]⟩ : Pool (SparseFeatures F)) := fun _ h => nomatch h

theorem vw_ok (pr : Vw.Parser F) : ParserOk (fun _ => True) (Vw.parseOut pr) := by
  intro pool hpool c hc
  have h1 := Vw.parseChunk_rel pr (p := pool) (q := ⟨[]⟩) ⟨hpool, poolOk_nil⟩ c
  have h2 := Vw.parseChunk_made (e := Vw.ChunkFull pr c) pr hpool c id
  unfold Vw.parseOut
  generalize Vw.parseChunk pr pool c = x at h1 h2 ⊢
  generalize Vw.parseChunk pr ⟨[]⟩ c = y at h1 ⊢
  cases x with
  | error e =>
    cases y with
    | ok b => exact absurd trivial h1
    | error e' =>
      have := h1 trivial
      subst this
      cases e with
      | err => exact .err
      | panic p => exact .panic
  | ok a =>
    cases y with
    | error e => exact absurd trivial h1
    | ok b =>
      exact .ok ⟨h1.1, h1.2, (h2 a rfl).1.plainEx, (h2 a rfl).2⟩

variable {N : Type}

theorem js_ok (pr : Js.Parser F N) : ParserOk (fun c => ∀ j, pr.parseJson c = some j → Js.DocNoStringLists j) (Js.parseOut pr) := by
  intro pool hpool c hc
  have h1 := Js.parseChunk_rel (s := True) pr (p := pool) (q := ⟨[]⟩) ⟨hpool, poolOk_nil⟩ c fun _ => hc
  have h2 := Js.parseChunk_made (e := ∀ j, pr.parseJson c = some j → Js.DocFull j) pr hpool c id
  unfold Js.parseOut
  generalize Js.parseChunk pr pool c = x at h1 h2 ⊢
  generalize Js.parseChunk pr ⟨[]⟩ c = y at h1 ⊢
  cases x with
  | error e =>
    cases y with
    | ok b => exact absurd trivial h1
    | error e' => exact .panic
  | ok a =>
    cases y with
    | error e => exact absurd trivial h1
    | ok b =>
      exact .ok ⟨h1.1, h1.2, (h2 a rfl).1.plainEx, (h2 a rfl).2⟩

theorem ds_ok (pr : Js.Parser F N) : ParserOk (fun _ => True) (Ds.parseOut pr) := by
  intro pool hpool c _
  have h1 := Ds.parseChunk_rel pr (p := pool) (q := ⟨[]⟩) ⟨hpool, poolOk_nil⟩ c
  have h2 := Ds.parseChunk_made pr hpool c
  unfold Ds.parseOut
  generalize Ds.parseChunk pr pool c = x at h1 h2 ⊢
  generalize Ds.parseChunk pr ⟨[]⟩ c = y at h1 ⊢
  cases x with
  | error e =>
    cases y with
    | ok b => exact absurd trivial h1
    | error e' => exact .panic
  | ok a =>
    cases y with
    | error e => exact absurd trivial h1
    | ok b => exact .ok ⟨h1.1, h1.2, (h2 a rfl).1.plainEx, (h2 a rfl).2⟩

end Rml
