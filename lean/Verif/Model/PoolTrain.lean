import Verif.Model.Train
import Verif.Model.JsonParser

/-
The training loops of `reductionml-cli/src/train.rs` with the pool of feature objects that the parser threads take objects from and the learner returns
them to.
-/

namespace Rml

/-- The parameters of a run: `parser.parse_chunk` as a function of the objects it is given and of the chunk, `process_example` (`train.rs:401-435`) as a
function of what the learner owns, the return of the processed example to the pool, a new object, and `args.queue_size`. -/
structure PoolPipe (O C R W : Type) where
  parse : Pool O → C → ParseOut R
  process : W → R → Option (W × R)
  giveBack : R → Pool O → Pool O
  fresh : O
  queueSize : Nat

/-- The pipeline in which every chunk is parsed with the given objects. -/
def PoolPipe.withObjects {O C R W : Type} (p : PoolPipe O C R W) (objs : Pool O) : Pipe C R W :=
  { parse := p.parse objs, process := fun w r => (p.process w r).map (·.1), queueSize := p.queueSize }

/-- The state of the scope with the pool, and the objects that each parser thread has taken for the chunk it is parsing. -/
structure PoolState (O C R W : Type) (n : Nat) where
  st : PState C R W n
  pool : Pool O
  taken : Fin n → List O

/-- Steps: a step of a thread, or a parser thread taking an object from the pool while it is parsing (`pool.get_object()`, one critical section of the
pool's mutex, `object_pool.rs:26-28`). -/
inductive PoolTid (n : Nat) where
  | thread (t : Tid n)
  | take (k : Fin n)

section
variable {O C R W : Type} {n : Nat}

/-- The start of `thread::scope` (`train.rs:325-329`). -/
def PoolState.init (chunks : List C) (w : W) (pool : Pool O) : PoolState O C R W n := ⟨PState.init chunks w, pool, fun _ => []⟩

/-- The pool after a step of the learner: `process_example` returns the objects of the example (`train.rs:434`). -/
def PoolPipe.poolAfter (p : PoolPipe O C R W) (s : PoolState O C R W n) : Pool O :=
  match s.st.learner with
  | .processing (.ok r) =>
    match p.process s.st.world r with
    | some (_, r') => p.giveBack r' s.pool
    | none => s.pool
  | _ => s.pool

/-- One step. A parser thread may take any number of objects before it parses; it then parses with exactly these, and makes new ones if they are not
enough. (The program takes exactly as many as it needs, each when it needs it, interleaved with the steps of the other threads; the model allows these
executions and more.) -/
def PoolPipe.step (p : PoolPipe O C R W) (t : PoolTid n) (s : PoolState O C R W n) : StepRes (PoolState O C R W n) :=
  match t with
  | .take k =>
    match s.st.workers k with
    | .parsing _ _ =>
      let (o, pool) := s.pool.getObject p.fresh
      .next { s with pool := pool, taken := fun j => if j = k then s.taken j ++ [o] else s.taken j }
    | _ => .blocked
  | .thread (.worker k) =>
    match (p.withObjects ⟨s.taken k⟩).stepWorker k s.st with
    | .next st =>
      let done := match s.st.workers k with | .parsing _ _ => true | _ => false
      .next { s with st := st, taken := fun j => if j = k && done then [] else s.taken j }
    | .fault => .fault
    | .blocked => .blocked
  | .thread t =>
    match (p.withObjects ⟨[]⟩).step t s.st with
    | .next st => .next { s with st := st, pool := match t with | .learner => p.poolAfter s | _ => s.pool }
    | .fault => .fault
    | .blocked => .blocked

/-- The states of the pipeline with the pool that some schedule reaches from the start. -/
inductive PoolRun (p : PoolPipe O C R W) (cs : List C) (w0 : W) (pool0 : Pool O) : PoolState O C R W n → Prop where
  | start : PoolRun p cs w0 pool0 (PoolState.init cs w0 pool0)
  | step (s s' : PoolState O C R W n) (t : PoolTid n) : PoolRun p cs w0 pool0 s → p.step t s = .next s' → PoolRun p cs w0 pool0 s'

/-- Run a schedule: every listed step must be possible. -/
def PoolPipe.exec (p : PoolPipe O C R W) : List (PoolTid n) → PoolState O C R W n → Option (PoolState O C R W n)
  | [], s => some s
  | t :: ts, s =>
    match p.step t s with
    | .next s' => p.exec ts s'
    | _ => none

/-- The thread that takes this step, unless it only takes an object from the pool. -/
def PoolTid.thread? : PoolTid n → Option (Tid n)
  | .thread t => some t
  | .take _ => none

end

/-- The outcome of a call of `parse_chunk` of the VW text parser. -/
def Vw.parseOut {F : Type} [Flt F] (pr : Vw.Parser F) (pool : Pool (SparseFeatures F)) (chunk : Text.Str) :
    ParseOut ((Features F × Option (Label F)) × Pool (SparseFeatures F)) :=
  match Vw.parseChunk pr pool chunk with
  | .ok r => .ok r
  | .error .err => .err
  | .error (.panic _) => .panic

/-- The outcome of a call of `parse_chunk` of the JSON parser: it never returns an `Err`. -/
def Js.parseOut {F N : Type} [Flt F] (pr : Js.Parser F N) (pool : Pool (SparseFeatures F)) (chunk : Text.Str) :
    ParseOut ((Features F × Option (Label F)) × Pool (SparseFeatures F)) :=
  match Js.parseChunk pr pool chunk with
  | .ok r => .ok r
  | .error _ => .panic

/-- The outcome of a call of `parse_chunk` of the DsJson parser: it never returns an `Err`. -/
def Ds.parseOut {F N : Type} [Flt F] (pr : Js.Parser F N) (pool : Pool (SparseFeatures F)) (chunk : Text.Str) :
    ParseOut ((Features F × Option (Label F)) × Pool (SparseFeatures F)) :=
  match Ds.parseChunk pr pool chunk with
  | .ok r => .ok r
  | .error _ => .panic

/-- The single-threaded loop (`train.rs:308-324`) with the pool. `parse` also returns the pool that is left. The result is the world and whether all
chunks were processed. -/
def trainLoop {C F : Type} [Flt F] (dbg : Bool) (o : TrainOpts)
    (parse : Pool (SparseFeatures F) → C → ParseOut ((Features F × Option (Label F)) × Pool (SparseFeatures F))) :
    List C → TrainWorld F → Pool (SparseFeatures F) → TrainWorld F × Bool
  | [], w, _ => (w, true)
  | c :: cs, w, pool =>
    match parse pool c with
    | .ok ((ft, label), pool) =>
      match processFeatures dbg o w ft label with
      | .ok (w', ft') => trainLoop dbg o parse cs w' (ft'.clearAndReturn pool)
      | .error _ => (w, false)
    | .err => (w, false)
    | .panic => (w, false)

/-- The multi-threaded pipeline with this learner and pool. -/
def trainPoolPipe {C F : Type} [Flt F] (dbg : Bool) (o : TrainOpts) (queueSize : Nat)
    (parse : Pool (SparseFeatures F) → C → ParseOut ((Features F × Option (Label F)) × Pool (SparseFeatures F))) :
    PoolPipe (SparseFeatures F) C (Features F × Option (Label F)) (TrainWorld F) :=
  { parse := fun objs c => match parse objs c with | .ok r => .ok r.1 | .err => .err | .panic => .panic
    process := fun w r => match processFeatures dbg o w r.1 r.2 with | .ok (w', ft') => some (w', (ft', r.2)) | .error _ => none
    giveBack := fun r pool => r.1.clearAndReturn pool
    fresh := SparseFeatures.new
    queueSize := queueSize }

end Rml
