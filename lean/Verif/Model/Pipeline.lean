import Verif.Model.Base

/-
The training loop of the command line tool: `reductionml-cli/src/train.rs`.

The multi-threaded branch is a transition system. Every thread is deterministic; a schedule is a list of thread identifiers. Each step is one
operation on shared data: a channel operation, an atomic access, an access to one of the unsafe cells, or a futex call. The memory model is
sequential consistency (`DESIGN.md`). Parsing and learning a chunk are parameters.
-/

namespace Rml

/-- What `parse_chunk` does with a chunk: a value, an error (`Err`), or a panic of the thread. -/
inductive ParseOut (R : Type) where
  | ok (r : R)
  | err
  | panic
  deriving DecidableEq, Repr

/-- The parameters of a run: `parser.parse_chunk` as a function of the chunk, `process_example` (`train.rs:401-435`) as a function of everything
the learner owns (workspace, metrics, manager, predictions file; `none` is a panic), and `args.queue_size`. Reading the input
(`get_next_chunk(..).unwrap()`) is taken to succeed. -/
structure Pipe (C R W : Type) where
  parse : C → ParseOut R
  process : W → R → Option W
  queueSize : Nat

/-- The single-threaded branch (`train.rs:308-324`): the world after training, and whether all chunks were processed (`unwrap` of a parse error,
or a panic of the parser or the learner, ends the program). -/
def Pipe.sequential {C R W : Type} (p : Pipe C R W) : List C → W → W × Bool
  | [], w => (w, true)
  | c :: cs, w =>
    match p.parse c with
    | .ok r =>
      match p.process w r with
      | some w' => p.sequential cs w'
      | none => (w, false)
    | .err => (w, false)
    | .panic => (w, false)

/-- `ParseResult` (`train.rs:113-118`). -/
structure Slot (C R : Type) where
  ready : Bool
  result : Option (ParseOut R)
  input : Option C

/-- The input thread (`train.rs:330-345`): reading the next chunk, `parse_sender.send`, `learn_sender.send`, the two `drop`s, finished. -/
inductive InPhase where
  | reading
  | sendParse (i : Nat)
  | sendLearn (i : Nat)
  | dropParse
  | dropLearn
  | done
  deriving DecidableEq, Repr

/-- A parser thread (`train.rs:347-359`, with `get_input` `train.rs:129-132` and `set_result` `train.rs:142-149` taken apart): waiting in
`recv`; before the assertion of `get_input`; before taking the input; parsing; before the assertion of `set_result`; before writing the
result; before storing `ready`; before `wake_one`; finished; panicked. -/
inductive WPhase (C R : Type) where
  | idle
  | got (i : Nat)
  | take (i : Nat)
  | parsing (i : Nat) (c : C)
  | parsed (i : Nat) (r : ParseOut R)
  | writing (i : Nat) (r : ParseOut R)
  | written (i : Nat)
  | waking (i : Nat)
  | exited
  | dead

/-- The learner (`train.rs:361-382`, with `await_result` `train.rs:134-140` taken apart): waiting in `recv`; before the relaxed load; before the
futex wait; asleep in it; before the assertion; before taking the result; before `process_example`; finished; panicked. -/
inductive LPhase (R : Type) where
  | idle
  | checking (i : Nat)
  | waiting (i : Nat)
  | asleep (i : Nat)
  | ready (i : Nat)
  | taking (i : Nat)
  | processing (r : ParseOut R)
  | finished
  | dead

/-- The shared state of the scope. `chunks` is what `get_next_chunk` has not returned yet. Slots are numbered in the order of their creation
(the `Arc`s). `fills` and `reads` are ghost logs of the writes and reads of results, used only in statements. -/
structure PState (C R W : Type) (n : Nat) where
  toRead : List C
  slots : Nat → Slot C R
  made : Nat
  input : InPhase
  parseQ : List Nat
  learnQ : List Nat
  parseOpen : Bool
  learnOpen : Bool
  workers : Fin n → WPhase C R
  learner : LPhase R
  world : W
  fills : List Nat
  reads : List Nat

/-- The threads; `spurious` is the environment ending a futex wait without a reason. -/
inductive Tid (n : Nat) where
  | input
  | worker (k : Fin n)
  | learner
  | spurious
  deriving DecidableEq

/-- The result of letting a thread take a step: it is blocked (or finished), an assertion or `unwrap` of `ParseResult` fails, or there is a new
state. -/
inductive StepRes (S : Type) where
  | blocked
  | fault
  | next (s : S)

section
variable {C R W : Type} {n : Nat}

/-- The start of `thread::scope` (`train.rs:325-329`). -/
def PState.init (chunks : List C) (w : W) : PState C R W n :=
  { toRead := chunks, slots := fun _ => ⟨false, none, none⟩, made := 0, input := .reading, parseQ := [], learnQ := [], parseOpen := true,
    learnOpen := true, workers := fun _ => .idle, learner := .idle, world := w, fills := [], reads := [] }

/-- Replace a slot. -/
def PState.setSlot (s : PState C R W n) (i : Nat) (f : Slot C R → Slot C R) : PState C R W n :=
  { s with slots := fun j => if j = i then f (s.slots j) else s.slots j }

/-- Replace the phase of a parser thread. -/
def PState.setWorker (s : PState C R W n) (k : Fin n) (p : WPhase C R) : PState C R W n :=
  { s with workers := fun j => if j = k then p else s.workers j }

/-- A step of the input thread (`train.rs:330-345`, `ParseResult::new` `train.rs:121-127`). `flume::bounded` blocks the sender while the queue is
full; the receivers outlive the thread, so `send` never fails. -/
def Pipe.stepInput (p : Pipe C R W) (s : PState C R W n) : StepRes (PState C R W n) :=
  match s.input with
  | .reading =>
    match s.toRead with
    | [] => .next { s with input := .dropParse }
    | c :: cs =>
      .next { (s.setSlot s.made (fun _ => ⟨false, none, some c⟩)) with toRead := cs, made := s.made + 1, input := .sendParse s.made }
  | .sendParse i =>
    if s.parseQ.length < p.queueSize then .next { s with parseQ := s.parseQ ++ [i], input := .sendLearn i } else .blocked
  | .sendLearn i =>
    if s.learnQ.length < p.queueSize then .next { s with learnQ := s.learnQ ++ [i], input := .reading } else .blocked
  | .dropParse => .next { s with parseOpen := false, input := .dropLearn }
  | .dropLearn => .next { s with learnOpen := false, input := .done }
  | .done => .blocked

/-- A step of a parser thread (`train.rs:347-359`). -/
def Pipe.stepWorker (p : Pipe C R W) (k : Fin n) (s : PState C R W n) : StepRes (PState C R W n) :=
  match s.workers k with
  | .idle =>
    match s.parseQ with
    | i :: q => .next { (s.setWorker k (.got i)) with parseQ := q }
    | [] => if s.parseOpen then .blocked else .next (s.setWorker k .exited)
  | .got i => if (s.slots i).ready then .fault else .next (s.setWorker k (.take i))
  | .take i =>
    match (s.slots i).input with
    | none => .fault
    | some c => .next ((s.setSlot i (fun x => { x with input := none })).setWorker k (.parsing i c))
  | .parsing i c =>
    match p.parse c with
    | .panic => .next (s.setWorker k .dead)
    | r => .next (s.setWorker k (.parsed i r))
  | .parsed i r => if (s.slots i).ready then .fault else .next (s.setWorker k (.writing i r))
  | .writing i r =>
    .next { ((s.setSlot i (fun x => { x with result := some r })).setWorker k (.written i)) with fills := s.fills ++ [i] }
  | .written i => .next ((s.setSlot i (fun x => { x with ready := true })).setWorker k (.waking i))
  | .waking i =>
    .next { (s.setWorker k .idle) with
      learner := match s.learner with
        | .asleep j => if j = i then .checking j else .asleep j
        | l => l }
  | .exited => .blocked
  | .dead => .blocked

/-- A step of the learner (`train.rs:361-382`). The futex wait sleeps only if `ready` is still 0, in one atomic step. `unwrap` of a parse error
panics. -/
def Pipe.stepLearner (p : Pipe C R W) (s : PState C R W n) : StepRes (PState C R W n) :=
  match s.learner with
  | .idle =>
    match s.learnQ with
    | i :: q => .next { s with learnQ := q, learner := .checking i }
    | [] => if s.learnOpen then .blocked else .next { s with learner := .finished }
  | .checking i => if (s.slots i).ready then .next { s with learner := .ready i } else .next { s with learner := .waiting i }
  | .waiting i => if (s.slots i).ready then .next { s with learner := .checking i } else .next { s with learner := .asleep i }
  | .asleep _ => .blocked
  | .ready i => if (s.slots i).ready then .next { s with learner := .taking i } else .fault
  | .taking i =>
    match (s.slots i).result with
    | none => .fault
    | some r => .next { (s.setSlot i (fun x => { x with result := none })) with learner := .processing r, reads := s.reads ++ [i] }
  | .processing r =>
    match r with
    | .ok r =>
      match p.process s.world r with
      | some w => .next { s with world := w, learner := .idle }
      | none => .next { s with learner := .dead }
    | _ => .next { s with learner := .dead }
  | .finished => .blocked
  | .dead => .blocked

/-- A step of any thread. -/
def Pipe.step (p : Pipe C R W) (t : Tid n) (s : PState C R W n) : StepRes (PState C R W n) :=
  match t with
  | .input => p.stepInput s
  | .worker k => p.stepWorker k s
  | .learner => p.stepLearner s
  | .spurious =>
    match s.learner with
    | .asleep i => .next { s with learner := .checking i }
    | _ => .blocked

end

end Rml
