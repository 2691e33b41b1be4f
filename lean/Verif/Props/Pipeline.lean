import Verif.Lemmas.Pipeline6
import Mathlib.Data.Fintype.Card

/-!
# C53, C54, C55: the multi-threaded training pipeline

A run is any sequence of thread steps from the start (`Reach`), for any number `n` of parser threads, any queue size, any input and any
behaviour of the parser and the learner on a chunk.
-/

namespace Rml

variable {C R W : Type} {n : Nat}

/-- The states of the pipeline that some schedule reaches from the start. -/
inductive Reach (p : Pipe C R W) (cs : List C) (w0 : W) : PState C R W n → Prop where
  | start : Reach p cs w0 (PState.init cs w0)
  | step (s s' : PState C R W n) (t : Tid n) : Reach p cs w0 s → p.step t s = .next s' → Reach p cs w0 s'

theorem Reach.inv {p : Pipe C R W} {cs : List C} {w0 : W} {s : PState C R W n} (h : Reach p cs w0 s) : PInv p cs w0 s := by
  induction h with
  | start => exact PInv.init p cs w0
  | step s s' t _ hs ih => exact ih.step t hs

/-- Run a schedule: every listed thread must be able to take its step. -/
def Pipe.exec (p : Pipe C R W) : List (Tid n) → PState C R W n → Option (PState C R W n)
  | [], s => some s
  | t :: ts, s =>
    match p.step t s with
    | .next s' => p.exec ts s'
    | _ => none

theorem Reach.exec {p : Pipe C R W} {cs : List C} {w0 : W} (ts : List (Tid n)) {s s' : PState C R W n} (h : Reach p cs w0 s)
    (he : p.exec ts s = some s') : Reach p cs w0 s' := by
  induction ts generalizing s with
  | nil => simp only [Pipe.exec, Option.some.injEq] at he; rwa [← he]
  | cons t ts ih =>
    simp only [Pipe.exec] at he
    cases hs : p.step t s with
    | next s1 => rw [hs] at he; exact ih (h.step s s1 t hs) he
    | blocked => rw [hs] at he; simp at he
    | fault => rw [hs] at he; simp at he

/-! ## C53 -/

/-- When the learner has finished, it has processed exactly what the single-threaded loop processes, in file order: the model, metrics and
predictions (`world`) are those of `numParseThreads = 0`. -/
theorem C53_same_as_sequential (p : Pipe C R W) (cs : List C) (w0 : W) (s : PState C R W n) (h : Reach p cs w0 s)
    (hf : s.learner = .finished) : p.sequential cs w0 = (s.world, true) := by
  have hi := h.inv
  have hq := (hi.q.finished hf).2
  have hd := hi.q.lOpen.mp hq
  have hr := hi.q.fin (Or.inr (Or.inr hd))
  have h1 := hi.q.read
  have h2 := hi.q.le
  have hm : s.made = cs.length := by
    rw [hr] at h1
    have := congrArg List.length h1
    simp at this
    omega
  have hl := hi.q.lq
  rw [(hi.q.finished hf).1] at hl
  have hfr := hi.q.front
  have e1 : s.front = s.reads.length := by simp only [PState.front, hf, LPhase.holding]
  have e2 : s.sent = s.made := by simp only [PState.sent, hd]
  have e3 : s.sent - s.front = 0 := by
    have := congrArg List.length hl
    simp at this
    omega
  have e4 : s.reads.length = cs.length := by omega
  have := hi.w.run (by simp [hf]) (by simp [hf])
  rwa [e4, List.take_length] at this

/-- At every moment, the learner is at some point of the single-threaded run. -/
theorem C53_always_a_prefix (p : Pipe C R W) (cs : List C) (w0 : W) (s : PState C R W n) (h : Reach p cs w0 s) :
    ∃ d, d ≤ cs.length ∧ p.sequential (cs.take d) w0 = (s.world, true) := by
  have hi := h.inv
  have hle := hi.w.le
  by_cases h1 : ∃ r, s.learner = .processing r
  · obtain ⟨r, hr⟩ := h1
    obtain ⟨d, e, _, hs⟩ := hi.w.proc r hr
    exact ⟨d, by omega, hs⟩
  · by_cases h2 : s.learner = .dead
    · obtain ⟨d, e, hs, _⟩ := hi.w.dead h2
      exact ⟨d, by omega, hs⟩
    · exact ⟨_, hle, hi.w.run (fun r hr => h1 ⟨r, hr⟩) h2⟩

/-- If the learner panics, the single-threaded loop panics at the same point. -/
theorem C53_same_failure (p : Pipe C R W) (cs : List C) (w0 : W) (s : PState C R W n) (h : Reach p cs w0 s) (hd : s.learner = .dead) :
    p.sequential cs w0 = (s.world, false) := by
  obtain ⟨_, _, _, e⟩ := h.inv.w.dead hd
  exact e

/-! ## C54 -/

/-- If the single-threaded loop gets through the file without failing, some thread can always take a step until all threads have ended. -/
theorem C54_progress (p : Pipe C R W) (cs : List C) (w0 : W) (hseq : (p.sequential cs w0).2 = true)
    (hn : 0 < n) (hz : 0 < p.queueSize) (s : PState C R W n) (h : Reach p cs w0 s)
    (hne : ¬ (s.input = .done ∧ s.learner = .finished ∧ ∀ k, s.workers k = .exited)) :
    ∃ t s', t ≠ Tid.spurious ∧ p.step t s = .next s' :=
  h.inv.progress hseq hn hz hne

theorem exec_cost {p : Pipe C R W} {cs : List C} {w0 : W} (ts : List (Tid n)) {s s' : PState C R W n} (h : Reach p cs w0 s)
    (he : p.exec ts s = some s') : ts.countP (· != .spurious) + s'.cost ≤ s.cost + 2 * ts.countP (· == .spurious) := by
  induction ts generalizing s with
  | nil => simp only [Pipe.exec, Option.some.injEq] at he; rw [← he]; simp
  | cons t ts ih =>
    simp only [Pipe.exec] at he
    cases hs : p.step t s with
    | next s1 =>
      rw [hs] at he
      have := ih (h.step s s1 t hs) he
      by_cases ht : t = .spurious
      · subst ht
        have := spurious_cost hs
        simp only [List.countP_cons]
        simp
        omega
      · have h3 := h.inv.cost_step t ht hs
        have e1 : (t != Tid.spurious) = true := by simpa using ht
        have e2 : (t == Tid.spurious) = false := by simpa using ht
        simp only [List.countP_cons, e1, e2]
        simp
        omega
    | blocked => rw [hs] at he; simp at he
    | fault => rw [hs] at he; simp at he

/-- Every schedule ends: the threads take at most `20 * chunks + threads + 4` steps, plus two for each spurious futex wake-up. -/
theorem C54_terminates (p : Pipe C R W) (cs : List C) (w0 : W) (ts : List (Tid n)) (s : PState C R W n)
    (he : p.exec ts (PState.init cs w0) = some s) :
    ts.countP (· != .spurious) ≤ 20 * cs.length + n + 4 + 2 * ts.countP (· == .spurious) := by
  have h := exec_cost ts Reach.start he
  have e : (PState.init cs w0 : PState C R W n).cost = 20 * cs.length + n + 4 := by
    simp [PState.init, PState.cost, InPhase.cost, LPhase.cost, WPhase.cost, Finset.card_univ, Fintype.card_fin]
    omega
  omega

/-- The single-threaded loop does not fail when every chunk can be parsed and learned from. -/
theorem C54_usable_input (p : Pipe C R W) (cs : List C) (w0 : W) (h1 : ∀ c ∈ cs, ∃ r, p.parse c = .ok r)
    (h2 : ∀ w r, (p.process w r).isSome) : (p.sequential cs w0).2 = true := sequential_all_ok p cs w0 h1 h2

/-- So with usable input a schedule that never stops early ends with all threads finished and the sequential result. -/
theorem C54_completes (p : Pipe C R W) (cs : List C) (w0 : W) (hseq : (p.sequential cs w0).2 = true)
    (hn : 0 < n) (hz : 0 < p.queueSize) (s : PState C R W n) (h : Reach p cs w0 s)
    (hstuck : ∀ t s', t ≠ Tid.spurious → p.step t s ≠ .next s') :
    s.input = .done ∧ s.learner = .finished ∧ (∀ k, s.workers k = .exited) ∧ p.sequential cs w0 = (s.world, true) := by
  have hall : s.input = .done ∧ s.learner = .finished ∧ ∀ k, s.workers k = .exited := by
    by_contra hne
    obtain ⟨t, s', ht, hs⟩ := C54_progress p cs w0 hseq hn hz s h hne
    exact hstuck t s' ht hs
  exact ⟨hall.1, hall.2.1, hall.2.2, C53_same_as_sequential p cs w0 s h hall.2.1⟩

/-! ## C55 -/

/-- The assertions and `unwrap`s of the hand-over never fail. -/
theorem C55_no_assertion_fails (p : Pipe C R W) (cs : List C) (w0 : W) (s : PState C R W n) (h : Reach p cs w0 s) (t : Tid n) :
    p.step t s ≠ .fault :=
  h.inv.no_fault t

/-- The two unsafe cells of a slot. -/
inductive Cell where
  | input (i : Nat)
  | result (i : Nat)
  deriving DecidableEq

/-- The unsafe cell a thread's next step accesses (`train.rs:131`, `139`, `145`). -/
def PState.access (s : PState C R W n) : Tid n → Option Cell
  | .worker k =>
    match s.workers k with
    | .take i => some (.input i)
    | .writing i _ => some (.result i)
    | _ => none
  | .learner =>
    match s.learner with
    | .taking i => some (.result i)
    | _ => none
  | _ => none

/-- Two threads are never about to access the same unsafe cell. -/
theorem C55_no_race (p : Pipe C R W) (cs : List C) (w0 : W) (s : PState C R W n) (h : Reach p cs w0 s) (t t' : Tid n) (hne : t ≠ t')
    (c : Cell) (h1 : s.access t = some c) : s.access t' ≠ some c := by
  intro h2
  have hv := h.inv.v
  have hw : ∀ k, s.access (.worker k) = some c → ∃ i, (s.workers k).holds i ∧ (c = .input i ∨ c = .result i) := by
    intro k hk
    simp only [PState.access] at hk
    split at hk
    · rename_i i e; exact ⟨i, by rw [e]; rfl, Or.inl (by simpa using hk.symm)⟩
    · rename_i i r e; exact ⟨i, by rw [e]; rfl, Or.inr (by simpa using hk.symm)⟩
    · simp at hk
  have hl : s.access .learner = some c → ∃ i, s.learner = .taking i ∧ c = .result i := by
    intro hk
    simp only [PState.access] at hk
    split at hk
    · rename_i i e; exact ⟨i, e, by simpa using hk.symm⟩
    · simp at hk
  have hwl : ∀ k, s.access (.worker k) = some c → s.access .learner = some c → False := by
    intro k a b
    obtain ⟨i, hi, hc⟩ := hw k a
    obtain ⟨j, hj, hc'⟩ := hl b
    rw [hc'] at hc
    have e : j = i := by
      rcases hc with h | h
      · cases h
      · cases h; rfl
    have r1 := hv.r3 k i hi
    have r2 := hv.lr j (Or.inr hj)
    rw [e, r1] at r2
    cases r2
  cases t with
  | input => simp [PState.access] at h1
  | spurious => simp [PState.access] at h1
  | worker k =>
    cases t' with
    | input => simp [PState.access] at h2
    | spurious => simp [PState.access] at h2
    | learner => exact hwl k h1 h2
    | worker k' =>
      obtain ⟨i, hi, hc⟩ := hw k h1
      obtain ⟨j, hj, hc'⟩ := hw k' h2
      have e : i = j := by
        rcases hc with rfl | rfl <;> rcases hc' with h | h <;> cases h <;> rfl
      subst e
      exact hne (congrArg Tid.worker (hv.x4 i k k' hi hj))
  | learner =>
    cases t' with
    | input => simp [PState.access] at h2
    | spurious => simp [PState.access] at h2
    | learner => exact hne rfl
    | worker k => exact hwl k h2 h1

/-- No slot is filled twice; the learner reads slots in file order, each at most once, and only slots that were filled. -/
theorem C55_handed_over_once (p : Pipe C R W) (cs : List C) (w0 : W) (s : PState C R W n) (h : Reach p cs w0 s) :
    s.fills.Nodup ∧ s.reads = List.range s.reads.length ∧ ∀ i ∈ s.reads, i ∈ s.fills := by
  have hi := h.inv
  refine ⟨hi.v.fnodup, hi.q.reads, fun i hm => ?_⟩
  obtain ⟨a, b⟩ := hi.x.reads i hm
  exact (hi.v.fmem i).mpr ⟨a, Or.inl b⟩

/-- The learner takes out of a slot exactly what parsing the chunk of that position gives. -/
theorem C55_right_result (p : Pipe C R W) (cs : List C) (w0 : W) (s s' : PState C R W n) (h : Reach p cs w0 s) (i : Nat)
    (hl : s.learner = .taking i) (hs : p.step .learner s = .next s') :
    ∃ c, cs[i]? = some c ∧ i = s.reads.length ∧ s'.learner = .processing (p.parse c) := by
  have hi := h.inv
  have hm := hold_lt_made hi.q i (by rw [hl]; rfl)
  have he := hi.q.hold i (by rw [hl]; rfl)
  obtain ⟨e1, e2, _⟩ := hi.v.done i hm (hi.v.lr i (Or.inr hl)) (by omega)
  have hlt : i < cs.length := Nat.lt_of_lt_of_le hm hi.q.le
  refine ⟨cs[i], List.getElem?_eq_getElem hlt, he, ?_⟩
  rw [List.getElem?_eq_getElem hlt, Option.map_some] at e2
  simp only [Pipe.step, Pipe.stepLearner, hl, ← e2, StepRes.next.injEq] at hs
  rw [← hs]

/-! ## What goes wrong without the assumptions of C54 -/

section counterexamples

/-- Chunks are booleans (`false` cannot be parsed), the learner counts. -/
def panicPipe : Pipe Bool Unit Nat :=
  { parse := fun b => if b then .ok () else .panic, process := fun w _ => some (w + 1), queueSize := 1 }

def errPipe : Pipe Bool Unit Nat :=
  { parse := fun b => if b then .ok () else .err, process := fun w _ => some (w + 1), queueSize := 1 }

/-- A parser thread that panics leaves the learner waiting for ever: no thread can take a step, and training has not ended. -/
theorem C54_panic_deadlocks : ∃ (cs : List Bool) (s : PState Bool Unit Nat 1), Reach panicPipe cs 0 s ∧
    (∀ t s', t ≠ Tid.spurious → panicPipe.step t s ≠ .next s') ∧ s.learner ≠ .finished := by
  let ts : List (Tid 1) := [.input, .input, .input, .input, .input, .input, .worker 0, .worker 0, .worker 0, .worker 0, .learner, .learner, .learner]
  cases he : panicPipe.exec ts (PState.init [false] 0) with
  | none => exact absurd he (by decide +kernel)
  | some s =>
    refine ⟨[false], s, Reach.start.exec ts he, ?_, ?_⟩
    · have e : s = ((panicPipe.exec ts (PState.init [false] 0)).getD (PState.init [] 0)) := by rw [he]; rfl
      rw [e]
      intro t s' ht
      cases t with
      | input => exact fun h => by cases h
      | worker k =>
        have : k = 0 := Subsingleton.elim _ _
        subst this
        exact fun h => by cases h
      | learner => exact fun h => by cases h
      | spurious => exact absurd rfl ht
    · have e : s = ((panicPipe.exec ts (PState.init [false] 0)).getD (PState.init [] 0)) := by rw [he]; rfl
      rw [e]
      exact fun h => by cases h

/-- One worker turn: receive, take the input, parse, write the result, wake the learner. -/
def turn : List (Tid 1) := List.replicate 8 (.worker 0)

/-- A chunk that cannot be parsed stops the learner, and if the input goes on the input thread then blocks for ever on the full queue: the
program neither ends nor reports the error. -/
theorem C54_error_hangs : ∃ (cs : List Bool) (s : PState Bool Unit Nat 1), Reach errPipe cs 0 s ∧
    (∀ t s', t ≠ Tid.spurious → errPipe.step t s ≠ .next s') ∧ s.input ≠ .done ∧ s.learner = .dead := by
  let cs := [false, true, true]
  let ts : List (Tid 1) := List.replicate 3 .input ++ turn ++ List.replicate 5 .learner ++ List.replicate 3 .input ++ turn ++
    List.replicate 2 .input ++ turn
  cases he : errPipe.exec ts (PState.init cs 0) with
  | none => exact absurd he (by decide +kernel)
  | some s =>
    have e : s = ((errPipe.exec ts (PState.init cs 0)).getD (PState.init [] 0)) := by rw [he]; rfl
    refine ⟨cs, s, Reach.start.exec ts he, ?_, ?_, ?_⟩
    · rw [e]
      intro t s' ht
      cases t with
      | input => exact fun h => by cases h
      | worker k =>
        have : k = 0 := Subsingleton.elim _ _
        subst this
        exact fun h => by cases h
      | learner => exact fun h => by cases h
      | spurious => exact absurd rfl ht
    · rw [e]
      exact fun h => by cases h
    · rw [e]; rfl

end counterexamples

section examples

/-- A complete run with two parser threads and one futex sleep, ending with both chunks learned: the states in the theorems exist. -/
example : ∃ (ts : List (Tid 2)) (s : PState Bool Unit Nat 2), panicPipe.exec ts (PState.init [true, true] 0) = some s ∧
    s.learner = .finished ∧ s.input = .done ∧ s.world = 2 ∧ s.workers 0 = .exited ∧ s.workers 1 = .exited := by
  refine ⟨List.replicate 3 .input ++ List.replicate 3 .learner ++ [.worker 1] ++ List.replicate 3 .input ++ List.replicate 8 (.worker 0) ++
    List.replicate 7 (.worker 1) ++ List.replicate 9 .learner ++ List.replicate 3 .input ++ [.worker 0, .worker 1, .learner] , _, rfl, ?_⟩
  exact ⟨rfl, rfl, rfl, rfl, rfl⟩

end examples

end Rml
