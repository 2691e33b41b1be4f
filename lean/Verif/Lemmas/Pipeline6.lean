import Verif.Lemmas.Pipeline5
import Mathlib.Algebra.BigOperators.Group.Finset.Basic
import Mathlib.Data.Fintype.Basic

/-!
# Pipeline: no faults, progress and termination
-/

namespace Rml

variable {C R W : Type} {n : Nat}

/-- Dead parser threads and results already read. -/
structure XInv (p : Pipe C R W) (cs : List C) (s : PState C R W n) : Prop where
  dead : ∀ k, s.workers k = .dead → ∃ c ∈ cs, p.parse c = .panic
  reads : ∀ i ∈ s.reads, i < s.made ∧ (s.slots i).ready = true

theorem XInv.init (p : Pipe C R W) (cs : List C) (w : W) : XInv p cs (PState.init cs w : PState C R W n) := by
  constructor <;> simp [PState.init]

theorem hold_lt_made {cs : List C} {s : PState C R W n} (hq : QInv cs s) (i : Nat) (h : s.learner.holding = some i) : i < s.made := by
  have h1 := hq.front
  have h2 : s.sent ≤ s.made := by
    have a := hq.sp
    have b := hq.sl
    grind
  have h3 : s.front = s.reads.length + 1 := by simp only [PState.front, h]
  have h4 := hq.hold i h
  omega

theorem XInv.step {p : Pipe C R W} {cs : List C} {s s' : PState C R W n} (hq : QInv cs s) (hv : SInv p cs s) (h : XInv p cs s)
    (t : Tid n) (hs : p.step t s = .next s') : XInv p cs s' := by
  obtain ⟨h1, h2⟩ := h
  cases t with
  | input =>
    simp only [Pipe.step, Pipe.stepInput] at hs
    split at hs
    all_goals (try split at hs)
    all_goals first
      | (simp at hs; done)
      | (simp only [StepRes.next.injEq] at hs; subst hs; constructor <;> simp only [PState.setSlot] <;> grind)
  | worker k =>
    have hc := hv.c1 k
    simp only [Pipe.step, Pipe.stepWorker] at hs
    split at hs
    case h_4 i c hk =>
      have hmem : c ∈ cs := List.mem_of_getElem? (hc i c hk)
      split at hs
      all_goals (simp only [StepRes.next.injEq] at hs; subst hs; constructor <;> simp only [PState.setSlot, PState.setWorker] <;> grind)
    all_goals (try split at hs)
    all_goals (try split at hs)
    all_goals first
      | (simp at hs; done)
      | (simp only [StepRes.next.injEq] at hs; subst hs; constructor <;> simp only [PState.setSlot, PState.setWorker] <;> grind)
  | learner =>
    have hlr := hv.lr
    have hm := hold_lt_made hq
    simp only [Pipe.step, Pipe.stepLearner] at hs
    split at hs
    all_goals (try split at hs)
    all_goals (try split at hs)
    all_goals (try split at hs)
    all_goals first
      | (simp at hs; done)
      | (simp only [StepRes.next.injEq] at hs; subst hs; constructor <;> simp only [PState.setSlot] <;> grind)
  | spurious =>
    simp only [Pipe.step] at hs
    split at hs
    · simp only [StepRes.next.injEq] at hs
      subst hs
      exact ⟨h1, h2⟩
    · simp at hs

/-- All invariants together. -/
structure PInv (p : Pipe C R W) (cs : List C) (w0 : W) (s : PState C R W n) : Prop where
  q : QInv cs s
  v : SInv p cs s
  w : WInv p cs w0 s
  x : XInv p cs s

theorem PInv.init (p : Pipe C R W) (cs : List C) (w : W) : PInv p cs w (PState.init cs w : PState C R W n) :=
  ⟨QInv.init cs w, SInv.init p cs w, WInv.init p cs w, XInv.init p cs w⟩

theorem PInv.step {p : Pipe C R W} {cs : List C} {w0 : W} {s s' : PState C R W n} (h : PInv p cs w0 s) (t : Tid n)
    (hs : p.step t s = .next s') : PInv p cs w0 s' :=
  ⟨h.q.step t hs, h.v.step h.q t hs, h.w.step h.q h.v t hs, h.x.step h.q h.v t hs⟩

/-- No assertion or `unwrap` of a slot fails. -/
theorem PInv.no_fault {p : Pipe C R W} {cs : List C} {w0 : W} {s : PState C R W n} (h : PInv p cs w0 s) (t : Tid n) :
    p.step t s ≠ .fault := by
  obtain ⟨hq, hv, -, -⟩ := h
  cases t with
  | input =>
    simp only [Pipe.step, Pipe.stepInput]
    split
    all_goals (try split)
    all_goals simp
  | worker k =>
    have a1 := hv.r3 k
    have a2 := hv.in4 k
    simp only [Pipe.step, Pipe.stepWorker]
    split
    all_goals (try split)
    all_goals (try split)
    all_goals first
      | (simp; done)
      | grind
  | learner =>
    have a1 := hv.lr
    have a2 := hv.done
    have a3 := hq.hold
    have a4 := hold_lt_made hq
    simp only [Pipe.step, Pipe.stepLearner]
    split
    all_goals (try split)
    all_goals (try split)
    all_goals (try split)
    all_goals first
      | (simp; done)
      | grind
  | spurious =>
    simp only [Pipe.step]
    split <;> simp

/-- A parser thread in the middle of its work can go on. -/
theorem PInv.worker_steps {p : Pipe C R W} {cs : List C} {w0 : W} {s : PState C R W n} (h : PInv p cs w0 s) (k : Fin n)
    (h1 : s.workers k ≠ .idle) (h2 : s.workers k ≠ .exited) (h3 : s.workers k ≠ .dead) :
    ∃ t s', t ≠ Tid.spurious ∧ p.step t s = .next s' := by
  have hf := h.no_fault (.worker k)
  cases hr : p.step (.worker k) s with
  | next s' => exact ⟨.worker k, s', by simp, hr⟩
  | fault => exact absurd hr hf
  | blocked =>
    exfalso
    simp only [Pipe.step, Pipe.stepWorker] at hr
    split at hr
    all_goals (try split at hr)
    all_goals (try split at hr)
    all_goals first
      | (simp at hr; done)
      | contradiction

theorem PInv.worker_takes {p : Pipe C R W} {cs : List C} {w0 : W} {s : PState C R W n} (h : PInv p cs w0 s) (k : Fin n)
    (hd : s.workers k ≠ .dead) (hne : s.parseQ ≠ []) : ∃ t s', t ≠ Tid.spurious ∧ p.step t s = .next s' := by
  by_cases h1 : s.workers k = .idle
  · obtain ⟨i, q, hq⟩ := List.exists_cons_of_ne_nil hne
    exact ⟨.worker k, _, by simp, by simp only [Pipe.step, Pipe.stepWorker, h1, hq]; rfl⟩
  · by_cases h2 : s.workers k = .exited
    · exact absurd (h.q.exited k h2).1 hne
    · exact h.worker_steps k h1 h2 hd

/-- All threads have ended. -/
def PState.ended (s : PState C R W n) : Prop := s.input = .done ∧ s.learner = .finished ∧ ∀ k, s.workers k = .exited

theorem sequential_all_ok (p : Pipe C R W) (cs : List C) (w : W) (h1 : ∀ c ∈ cs, ∃ r, p.parse c = .ok r) (h2 : ∀ w r, (p.process w r).isSome) :
    (p.sequential cs w).2 = true := by
  induction cs generalizing w with
  | nil => rfl
  | cons c cs ih =>
    obtain ⟨r, hr⟩ := h1 c (by simp)
    obtain ⟨w', hw⟩ := Option.isSome_iff_exists.mp (h2 w r)
    simp only [Pipe.sequential, hr, hw]
    exact ih w' (fun c hc => h1 c (by simp [hc]))

theorem sequential_parses (p : Pipe C R W) (cs : List C) (w : W) (h : (p.sequential cs w).2 = true) : ∀ c ∈ cs, ∃ r, p.parse c = .ok r := by
  induction cs generalizing w with
  | nil => intro c hc; cases hc
  | cons c cs ih =>
    intro d hd
    cases hp : p.parse c with
    | err => simp only [Pipe.sequential, hp] at h; cases h
    | panic => simp only [Pipe.sequential, hp] at h; cases h
    | ok r =>
      cases hw : p.process w r with
      | none => simp only [Pipe.sequential, hp, hw] at h; cases h
      | some w' =>
        simp only [Pipe.sequential, hp, hw] at h
        rcases List.mem_cons.mp hd with rfl | hd
        · exact ⟨r, hp⟩
        · exact ih w' h d hd

theorem PInv.progress {p : Pipe C R W} {cs : List C} {w0 : W} {s : PState C R W n} (h : PInv p cs w0 s)
    (hseq : (p.sequential cs w0).2 = true) (hn : 0 < n) (hz : 0 < p.queueSize) (hne : ¬ s.ended) :
    ∃ t s', t ≠ Tid.spurious ∧ p.step t s = .next s' := by
  have h1 := sequential_parses p cs w0 hseq
  have hdead : ∀ k, s.workers k ≠ .dead := by
    intro k hk
    obtain ⟨c, hc, hp⟩ := h.x.dead k hk
    obtain ⟨r, hr⟩ := h1 c hc
    rw [hr] at hp
    simp at hp
  have hldead : s.learner ≠ .dead := by
    intro hl
    obtain ⟨d, _, _, e⟩ := h.w.dead hl
    rw [e] at hseq
    simp at hseq
  have hnp : ∀ i : Nat, (cs[i]?).map p.parse ≠ some .panic := by
    intro i hp
    cases hc : cs[i]? with
    | none => rw [hc] at hp; simp at hp
    | some c =>
      rw [hc] at hp
      obtain ⟨r, hr⟩ := h1 c (List.mem_of_getElem? hc)
      simp [hr] at hp
  -- the parse queue is not empty
  have hpq : s.parseQ ≠ [] → ∃ t s', t ≠ Tid.spurious ∧ p.step t s = .next s' := h.worker_takes ⟨0, hn⟩ (hdead _)
  -- the input thread wants to send to the parsers
  have hsp : ∀ i, s.input = .sendParse i → ∃ t s', t ≠ Tid.spurious ∧ p.step t s = .next s' := by
    intro i hi
    by_cases hl : s.parseQ.length < p.queueSize
    · exact ⟨.input, _, by simp, by simp only [Pipe.step, Pipe.stepInput, hi, hl, if_true]; rfl⟩
    · apply hpq
      intro h0
      rw [h0] at hl
      simp at hl
      omega
  -- the learner
  have hlearn : s.learner ≠ .finished → (s.learner = .idle → s.learnQ ≠ [] ∨ s.learnOpen = false) →
      ∃ t s', t ≠ Tid.spurious ∧ p.step t s = .next s' := by
    intro hf hidle
    cases hr : p.step .learner s with
    | next s' => exact ⟨.learner, s', by simp, hr⟩
    | fault => exact absurd hr (h.no_fault _)
    | blocked =>
      simp only [Pipe.step, Pipe.stepLearner] at hr
      split at hr
      · rename_i hl
        split at hr
        · simp at hr
        · rename_i hq
          split at hr
          · rename_i ho
            rcases hidle hl with a | a
            · exact absurd hq a
            · rw [a] at ho; simp at ho
          · simp at hr
      · split at hr <;> simp at hr
      · split at hr <;> simp at hr
      · rename_i i hl
        by_cases hrdy : (s.slots i).ready = true
        · obtain ⟨k, hk⟩ := h.v.sleep i hl hrdy
          exact h.worker_steps k (by simp [hk]) (by simp [hk]) (by simp [hk])
        · have hm := hold_lt_made h.q i (by rw [hl]; rfl)
          rcases h.v.cover i hm (by simpa using hrdy) with a | a | ⟨k, a⟩ | a
          · exact hsp i a
          · exact hpq (List.ne_nil_of_mem a)
          · refine h.worker_steps k ?_ ?_ (hdead k) <;> (intro e; rw [e] at a; exact a)
          · exact absurd a (hnp i)
      · split at hr <;> simp at hr
      · split at hr <;> simp at hr
      · split at hr
        · split at hr <;> simp at hr
        · simp at hr
      · contradiction
      · contradiction
  cases hi : s.input with
  | reading =>
    cases hr : s.toRead with
    | nil => exact ⟨.input, _, by simp, by simp only [Pipe.step, Pipe.stepInput, hi, hr]; rfl⟩
    | cons c l => exact ⟨.input, _, by simp, by simp only [Pipe.step, Pipe.stepInput, hi, hr]; rfl⟩
  | sendParse i => exact hsp i hi
  | sendLearn i =>
    by_cases hl : s.learnQ.length < p.queueSize
    · exact ⟨.input, _, by simp, by simp only [Pipe.step, Pipe.stepInput, hi, hl, if_true]; rfl⟩
    · have hq0 : s.learnQ ≠ [] := by
        intro h0
        rw [h0] at hl
        simp at hl
        omega
      exact hlearn (fun hf => hq0 (h.q.finished hf).1) (fun _ => Or.inl hq0)
  | dropParse => exact ⟨.input, _, by simp, by simp only [Pipe.step, Pipe.stepInput, hi]; rfl⟩
  | dropLearn => exact ⟨.input, _, by simp, by simp only [Pipe.step, Pipe.stepInput, hi]; rfl⟩
  | done =>
    by_cases hl : s.learner = .finished
    · have : ∃ k, s.workers k ≠ .exited := by
        by_contra hall
        exact hne ⟨hi, hl, fun k => by by_contra hk; exact hall ⟨k, hk⟩⟩
      obtain ⟨k, hk⟩ := this
      by_cases hidle : s.workers k = .idle
      · by_cases hq0 : s.parseQ = []
        · have hpo : s.parseOpen = false := h.q.pOpen.mpr (Or.inr hi)
          exact ⟨.worker k, _, by simp, by simp only [Pipe.step, Pipe.stepWorker, hidle, hq0, hpo]; rfl⟩
        · exact hpq hq0
      · exact h.worker_steps k hidle hk (hdead k)
    · exact hlearn hl (fun _ => Or.inr (h.q.lOpen.mpr hi))

/-! ## Termination -/

/-- Remaining work of the input thread. -/
@[grind =] def InPhase.cost : InPhase → Nat
  | .done => 0
  | .dropLearn => 1
  | .dropParse => 2
  | .reading => 3
  | .sendLearn _ => 13
  | .sendParse _ => 22

/-- Remaining work of a parser thread. -/
def WPhase.cost : WPhase C R → Nat
  | .exited => 0
  | .dead => 0
  | .idle => 1
  | .waking _ => 2
  | .written _ => 3
  | .writing _ _ => 4
  | .parsed _ _ => 5
  | .parsing _ _ => 6
  | .take _ => 7
  | .got _ => 8

/-- Remaining work of the learner. -/
@[grind =] def LPhase.cost (slots : Nat → Slot C R) : LPhase R → Nat
  | .finished => 0
  | .dead => 0
  | .idle => 1
  | .processing _ => 2
  | .taking _ => 3
  | .ready _ => 4
  | .checking i => if (slots i).ready then 5 else 9
  | .waiting i => if (slots i).ready then 6 else 8
  | .asleep _ => 7

/-- The work left in a state. -/
def PState.cost (s : PState C R W n) : Nat :=
  20 * s.toRead.length + s.input.cost + 8 * s.parseQ.length + 9 * s.learnQ.length + s.learner.cost s.slots +
    ∑ k, (s.workers k).cost

theorem sum_setWorker (s : PState C R W n) (k : Fin n) (x : WPhase C R) :
    (∑ j, ((s.setWorker k x).workers j).cost) + (s.workers k).cost = (∑ j, (s.workers j).cost) + x.cost := by
  have h1 := Finset.add_sum_erase Finset.univ (fun j => (s.workers j).cost) (Finset.mem_univ k)
  have h2 := Finset.add_sum_erase Finset.univ (fun j => ((s.setWorker k x).workers j).cost) (Finset.mem_univ k)
  have h3 : ∑ j ∈ Finset.univ.erase k, ((s.setWorker k x).workers j).cost = ∑ j ∈ Finset.univ.erase k, (s.workers j).cost := by
    apply Finset.sum_congr rfl
    intro j hj
    have : j ≠ k := (Finset.mem_erase.mp hj).1
    simp only [PState.setWorker, this, if_false]
  have h4 : ((s.setWorker k x).workers k).cost = x.cost := by simp only [PState.setWorker, if_true]
  omega

theorem learner_cost_slots {cs : List C} {s : PState C R W n} (hq : QInv cs s) (slots : Nat → Slot C R)
    (h : ∀ i, i < s.made → (s.slots i).ready = true → (slots i).ready = true) : s.learner.cost slots ≤ s.learner.cost s.slots := by
  have hm := hold_lt_made hq
  cases hl : s.learner with
  | checking i =>
    have := hm i (by rw [hl]; rfl)
    simp only [LPhase.cost]
    grind
  | waiting i =>
    have := hm i (by rw [hl]; rfl)
    simp only [LPhase.cost]
    grind
  | _ => exact Nat.le_refl _

/-- Every step of a thread reduces the work left. -/
theorem PInv.cost_step {p : Pipe C R W} {cs : List C} {w0 : W} {s s' : PState C R W n} (h : PInv p cs w0 s) (t : Tid n) (ht : t ≠ .spurious)
    (hs : p.step t s = .next s') : s'.cost < s.cost := by
  obtain ⟨hq, hv, -, -⟩ := h
  cases t with
  | input =>
    simp only [Pipe.step, Pipe.stepInput] at hs
    split at hs
    · split at hs
      · simp only [StepRes.next.injEq] at hs
        subst hs
        simp only [PState.cost]
        grind
      · rename_i c l hr
        simp only [StepRes.next.injEq] at hs
        subst hs
        have := learner_cost_slots hq (s.setSlot s.made (fun _ => ⟨false, none, some c⟩)).slots (by
          intro i hi hrdy
          simp only [PState.setSlot, Nat.ne_of_lt hi, if_false, hrdy])
        simp only [PState.cost, hr, List.length_cons]
        simp only [PState.setSlot] at this ⊢
        grind
    · split at hs
      · simp only [StepRes.next.injEq] at hs
        subst hs
        simp only [PState.cost]
        grind
      · simp at hs
    · split at hs
      · simp only [StepRes.next.injEq] at hs
        subst hs
        simp only [PState.cost]
        grind
      · simp at hs
    · simp only [StepRes.next.injEq] at hs
      subst hs
      simp only [PState.cost]
      grind
    · simp only [StepRes.next.injEq] at hs
      subst hs
      simp only [PState.cost]
      grind
    · simp at hs
  | worker k =>
    have hsum := sum_setWorker s k
    have hsl := learner_cost_slots hq
    have hw := hv.r4 k
    simp only [Pipe.step, Pipe.stepWorker] at hs
    split at hs
    case h_8 i hk =>
      simp only [StepRes.next.injEq] at hs
      subst hs
      have e := hsum .idle
      rw [hk] at e
      have hrdy := hw i hk
      have hl : (match s.learner with
          | .asleep j => if j = i then LPhase.checking j else LPhase.asleep j
          | l => l).cost s.slots ≤ s.learner.cost s.slots := by
        cases hle : s.learner with
        | asleep j =>
          simp only
          split
          · rename_i hj
            subst hj
            simp only [LPhase.cost, hrdy, if_true]
            omega
          · simp only [LPhase.cost]; omega
        | _ => exact Nat.le_refl _
      simp only [PState.cost, WPhase.cost] at e ⊢
      show _ + _ + _ + _ + (match s.learner with
          | .asleep j => if j = i then LPhase.checking j else LPhase.asleep j
          | l => l).cost s.slots + _ < _
      simp only [PState.setWorker] at e ⊢
      omega
    all_goals rename_i hk
    case h_3 i =>
      split at hs
      · simp at hs
      · rename_i c hc
        simp only [StepRes.next.injEq] at hs
        subst hs
        have e := hsum (.parsing i c)
        rw [hk] at e
        have hl := hsl (s.setSlot i (fun x => { x with input := none })).slots (by
          intro j hj hr
          simp only [PState.setSlot]
          split <;> simp [hr])
        simp only [PState.cost, WPhase.cost] at e ⊢
        simp only [PState.setWorker, PState.setSlot] at e hl ⊢
        omega
    case h_6 i r =>
      simp only [StepRes.next.injEq] at hs
      subst hs
      have e := hsum (.written i)
      rw [hk] at e
      have hl := hsl (s.setSlot i (fun x => { x with result := some r })).slots (by
        intro j hj hr
        simp only [PState.setSlot]
        split <;> simp [hr])
      simp only [PState.cost, WPhase.cost] at e ⊢
      simp only [PState.setWorker, PState.setSlot] at e hl ⊢
      omega
    case h_7 i =>
      simp only [StepRes.next.injEq] at hs
      subst hs
      have e := hsum (.waking i)
      rw [hk] at e
      have hl := hsl (s.setSlot i (fun x => { x with ready := true })).slots (by
        intro j hj hr
        simp only [PState.setSlot]
        split <;> simp [hr])
      simp only [PState.cost, WPhase.cost] at e ⊢
      simp only [PState.setWorker, PState.setSlot] at e hl ⊢
      omega
    case h_1 =>
      split at hs
      · rename_i i q hpq
        simp only [StepRes.next.injEq] at hs
        subst hs
        have e := hsum (.got i)
        rw [hk] at e
        simp only [PState.cost, WPhase.cost, hpq, List.length_cons] at e ⊢
        simp only [PState.setWorker] at e ⊢
        omega
      · split at hs
        · simp at hs
        · simp only [StepRes.next.injEq] at hs
          subst hs
          have e := hsum .exited
          rw [hk] at e
          simp only [PState.cost, WPhase.cost] at e ⊢
          simp only [PState.setWorker] at e ⊢
          omega
    case h_2 i =>
      split at hs
      · simp at hs
      · simp only [StepRes.next.injEq] at hs
        subst hs
        have e := hsum (.take i)
        rw [hk] at e
        simp only [PState.cost, WPhase.cost] at e ⊢
        simp only [PState.setWorker] at e ⊢
        omega
    case h_4 i c =>
      split at hs
      · simp only [StepRes.next.injEq] at hs
        subst hs
        have e := hsum .dead
        rw [hk] at e
        simp only [PState.cost, WPhase.cost] at e ⊢
        simp only [PState.setWorker] at e ⊢
        omega
      · simp only [StepRes.next.injEq] at hs
        subst hs
        have e := hsum (.parsed i (p.parse c))
        rw [hk] at e
        simp only [PState.cost, WPhase.cost] at e ⊢
        simp only [PState.setWorker] at e ⊢
        omega
    case h_5 i r =>
      split at hs
      · simp at hs
      · simp only [StepRes.next.injEq] at hs
        subst hs
        have e := hsum (.writing i r)
        rw [hk] at e
        simp only [PState.cost, WPhase.cost] at e ⊢
        simp only [PState.setWorker] at e ⊢
        omega
    all_goals simp at hs
  | learner =>
    simp only [Pipe.step, Pipe.stepLearner] at hs
    split at hs
    all_goals (try split at hs)
    all_goals (try split at hs)
    all_goals first
      | (simp at hs; done)
      | (simp only [StepRes.next.injEq] at hs; subst hs; simp only [PState.cost, PState.setSlot]; grind)
  | spurious => exact absurd rfl ht

theorem spurious_cost {p : Pipe C R W} {s s' : PState C R W n} (hs : p.step (.spurious : Tid n) s = .next s') : s'.cost ≤ s.cost + 2 := by
  simp only [Pipe.step] at hs
  split at hs
  · rename_i i hl
    simp only [StepRes.next.injEq] at hs
    subst hs
    simp only [PState.cost, hl, LPhase.cost]
    split <;> omega
  · simp at hs

end Rml
