import Verif.Model.Pipeline

/-! Invariants of the training pipeline. -/

namespace Rml
variable {C R W : Type} {n : Nat}

/-- The parser thread is responsible for slot `i`, whose result is not announced yet. -/
@[grind =] def WPhase.holds : WPhase C R → Nat → Prop
  | .got j, i => j = i
  | .take j, i => j = i
  | .parsing j _, i => j = i
  | .parsed j _, i => j = i
  | .writing j _, i => j = i
  | .written j, i => j = i
  | _, _ => False

/-- The learner has received a slot and not read its result. -/
@[grind =] def LPhase.holding : LPhase R → Option Nat
  | .checking i => some i
  | .waiting i => some i
  | .asleep i => some i
  | .ready i => some i
  | .taking i => some i
  | _ => none

/-- The number of slots sent to the learner. -/
@[grind =] def PState.sent (s : PState C R W n) : Nat :=
  match s.input with
  | .sendParse i => i
  | .sendLearn i => i
  | _ => s.made

/-- The first slot in the learner's queue. -/
@[grind =] def PState.front (s : PState C R W n) : Nat :=
  match s.learner.holding with
  | some _ => s.reads.length + 1
  | none => s.reads.length

/-- The input thread and the queues. -/
structure QInv (cs : List C) (s : PState C R W n) : Prop where
  read : s.toRead = cs.drop s.made
  le : s.made ≤ cs.length
  sp : ∀ i, s.input = .sendParse i → s.made = i + 1
  sl : ∀ i, s.input = .sendLearn i → s.made = i + 1
  fin : (s.input = .dropParse ∨ s.input = .dropLearn ∨ s.input = .done) → s.toRead = []
  pOpen : s.parseOpen = false ↔ (s.input = .dropLearn ∨ s.input = .done)
  lOpen : s.learnOpen = false ↔ s.input = .done
  reads : s.reads = List.range s.reads.length
  hold : ∀ i, s.learner.holding = some i → i = s.reads.length
  front : s.front ≤ s.sent
  lq : s.learnQ = List.range' s.front (s.sent - s.front)
  finished : s.learner = .finished → s.learnQ = [] ∧ s.learnOpen = false
  exited : ∀ k, s.workers k = .exited → s.parseQ = [] ∧ s.parseOpen = false

theorem QInv.init (cs : List C) (w : W) : QInv cs (PState.init cs w : PState C R W n) := by
  constructor <;> simp [PState.init, PState.front, PState.sent, LPhase.holding]

theorem QInv.step {p : Pipe C R W} {cs : List C} {s s' : PState C R W n} (h : QInv cs s) (t : Tid n) (hs : p.step t s = .next s') :
    QInv cs s' := by
  obtain ⟨h1, h2, h3, h4, h5, h6, h7, h8, h9, h10, h11, h12, h13⟩ := h
  cases t with
  | input =>
    simp only [Pipe.step, Pipe.stepInput] at hs
    split at hs
    · split at hs
      · simp only [StepRes.next.injEq] at hs
        subst hs
        constructor <;> grind
      · simp only [StepRes.next.injEq] at hs
        subst hs
        rename_i c cs' hr
        have hd : cs' = cs.drop (s.made + 1) := by
          rw [hr] at h1
          rw [← List.drop_drop, ← h1]; rfl
        have hlt : s.made < cs.length := by
          rw [hr] at h1
          have := congrArg List.length h1
          simp at this
          omega
        constructor <;> simp only [PState.setSlot] <;> grind
    · split at hs
      · simp only [StepRes.next.injEq] at hs
        subst hs
        constructor <;> grind
      · simp at hs
    · split at hs
      · simp only [StepRes.next.injEq] at hs
        subst hs
        rename_i i hi hl
        have e : s.sent = i := by grind
        have e2 : s.made = i + 1 := h4 i hi
        have q : s.learnQ ++ [i] = List.range' s.front (i + 1 - s.front) := by
          rw [h11, e]
          have : i + 1 - s.front = (i - s.front) + 1 := by omega
          rw [this, List.range'_concat]
          have : s.front + 1 * (i - s.front) = i := by omega
          rw [this]
        constructor <;> grind
      · simp at hs
    · simp only [StepRes.next.injEq] at hs
      subst hs
      constructor <;> grind
    · simp only [StepRes.next.injEq] at hs
      subst hs
      constructor <;> grind
    · simp at hs
  | worker k =>
    simp only [Pipe.step, Pipe.stepWorker] at hs
    split at hs
    all_goals (try split at hs)
    all_goals (try split at hs)
    all_goals first
      | (simp at hs; done)
      | (simp only [StepRes.next.injEq] at hs; subst hs; constructor <;> simp only [PState.setSlot, PState.setWorker] <;> grind)
  | learner =>
    simp only [Pipe.step, Pipe.stepLearner] at hs
    split at hs
    · rename_i hl
      split at hs
      · rename_i i q hq
        simp only [StepRes.next.injEq] at hs
        subst hs
        have e : s.front = s.reads.length := by grind
        rw [e] at h10 h11
        have hne : s.sent - s.reads.length ≠ 0 := by
          intro h0
          rw [h0, hq] at h11
          simp at h11
        obtain ⟨m, hm⟩ := Nat.exists_eq_succ_of_ne_zero hne
        rw [hm, hq, List.range'_succ] at h11
        have hm' : s.sent - (s.reads.length + 1) = m := by omega
        constructor <;> grind
      · split at hs
        · simp at hs
        · simp only [StepRes.next.injEq] at hs
          subst hs
          constructor <;> grind
    · split at hs
      · simp only [StepRes.next.injEq] at hs
        subst hs
        constructor <;> grind
      · simp only [StepRes.next.injEq] at hs
        subst hs
        constructor <;> grind
    · split at hs
      · simp only [StepRes.next.injEq] at hs
        subst hs
        constructor <;> grind
      · simp only [StepRes.next.injEq] at hs
        subst hs
        constructor <;> grind
    · simp at hs
    · split at hs
      · simp only [StepRes.next.injEq] at hs
        subst hs
        constructor <;> grind
      · simp at hs
    · split at hs
      · simp at hs
      · simp only [StepRes.next.injEq] at hs
        subst hs
        rename_i i hi _ r hr
        have hi' : i = s.reads.length := h9 i (by rw [hi]; rfl)
        have hre : s.reads ++ [i] = List.range (s.reads.length + 1) := by rw [List.range_succ, ← h8, hi']
        constructor <;> simp only [PState.setSlot] <;> grind
    · split at hs
      · split at hs
        · simp only [StepRes.next.injEq] at hs
          subst hs
          constructor <;> grind
        · simp only [StepRes.next.injEq] at hs
          subst hs
          constructor <;> grind
      · simp only [StepRes.next.injEq] at hs
        subst hs
        constructor <;> grind
    · simp at hs
    · simp at hs
  | spurious => 
    simp only [Pipe.step] at hs
    split at hs
    · simp only [StepRes.next.injEq] at hs
      subst hs
      constructor <;> grind
    · simp at hs

end Rml
