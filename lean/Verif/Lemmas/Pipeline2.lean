import Verif.Lemmas.Pipeline

/-!
# Pipeline: the slots

The second half of the invariant: which thread owns which slot, and what the slot contains.
-/

namespace Rml

variable {C R W : Type} {n : Nat}

/-- The slots and the parser threads. -/
structure SInv (p : Pipe C R W) (cs : List C) (s : PState C R W n) : Prop where
  qb : ∀ i ∈ s.parseQ, i < s.made
  hb : ∀ k i, (s.workers k).holds i → i < s.made
  wb : ∀ k i, s.workers k = .waking i → i < s.made
  nodup : s.parseQ.Nodup
  x1 : ∀ i, s.input = .sendParse i → i ∉ s.parseQ
  x2 : ∀ i, s.input = .sendParse i → ∀ k, ¬ (s.workers k).holds i
  x3 : ∀ i ∈ s.parseQ, ∀ k, ¬ (s.workers k).holds i
  x4 : ∀ i k k', (s.workers k).holds i → (s.workers k').holds i → k = k'
  r1 : ∀ i, s.input = .sendParse i → (s.slots i).ready = false
  r2 : ∀ i ∈ s.parseQ, (s.slots i).ready = false
  r3 : ∀ k i, (s.workers k).holds i → (s.slots i).ready = false
  r4 : ∀ k i, s.workers k = .waking i → (s.slots i).ready = true
  in1 : ∀ i, s.input = .sendParse i → (s.slots i).input.isSome ∧ (s.slots i).input = cs[i]?
  in2 : ∀ i ∈ s.parseQ, (s.slots i).input.isSome ∧ (s.slots i).input = cs[i]?
  in3 : ∀ k i, s.workers k = .got i → (s.slots i).input.isSome ∧ (s.slots i).input = cs[i]?
  in4 : ∀ k i, s.workers k = .take i → (s.slots i).input.isSome ∧ (s.slots i).input = cs[i]?
  c1 : ∀ k i c, s.workers k = .parsing i c → cs[i]? = some c
  c2 : ∀ k i r, s.workers k = .parsed i r → (cs[i]?).map p.parse = some r ∧ r ≠ .panic
  c3 : ∀ k i r, s.workers k = .writing i r → (cs[i]?).map p.parse = some r ∧ r ≠ .panic
  c4 : ∀ k i, s.workers k = .written i → (s.slots i).result.isSome ∧ (cs[i]?).map p.parse = (s.slots i).result ∧
    (s.slots i).result ≠ some .panic
  done : ∀ i, i < s.made → (s.slots i).ready = true → s.reads.length ≤ i → (s.slots i).result.isSome ∧
    (cs[i]?).map p.parse = (s.slots i).result ∧ (s.slots i).result ≠ some .panic
  lr : ∀ i, (s.learner = .ready i ∨ s.learner = .taking i) → (s.slots i).ready = true
  cover : ∀ i, i < s.made → (s.slots i).ready = false → s.input = .sendParse i ∨ i ∈ s.parseQ ∨ (∃ k, (s.workers k).holds i) ∨
    (cs[i]?).map p.parse = some .panic
  sleep : ∀ i, s.learner = .asleep i → (s.slots i).ready = true → ∃ k, s.workers k = .waking i
  fnodup : s.fills.Nodup
  fmem : ∀ i, i ∈ s.fills ↔ i < s.made ∧ ((s.slots i).ready = true ∨ ∃ k, s.workers k = .written i)

theorem SInv.init (p : Pipe C R W) (cs : List C) (w : W) : SInv p cs (PState.init cs w : PState C R W n) := by
  constructor <;> simp [PState.init, WPhase.holds]

set_option maxHeartbeats 4000000 in
theorem SInv.stepInput {p : Pipe C R W} {cs : List C} {s s' : PState C R W n} (hq : QInv cs s) (h : SInv p cs s)
    (hs : p.stepInput s = .next s') : SInv p cs s' := by
  obtain ⟨h1, h2, h3, h4, h5, h6, h7, h8, h9, h10, h11, h12, h13⟩ := hq
  obtain ⟨g1, g2, g3, g4, g5, g6, g7, g8, g9, g10, g11, g12, g13, g14, g15, g16, g17, g18, g19, g20, g21, g22, g23, g24, g25, g26⟩ := h
  have hle : s.reads.length ≤ s.made := by grind
  simp only [Pipe.stepInput] at hs
  split at hs
  · split at hs
    · simp only [StepRes.next.injEq] at hs
      subst hs
      constructor <;> grind
    · simp only [StepRes.next.injEq] at hs
      subst hs
      rename_i c cs' hr
      have hc : cs[s.made]? = some c := by
        rw [hr] at h1
        have := congrArg (·[0]?) h1
        simpa using this.symm
      have hlr : ∀ i, (s.learner = .ready i ∨ s.learner = .taking i ∨ s.learner = .asleep i) → i < s.made := by grind
      constructor <;> simp only [PState.setSlot] <;> grind
  · split at hs
    · simp only [StepRes.next.injEq] at hs
      subst hs
      constructor <;> grind
    · simp at hs
  · split at hs
    · simp only [StepRes.next.injEq] at hs
      subst hs
      constructor <;> grind
    · simp at hs
  · simp only [StepRes.next.injEq] at hs
    subst hs
    constructor <;> grind
  · simp only [StepRes.next.injEq] at hs
    subst hs
    constructor <;> grind
  · simp at hs

end Rml
