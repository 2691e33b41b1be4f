import Verif.Lemmas.Pipeline2

/-!
# Pipeline: steps of the learner preserve the slot invariant
-/

namespace Rml

variable {C R W : Type} {n : Nat}

set_option maxHeartbeats 8000000 in
theorem SInv.stepLearner {p : Pipe C R W} {cs : List C} {s s' : PState C R W n} (hq : QInv cs s) (h : SInv p cs s)
    (hs : p.stepLearner s = .next s') : SInv p cs s' := by
  obtain ⟨h1, h2, h3, h4, h5, h6, h7, h8, h9, h10, h11, h12, h13⟩ := hq
  obtain ⟨g1, g2, g3, g4, g5, g6, g7, g8, g9, g10, g11, g12, g13, g14, g15, g16, g17, g18, g19, g20, g21, g22, g23, g24, g25, g26⟩ := h
  have hle : s.reads.length ≤ s.made := by grind
  clear h1 h2 h3 h4 h5 h6 h7 h8 h10 h11 h12 h13
  have hk : ∀ i, s.learner = .taking i → i = s.reads.length := fun i e => h9 i (by rw [e]; rfl)
  have hl : ∀ i : Nat, (s.reads ++ [i]).length = s.reads.length + 1 := fun i => by simp
  simp only [Pipe.stepLearner] at hs
  split at hs
  all_goals (try split at hs)
  all_goals (try split at hs)
  all_goals (try split at hs)
  all_goals first
    | (simp at hs; done)
    | (simp only [StepRes.next.injEq] at hs; subst hs; constructor <;> simp only [PState.setSlot, hl] <;> grind)

end Rml
