import Verif.Lemmas.Pipeline2

/-!
# Pipeline: steps of the parser threads preserve the slot invariant
-/

namespace Rml

variable {C R W : Type} {n : Nat}

theorem SInv.coverWorker {p : Pipe C R W} {cs : List C} {s s' : PState C R W n} (k : Fin n) (h : SInv p cs s)
    (hs : p.stepWorker k s = .next s') : ∀ i, i < s'.made → (s'.slots i).ready = false →
      s'.input = .sendParse i ∨ i ∈ s'.parseQ ∨ (∃ k, (s'.workers k).holds i) ∨ (cs[i]?).map p.parse = some .panic := by
  have g23 := h.cover
  have g17 := h.c1
  clear h
  intro i
  replace g23 := g23 i
  simp only [Pipe.stepWorker] at hs
  split at hs
  all_goals (try split at hs)
  all_goals (try split at hs)
  all_goals first
    | (simp at hs; done)
    | skip
  all_goals (simp only [StepRes.next.injEq] at hs; subst hs; simp only [PState.setSlot, PState.setWorker]; intro hi hr)
  all_goals (by_cases hk : (s.workers k).holds i)
  all_goals first
    | (refine Or.inr (Or.inr (Or.inl ⟨k, ?_⟩)); grind; done)
    | (have hr' : (s.slots i).ready = false := by grind
       rcases g23 hi hr' with a | a | ⟨k', a⟩ | a
       · exact Or.inl a
       · first | exact Or.inr (Or.inl a) | (refine Or.inr (Or.inr (Or.inl ⟨k, ?_⟩)); grind; done) | (refine Or.inr (Or.inl ?_); grind; done) | grind
       · refine Or.inr (Or.inr (Or.inl ⟨k', ?_⟩)); grind
       · exact Or.inr (Or.inr (Or.inr a)))
    | grind

theorem SInv.x4Worker {p : Pipe C R W} {cs : List C} {s s' : PState C R W n} (k : Fin n) (h : SInv p cs s)
    (hs : p.stepWorker k s = .next s') : ∀ i k k', (s'.workers k).holds i → (s'.workers k').holds i → k = k' := by
  have g7 := h.x3
  have g8 := h.x4
  clear h
  intro i a b
  replace g7 := g7 i
  replace g8 := g8 i a b
  simp only [Pipe.stepWorker] at hs
  split at hs
  all_goals (try split at hs)
  all_goals (try split at hs)
  all_goals first
    | (simp at hs; done)
    | skip
  all_goals (simp only [StepRes.next.injEq] at hs; subst hs; simp only [PState.setSlot, PState.setWorker]; intro ha hb)
  all_goals
    by_cases hak : a = k
    · by_cases hbk : b = k
      · rw [hak, hbk]
      · subst hak; simp only [if_true, hbk, if_false] at ha hb; first | exact ha.elim | grind
    · by_cases hbk : b = k
      · subst hbk; simp only [if_true, hak, if_false] at ha hb; first | exact hb.elim | grind
      · simp only [hak, hbk, if_false] at ha hb; exact g8 ha hb

/-- Replacing the learner's phase `asleep` by `checking` keeps the invariant. -/
theorem SInv.awake {p : Pipe C R W} {cs : List C} {s : PState C R W n} (h : SInv p cs s) (i : Nat) :
    SInv p cs { s with learner := .checking i } := by
  obtain ⟨g1, g2, g3, g4, g5, g6, g7, g8, g9, g10, g11, g12, g13, g14, g15, g16, g17, g18, g19, g20, g21, g22, g23, g24, g25, g26⟩ := h
  exact ⟨g1, g2, g3, g4, g5, g6, g7, g8, g9, g10, g11, g12, g13, g14, g15, g16, g17, g18, g19, g20, g21, by simp, g23, by simp, g25, g26⟩

/-- A parser thread that has woken the learner becomes idle. -/
theorem SInv.toIdle {p : Pipe C R W} {cs : List C} {s : PState C R W n} (k : Fin n) (i : Nat) (h : SInv p cs s)
    (hk : s.workers k = .waking i) (hl : s.learner ≠ .asleep i) : SInv p cs (s.setWorker k .idle) := by
  obtain ⟨g1, g2, g3, g4, g5, g6, g7, g8, g9, g10, g11, g12, g13, g14, g15, g16, g17, g18, g19, g20, g21, g22, g23, g24, g25, g26⟩ := h
  have hne : ∀ k' x, (s.setWorker k .idle).workers k' = x → x ≠ .idle → s.workers k' = x := by
    intro k' x e hx
    by_cases hk' : k' = k
    · simp only [PState.setWorker, hk', if_true] at e; exact absurd e.symm hx
    · simpa only [PState.setWorker, hk', if_false] using e
  have hrev : ∀ k' x, s.workers k' = x → x ≠ .waking i → (s.setWorker k .idle).workers k' = x := by
    intro k' x e hx
    by_cases hk' : k' = k
    · rw [hk', hk] at e; exact absurd e.symm hx
    · simpa only [PState.setWorker, hk', if_false] using e
  have hh : ∀ k' j, ((s.setWorker k .idle).workers k').holds j ↔ (s.workers k').holds j := by
    intro k' j
    by_cases hk' : k' = k
    · rw [hk', hk]; simp only [PState.setWorker, if_true]; exact Iff.rfl
    · simp only [PState.setWorker, hk', if_false]
  have hi : (s.setWorker k .idle).input = s.input := rfl
  refine ⟨g1, ?_, ?_, g4, g5, ?_, ?_, ?_, g9, g10, ?_, ?_, g13, g14, ?_, ?_, ?_, ?_, ?_, ?_, g21, g22, ?_, ?_, g25, ?_⟩
  · intro k' j e; exact g2 k' j ((hh k' j).mp e)
  · intro k' j e; exact g3 k' j (hne k' _ e (by simp))
  · intro j e k' e'; exact g6 j e k' ((hh k' j).mp e')
  · intro j e k' e'; exact g7 j e k' ((hh k' j).mp e')
  · intro j a b ha hb; exact g8 j a b ((hh a j).mp ha) ((hh b j).mp hb)
  · intro k' j e; exact g11 k' j ((hh k' j).mp e)
  · intro k' j e; exact g12 k' j (hne k' _ e (by simp))
  · intro k' j e; exact g15 k' j (hne k' _ e (by simp))
  · intro k' j e; exact g16 k' j (hne k' _ e (by simp))
  · intro k' j c e; exact g17 k' j c (hne k' _ e (by simp))
  · intro k' j c e; exact g18 k' j c (hne k' _ e (by simp))
  · intro k' j c e; exact g19 k' j c (hne k' _ e (by simp))
  · intro k' j e; exact g20 k' j (hne k' _ e (by simp))
  · intro j e e'
    rcases g23 j e e' with a | a | ⟨k', a⟩ | a
    · exact Or.inl a
    · exact Or.inr (Or.inl a)
    · exact Or.inr (Or.inr (Or.inl ⟨k', (hh k' j).mpr a⟩))
    · exact Or.inr (Or.inr (Or.inr a))
  · intro j e e'
    obtain ⟨k', a⟩ := g24 j e e'
    refine ⟨k', hrev k' _ a ?_⟩
    intro h
    simp only [WPhase.waking.injEq] at h
    exact hl (h ▸ e)
  · intro j
    refine (g26 j).trans ⟨?_, ?_⟩
    · rintro ⟨a, b | ⟨k', b⟩⟩
      · exact ⟨a, Or.inl b⟩
      · exact ⟨a, Or.inr ⟨k', hrev k' _ b (by simp)⟩⟩
    · rintro ⟨a, b | ⟨k', b⟩⟩
      · exact ⟨a, Or.inl b⟩
      · exact ⟨a, Or.inr ⟨k', hne k' _ b (by simp)⟩⟩

theorem SInv.wake {p : Pipe C R W} {cs : List C} {s : PState C R W n} (k : Fin n) (i : Nat) (h : SInv p cs s)
    (hk : s.workers k = .waking i) : SInv p cs { (s.setWorker k .idle) with
      learner := match s.learner with
        | .asleep j => if j = i then .checking j else .asleep j
        | l => l } := by
  by_cases hl : s.learner = .asleep i
  · have := (h.awake i).toIdle k i hk (by simp)
    rw [hl]
    simp only [if_true]
    exact this
  · have := h.toIdle k i hk hl
    have e : (match s.learner with
        | .asleep j => if j = i then .checking j else .asleep j
        | l => l) = s.learner := by
      cases hs : s.learner with
      | asleep j =>
        have : j ≠ i := fun e => hl (by rw [hs, e])
        simp only [this, if_false]
      | _ => rfl
    rw [e]
    exact this

set_option maxHeartbeats 8000000 in
theorem SInv.stepWorker {p : Pipe C R W} {cs : List C} {s s' : PState C R W n} (k : Fin n) (hq : QInv cs s) (h : SInv p cs s)
    (hs : p.stepWorker k s = .next s') : SInv p cs s' := by
  obtain ⟨h1, h2, h3, h4, h5, h6, h7, h8, h9, h10, h11, h12, h13⟩ := hq
  have hcov := h.coverWorker k hs
  have hx4 := h.x4Worker k hs
  obtain ⟨g1, g2, g3, g4, g5, g6, g7, g8, g9, g10, g11, g12, g13, g14, g15, g16, g17, g18, g19, g20, g21, g22, g23, g24, g25, g26⟩ := id h
  have hle : s.reads.length ≤ s.made := by grind
  clear h1 h2 h3 h4 h5 h6 h7 h8 h10 h11 h12 h13
  simp only [Pipe.stepWorker] at hs
  split at hs
  case h_8 i hk =>
    simp only [StepRes.next.injEq] at hs
    subst hs
    exact h.wake k i hk
  all_goals clear h
  all_goals (try split at hs)
  all_goals (try split at hs)
  all_goals first
    | (simp at hs; done)
    | (simp only [StepRes.next.injEq] at hs; subst hs; constructor <;>
        first | exact hcov | exact hx4 | (simp only [PState.setSlot, PState.setWorker] <;> clear hcov hx4 <;> grind))

end Rml
