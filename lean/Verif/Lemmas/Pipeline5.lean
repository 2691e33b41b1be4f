import Verif.Lemmas.Pipeline3
import Verif.Lemmas.Pipeline4

/-!
# Pipeline: the learner against the sequential loop, progress and termination
-/

namespace Rml

variable {C R W : Type} {n : Nat}

theorem SInv.step {p : Pipe C R W} {cs : List C} {s s' : PState C R W n} (hq : QInv cs s) (h : SInv p cs s) (t : Tid n)
    (hs : p.step t s = .next s') : SInv p cs s' := by
  cases t with
  | input => exact h.stepInput hq hs
  | worker k => exact h.stepWorker k hq hs
  | learner => exact h.stepLearner hq hs
  | spurious =>
    simp only [Pipe.step] at hs
    split at hs
    · simp only [StepRes.next.injEq] at hs
      subst hs
      obtain ⟨g1, g2, g3, g4, g5, g6, g7, g8, g9, g10, g11, g12, g13, g14, g15, g16, g17, g18, g19, g20, g21, g22, g23, g24, g25, g26⟩ := h
      exact ⟨g1, g2, g3, g4, g5, g6, g7, g8, g9, g10, g11, g12, g13, g14, g15, g16, g17, g18, g19, g20, g21, by simp, g23, by simp, g25, g26⟩
    · simp at hs

/-- The learner and the sequential loop. -/
structure WInv (p : Pipe C R W) (cs : List C) (w0 : W) (s : PState C R W n) : Prop where
  run : (∀ r, s.learner ≠ .processing r) → s.learner ≠ .dead → p.sequential (cs.take s.reads.length) w0 = (s.world, true)
  proc : ∀ r, s.learner = .processing r → ∃ d, s.reads.length = d + 1 ∧ (cs[d]?).map p.parse = some r ∧
    p.sequential (cs.take d) w0 = (s.world, true)
  dead : s.learner = .dead → ∃ d, s.reads.length = d + 1 ∧ p.sequential (cs.take d) w0 = (s.world, true) ∧
    p.sequential cs w0 = (s.world, false)
  le : s.reads.length ≤ cs.length

theorem sequential_append (p : Pipe C R W) (l l' : List C) (w w' : W) (h : p.sequential l w = (w', true)) :
    p.sequential (l ++ l') w = p.sequential l' w' := by
  induction l generalizing w with
  | nil =>
    simp only [Pipe.sequential, Prod.mk.injEq, and_true] at h
    subst h
    rfl
  | cons c l ih =>
    simp only [Pipe.sequential, List.cons_append] at h ⊢
    cases hp : p.parse c with
    | ok r =>
      rw [hp] at h
      simp only at h ⊢
      cases hw : p.process w r with
      | some w1 => rw [hw] at h; exact ih _ h
      | none => rw [hw] at h; simp at h
    | err => rw [hp] at h; simp at h
    | panic => rw [hp] at h; simp at h

theorem sequential_split (p : Pipe C R W) (cs : List C) (d : Nat) (c : C) (w w' : W) (hc : cs[d]? = some c)
    (h : p.sequential (cs.take d) w = (w', true)) : p.sequential cs w = p.sequential (c :: cs.drop (d + 1)) w' := by
  have hd : d < cs.length := by
    rcases Nat.lt_or_ge d cs.length with h | h
    · exact h
    · rw [List.getElem?_eq_none h] at hc; simp at hc
  have e : c :: cs.drop (d + 1) = cs.drop d := by
    rw [List.drop_eq_getElem_cons hd]
    rw [List.getElem?_eq_getElem hd] at hc
    simp only [Option.some.injEq] at hc
    rw [hc]
  rw [e, ← sequential_append p _ _ _ _ h, List.take_append_drop]

theorem sequential_take_succ (p : Pipe C R W) (cs : List C) (d : Nat) (c : C) (w w' : W) (hc : cs[d]? = some c)
    (h : p.sequential (cs.take d) w = (w', true)) : p.sequential (cs.take (d + 1)) w = p.sequential [c] w' := by
  rw [List.take_add_one, hc]
  exact sequential_append p _ _ _ _ h

theorem WInv.init (p : Pipe C R W) (cs : List C) (w : W) : WInv p cs w (PState.init cs w : PState C R W n) := by
  constructor <;> simp [PState.init, Pipe.sequential]

/-- Steps that do not touch the learner's data. -/
theorem WInv.of_same {p : Pipe C R W} {cs : List C} {w0 : W} {s s' : PState C R W n} (h : WInv p cs w0 s)
    (h1 : s'.reads = s.reads) (h2 : s'.world = s.world)
    (h3 : s'.learner = s.learner ∨ ((∀ r, s.learner ≠ .processing r) ∧ s.learner ≠ .dead ∧ (∀ r, s'.learner ≠ .processing r) ∧ s'.learner ≠ .dead)) :
    WInv p cs w0 s' := by
  obtain ⟨a, b, c, d⟩ := h
  rcases h3 with h3 | ⟨e1, e2, e3, e4⟩
  · constructor
    · rw [h1, h2, h3]; exact a
    · rw [h1, h2, h3]; exact b
    · rw [h1, h2, h3]; exact c
    · rw [h1]; exact d
  · refine ⟨fun _ _ => ?_, fun r hr => absurd hr (e3 r), fun hd => absurd hd e4, ?_⟩
    · rw [h1, h2]; exact a e1 e2
    · rw [h1]; exact d

theorem WInv.step {p : Pipe C R W} {cs : List C} {w0 : W} {s s' : PState C R W n} (hq : QInv cs s) (hv : SInv p cs s) (h : WInv p cs w0 s)
    (t : Tid n) (hs : p.step t s = .next s') : WInv p cs w0 s' := by
  cases t with
  | input =>
    refine h.of_same ?_ ?_ (Or.inl ?_) <;>
    · simp only [Pipe.step, Pipe.stepInput] at hs
      split at hs
      all_goals (try split at hs)
      all_goals first
        | (simp at hs; done)
        | (simp only [StepRes.next.injEq] at hs; subst hs; rfl)
  | worker k =>
    simp only [Pipe.step, Pipe.stepWorker] at hs
    split at hs
    case h_8 =>
      simp only [StepRes.next.injEq] at hs
      subst hs
      refine h.of_same rfl rfl ?_
      cases hl : s.learner with
      | asleep j =>
        refine Or.inr ⟨by simp, by simp, ?_, ?_⟩
        · intro r
          show (if _ then _ else _) ≠ _
          split <;> simp
        · show (if _ then _ else _) ≠ _
          split <;> simp
      | _ => exact Or.inl rfl
    all_goals (try split at hs)
    all_goals (try split at hs)
    all_goals first
      | (simp at hs; done)
      | (simp only [StepRes.next.injEq] at hs; subst hs; exact h.of_same rfl rfl (Or.inl rfl))
  | learner =>
    simp only [Pipe.step, Pipe.stepLearner] at hs
    split at hs
    case h_6 i hl =>
      split at hs
      · simp at hs
      · rename_i r hr
        simp only [StepRes.next.injEq] at hs
        subst hs
        have hi : i = s.reads.length := hq.hold i (by rw [hl]; rfl)
        have hm : i < s.made := by
          have := hq.front
          have h2 : s.sent ≤ s.made := by
            have a := hq.sp
            have b := hq.sl
            grind
          have h3 : s.front = s.reads.length + 1 := by simp only [PState.front, hl, LPhase.holding]
          omega
        obtain ⟨_, e2, _⟩ := hv.done i hm (hv.lr i (Or.inr hl)) (by omega)
        have hlen : i < cs.length := Nat.lt_of_lt_of_le hm hq.le
        refine ⟨fun h => absurd rfl (h r), fun r' hr' => ⟨i, ?_, ?_, ?_⟩, by simp, ?_⟩
        · simp [hi]
        · simp only [LPhase.processing.injEq] at hr'
          rw [e2, hr, hr']
        · rw [hi]; exact h.run (by simp [hl]) (by simp [hl])
        · simp; omega
    case h_7 r hl =>
      obtain ⟨d, hd, hp, hseq⟩ := h.proc r hl
      have hle := h.le
      have hdl : d < cs.length := by omega
      have hc : cs[d]? = some cs[d] := List.getElem?_eq_getElem hdl
      rw [hc, Option.map_some, Option.some.injEq] at hp
      split at hs
      · split at hs
        · rename_i w hw
          simp only [StepRes.next.injEq] at hs
          subst hs
          refine ⟨fun _ _ => ?_, by simp, by simp, hle⟩
          show p.sequential (cs.take s.reads.length) w0 = _
          rw [hd, sequential_take_succ p cs d _ _ _ hc hseq]
          simp only [Pipe.sequential, hp, hw]
        · rename_i hw
          simp only [StepRes.next.injEq] at hs
          subst hs
          refine ⟨by simp, by simp, fun _ => ⟨d, hd, hseq, ?_⟩, hle⟩
          rw [sequential_split p cs d _ _ _ hc hseq]
          simp only [Pipe.sequential, hp, hw]
      · rename_i hne
        simp only [StepRes.next.injEq] at hs
        subst hs
        refine ⟨by simp, by simp, fun _ => ⟨d, hd, hseq, ?_⟩, hle⟩
        rw [sequential_split p cs d _ _ _ hc hseq]
        cases r with
        | ok r => exact absurd rfl (hne r)
        | err => simp only [Pipe.sequential, hp]
        | panic => simp only [Pipe.sequential, hp]
    all_goals rename_i hl
    all_goals (try split at hs)
    all_goals (try split at hs)
    all_goals first
      | (simp at hs; done)
      | (simp only [StepRes.next.injEq] at hs; subst hs; exact h.of_same rfl rfl (Or.inr ⟨by simp [hl], by simp [hl], by simp, by simp⟩))
      | (rename_i hl _ _ _; simp only [StepRes.next.injEq] at hs; subst hs; exact h.of_same rfl rfl (Or.inr ⟨by simp [hl], by simp [hl], by simp, by simp⟩))
  | spurious =>
    simp only [Pipe.step] at hs
    split at hs
    · rename_i hl
      simp only [StepRes.next.injEq] at hs
      subst hs
      exact h.of_same rfl rfl (Or.inr ⟨by simp [hl], by simp [hl], by simp, by simp⟩)
    · simp at hs

end Rml
