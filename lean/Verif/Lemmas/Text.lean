import Verif.Lemmas.SpecHash
import Verif.SpecText
import Mathlib.Data.List.Induction

/-! Text processing. -/

namespace Rml
namespace Text

theorem isSpace_eq : isSpace = isWs := by
  funext c
  unfold isSpace isWs whiteSpace
  rw [Bool.eq_iff_iff]
  simp only [List.contains_cons, List.contains_nil, Bool.or_eq_true, beq_iff_eq, decide_eq_true_eq, Bool.or_false]
  omega

theorem isAsciiSpace_eq : isAsciiSpace = isAsciiWs := by
  funext c
  unfold isAsciiSpace isAsciiWs
  have key : ∀ d : Char, c.toNat = d.toNat ↔ c = d := fun d => Char.toNat_inj
  have e1 := key ' '
  have e2 := key '\t'
  have e3 := key '\n'
  have e4 := key '\x0c'
  have e5 := key '\r'
  rw [Bool.eq_iff_iff]
  simp only [List.contains_cons, List.contains_nil, Bool.or_eq_true, beq_iff_eq, decide_eq_true_eq, Bool.or_false, ← e1, ← e2, ← e3, ← e4, ← e5]
  show _ ↔ ((((c.toNat = 32 ∨ c.toNat = 9) ∨ c.toNat = 10) ∨ c.toNat = 12) ∨ c.toNat = 13)
  omega


theorem trimEnd_nil : trimEnd [] = [] := rfl

theorem trimEnd_append_ws (s t : Str) (h : ∀ x ∈ t, isWs x = true) : trimEnd (s ++ t) = trimEnd s := by
  unfold trimEnd
  rw [List.reverse_append]
  congr 1
  have : ∀ x ∈ t.reverse, isWs x = true := fun x hx => h x (List.mem_reverse.1 hx)
  generalize t.reverse = u at this
  induction u with
  | nil => rfl
  | cons a u ih =>
    have ha := this a (by simp)
    simp only [List.cons_append, List.dropWhile_cons, ha, if_true]
    exact ih (fun x hx => this x (by simp [hx]))

theorem trimEnd_id (s : Str) (h : ∀ x, s.getLast? = some x → isWs x = false) : trimEnd s = s := by
  unfold trimEnd
  rw [List.getLast?_eq_head?_reverse] at h
  have : s.reverse.dropWhile isWs = s.reverse := by
    cases hr : s.reverse with
    | nil => rfl
    | cons a u =>
      rw [hr] at h
      have := h a rfl
      simp [List.dropWhile_cons, this]
  rw [this, List.reverse_reverse]

/-- Uniqueness of stripping. -/
theorem trimEnd_eq {s c : Str} (h : Stripped s c) : trimEnd s = c := by
  obtain ⟨⟨t, rfl, h1⟩, h2⟩ := h
  simp only [isSpace_eq] at h1 h2
  rw [trimEnd_append_ws _ _ h1, trimEnd_id _ h2]

theorem stripped_trimEnd (s : Str) : Stripped s (trimEnd s) := by
  induction s using List.reverseRecOn with
  | nil => exact ⟨⟨[], rfl, by simp⟩, by simp [trimEnd]⟩
  | append_singleton s a ih =>
    cases ha : isWs a with
    | true =>
      rw [trimEnd_append_ws s [a] (by simp [ha])]
      obtain ⟨⟨t, h1, h2⟩, h3⟩ := ih
      refine ⟨⟨t ++ [a], ?_, ?_⟩, h3⟩
      · rw [← List.append_assoc, ← h1]
      · intro x hx
        rcases List.mem_append.1 hx with hx | hx
        · exact h2 x hx
        · simp at hx; rw [hx, isSpace_eq]; exact ha
    | false =>
      have : trimEnd (s ++ [a]) = s ++ [a] := trimEnd_id _ (by simp [ha])
      rw [this]
      exact ⟨⟨[], by simp, by simp⟩, by simp [isSpace_eq, ha]⟩

theorem trimEnd_blank {s : Str} : (trimEnd s).isEmpty = true ↔ blank s = true := by
  obtain ⟨⟨t, h1, h2⟩, h3⟩ := stripped_trimEnd s
  unfold blank
  constructor
  · intro h
    rw [List.isEmpty_iff] at h
    rw [h] at h1
    rw [h1, List.all_eq_true]
    simpa using h2
  · intro h
    rw [List.all_eq_true] at h
    rw [List.isEmpty_iff]
    cases hc : (trimEnd s).getLast? with
    | none => exact List.getLast?_eq_none_iff.1 hc
    | some x =>
      exfalso
      have := h3 x hc
      have hx : x ∈ s := by
        rw [h1]
        exact List.mem_append_left _ (List.mem_of_getLast? hc)
      rw [h x hx] at this
      exact absurd this (by simp)

theorem nl_ws : isWs '\n' = true := rfl

theorem trimEnd_nl (s : Str) : trimEnd (s ++ ['\n']) = trimEnd s := trimEnd_append_ws _ _ (by simp [nl_ws])

/-- The first line of an input. -/
theorem readLine_cases (input : Str) :
    ('\n' ∉ input ∧ readLine input = (input, []) ∧ input.splitOn '\n' = [input]) ∨
    ∃ l r, input = l ++ '\n' :: r ∧ '\n' ∉ l ∧ readLine input = (l ++ ['\n'], r) ∧ input.splitOn '\n' = l :: r.splitOn '\n' := by
  induction input with
  | nil => left; simp [readLine]
  | cons a s ih =>
    by_cases ha : a = '\n'
    · right
      refine ⟨[], s, by simp [ha], by simp, by simp [readLine, ha], ?_⟩
      rw [List.splitOn_cons_eq_if_modifyHead]
      simp [ha]
    · rcases ih with ⟨h1, h2, h3⟩ | ⟨l, r, h1, h2, h3, h4⟩
      · left
        refine ⟨by simp [h1, Ne.symm ha], by simp [readLine, ha, h2], ?_⟩
        rw [List.splitOn_cons_eq_if_modifyHead]
        simp [ha, h3]
      · right
        refine ⟨a :: l, r, by simp [h1], by simp [h2, Ne.symm ha], by simp [readLine, ha, h3], ?_⟩
        rw [List.splitOn_cons_eq_if_modifyHead]
        simp [ha, h4]

theorem lines_acc : ∀ (s acc r : Str), '\n' ∉ s → lines acc (s ++ r) = lines (acc ++ s) r
  | [], acc, r, _ => by simp
  | a :: s, acc, r, h => by
    simp only [List.mem_cons, not_or] at h
    simp only [List.cons_append, lines, if_neg (Ne.symm h.1)]
    rw [lines_acc s _ r h.2]
    simp

/-- Lines that are not empty and do not end in `\r` are found again. -/
theorem lines_intercalate : ∀ (ts : List Str), (∀ t ∈ ts, '\n' ∉ t ∧ t.getLast? ≠ some '\r' ∧ t ≠ []) →
    lines [] (['\n'].intercalate ts) = ts
  | [], _ => by simp [lines]
  | [t], h => by
    have := h t (by simp)
    rw [List.intercalate_singleton, ← List.append_nil t, lines_acc _ _ _ this.1]
    simp only [List.nil_append, List.append_nil]
    cases ht : t with
    | nil => exact absurd ht this.2.2
    | cons a s => rfl
  | t :: u :: ts, h => by
    have := h t (by simp)
    rw [List.intercalate_cons_cons, List.append_assoc, lines_acc _ _ _ this.1]
    · simp only [List.nil_append, List.cons_append, lines, if_true]
      rw [dropCr, if_neg this.2.1, lines_intercalate (u :: ts) (fun t ht => h t (by simp [ht]))]

end Text
end Rml
