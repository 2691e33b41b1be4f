import Verif.Lemmas.Text
import Verif.Model.Field
import Mathlib.Data.List.Forall2

/-! C44, C45: reading VW text. -/

set_option linter.unusedSectionVars false
namespace Rml
namespace Vw
open Text
variable {F : Type} [Flt F]

/-! ### C44 -/

theorem readSingle_spec : ∀ (fuel : Nat) (input : Str), input.length < fuel →
    (readSingleLine fuel input = (none, []) ∧ (input.splitOn '\n').filter (fun l => !blank l) = []) ∨
    ∃ l rest, readSingleLine fuel input = (some (trimEnd l), rest) ∧ rest.length < input.length ∧
      (input.splitOn '\n').filter (fun l => !blank l) = l :: (rest.splitOn '\n').filter (fun l => !blank l)
  | 0, input, h => absurd h (by omega)
  | fuel + 1, input, h => by
    rcases readLine_cases input with ⟨_, h2, h3⟩ | ⟨l, r, h1, _, h2, h3⟩
    · cases hi : input with
      | nil => left; simp [readSingleLine, readLine, blank]
      | cons a s =>
        rw [← hi]
        have hne : input.isEmpty = false := by simp [hi]
        cases hb : blank input with
        | true =>
          left
          have := trimEnd_blank.2 hb
          unfold readSingleLine
          rw [h2]
          simp only [hne, this, h3, if_true]
          refine ⟨?_, by simp [hb]⟩
          cases fuel with
          | zero => simp [readSingleLine]
          | succ n => simp [readSingleLine, readLine]
        | false =>
          right
          have : (trimEnd input).isEmpty = false := by
            rw [Bool.eq_false_iff]; intro hc; rw [trimEnd_blank, hb] at hc; cases hc
          refine ⟨input, [], ?_, by simp [hi], by rw [h3, List.splitOn_nil]; simp [hb, show blank [] = true from rfl]⟩
          unfold readSingleLine
          rw [h2]
          simp [hne, this]
    · have hlen : r.length < input.length := by rw [h1]; simp; omega
      have hne : (l ++ ['\n']).isEmpty = false := by simp
      cases hb : blank l with
      | true =>
        have ht := trimEnd_blank.2 hb
        have hstep : readSingleLine (fuel + 1) input = readSingleLine fuel r := by
          rw [readSingleLine, h2]
          simp only [hne, trimEnd_nl, ht]
          simp
        have hs : (input.splitOn '\n').filter (fun l => !blank l) = (r.splitOn '\n').filter (fun l => !blank l) := by
          rw [h3]; simp [hb]
        rw [hstep, hs]
        rcases readSingle_spec fuel r (by omega) with hr | ⟨l', rest, q1, q2, q3⟩
        · exact .inl hr
        · exact .inr ⟨l', rest, q1, by omega, q3⟩
      | false =>
        right
        have ht : (trimEnd l).isEmpty = false := by
          rw [Bool.eq_false_iff]; intro hc; rw [trimEnd_blank, hb] at hc; cases hc
        refine ⟨l, r, ?_, hlen, by rw [h3]; simp [hb]⟩
        rw [readSingleLine, h2]
        simp [trimEnd_nl, ht]

theorem reads_single_line (pr : Parser F) (hp : pr.isMultiline = false) (input : Str) :
    ∃ cs, Reads pr input cs ∧ List.Forall₂ Stripped ((input.splitOn '\n').filter (fun l => !blank l)) cs := by
  induction hn : input.length using Nat.strong_induction_on generalizing input with
  | _ n ih =>
    rcases readSingle_spec (input.length + 1) input (by omega) with ⟨h1, h2⟩ | ⟨l, rest, h1, h2, h3⟩
    · refine ⟨[], .stop ?_, ?_⟩
      · rw [getNextChunk, hp]; exact h1
      · rw [h2]; exact .nil
    · obtain ⟨cs, q1, q2⟩ := ih rest.length (by omega) rest rfl
      refine ⟨trimEnd l :: cs, .chunk ?_ q1, ?_⟩
      · rw [getNextChunk, hp]; exact h1
      · rw [h3]; exact .cons (stripped_trimEnd l) q2

/-! ### C45 -/

theorem groups_blank (l : Str) (ls : List Str) (h : blank l = true) : groups (l :: ls) = groups ls := by
  unfold groups
  rw [List.splitOnP_cons_eq_if_modifyHead, if_pos h]
  simp

theorem groups_cut (g : List Str) (l : Str) (ls : List Str) (hg : ∀ x ∈ g, blank x = false) (hne : g ≠ []) (h : blank l = true) :
    groups (g ++ l :: ls) = g :: groups ls := by
  unfold groups
  rw [List.splitOnP_append_cons_of_forall_mem hg _ h]
  simp [hne]

theorem groups_one (g : List Str) (hg : ∀ x ∈ g, blank x = false) (hne : g ≠ []) : groups g = [g] := by
  unfold groups
  rw [List.splitOnP_eq_singleton hg]
  simp [hne]

theorem groups_nil : groups [[]] = [] := by
  rw [groups_blank _ _ rfl]; simp [groups]

theorem getLast?_append_ne {α : Type} (a : List α) {b : List α} (h : b ≠ []) : (a ++ b).getLast? = b.getLast? := by
  rw [List.getLast?_append]
  cases hb : b.getLast? with
  | none => exact absurd (List.getLast?_eq_none_iff.1 hb) h
  | some x => rfl

theorem trimEnd_push {b l : Str} (h : blank l = false) : trimEnd (b ++ l) = b ++ trimEnd l := by
  apply trimEnd_eq
  obtain ⟨⟨t, h1, h2⟩, h3⟩ := stripped_trimEnd l
  refine ⟨⟨t, by rw [List.append_assoc, ← h1], h2⟩, ?_⟩
  intro x hx
  have hne : trimEnd l ≠ [] := by
    intro hc
    have := trimEnd_blank.1 (by simp [hc] : (trimEnd l).isEmpty = true)
    rw [h] at this; cases this
  rw [getLast?_append_ne _ hne] at hx
  exact h3 x hx

theorem last_trimEnd {l : Str} : ∀ x, (trimEnd l).getLast? = some x → isWs x = false := isSpace_eq ▸ (stripped_trimEnd l).2

theorem trimEnd_blank_tail {b l : Str} (hb : ∀ x, b.getLast? = some x → isWs x = false) (h : blank l = true) : trimEnd (b ++ '\n' :: l) = b := by
  apply trimEnd_eq
  refine ⟨⟨'\n' :: l, rfl, ?_⟩, isSpace_eq ▸ hb⟩
  intro x hx
  rcases List.mem_cons.1 hx with rfl | hx
  · rfl
  · exact List.all_eq_true.1 h x hx

/-- Reading with a group already begun. -/
theorem readMulti_more : ∀ (fuel : Nat) (b input : Str), input.length + 1 < fuel → b ≠ [] → (∀ x, b.getLast? = some x → isWs x = false) →
    ∃ g rest, readMultiLines fuel b input = (some (b ++ g.flatMap (fun l => '\n' :: trimEnd l)), rest) ∧ (∀ l ∈ g, blank l = false) ∧
      rest.length ≤ input.length ∧ (∀ l ∈ g, '\n' ∉ l) ∧
      ∀ g0 : List Str, g0 ≠ [] → (∀ l ∈ g0, blank l = false) → groups (g0 ++ input.splitOn '\n') = (g0 ++ g) :: groups (rest.splitOn '\n')
  | 0, b, input, h, _, _ => absurd h (by omega)
  | fuel + 1, b, input, h, hb, hl => by
    have hbe : b.isEmpty = false := by simp [hb]
    have hpos : 0 < b.length := List.length_pos_iff.2 hb
    have hcase : ∃ l r nl, readLine input = (l ++ nl, r) ∧ '\n' ∉ l ∧ (nl = [] ∨ nl = ['\n']) ∧ r.length ≤ input.length ∧
        (r.length < input.length ∨ blank l = true ∨ r = []) ∧
        ∀ g0 : List Str, g0 ≠ [] → (∀ l ∈ g0, blank l = false) →
          groups (g0 ++ input.splitOn '\n') = if blank l then g0 :: groups (r.splitOn '\n') else groups ((g0 ++ [l]) ++ r.splitOn '\n') := by
      rcases readLine_cases input with ⟨h1, h2, h3⟩ | ⟨l, r, h1, h1', h2, h3⟩
      · refine ⟨input, [], [], by simp [h2], h1, .inl rfl, by simp, by simp, ?_⟩
        intro g0 q1 q2
        rw [h3]
        split
        · rename_i hbl
          rw [groups_cut _ _ _ q2 q1 hbl, List.splitOn_nil, groups_nil]
          simp [groups]
        · rename_i hbl
          have hbl : blank input = false := by simpa using hbl
          rw [List.splitOn_nil, groups_cut (g0 ++ [input]) _ _ _ (by simp) rfl, groups_one _ _ (by simp)]
          · simp [groups]
          · intro x hx; rcases List.mem_append.1 hx with hx | hx
            · exact q2 x hx
            · simp at hx; rw [hx]; exact hbl
          · intro x hx; rcases List.mem_append.1 hx with hx | hx
            · exact q2 x hx
            · simp at hx; rw [hx]; exact hbl
      · refine ⟨l, r, ['\n'], h2, h1', .inr rfl, by rw [h1]; simp; omega, .inl (by rw [h1]; simp; omega), ?_⟩
        intro g0 q1 q2
        rw [h3]
        split
        · rename_i hbl; rw [groups_cut _ _ _ q2 q1 hbl]
        · simp
    obtain ⟨l, r, nl, e1, e2, e3, e4, e5, e6⟩ := hcase
    have hws : ∀ x ∈ nl, isWs x = true := by
      rcases e3 with rfl | rfl
      · simp
      · simp [nl_ws]
    have hstep : readMultiLines (fuel + 1) b input =
        (let b' := trimEnd (b ++ ['\n'] ++ l)
         if b'.length = b.length then (some b', r) else readMultiLines fuel b' r) := by
      rw [readMultiLines, e1]
      have ht : trimEnd (b ++ ['\n'] ++ (l ++ nl)) = trimEnd (b ++ ['\n'] ++ l) := by
        rw [← List.append_assoc]; exact trimEnd_append_ws _ _ hws
      simp only [hbe, Bool.not_false, if_true, ht]
      rw [if_neg (by simp), if_neg (by simp; intro _; exact hb)]
      simp [hpos]
    cases hbl : blank l with
    | true =>
      have ht : trimEnd (b ++ ['\n'] ++ l) = b := by rw [List.append_assoc]; exact trimEnd_blank_tail hl hbl
      refine ⟨[], r, ?_, by simp, e4, by simp, ?_⟩
      · rw [hstep, ht]; simp
      · intro g0 q1 q2
        rw [e6 g0 q1 q2, if_pos hbl]; simp
    | false =>
      have ht : trimEnd (b ++ ['\n'] ++ l) = b ++ '\n' :: trimEnd l := by
        rw [trimEnd_push hbl]; simp
      have hne : trimEnd l ≠ [] := by
        intro hc
        have := trimEnd_blank.1 (by simp [hc] : (trimEnd l).isEmpty = true)
        rw [hbl] at this; cases this
      have hfuel : r.length + 1 < fuel := by
        rcases e5 with e5 | e5 | e5
        · omega
        · rw [hbl] at e5; cases e5
        · have : 0 < input.length := by
            rcases Nat.eq_zero_or_pos input.length with hz | hz
            · exfalso
              have : input = [] := List.length_eq_zero_iff.1 hz
              rw [this] at e1
              simp [readLine] at e1
              rw [e1.1.1] at hbl
              simp [blank] at hbl
            · exact hz
          rw [e5]; simp; omega
      obtain ⟨g, rest, i1, i2, i3, i5, i4⟩ := readMulti_more fuel (b ++ '\n' :: trimEnd l) r hfuel (by simp) (by
        intro x hx
        rw [getLast?_append_ne _ (by simp), List.getLast?_cons] at hx
        cases hq : (trimEnd l).getLast? with
        | none => exact absurd (List.getLast?_eq_none_iff.1 hq) hne
        | some y =>
          rw [hq] at hx
          simp at hx
          rw [← hx]
          exact last_trimEnd y hq)
      refine ⟨l :: g, rest, ?_, ?_, by omega, ?_, ?_⟩
      · rw [hstep, ht]
        have : (b ++ '\n' :: trimEnd l).length ≠ b.length := by simp
        simp only [this, if_false]
        rw [i1]
        simp
      · intro x hx
        rcases List.mem_cons.1 hx with rfl | hx
        · exact hbl
        · exact i2 x hx
      · intro x hx
        rcases List.mem_cons.1 hx with rfl | hx
        · exact e2
        · exact i5 x hx
      · intro g0 q1 q2
        rw [e6 g0 q1 q2, hbl]
        simp only [Bool.false_eq_true, if_false]
        rw [i4 (g0 ++ [l]) (by simp) (by
          intro x hx; rcases List.mem_append.1 hx with hx | hx
          · exact q2 x hx
          · simp at hx; rw [hx]; exact hbl)]
        simp

/-- Reading from the start. -/
theorem readMulti_start : ∀ (fuel : Nat) (input : Str), input.length + 1 < fuel →
    (readMultiLines fuel [] input = (none, []) ∧ groups (input.splitOn '\n') = []) ∨
    ∃ l g rest, readMultiLines fuel [] input = (some (trimEnd l ++ g.flatMap (fun l => '\n' :: trimEnd l)), rest) ∧
      (∀ x ∈ l :: g, blank x = false ∧ '\n' ∉ x) ∧ rest.length < input.length ∧ groups (input.splitOn '\n') = (l :: g) :: groups (rest.splitOn '\n')
  | 0, input, h => absurd h (by omega)
  | fuel + 1, input, h => by
    rcases readLine_cases input with ⟨h1, h2, h3⟩ | ⟨l, r, h1, h1', h2, h3⟩
    · cases hi : input with
      | nil =>
        left
        simp [readMultiLines, readLine, groups_nil]
      | cons a s =>
        rw [← hi]
        have hne : input.isEmpty = false := by simp [hi]
        have hstep : readMultiLines (fuel + 1) [] input = readMultiLines fuel (trimEnd input) [] := by
          rw [readMultiLines, h2]
          simp [hne]
        have hf : 1 < fuel := by rw [hi] at h; simp at h; omega
        cases hbl : blank input with
        | true =>
          left
          have ht : trimEnd input = [] := List.isEmpty_iff.1 (trimEnd_blank.2 hbl)
          rw [hstep, ht]
          refine ⟨?_, ?_⟩
          · obtain ⟨n, rfl⟩ : ∃ n, fuel = n + 1 := ⟨fuel - 1, by omega⟩
            simp [readMultiLines, readLine]
          · rw [h3, groups_blank _ _ hbl]; simp [groups]
        | false =>
          right
          have hne' : trimEnd input ≠ [] := by
            intro hc
            have := trimEnd_blank.1 (by simp [hc] : (trimEnd input).isEmpty = true)
            rw [hbl] at this; cases this
          obtain ⟨g, rest, i1, i2, i3, i5, i4⟩ := readMulti_more fuel (trimEnd input) [] (by simpa using hf) hne' last_trimEnd
          refine ⟨input, g, rest, by rw [hstep, i1], ?_, ?_, ?_⟩
          · intro x hx
            rcases List.mem_cons.1 hx with rfl | hx
            · exact ⟨hbl, h1⟩
            · exact ⟨i2 x hx, i5 x hx⟩
          · simp at i3; rw [i3, hi]; simp
          · have := i4 [input] (by simp) (by simp [hbl])
            rw [h3]
            refine Eq.trans ?_ this
            rw [List.splitOn_nil, groups_cut _ _ _ (by simp [hbl]) (by simp) rfl, groups_one _ (by simp [hbl]) (by simp)]
            simp [groups]
    · have hlen : r.length < input.length := by rw [h1]; simp; omega
      have hstep : readMultiLines (fuel + 1) [] input = readMultiLines fuel (trimEnd l) r := by
        rw [readMultiLines, h2]
        simp [trimEnd_nl]
      cases hbl : blank l with
      | true =>
        have ht : trimEnd l = [] := List.isEmpty_iff.1 (trimEnd_blank.2 hbl)
        rw [hstep, ht, h3, groups_blank _ _ hbl]
        rcases readMulti_start fuel r (by omega) with hr | ⟨l', g, rest, q1, q2, q3, q4⟩
        · exact .inl hr
        · exact .inr ⟨l', g, rest, q1, q2, by omega, q4⟩
      | false =>
        right
        have hne' : trimEnd l ≠ [] := by
          intro hc
          have := trimEnd_blank.1 (by simp [hc] : (trimEnd l).isEmpty = true)
          rw [hbl] at this; cases this
        obtain ⟨g, rest, i1, i2, i3, i5, i4⟩ := readMulti_more fuel (trimEnd l) r (by omega) hne' last_trimEnd
        refine ⟨l, g, rest, by rw [hstep, i1], ?_, by omega, ?_⟩
        · intro x hx
          rcases List.mem_cons.1 hx with rfl | hx
          · exact ⟨hbl, h1'⟩
          · exact ⟨i2 x hx, i5 x hx⟩
        · rw [h3]; exact i4 [l] (by simp) (by simp [hbl])

theorem join_eq (l : Str) (g : List Str) : trimEnd l ++ g.flatMap (fun l => '\n' :: trimEnd l) = ['\n'].intercalate ((l :: g).map trimEnd) := by
  induction g generalizing l with
  | nil => simp
  | cons a g ih =>
    rw [List.flatMap_cons, List.map_cons, List.map_cons, List.intercalate_cons_cons, ← List.map_cons, ← ih a]
    simp

theorem reads_multi_line (pr : Parser F) (hp : pr.isMultiline = true) (input : Str) :
    ∃ cs, Reads pr input cs ∧ List.Forall₂ ChunkOf (groups (input.splitOn '\n')) cs := by
  induction hn : input.length using Nat.strong_induction_on generalizing input with
  | _ n ih =>
    rcases readMulti_start (input.length + 2) input (by omega) with ⟨h1, h2⟩ | ⟨l, g, rest, h1, h2, h3, h4⟩
    · refine ⟨[], .stop ?_, ?_⟩
      · rw [getNextChunk, hp]; exact h1
      · rw [h2]; exact .nil
    · obtain ⟨cs, q1, q2⟩ := ih rest.length (by omega) rest rfl
      refine ⟨_ :: cs, .chunk (by rw [getNextChunk, hp]; exact h1) q1, ?_⟩
      rw [h4]
      refine .cons ⟨(l :: g).map trimEnd, ?_, join_eq l g, ?_⟩ q2
      · rw [List.forall₂_map_right_iff]
        exact List.forall₂_same.2 (fun x _ => stripped_trimEnd x)
      · rw [join_eq]
        apply lines_intercalate
        intro t ht
        obtain ⟨x, hx, rfl⟩ := List.mem_map.1 ht
        obtain ⟨hb, hn⟩ := h2 x hx
        obtain ⟨⟨u, e1, _⟩, e2⟩ := stripped_trimEnd x
        refine ⟨?_, ?_, ?_⟩
        · intro hc; apply hn; rw [e1]; exact List.mem_append_left _ hc
        · intro hc; have := e2 _ hc; exact absurd this (by decide)
        · intro hc
          have := trimEnd_blank.1 (by simp [hc] : (trimEnd x).isEmpty = true)
          rw [hb] at this; cases this

theorem isMultiline_iff {pr : Parser F} : pr.isMultiline = true ↔ SpansLines pr := by simp [Parser.isMultiline, SpansLines]

/-- C44. Asking for chunks until there is none yields exactly the lines of the input that are not blank, in order, each without its trailing
white space; then there are no more chunks, however often the client asks. -/
theorem C44_single_line (pr : Parser F) (hp : ¬ SpansLines pr) (input : Str) :
    ∃ cs, Reads pr input cs ∧ List.Forall₂ Stripped ((input.splitOn '\n').filter (fun l => !blank l)) cs :=
  reads_single_line pr (by rw [← isMultiline_iff] at hp; simpa using hp) input

/-- C45. Asking for chunks until there is none yields exactly one chunk for every maximal group of consecutive lines that are not blank, in
order, and then there are no more chunks. -/
theorem C45_multi_line (pr : Parser F) (hp : SpansLines pr) (input : Str) :
    ∃ cs, Reads pr input cs ∧ List.Forall₂ ChunkOf (groups (input.splitOn '\n')) cs :=
  reads_multi_line pr (isMultiline_iff.2 hp) input

section examples

/-- Decimal numbers. -/
def exFloat (s : Str) : Option Int := (parseU32 s).map Int.ofNat

attribute [local instance] intFlt

/-- A regression parser. -/
def exSimple : Parser Int := ⟨.sparseSimple, .simple, 0#32, 4, fun s k => BitVec.ofNat 32 s.length + k, exFloat, true⟩
/-- A contextual bandit parser. -/
def exCb : Parser Int := { exSimple with featuresType := .sparseCBAdf, labelType := .cb }

example : ¬ SpansLines exSimple ∧ Reads exSimple "\n 1 |a\t\n \n2 |b\r\n".toList [" 1 |a".toList, "2 |b".toList] :=
  ⟨by decide, .chunk rfl (.chunk rfl (.stop rfl))⟩

example : SpansLines exCb ∧ Reads exCb "\n\n|a \n|b\r\n \n\n|c".toList ["|a\n|b".toList, "|c".toList] :=
  ⟨by decide, .chunk rfl (.chunk rfl (.stop rfl))⟩

end examples

end Vw
end Rml
