import Verif.Model.Explore
import Verif.Lemmas.Field
import Mathlib.Data.List.Perm.Basic

/-! Helper lemmas about `enforce_min_prob`, sorting and the first minimum. -/

set_option linter.unusedSectionVars false

namespace Rml

section generic
variable {F : Type} [Flt F]

theorem insertDesc_perm (x : F) (l : List F) : (insertDesc x l).Perm (x :: l) := by
  induction l with
  | nil => exact List.Perm.refl _
  | cons y ys ih =>
    unfold insertDesc
    split
    · exact (List.Perm.cons y ih).trans (List.Perm.swap x y ys)
    · exact List.Perm.refl _

theorem sortDesc_perm (l : List F) : (sortDesc l).Perm l := by
  induction l with
  | nil => exact List.Perm.refl _
  | cons x xs ih => exact (insertDesc_perm x _).trans (List.Perm.cons x ih)

theorem sortDesc_length (l : List F) : (sortDesc l).length = l.length := (sortDesc_perm l).length_eq

/-- Elements before the first zero. -/
def headLen (considerZero : Bool) : List F → Nat
  | [] => 0
  | p :: ps => if !considerZero && Flt.eq p Flt.zero then 0 else headLen considerZero ps + 1

theorem rhoLoop_ok (cz : Bool) (support : Nat) (m : F) (ps : List F) : ∀ s : RhoState F,
    s.idx + headLen cz ps ≤ support → ∃ s', rhoLoop cz support m ps s = .ok s' := by
  induction ps with
  | nil => intro s _; exact ⟨s, rfl⟩
  | cons p ps ih =>
    intro s hs
    unfold rhoLoop
    unfold headLen at hs
    split
    · exact ⟨s, rfl⟩
    · rename_i h
      rw [if_neg h] at hs
      rw [if_neg (by omega)]
      exact ih _ (by simp only; split <;> (try simp only) <;> omega)

theorem headLen_le (cz : Bool) (ps : List F) :
    headLen cz ps ≤ (if cz then ps.length else ps.length - (ps.filter (fun e => Flt.eq e Flt.zero)).length) := by
  induction ps with
  | nil => simp [headLen]
  | cons p ps ih =>
    have hle := List.length_filter_le (fun e : F => Flt.eq e Flt.zero) ps
    unfold headLen
    cases cz with
    | true => simp at ih ⊢; exact ih
    | false =>
      simp only [Bool.not_false, Bool.true_and, Bool.false_eq_true, if_false] at ih ⊢
      cases h : Flt.eq p Flt.zero with
      | true => simp
      | false => simp [h]; omega

end generic

variable {K : Type} [Field K] [LinearOrder K] [IsStrictOrderedRing K] [Trans K]
local instance : Flt K := fieldFlt K

omit [IsStrictOrderedRing K] in
theorem insertDesc_sorted (x : K) (l : List K) (h : l.Pairwise (· ≥ ·)) : (insertDesc x l).Pairwise (· ≥ ·) := by
  induction l with
  | nil => simp [insertDesc]
  | cons y ys ih =>
    have h' := List.pairwise_cons.1 h
    unfold insertDesc
    split
    · rename_i hlt
      simp at hlt
      refine List.pairwise_cons.2 ⟨?_, ih h'.2⟩
      intro a ha
      rcases List.mem_cons.1 ((insertDesc_perm x ys).mem_iff.1 ha) with rfl | ha
      · exact hlt.le
      · exact h'.1 a ha
    · rename_i hlt
      simp at hlt
      refine List.pairwise_cons.2 ⟨?_, h⟩
      intro a ha
      rcases List.mem_cons.1 ha with rfl | ha
      · exact hlt
      · exact le_trans (h'.1 a ha) hlt

omit [IsStrictOrderedRing K] in
theorem sortDesc_sorted (l : List K) : (sortDesc l).Pairwise (· ≥ ·) := by
  induction l with
  | nil => simp [sortDesc]
  | cons x xs ih => exact insertDesc_sorted x _ ih

/-- The threshold after `k + 1` elements with sum `S`. -/
def tauOf (n : Nat) (m : K) (k : Nat) (S : K) : K := (((n : K) - (k : K) - 1) * m + S - 1) / ((k : K) + 1)

/-- Invariant of the loop of `enforce_min_prob` after a nonempty prefix. -/
structure RhoInv (n : Nat) (m : K) (pre : List K) (s : RhoState K) : Prop where
  idx : s.idx = pre.length
  sum : s.runningSum = pre.sum
  lt : s.rhoIdx < pre.length
  rsum : s.rhoSum = (pre.take (s.rhoIdx + 1)).sum
  above : ∀ x ∈ pre.take (s.rhoIdx + 1), tauOf n m s.rhoIdx s.rhoSum < x - m
  below : ∀ x ∈ pre.drop (s.rhoIdx + 1), x - m ≤ tauOf n m s.rhoIdx s.rhoSum

omit [Trans K] in
theorem tau_step (n : Nat) (m : K) (k : Nat) (S p : K) :
    ((k : K) + 1 + 1) * tauOf n m (k + 1) (S + p) = ((k : K) + 1) * tauOf n m k S + (p - m) := by
  have h1 : ((k : K) + 1) ≠ 0 := by positivity
  have h2 : (((k + 1 : Nat) : K) + 1) ≠ 0 := by positivity
  unfold tauOf
  rw [mul_div_cancel₀ _ h1]
  have : ((k : K) + 1 + 1) = (((k + 1 : Nat) : K) + 1) := by push_cast; ring
  rw [this, mul_div_cancel₀ _ h2]
  push_cast
  ring

theorem rhoLoop_spec (cz : Bool) (n : Nat) (m : K) (rest : List K) : ∀ (pre : List K) (s : RhoState K),
    (pre ++ rest).Pairwise (· ≥ ·) → (pre ++ rest).length ≤ n → (∀ x ∈ rest, cz = true ∨ x ≠ 0) → RhoInv n m pre s →
    ∀ tail : List K, (tail = [] ∨ (cz = false ∧ tail.head? = some 0)) →
    ∃ s', rhoLoop cz n m (rest ++ tail) s = .ok s' ∧ RhoInv n m (pre ++ rest) s' := by
  induction rest with
  | nil =>
    intro pre s _ _ _ hinv tail ht
    refine ⟨s, ?_, by simpa using hinv⟩
    rcases ht with rfl | ⟨rfl, ht⟩
    · rfl
    · cases tail with
      | nil => rfl
      | cons a t => simp at ht; subst ht; simp [rhoLoop]
  | cons p rest ih =>
    intro pre s hsort hlen hnz hinv tail ht
    have hp := hnz p (by simp)
    have hcond : (!cz && decide (p = 0)) = false := by
      rcases hp with rfl | h
      · rfl
      · simp [h]
    have hidx : ¬ n < s.idx + 1 := by
      rw [hinv.idx]; simp at hlen; omega
    have happ : pre ++ (p :: rest) = (pre ++ [p]) ++ rest := by simp
    rw [happ] at hsort hlen ⊢
    have hpre : ∀ x ∈ pre, p ≤ x := by
      intro x hx
      have h1 := (List.pairwise_append.1 hsort).1
      exact (List.pairwise_append.1 h1).2.2 x hx p (by simp)
    -- the threshold computed by the code
    have hk : ((n - s.idx - 1 : Nat) : K) = (n : K) - (s.idx : K) - 1 := by
      have : s.idx + 1 ≤ n := by omega
      rw [Nat.sub_sub, Nat.cast_sub this]; push_cast; ring
    have hthr : ((n - s.idx - 1 : Nat) : K) * m + (s.runningSum + p) - 1 = ((n : K) - (s.idx : K) - 1) * m + (s.runningSum + p) - 1 := by
      rw [hk]
    rw [List.cons_append]
    unfold rhoLoop
    simp only [flt_eq, flt_zero, hcond, Bool.false_eq_true, if_false, hidx, flt_add, flt_sub, flt_mul, flt_div, flt_ofNat,
      flt_one, flt_lt, decide_eq_true_eq, hthr]
    have hT : (((n : K) - (s.idx : K) - 1) * m + (s.runningSum + p) - 1) / ((s.idx : K) + 1) =
        tauOf n m s.idx (s.runningSum + p) := rfl
    rw [hT]
    apply ih (pre ++ [p]) _ hsort hlen (fun x hx => hnz x (by simp [hx])) _ tail ht
    by_cases hc : tauOf n m s.idx (s.runningSum + p) + m < p
    · rw [if_pos hc]
      refine ⟨?_, ?_, ?_, ?_, ?_, ?_⟩
      · simp [hinv.idx]
      · simp [hinv.sum]
      · simp [hinv.idx]
      · simp [hinv.idx, hinv.sum]
      · intro x hx
        have hx' := List.mem_of_mem_take hx
        rcases List.mem_append.1 hx' with hx' | hx'
        · have := hpre x hx'; simp only; linarith
        · simp at hx'; subst hx'; simp only; linarith
      · intro x hx
        simp [hinv.idx] at hx
    · rw [if_neg hc]
      have hlt := hinv.lt
      have htk : (pre ++ [p]).take (s.rhoIdx + 1) = pre.take (s.rhoIdx + 1) := by
        rw [List.take_append_of_le_length (by omega)]
      have hdr : (pre ++ [p]).drop (s.rhoIdx + 1) = pre.drop (s.rhoIdx + 1) ++ [p] := by
        rw [List.drop_append_of_le_length (by omega)]
      refine ⟨?_, ?_, ?_, ?_, ?_, ?_⟩
      · simp [hinv.idx]
      · simp [hinv.sum]
      · simp; omega
      · simp only; rw [htk]; exact hinv.rsum
      · simp only; rw [htk]; exact hinv.above
      · simp only; rw [hdr]
        intro x hx
        rcases List.mem_append.1 hx with hx | hx
        · exact hinv.below x hx
        · simp at hx; subst hx
          by_cases hlast : s.rhoIdx + 1 = pre.length
          · -- the previous element was the last accepted one
            have hS : s.rhoSum = s.runningSum := by
              rw [hinv.rsum, hinv.sum, hlast, List.take_length]
            have hidx' : s.idx = s.rhoIdx + 1 := by rw [hinv.idx, hlast]
            rw [hidx', ← hS] at hc
            have hst := tau_step n m s.rhoIdx s.rhoSum x
            have hpos : (0 : K) < (s.rhoIdx : K) + 1 := by positivity
            have hpos2 : (0 : K) < (s.rhoIdx : K) + 1 + 1 := by positivity
            have hle : x - m ≤ tauOf n m (s.rhoIdx + 1) (s.rhoSum + x) := by linarith
            have h2 : ((s.rhoIdx : K) + 1 + 1) * (x - m) ≤ ((s.rhoIdx : K) + 1 + 1) * tauOf n m (s.rhoIdx + 1) (s.rhoSum + x) :=
              mul_le_mul_of_nonneg_left hle hpos2.le
            rw [hst] at h2
            have h3 : ((s.rhoIdx : K) + 1) * (x - m) ≤ ((s.rhoIdx : K) + 1) * tauOf n m s.rhoIdx s.rhoSum := by linarith
            exact le_of_mul_le_mul_left h3 hpos
          · have hne : pre.drop (s.rhoIdx + 1) ≠ [] := by
              intro h0
              rw [List.drop_eq_nil_iff] at h0
              omega
            obtain ⟨y, hy⟩ := List.exists_mem_of_ne_nil _ hne
            have h1 := hinv.below y hy
            have h2 := hpre y (List.mem_of_mem_drop hy)
            linarith

omit [Trans K] in
/-- Sum of the truncated values equals one. -/
theorem sum_trunc (n : Nat) (m : K) (pre : List K) (s : RhoState K) (hlen : pre.length = n) (h : RhoInv n m pre s) :
    (pre.map (fun x => max (x - tauOf n m s.rhoIdx s.rhoSum) m)).sum = 1 := by
  have hsplit := List.take_append_drop (s.rhoIdx + 1) pre
  have hlt := h.lt
  set tau := tauOf n m s.rhoIdx s.rhoSum with htau
  rw [← hsplit, List.map_append, List.sum_append]
  have h1 : ((pre.take (s.rhoIdx + 1)).map (fun x => max (x - tau) m)).sum =
      (pre.take (s.rhoIdx + 1)).sum - ((s.rhoIdx : K) + 1) * tau := by
    have hm : (pre.take (s.rhoIdx + 1)).map (fun x => max (x - tau) m) = (pre.take (s.rhoIdx + 1)).map (fun x => x - tau) := by
      apply List.map_congr_left
      intro x hx
      have := h.above x hx
      exact max_eq_left (by linarith)
    rw [hm]
    have gen : ∀ l : List K, (l.map (fun x => x - tau)).sum = l.sum - (l.length : K) * tau := by
      intro l
      induction l with
      | nil => simp
      | cons a t ih => simp only [List.map_cons, List.sum_cons, ih, List.length_cons]; push_cast; ring
    rw [gen, List.length_take, min_eq_left (by omega)]
    push_cast
    ring
  have h2 : ((pre.drop (s.rhoIdx + 1)).map (fun x => max (x - tau) m)).sum = ((n : K) - (s.rhoIdx : K) - 1) * m := by
    have hm : (pre.drop (s.rhoIdx + 1)).map (fun x => max (x - tau) m) = (pre.drop (s.rhoIdx + 1)).map (fun _ => m) := by
      apply List.map_congr_left
      intro x hx
      have := h.below x hx
      exact max_eq_right (by linarith)
    rw [hm]
    simp only [List.map_const', List.sum_replicate, List.length_drop, nsmul_eq_mul]
    rw [hlen, Nat.cast_sub (by omega)]
    push_cast
    ring
  rw [h1, h2, ← h.rsum]
  have hpos : ((s.rhoIdx : K) + 1) ≠ 0 := by positivity
  have : ((s.rhoIdx : K) + 1) * tau = ((n : K) - (s.rhoIdx : K) - 1) * m + s.rhoSum - 1 := by
    rw [htau, tauOf, mul_div_cancel₀ _ hpos]
  rw [this]
  ring

/-- The loop from the start, on a nonempty sorted support of size `n` with `n * m < 1`. -/
theorem rhoLoop_start (cz : Bool) (n : Nat) (m : K) (p0 : K) (rest tail : List K) (hsort : (p0 :: rest).Pairwise (· ≥ ·))
    (hlen : (p0 :: rest).length = n) (hnz : ∀ x ∈ p0 :: rest, cz = true ∨ x ≠ 0) (hm : (n : K) * m < 1)
    (ht : tail = [] ∨ (cz = false ∧ tail.head? = some 0)) :
    ∃ s', rhoLoop cz n m (p0 :: rest ++ tail) ⟨0, 0, 0, p0⟩ = .ok s' ∧ RhoInv n m (p0 :: rest) s' := by
  have hcond : (!cz && decide (p0 = 0)) = false := by
    rcases hnz p0 (by simp) with rfl | h
    · rfl
    · simp [h]
  have hn : 1 ≤ n := by simp at hlen; omega
  have hk : ((n - 0 - 1 : Nat) : K) = (n : K) - 1 := by
    rw [Nat.sub_zero, Nat.cast_sub hn]; simp
  rw [List.cons_append]
  unfold rhoLoop
  simp only [flt_eq, flt_zero, hcond, Bool.false_eq_true, if_false, flt_add, flt_sub, flt_mul, flt_div, flt_ofNat,
      flt_one, flt_lt, decide_eq_true_eq, hk]
  rw [if_neg (by omega)]
  have hc : (((n : K) - 1) * m + (0 + p0) - 1) / (((0 : Nat) : K) + 1) + m < p0 := by
    simp only [Nat.cast_zero, zero_add, div_one]
    linarith
  rw [if_pos hc]
  have := rhoLoop_spec cz n m rest [p0] ⟨0 + 1, 0 + p0, 0, 0 + p0⟩ (by simpa using hsort) (by simpa using hlen.le)
    (fun x hx => hnz x (by simp [hx])) ?_ tail ht
  · simpa using this
  · refine ⟨rfl, by simp, by simp, by simp, ?_, by simp⟩
    intro x hx
    simp at hx
    subst hx
    simp only [tauOf, Nat.cast_zero, zero_add, div_one]
    linarith


/-- In the support: not zero, or zeros are considered. -/
def supp (cz : Bool) (p : K) : Bool := cz || decide (p ≠ 0)

omit [Field K] [IsStrictOrderedRing K] [Trans K] in
theorem sorted_split [Zero K] (l : List K) (hs : l.Pairwise (· ≥ ·)) (hn : ∀ x ∈ l, 0 ≤ x) :
    l = l.filter (fun x => decide (x ≠ 0)) ++ l.filter (fun x => decide (x = 0)) := by
  induction l with
  | nil => rfl
  | cons a t ih =>
    have hc := List.pairwise_cons.1 hs
    have ih' := ih hc.2 (fun x hx => hn x (by simp [hx]))
    by_cases ha : a = 0
    · have hall : ∀ x ∈ t, x = 0 := by
        intro x hx
        exact le_antisymm (ha ▸ hc.1 x hx) (hn x (by simp [hx]))
      have h1 : t.filter (fun x => decide (x ≠ 0)) = [] := by
        rw [List.filter_eq_nil_iff]; intro x hx; simp [hall x hx]
      have h2 : t.filter (fun x => decide (x = 0)) = t := by
        rw [List.filter_eq_self]; intro x hx; simp [hall x hx]
      simp [ha]
      simp at h1
      rw [List.filter_eq_nil_iff.2 (by intro x hx; simp [hall x hx]), h2]
      rfl
    · simp [ha]
      simpa using ih'

/-- The loop on a sorted list splits at the first zero. -/
theorem loop_total (cz : Bool) (m : K) (ps : List K) (hn : ∀ x ∈ ps, 0 ≤ x) (n : Nat)
    (hN : n = (ps.filter (supp cz)).length) (hpos : 0 < n) (hm : (n : K) * m < 1) (p0 : K) (rest : List K)
    (hs : sortDesc ps = p0 :: rest) :
    ∃ s', rhoLoop cz n m (p0 :: rest) ⟨0, 0, 0, p0⟩ = .ok s' ∧
      ((ps.filter (supp cz)).map (fun x => max (x - tauOf n m s'.rhoIdx s'.rhoSum) m)).sum = 1 := by
  have hperm := sortDesc_perm ps
  have hsort := sortDesc_sorted ps
  have hn' : ∀ x ∈ sortDesc ps, 0 ≤ x := fun x hx => hn x (hperm.mem_iff.1 hx)
  have hfp := hperm.filter (supp cz)
  have hsplit : sortDesc ps = (sortDesc ps).filter (supp cz) ++ (if cz then [] else (sortDesc ps).filter (fun x => decide (x = 0))) := by
    cases cz with
    | true =>
      have : (supp true : K → Bool) = fun _ => true := by funext x; simp [supp]
      rw [this]; simp
    | false =>
      have : (supp false : K → Bool) = fun x => decide (x ≠ 0) := by funext x; simp [supp]
      rw [this]
      simpa using sorted_split _ hsort hn'
  have hlenA : ((sortDesc ps).filter (supp cz)).length = n := by rw [hN]; exact hfp.length_eq
  cases hA : (sortDesc ps).filter (supp cz) with
  | nil => rw [hA] at hlenA; simp at hlenA; omega
  | cons a t =>
    rw [hA] at hsplit hlenA
    have ha : p0 = a := by
      rw [hs] at hsplit; simp at hsplit; exact hsplit.1
    subst ha
    have hsortA : (p0 :: t).Pairwise (· ≥ ·) := by rw [← hA]; exact hsort.filter _
    obtain ⟨s', h1, h2⟩ := rhoLoop_start cz n m p0 t (if cz then [] else (sortDesc ps).filter (fun x => decide (x = 0))) hsortA hlenA
      (by intro x hx
          rw [← hA] at hx
          have := (List.mem_filter.1 hx).2
          simpa [supp] using this) hm
      (by cases cz with
          | true => left; rfl
          | false =>
            simp only [Bool.false_eq_true, if_false]
            cases hz : (sortDesc ps).filter (fun x => decide (x = 0)) with
            | nil => left; rfl
            | cons z zs =>
              right
              have hz0 : z ∈ (sortDesc ps).filter (fun x => decide (x = 0)) := by rw [hz]; simp
              have := (List.mem_filter.1 hz0).2
              simp at this
              simp [this])
    refine ⟨s', ?_, ?_⟩
    · rw [← h1, ← hs]; rw [← hsplit]
    · have := sum_trunc n m (p0 :: t) s' hlenA h2
      rw [← hA] at this
      rw [← this]
      exact ((hfp.map _).sum_eq).symm

omit [Field K] [IsStrictOrderedRing K] [Trans K] in
theorem length_filter_compl {α : Type} (q : α → Bool) (l : List α) :
    l.length - (l.filter q).length = (l.filter (fun x => !q x)).length := by
  induction l with
  | nil => rfl
  | cons a t ih =>
    have := List.length_filter_le q t
    cases h : q a <;> simp [h] <;> omega

theorem support_eq (cz : Bool) (els : List (Nat × K)) :
    (if cz then els.length else els.length - (els.filter (fun e => Flt.eq e.2 Flt.zero)).length) =
      ((els.map (·.2)).filter (supp cz)).length := by
  cases cz with
  | true =>
    have : (supp true : K → Bool) = fun _ => true := by funext x; simp [supp]
    rw [this]; simp
  | false =>
    simp only [Bool.false_eq_true, if_false]
    rw [length_filter_compl, List.filter_map, List.length_map]
    congr 2
    funext e
    simp [supp, Function.comp]

/-- Summing a function that is the identity off the support, where the values are zero. -/
theorem sum_supported (cz : Bool) (g : K → K) (els : List (Nat × K)) (hn : ∀ e ∈ els, 0 ≤ e.2) :
    ((els.map (fun e => if cz || decide (0 < e.2) then (e.1, g e.2) else e)).map (·.2)).sum =
      (((els.map (·.2)).filter (supp cz)).map g).sum := by
  induction els with
  | nil => rfl
  | cons e t ih =>
    have ih' := ih (fun x hx => hn x (by simp [hx]))
    have he := hn e (by simp)
    simp only [List.map_cons, List.sum_cons]
    by_cases hz : e.2 = 0
    · cases cz with
      | true => simp [supp] at ih' ⊢; rw [ih']
      | false => simp [supp, hz] at ih' ⊢; rw [ih']
    · have hp : 0 < e.2 := lt_of_le_of_ne he (Ne.symm hz)
      simp [supp, hz, hp] at ih' ⊢
      rw [ih']

/-- What `enforce_min_prob` computes for a valid request: all supported entries shifted down by one number and truncated
from below, summing to one. -/
theorem enforce_form (eps : K) (cz : Bool) (els : List (Nat × K)) (h0 : 0 < eps) (h1 : eps ≤ 999 / 1000)
    (hn : ∀ e ∈ els, 0 ≤ e.2) (hs : 0 < ((els.map (·.2)).filter (supp cz)).length) :
    ∃ tau : K, enforceMinProb eps cz els = .ok (some (els.map (fun e =>
      if cz || decide (0 < e.2) then (e.1, max (e.2 - tau) (eps / (((els.map (·.2)).filter (supp cz)).length : K))) else e))) ∧
      (((els.map (·.2)).filter (supp cz)).map (fun x => max (x - tau) (eps / (((els.map (·.2)).filter (supp cz)).length : K)))).sum = 1 := by
  set N := ((els.map (·.2)).filter (supp cz)).length with hN
  have hNpos : (0 : K) < (N : K) := by exact_mod_cast hs
  have hmul : (N : K) * (eps / (N : K)) < 1 := by
    rw [mul_div_cancel₀ _ (ne_of_gt hNpos)]
    have : (999 / 1000 : K) < 1 := by norm_num
    linarith
  have hlen : els.length ≠ 0 := by
    intro h
    have : els = [] := List.length_eq_zero_iff.1 h
    subst this
    simp at hN
    omega
  cases hsd : sortDesc (els.map (·.2)) with
  | nil =>
    have := sortDesc_length (els.map (·.2))
    rw [hsd] at this
    simp at this
    exact absurd this.symm hlen
  | cons p0 rest =>
    obtain ⟨s', hl, hsum⟩ := loop_total cz (eps / (N : K)) (els.map (·.2))
      (by intro x hx; obtain ⟨e, he, rfl⟩ := List.mem_map.1 hx; exact hn e he) N hN hs hmul p0 rest hsd
    refine ⟨tauOf N (eps / (N : K)) s'.rhoIdx s'.rhoSum, ?_, hsum⟩
    unfold enforceMinProb
    rw [support_eq, ← hN]
    have hne : ¬ eps = 0 := ne_of_gt h0
    have h2 : ¬ eps < 0 := not_lt.2 h0.le
    have h3 : ¬ 1 < eps := by
      have : (999 / 1000 : K) < 1 := by norm_num
      exact not_lt.2 (by linarith)
    have h4 : ¬ ((999 : Int) : K) / ((1000 : Nat) : K) < eps := by push_cast; exact not_lt.2 h1
    simp only [hlen, if_false, flt_eq, flt_zero, hne, decide_false, Bool.false_eq_true, flt_lt, h2, flt_one, h3, Bool.or_self,
      flt_lit, h4, flt_div, flt_ofNat]
    have hcmp : cmpCheck (els.map (·.2)) = .ok () := by
      unfold cmpCheck
      rw [if_neg]
      rintro ⟨_, h⟩
      simp at h
    rw [hcmp, hsd]
    show (do let s ← rhoLoop cz N (eps / (N : K)) (p0 :: rest) ⟨0, 0, 0, p0⟩; _) = _
    rw [hl]
    rfl

end Rml
