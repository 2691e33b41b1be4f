import Verif.Lemmas.Explore
import Verif.Model.Reductions
import Mathlib.Algebra.Order.BigOperators.Group.List
import Mathlib.Data.Rat.Cast.Order

/-!
Properties C17 to C20: `enforce_min_prob` and epsilon-greedy exploration.

The statements about numbers are over an arbitrary ordered field (exact arithmetic), see `DESIGN.md`, "Numbers".
-/

set_option linter.unusedSectionVars false

namespace Rml

/-! ### Specification -/

section spec
variable {K : Type} [Field K] [LinearOrder K]

/-- A list of (action, probability) is a probability distribution. -/
def IsDistribution (l : List (Nat × K)) : Prop := (∀ e ∈ l, 0 ≤ e.2) ∧ (l.map (·.2)).sum = 1

/-- An entry takes part in the redistribution: it is not zero, or zeros are considered as well. -/
def Supported (zeros : Bool) (e : Nat × K) : Prop := zeros = true ∨ e.2 ≠ 0

/-- Number of supported entries. -/
def supportCount (zeros : Bool) (l : List (Nat × K)) : Nat := l.countP (fun e => zeros || decide (e.2 ≠ 0))

end spec

variable {K : Type} [Field K] [LinearOrder K] [IsStrictOrderedRing K] [Trans K]
local instance : Flt K := fieldFlt K

theorem supportCount_eq (cz : Bool) (els : List (Nat × K)) :
    ((els.map (·.2)).filter (supp cz)).length = supportCount cz els := by
  unfold supportCount
  rw [List.countP_eq_length_filter, List.filter_map, List.length_map]
  rfl

/-- Shape of the result for every valid request, by cases on the uniform shortcut. -/
theorem enforce_result (eps : K) (cz : Bool) (els : List (Nat × K)) (h0 : 0 < eps) (h1 : eps ≤ 1)
    (hn : ∀ e ∈ els, 0 ≤ e.2) (hs : ∃ e ∈ els, Supported cz e) :
    ∃ g : K → K, enforceMinProb eps cz els = .ok (some (els.map (fun e =>
        if cz || decide (0 < e.2) then (e.1, g e.2) else e))) ∧
      (((els.map (·.2)).filter (supp cz)).map g).sum = 1 ∧ (∀ x, eps / (supportCount cz els : K) ≤ g x) ∧ Monotone g ∧
      0 < supportCount cz els ∧
      (eps ≤ 999 / 1000 → ∃ tau, ∀ x, g x = max (x - tau) (eps / (supportCount cz els : K))) := by
  have hpos : 0 < supportCount cz els := by
    obtain ⟨e, he, hsup⟩ := hs
    unfold supportCount
    rw [List.countP_pos_iff]
    exact ⟨e, he, by simpa [Supported] using hsup⟩
  have hpos' : (0 : K) < (supportCount cz els : K) := by exact_mod_cast hpos
  by_cases hu : eps ≤ 999 / 1000
  · obtain ⟨tau, h, hsum⟩ := enforce_form eps cz els h0 hu hn (by rw [supportCount_eq]; exact hpos)
    rw [supportCount_eq] at h hsum
    refine ⟨_, h, hsum, fun x => le_max_right _ _, ?_, hpos, fun _ => ⟨tau, fun x => rfl⟩⟩
    intro x y hxy
    exact max_le_max (by linarith) le_rfl
  · refine ⟨fun _ => 1 / (supportCount cz els : K), ?_, ?_, ?_, fun _ _ _ => le_rfl, hpos, fun h => absurd h hu⟩
    · unfold enforceMinProb
      rw [support_eq, supportCount_eq]
      have hlen : els.length ≠ 0 := by
        intro h
        have : els = [] := List.length_eq_zero_iff.1 h
        subst this
        simp [supportCount] at hpos
      have h2 : ¬ eps < 0 := not_lt.2 h0.le
      have h3 : ¬ 1 < eps := not_lt.2 h1
      have h4 : ((999 : Int) : K) / ((1000 : Nat) : K) < eps := by push_cast; exact not_le.1 hu
      simp only [hlen, if_false, flt_eq, flt_zero, ne_of_gt h0, decide_false, Bool.false_eq_true, flt_lt, h2, flt_one, h3,
        Bool.or_self, flt_lit, h4, decide_true, if_true, flt_div, flt_ofNat]
    · rw [List.map_const', List.sum_replicate, supportCount_eq, nsmul_eq_mul, mul_one_div_cancel (ne_of_gt hpos')]
    · intro _
      exact div_le_div_of_nonneg_right h1 hpos'.le

/-! ### C17 -/

/-- **C17** (`explore.rs:3-78`). For epsilon in (0, 1] and nonnegative inputs with a nonempty support, the result is a
distribution over the same actions in the same order; every supported action gets at least epsilon / (support size), every
other action keeps probability 0. -/
theorem C17_min_prob_distribution (eps : K) (zeros : Bool) (els : List (Nat × K)) (h0 : 0 < eps) (h1 : eps ≤ 1)
    (hnonneg : ∀ e ∈ els, 0 ≤ e.2) (hsupp : ∃ e ∈ els, Supported zeros e) :
    ∃ out, enforceMinProb eps zeros els = .ok (some out) ∧ IsDistribution out ∧ out.map (·.1) = els.map (·.1) ∧
      ∀ (i : Nat) (e o : Nat × K), els[i]? = some e → out[i]? = some o →
        (Supported zeros e → eps / (supportCount zeros els : K) ≤ o.2) ∧ (¬ Supported zeros e → o.2 = 0) := by
  obtain ⟨g, h, hsum, hfloor, _, hpos, _⟩ := enforce_result eps zeros els h0 h1 hnonneg hsupp
  have hpos' : (0 : K) < (supportCount zeros els : K) := by exact_mod_cast hpos
  have hm : 0 ≤ eps / (supportCount zeros els : K) := div_nonneg h0.le hpos'.le
  refine ⟨_, h, ⟨?_, ?_⟩, ?_, ?_⟩
  · intro o ho
    obtain ⟨e, he, rfl⟩ := List.mem_map.1 ho
    split
    · exact le_trans hm (hfloor _)
    · exact hnonneg e he
  · rw [sum_supported zeros g els hnonneg]
    exact hsum
  · rw [List.map_map]
    apply List.map_congr_left
    intro e _
    simp only [Function.comp]
    split <;> rfl
  · intro i e o he ho
    rw [List.getElem?_map, he] at ho
    simp only [Option.map_some, Option.some.injEq] at ho
    have hen := hnonneg e (List.mem_of_getElem? he)
    constructor
    · intro hsup
      have : (zeros || decide (0 < e.2)) = true := by
        rcases hsup with h | h
        · simp [h]
        · simp [lt_of_le_of_ne hen (Ne.symm h)]
      rw [if_pos this] at ho
      subst ho
      exact hfloor _
    · intro hsup
      have hz : e.2 = 0 := by
        by_contra hne
        exact hsup (Or.inr hne)
      have hzf : zeros = false := by
        cases zeros with
        | false => rfl
        | true => exact absurd (Or.inl rfl) hsup
      subst hzf
      simp [hz] at ho
      subst ho
      exact hz

/-- The hypotheses of C17 are met by a non-trivial case. -/
example : (0 : ℚ) < 3 / 5 ∧ (3 / 5 : ℚ) ≤ 1 ∧ (∀ e ∈ [(0, (9 / 10 : ℚ)), (1, 1 / 10), (2, 0)], 0 ≤ e.2) ∧
    ∃ e ∈ [(0, (9 / 10 : ℚ)), (1, 1 / 10), (2, 0)], Supported false e := by
  refine ⟨by norm_num, by norm_num, ?_, ⟨(0, 9 / 10), by simp, Or.inr (by norm_num)⟩⟩
  intro e he
  simp at he
  rcases he with rfl | rfl | rfl <;> norm_num

/-! ### C18 -/

/-- **C18**, first part (`explore.rs:71-76`). The order of the probabilities is kept. -/
theorem C18_keeps_ranking (eps : K) (zeros : Bool) (els out : List (Nat × K)) (h0 : 0 < eps) (h1 : eps ≤ 1)
    (hnonneg : ∀ e ∈ els, 0 ≤ e.2) (hsupp : ∃ e ∈ els, Supported zeros e)
    (hout : enforceMinProb eps zeros els = .ok (some out)) (i j : Nat) (a b a' b' : Nat × K)
    (ha : els[i]? = some a) (hb : els[j]? = some b) (ha' : out[i]? = some a') (hb' : out[j]? = some b')
    (hle : a.2 ≤ b.2) : a'.2 ≤ b'.2 := by
  obtain ⟨g, h, _, hfloor, hmono, hpos, _⟩ := enforce_result eps zeros els h0 h1 hnonneg hsupp
  rw [hout] at h
  simp only [Except.ok.injEq, Option.some.injEq] at h
  subst h
  have hpos' : (0 : K) < (supportCount zeros els : K) := by exact_mod_cast hpos
  have hm : 0 ≤ eps / (supportCount zeros els : K) := div_nonneg h0.le hpos'.le
  rw [List.getElem?_map, ha] at ha'
  rw [List.getElem?_map, hb] at hb'
  simp only [Option.map_some, Option.some.injEq] at ha' hb'
  have han := hnonneg a (List.mem_of_getElem? ha)
  have hbn := hnonneg b (List.mem_of_getElem? hb)
  subst ha' hb'
  by_cases hA : (zeros || decide (0 < a.2)) = true
  · have hB : (zeros || decide (0 < b.2)) = true := by
      cases zeros with
      | true => rfl
      | false => simp at hA ⊢; exact lt_of_lt_of_le hA hle
    rw [if_pos hA, if_pos hB]
    exact hmono hle
  · rw [if_neg hA]
    have hz : a.2 = 0 := by
      simp at hA
      exact le_antisymm hA.2 han
    split
    · rw [hz]; exact le_trans hm (hfloor _)
    · exact hle

/-- **C18**, second part. A distribution that already satisfies the floor is returned as it is (epsilon at most 0.999). -/
theorem C18_keeps_valid (eps : K) (zeros : Bool) (els : List (Nat × K)) (h0 : 0 < eps) (h1 : eps ≤ 999 / 1000)
    (hdist : IsDistribution els) (hsupp : ∃ e ∈ els, Supported zeros e)
    (hfloor : ∀ e ∈ els, Supported zeros e → eps / (supportCount zeros els : K) ≤ e.2) :
    enforceMinProb eps zeros els = .ok (some els) := by
  have h1' : eps ≤ 1 := by
    have : (999 / 1000 : K) < 1 := by norm_num
    linarith
  obtain ⟨g, h, hsum, _, _, hpos, hform⟩ := enforce_result eps zeros els h0 h1' hdist.1 hsupp
  obtain ⟨tau, hg⟩ := hform h1
  have hpos' : (0 : K) < (supportCount zeros els : K) := by exact_mod_cast hpos
  have hm : 0 < eps / (supportCount zeros els : K) := div_pos h0 hpos'
  set m := eps / (supportCount zeros els : K) with hmdef
  -- the supported values sum to one as well
  set S := (els.map (·.2)).filter (supp zeros) with hS
  have hSsum : S.sum = 1 := by
    have := sum_supported zeros id els hdist.1
    simp only [id_eq, List.map_id] at this
    rw [← hS] at this
    rw [← this, ← hdist.2]
    congr 1
    rw [List.map_map]
    apply List.map_congr_left
    intro e _
    simp only [Function.comp]
    split <;> rfl
  have hSm : ∀ x ∈ S, m ≤ x := by
    intro x hx
    obtain ⟨hx1, hx2⟩ := List.mem_filter.1 hx
    obtain ⟨e, he, rfl⟩ := List.mem_map.1 hx1
    exact hfloor e he (by simpa [supp, Supported] using hx2)
  have hSne : S ≠ [] := by
    intro h
    rw [h] at hSsum
    simp at hSsum
  have key : ∀ x ∈ S, g x = x := by
    rcases lt_or_ge tau 0 with ht | ht
    · exfalso
      have hlt : S.sum < (S.map g).sum := by
        have := List.sum_lt_sum_of_ne_nil (l := S) hSne (fun x => x) g (fun x _ => by
          rw [hg]; exact lt_of_lt_of_le (by linarith : x < x - tau) (le_max_left _ _))
        simpa using this
      rw [hsum, hSsum] at hlt
      exact lt_irrefl _ hlt
    · have hle : ∀ x ∈ S, g x ≤ x := by
        intro x hx
        rw [hg]
        exact max_le (by linarith) (hSm x hx)
      intro x hx
      by_contra hne
      have hlt : (S.map g).sum < (S.map (fun x => x)).sum :=
        List.sum_lt_sum (l := S) g (fun x => x) hle ⟨x, hx, lt_of_le_of_ne (hle x hx) hne⟩
      rw [hsum, List.map_id' S, hSsum] at hlt
      exact lt_irrefl _ hlt
  rw [h]
  congr 2
  have : ∀ e ∈ els, (if (zeros || decide (0 < e.2)) = true then (e.1, g e.2) else e) = e := by
    intro e he
    split
    · rename_i hc
      have : g e.2 = e.2 := by
        apply key
        rw [hS, List.mem_filter]
        refine ⟨List.mem_map_of_mem he, ?_⟩
        simp only [Bool.or_eq_true, decide_eq_true_eq] at hc
        rcases hc with hc | hc
        · simp [supp, hc]
        · simp [supp, ne_of_gt hc]
      rw [this]
    · rfl
  conv_rhs => rw [← List.map_id els]
  exact List.map_congr_left this

/-- The hypotheses of the second part of C18 are met by a non-trivial case. -/
example : (0 : ℚ) < 1 / 5 ∧ (1 / 5 : ℚ) ≤ 999 / 1000 ∧ IsDistribution [(0, (9 / 10 : ℚ)), (1, 1 / 10), (2, 0)] ∧
    ∀ e ∈ [(0, (9 / 10 : ℚ)), (1, 1 / 10), (2, 0)], Supported false e →
      (1 / 5 : ℚ) / (supportCount false [(0, (9 / 10 : ℚ)), (1, 1 / 10), (2, 0)] : ℚ) ≤ e.2 := by
  have hc : supportCount false [(0, (9 / 10 : ℚ)), (1, 1 / 10), (2, 0)] = 2 := by norm_num [supportCount]
  refine ⟨by norm_num, by norm_num, ⟨?_, by norm_num⟩, ?_⟩
  · intro e he
    simp at he
    rcases he with rfl | rfl | rfl <;> norm_num
  · rw [hc]
    intro e he hs
    simp at he
    rcases he with rfl | rfl | rfl
    · norm_num
    · norm_num
    · rcases hs with h | h <;> simp at h

/-! ### C19 -/

/-- **C19**, first part: exactly the invalid requests are rejected. -/
theorem C19_rejects_exactly (eps : K) (zeros : Bool) (els : List (Nat × K)) :
    enforceMinProb eps zeros els = .ok none ↔ els = [] ∨ eps < 0 ∨ 1 < eps := by
  unfold enforceMinProb
  by_cases hl : els.length = 0
  · simp [List.length_eq_zero_iff.1 hl]
  · have hne : els ≠ [] := fun h => hl (by simp [h])
    rw [if_neg hl]
    by_cases he : eps = 0
    · simp [he, hne]
    · simp only [flt_eq, flt_zero, he, decide_false, Bool.false_eq_true, if_false, flt_lt, flt_one]
      by_cases hb : eps < 0 ∨ 1 < eps
      · rw [if_pos (by simpa using hb)]
        simp [hb]
      · rw [if_neg (by simpa using hb)]
        constructor
        · intro h
          exfalso
          split at h
          · simp at h
          · cases hc : cmpCheck (els.map (·.2)) with
            | error e => rw [hc] at h; simp [bind, Except.bind] at h
            | ok _ =>
              rw [hc] at h
              simp only [bind, Except.bind] at h
              split at h
              · simp at h
              · split at h <;> simp at h
        · rintro (h | h)
          · exact absurd h hne
          · exact absurd h hb

/-- **C19**, second part: epsilon 0 leaves any nonempty input unchanged. -/
theorem C19_zero_unchanged {F : Type} [Flt F] (eps : F) (zeros : Bool) (els : List (Nat × F)) (hne : els ≠ [])
    (h0 : Flt.eq eps Flt.zero = true) : enforceMinProb eps zeros els = .ok (some els) := by
  unfold enforceMinProb
  rw [if_neg (fun h => hne (List.length_eq_zero_iff.1 h)), if_pos h0]

/-- **C19**, third part: on any float-like numbers, with no law assumed about their arithmetic, the call returns (with a result
or an error value, but without a panic) if no entry is NaN. -/
theorem C19_never_panics {F : Type} [Flt F] (eps : F) (zeros : Bool) (els : List (Nat × F))
    (hnan : ∀ e ∈ els, Flt.isNaN e.2 = false) : ∃ r, enforceMinProb eps zeros els = .ok r := by
  unfold enforceMinProb
  split
  · exact ⟨_, rfl⟩
  · rename_i hl
    split
    · exact ⟨_, rfl⟩
    · split
      · exact ⟨_, rfl⟩
      · simp only
        split
        · exact ⟨_, rfl⟩
        · have hc : cmpCheck (els.map (·.2)) = .ok () := by
            unfold cmpCheck
            rw [if_neg]
            rintro ⟨_, h⟩
            rw [List.any_eq_true] at h
            obtain ⟨x, hx, hx'⟩ := h
            obtain ⟨e, he, rfl⟩ := List.mem_map.1 hx
            rw [hnan e he] at hx'
            simp at hx'
          rw [hc]
          cases hs : sortDesc (els.map (·.2)) with
          | nil =>
            have := sortDesc_length (els.map (·.2))
            rw [hs] at this
            simp at this
            omega
          | cons p0 ps =>
            have hlen := headLen_le zeros (sortDesc (els.map (·.2)))
            have hp := sortDesc_perm (els.map (·.2))
            rw [(hp.filter _).length_eq, hp.length_eq, List.filter_map, List.length_map, List.length_map] at hlen
            obtain ⟨s', hs'⟩ := rhoLoop_ok zeros (if zeros then els.length
              else els.length - (els.filter (fun e => Flt.eq e.2 Flt.zero)).length)
              (Flt.div eps (Flt.ofNat (if zeros then els.length
                else els.length - (els.filter (fun e => Flt.eq e.2 Flt.zero)).length))) (p0 :: ps)
              ⟨0, Flt.zero, 0, p0⟩ (by rw [← hs, Nat.zero_add]; exact hlen)
            simp only [bind, Except.bind]
            rw [hs']
            exact ⟨_, rfl⟩

/-- The hypothesis of the third part of C19 cannot be dropped: comparing a NaN panics. -/
example : ∃ (inst : Flt (Option Int)), @enforceMinProb _ inst (some 0) false [(0, none), (1, some 1)] = .error .unwrap :=
  ⟨{ zero := some 5, one := some 5, add := fun a _ => a, sub := fun a _ => a, mul := fun a _ => a, div := fun a _ => a,
     neg := id, abs := id, fmin := fun a _ => a, fmax := fun a _ => a, lt := fun _ _ => false, le := fun _ _ => false,
     eq := fun _ _ => false, isNaN := Option.isNone, ofNat := fun n => some n, lit := fun n _ => some n, exp := id, ln := id,
     powf := fun a _ => a, sqrt := id, signum := id }, rfl⟩

end Rml
