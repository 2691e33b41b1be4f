import Verif.Props.Explore
import Verif.Lemmas.Reductions
import Mathlib.Analysis.SpecialFunctions.Exp
import Mathlib.Analysis.SpecialFunctions.Pow.Real
import Mathlib.Analysis.Real.Sqrt

/-!
Properties C20 to C22: the distributions produced by the exploration reductions.
-/

set_option linter.unusedSectionVars false

namespace Rml

/-! ### Specification -/

/-- Position `b` holds the lowest value, and it is the first such position. -/
def IsFirstLowest {K : Type} [LT K] [LE K] (l : List K) (b : Nat) : Prop :=
  ∃ v, l[b]? = some v ∧ ∀ i w, l[i]? = some w → v ≤ w ∧ (i < b → v < w)

/-- Real numbers with the real transcendental functions. -/
noncomputable instance transReal : Trans ℝ where
  exp := Real.exp
  ln := Real.log
  powf := fun a b => a ^ b
  sqrt := Real.sqrt

section field
variable {K : Type} [Field K] [LinearOrder K] [IsStrictOrderedRing K] [Trans K]
local instance : Flt K := fieldFlt K

theorem argMinFrom_spec (rest : List K) : ∀ (pre : List K) (best : Nat) (bv : K), pre[best]? = some bv →
    (∀ i w, pre[i]? = some w → bv ≤ w ∧ (i < best → bv < w)) →
    IsFirstLowest (pre ++ rest) (argMinFrom pre.length best bv rest) := by
  induction rest with
  | nil => intro pre best bv hb h; rw [List.append_nil]; exact ⟨bv, hb, h⟩
  | cons y ys ih =>
    intro pre best bv hb h
    have happ : pre ++ y :: ys = (pre ++ [y]) ++ ys := by simp
    have hlen : (pre ++ [y]).length = pre.length + 1 := by simp
    have hbl : best < pre.length := by
      by_contra hc
      rw [List.getElem?_eq_none (by omega)] at hb
      simp at hb
    have hget : ∀ i w, (pre ++ [y])[i]? = some w → (pre[i]? = some w ∧ i < pre.length) ∨ (i = pre.length ∧ w = y) := by
      intro i w hw
      by_cases hi : i < pre.length
      · rw [List.getElem?_append_left hi] at hw; exact Or.inl ⟨hw, hi⟩
      · rw [List.getElem?_append_right (by omega)] at hw
        have : i - pre.length = 0 := by
          by_contra hne
          rw [List.getElem?_eq_none (by simp; omega)] at hw
          simp at hw
        rw [this] at hw
        simp at hw
        exact Or.inr ⟨by omega, hw.symm⟩
    unfold argMinFrom
    rw [happ, ← hlen]
    split
    · rename_i hlt
      simp at hlt
      apply ih (pre ++ [y]) pre.length y (by simp)
      intro i w hw
      rcases hget i w hw with ⟨hw, hi⟩ | ⟨rfl, rfl⟩
      · exact ⟨le_of_lt (lt_of_lt_of_le hlt (h i w hw).1), fun _ => lt_of_lt_of_le hlt (h i w hw).1⟩
      · exact ⟨le_rfl, fun h => absurd h (lt_irrefl _)⟩
    · rename_i hlt
      simp at hlt
      apply ih (pre ++ [y]) best bv (by rw [List.getElem?_append_left hbl]; exact hb)
      intro i w hw
      rcases hget i w hw with ⟨hw, hi⟩ | ⟨rfl, rfl⟩
      · exact h i w hw
      · exact ⟨hlt, fun h => absurd h (by omega)⟩

theorem argMin_spec (l : List K) (hne : l ≠ []) : ∃ b, argMin l = some b ∧ IsFirstLowest l b := by
  cases l with
  | nil => exact absurd rfl hne
  | cons x xs =>
    refine ⟨_, rfl, ?_⟩
    exact argMinFrom_spec xs [x] 0 x rfl (by
      intro i w hw
      cases i with
      | zero => simp at hw; subst hw; exact ⟨le_rfl, fun h => absurd h (lt_irrefl _)⟩
      | succ n => simp at hw)

theorem sum_set (l : List K) (b : Nat) (v x : K) (hv : l[b]? = some v) : (l.set b x).sum = l.sum + (x - v) := by
  induction l generalizing b with
  | nil => simp at hv
  | cons a t ih =>
    cases b with
    | zero => simp at hv; subst hv; simp; ring
    | succ n => simp at hv; simp [ih n hv]; ring

/-! ### C20 -/

/-- **C20** (`cb_explore_adf_greedy.rs:121-149`). For any nonempty scores the first lowest-score action gets
1 - epsilon + epsilon/n, every other action epsilon/n; actions and their order are kept, the sum is 1, and it is a
distribution for epsilon in [0, 1]. -/
theorem C20_greedy_distribution (eps : K) (scores : List (Nat × K)) (hne : scores ≠ []) :
    ∃ best out, IsFirstLowest (scores.map (·.2)) best ∧ greedyProbs eps scores = .ok out ∧
      out.map (·.1) = scores.map (·.1) ∧
      (∀ i o, out[i]? = some o →
        o.2 = if i = best then 1 - eps + eps / (scores.length : K) else eps / (scores.length : K)) ∧
      (out.map (·.2)).sum = 1 ∧ (0 ≤ eps → eps ≤ 1 → IsDistribution out) := by
  obtain ⟨b, hb, hfirst⟩ := argMin_spec (scores.map (·.2)) (by simpa using hne)
  have hblt : b < scores.length := by
    obtain ⟨v, hv, _⟩ := hfirst
    by_contra hc
    rw [List.getElem?_eq_none (by simp; omega)] at hv
    simp at hv
  have hnpos : (0 : K) < (scores.length : K) := by
    have : 0 < scores.length := by omega
    exact_mod_cast this
  let ps := scores.map (fun e => (e.1, eps / (scores.length : K)))
  have hpsb : ps[b]? = some (scores[b].1, eps / (scores.length : K)) := by
    simp [ps, hblt]
  let out := ps.set b (scores[b].1, eps / (scores.length : K) + (1 - eps))
  have hout : ∀ i o, out[i]? = some o →
        o.2 = if i = b then 1 - eps + eps / (scores.length : K) else eps / (scores.length : K) := by
    intro i o ho
    by_cases hi : i = b
    · subst hi
      simp only [out] at ho
      rw [List.getElem?_set_self (by simpa [ps] using hblt)] at ho
      simp at ho
      subst ho
      simp
      ring
    · simp only [out] at ho
      rw [List.getElem?_set_ne (Ne.symm hi)] at ho
      simp only [ps, List.getElem?_map] at ho
      obtain ⟨e, _, rfl⟩ := Option.map_eq_some_iff.1 ho
      simp [hi]
  have hsum : (out.map (·.2)).sum = 1 := by
    simp only [out]
    rw [List.map_set]
    rw [sum_set _ b (eps / (scores.length : K)) _ (by rw [List.getElem?_map, hpsb]; rfl)]
    have : (ps.map (·.2)).sum = eps := by
      simp only [ps, List.map_map, Function.comp_def]
      rw [List.map_const', List.sum_replicate, nsmul_eq_mul, mul_div_cancel₀ _ (ne_of_gt hnpos)]
    rw [this]
    ring
  refine ⟨b, out, hfirst, ?_, ?_, hout, hsum, ?_⟩
  · unfold greedyProbs
    rw [hb]
    simp only [unwrapOpt, bind, Except.bind, flt_div, flt_ofNat]
    rw [show (List.map (fun e => (e.1, eps / (scores.length : K))) scores)[b]? = _ from hpsb]
    rfl
  · simp only [out, ps]
    rw [List.map_set, List.map_map]
    simp only [Function.comp_def]
    apply List.ext_getElem?
    intro i
    by_cases hi : i = b
    · subst hi
      rw [List.getElem?_set_self (by simpa using hblt)]
      simp [hblt]
    · rw [List.getElem?_set_ne (Ne.symm hi)]
  · intro h0 h1
    refine ⟨?_, hsum⟩
    intro o ho
    obtain ⟨i, hi⟩ := List.getElem?_of_mem ho
    have hq : 0 ≤ eps / (scores.length : K) := div_nonneg h0 hnpos.le
    rw [hout i o hi]
    split
    · linarith
    · exact hq

/-- **C20** at the level of the reduction: whatever a CbExploreAdfGreedy reduction returns is that distribution for the scores
its base predicted. -/
theorem C20_greedy_reduction (dbg : Bool) (m : Meta) (eps : K) (child : Red K) (s : child.State) (ft ft' : Features K)
    (d d' : Depth) (off : Nat) (p : Prediction K)
    (h : (Red.greedy m eps child).predict dbg s ft d off = .ok (p, ft', d')) :
    ∃ scores out best d1 r, child.predict dbg s ft d1 0 = .ok (.actionScores scores, r) ∧ p = .actionProbs out ∧
      IsFirstLowest (scores.map (·.2)) best ∧ out.map (·.1) = List.range scores.length ∧
      (∀ i o, out[i]? = some o →
        o.2 = if i = best then 1 - eps + eps / (scores.length : K) else eps / (scores.length : K)) ∧
      (out.map (·.2)).sum = 1 ∧ (0 ≤ eps → eps ≤ 1 → IsDistribution out) := by
  obtain ⟨d1, d2, _, h, _, _⟩ := wrapCall_ok h
  unfold Red.predictImpl at h
  obtain ⟨⟨q, ft1, d3⟩, hc, hk⟩ := bind_ok.1 h
  obtain ⟨scores, hs, hk'⟩ := bind_ok.1 hk
  obtain ⟨out, ho, hk''⟩ := bind_ok.1 hk'
  have hq := asScores_ok hs
  subst hq
  simp only [Except.ok.injEq, Prod.mk.injEq] at hk''
  have hids : scores.map (·.1) = List.range scores.length := by
    obtain ⟨_, _, _, h', _, _⟩ := wrapCall_ok hc
    exact predictImpl_scores_ids dbg child _ _ _ _ _ _ h'
  have hne : scores ≠ [] := by
    rintro rfl
    simp [greedyProbs, argMin, unwrapOpt, bind, Except.bind] at ho
  obtain ⟨best, out', h1, h2, h3, h4, h5, h6⟩ := C20_greedy_distribution eps scores hne
  rw [ho] at h2
  simp only [Except.ok.injEq] at h2
  subst h2
  exact ⟨scores, out, best, d1, (ft1, d3), hc, hk''.1.symm, h1, by rw [h3, hids], h4, h5, h6⟩

/-- A concrete greedy distribution. -/
example : @greedyProbs Int intFlt 0 [(0, 5), (1, 3), (2, 3)] = .ok [(0, 0), (1, 1), (2, 0)] := rfl

end field

/-! ### C21 -/

noncomputable local instance : Flt ℝ := fieldFlt ℝ

/-- The exploration floor applied to a distribution whose entries are all positive (eps in [0, 1]): still a positive
distribution over the same actions, with the ranking kept, and not larger than the input or the uniform value. -/
theorem enforceUnwrap_spec (eps : ℝ) (h0 : 0 ≤ eps) (h1 : eps ≤ 1) (els : List (Nat × ℝ)) (hd : IsDistribution els)
    (hpos : ∀ e ∈ els, 0 < e.2) : ∃ out, enforceUnwrap eps els = .ok out ∧ IsDistribution out ∧ (∀ e ∈ out, 0 < e.2) ∧
      out.map (·.1) = els.map (·.1) ∧
      (∀ (i j : Nat) (a b a' b' : Nat × ℝ), els[i]? = some a → els[j]? = some b → out[i]? = some a' → out[j]? = some b' →
        a.2 ≤ b.2 → a'.2 ≤ b'.2) ∧
      (∀ (i : Nat) (a a' : Nat × ℝ), els[i]? = some a → out[i]? = some a' → a'.2 ≤ max a.2 (1 / (els.length : ℝ))) ∧
      (∀ (i : Nat) (a' : Nat × ℝ), out[i]? = some a' → eps / (els.length : ℝ) ≤ a'.2) ∧ (eps = 0 → out = els) := by
  have hne : els ≠ [] := by
    rintro rfl
    have := hd.2
    simp at this
  obtain ⟨e0, he0⟩ := List.exists_mem_of_ne_nil _ hne
  have hsupp : ∃ e ∈ els, Supported false e := ⟨e0, he0, Or.inr (ne_of_gt (hpos e0 he0))⟩
  have hcount : supportCount false els = els.length := by
    unfold supportCount
    rw [List.countP_eq_length]
    intro e he
    simp [ne_of_gt (hpos e he)]
  have hlpos : (0 : ℝ) < (els.length : ℝ) := by
    have := List.length_pos_iff.2 hne
    exact_mod_cast this
  rcases eq_or_lt_of_le h0 with he | he
  · have hz := C19_zero_unchanged eps false els hne (by simp [← he])
    refine ⟨els, by simp [enforceUnwrap, hz, unwrapOpt, bind, Except.bind], hd, hpos, rfl, ?_, ?_, ?_, fun _ => rfl⟩
    · intro i j a b a' b' ha hb ha' hb' hle
      rw [ha] at ha'; rw [hb] at hb'
      simp only [Option.some.injEq] at ha' hb'
      subst ha' hb'
      exact hle
    · intro i a a' ha ha'
      rw [ha] at ha'
      simp only [Option.some.injEq] at ha'
      subst ha'
      exact le_max_left _ _
    · intro i a' ha'
      rw [← he, zero_div]
      exact (hpos a' (List.mem_of_getElem? ha')).le
  · obtain ⟨out, ho, hdist, hids, hfl⟩ := C17_min_prob_distribution eps false els he h1 hd.1 hsupp
    have hlen : out.length = els.length := by
      have := congrArg List.length hids
      simpa using this
    have hfloor : ∀ (i : Nat) (a' : Nat × ℝ), out[i]? = some a' → eps / (els.length : ℝ) ≤ a'.2 := by
      intro i a' ha'
      have hi : i < els.length := by
        by_contra hc
        rw [List.getElem?_eq_none (by omega)] at ha'
        simp at ha'
      have := (hfl i els[i] a' (by simp [hi]) ha').1 (Or.inr (ne_of_gt (hpos _ (List.getElem_mem hi))))
      rwa [hcount] at this
    refine ⟨out, by simp [enforceUnwrap, ho, unwrapOpt, bind, Except.bind], hdist, ?_, hids, ?_, ?_, hfloor, fun h => by
      rw [h] at he; exact absurd he (lt_irrefl _)⟩
    · intro e hmem
      obtain ⟨i, hi⟩ := List.getElem?_of_mem hmem
      exact lt_of_lt_of_le (div_pos he hlpos) (hfloor i e hi)
    · intro i j a b a' b' ha hb ha' hb' hle
      exact C18_keeps_ranking eps false els out he h1 hd.1 hsupp ho i j a b a' b' ha hb ha' hb' hle
    · intro i a a' ha ha'
      by_cases hu : eps ≤ 999 / 1000
      · obtain ⟨g, hg, hsum, _, _, _, hform⟩ := enforce_result eps false els he h1 hd.1 hsupp
        obtain ⟨tau, htau⟩ := hform hu
        rw [ho] at hg
        simp only [Except.ok.injEq, Option.some.injEq] at hg
        have hall : (els.map (·.2)).filter (supp false) = els.map (·.2) := by
          rw [List.filter_eq_self]
          intro x hx
          obtain ⟨e, he, rfl⟩ := List.mem_map.1 hx
          simp [supp, ne_of_gt (hpos e he)]
        rw [hall] at hsum
        have ht : 0 ≤ tau := by
          by_contra hc
          have hlt : (els.map (·.2)).sum < ((els.map (·.2)).map g).sum := by
            have := List.sum_lt_sum_of_ne_nil (l := els.map (·.2)) (by simpa using hne) (fun x => x) g (fun x _ => by
              rw [htau]; exact lt_of_lt_of_le (by linarith : x < x - tau) (le_max_left _ _))
            rw [List.map_id'] at this
            exact this
          rw [hsum, hd.2] at hlt
          exact lt_irrefl _ hlt
        subst hg
        rw [List.getElem?_map, ha] at ha'
        have hap := hpos a (List.mem_of_getElem? ha)
        simp [hap] at ha'
        subst ha'
        rw [htau, hcount]
        apply max_le_max
        · linarith
        · exact div_le_div_of_nonneg_right h1 hlpos.le
      · -- uniform
        have huni : enforceMinProb eps false els = .ok (some (els.map (fun e => (e.1, 1 / (els.length : ℝ))))) := by
          unfold enforceMinProb
          rw [support_eq, supportCount_eq, hcount]
          have h2 : ¬ eps < 0 := not_lt.2 he.le
          have h3 : ¬ 1 < eps := not_lt.2 h1
          have h4 : ((999 : Int) : ℝ) / ((1000 : Nat) : ℝ) < eps := by push_cast; exact not_le.1 hu
          have hl0 : els.length ≠ 0 := by
            intro h; rw [h] at hlpos; simp at hlpos
          simp only [hl0, if_false, flt_eq, flt_zero, ne_of_gt he, decide_false, Bool.false_eq_true, flt_lt, h2, flt_one, h3,
            Bool.or_self, flt_lit, h4, decide_true, if_true, flt_div, flt_ofNat, Bool.false_or]
          congr 2
          apply List.map_congr_left
          intro e hmem
          simp [hpos e hmem]
        rw [ho] at huni
        simp only [Except.ok.injEq, Option.some.injEq] at huni
        subst huni
        rw [List.getElem?_map, ha] at ha'
        simp at ha'
        subst ha'
        simp

theorem foldl_add_eq (f : Nat × ℝ → ℝ) (l : List (Nat × ℝ)) : ∀ t : ℝ, l.foldl (fun t e => t + f e) t = t + (l.map f).sum := by
  induction l with
  | nil => intro t; simp
  | cons a r ih => intro t; simp [ih]; ring

theorem cmpCheck_real (l : List ℝ) : cmpCheck l = .ok () := by
  unfold cmpCheck
  rw [if_neg]
  rintro ⟨_, h⟩
  simp at h

/-- The weights softmax normalises, relative to the lowest score. -/
noncomputable def softWeight (lambda lowest : ℝ) (e : Nat × ℝ) : ℝ := Real.exp (-lambda * (e.2 - lowest))

theorem softmax_eq (lambda eps : ℝ) (scores : List (Nat × ℝ)) (hne : scores ≠ []) :
    ∃ low, IsFirstLowest (scores.map (·.2)) low ∧ ∃ v, (scores.map (·.2))[low]? = some v ∧
    softmaxProbs lambda eps scores = enforceUnwrap eps (scores.map (fun e =>
      (e.1, softWeight lambda v e / (scores.map (softWeight lambda v)).sum))) := by
  obtain ⟨b, hb, hfirst⟩ := argMin_spec (scores.map (·.2)) (by simpa using hne)
  obtain ⟨v, hv, hmin⟩ := hfirst
  refine ⟨b, ⟨v, hv, hmin⟩, v, hv, ?_⟩
  rw [List.getElem?_map] at hv
  obtain ⟨be, hbe, rfl⟩ := Option.map_eq_some_iff.1 hv
  unfold softmaxProbs
  rw [cmpCheck_real, hb]
  simp only [unwrapOpt, bind, Except.bind, hbe]
  congr 1
  rw [List.map_map]
  apply List.map_congr_left
  intro e _
  simp only [Function.comp, flt_add, flt_zero, flt_div]
  rw [foldl_add_eq (fun e => e.2)]
  simp only [zero_add, List.map_map]
  rfl

/-- **C21** (`cb_explore_adf_softmax.rs:117-147`). Over the reals, for any nonempty scores and epsilon in [0, 1], softmax
exploration returns a distribution over the same actions in the same order, with only positive entries, each at least epsilon/n,
in which (for lambda >= 0) a score that is not higher never gets a smaller probability. With epsilon 0 each probability is
exp(-lambda * score) divided by the sum of these over all actions. -/
theorem C21_softmax_distribution (lambda eps : ℝ) (h0 : 0 ≤ eps) (h1 : eps ≤ 1) (scores : List (Nat × ℝ))
    (hne : scores ≠ []) :
    ∃ out, softmaxProbs lambda eps scores = .ok out ∧ IsDistribution out ∧ (∀ e ∈ out, 0 < e.2) ∧
      out.map (·.1) = scores.map (·.1) ∧
      (0 ≤ lambda → ∀ (i j : Nat) (a b a' b' : Nat × ℝ), scores[i]? = some a → scores[j]? = some b → out[i]? = some a' →
        out[j]? = some b' → a.2 ≤ b.2 → b'.2 ≤ a'.2) ∧
      (∀ (i : Nat) (a' : Nat × ℝ), out[i]? = some a' → eps / (scores.length : ℝ) ≤ a'.2) ∧
      (eps = 0 → out.map (·.2) = scores.map (fun e =>
        Real.exp (-lambda * e.2) / (scores.map (fun e => Real.exp (-lambda * e.2))).sum)) := by
  obtain ⟨b, hfirst, v, hv, heq⟩ := softmax_eq lambda eps scores hne
  set T := (scores.map (softWeight lambda v)).sum with hT
  have hTpos : 0 < T := by
    rw [hT]
    apply List.sum_pos
    · intro x hx
      obtain ⟨e, _, rfl⟩ := List.mem_map.1 hx
      exact Real.exp_pos _
    · simpa using hne
  have hpos : ∀ e ∈ scores.map (fun e => (e.1, softWeight lambda v e / T)), 0 < e.2 := by
    intro e he
    obtain ⟨e', _, rfl⟩ := List.mem_map.1 he
    exact div_pos (Real.exp_pos _) hTpos
  have hdist : IsDistribution (scores.map (fun e => (e.1, softWeight lambda v e / T))) := by
    refine ⟨fun e he => (hpos e he).le, ?_⟩
    rw [List.map_map]
    simp only [Function.comp_def]
    have gen : ∀ l : List (Nat × ℝ), (l.map (fun e => softWeight lambda v e / T)).sum = (l.map (softWeight lambda v)).sum / T := by
      intro l
      induction l with
      | nil => simp
      | cons a t ih => simp only [List.map_cons, List.sum_cons, ih]; ring
    rw [gen, ← hT]
    exact div_self (ne_of_gt hTpos)
  obtain ⟨out, ho, hd, hp, hids, hrank, _, hfl, hzero⟩ := enforceUnwrap_spec eps h0 h1 _ hdist hpos
  refine ⟨out, by rw [heq, ho], hd, hp, ?_, ?_, ?_, ?_⟩
  · rw [hids, List.map_map]
    rfl
  · intro hl i j a b' a' b'' ha hb ha' hb' hle
    refine hrank j i _ _ _ _ (by rw [List.getElem?_map, hb]; rfl) (by rw [List.getElem?_map, ha]; rfl) hb' ha' ?_
    apply div_le_div_of_nonneg_right _ hTpos.le
    apply Real.exp_le_exp.2
    have := mul_le_mul_of_nonneg_left hle hl
    linarith
  · intro i a' ha'
    have := hfl i a' ha'
    simpa using this
  · intro hz
    rw [hzero hz, List.map_map]
    apply List.map_congr_left
    intro e _
    simp only [Function.comp]
    have hfac : ∀ e : Nat × ℝ, softWeight lambda v e = Real.exp (lambda * v) * Real.exp (-lambda * e.2) := by
      intro e
      unfold softWeight
      rw [← Real.exp_add]
      congr 1
      ring
    have gen : ∀ l : List (Nat × ℝ), (l.map (softWeight lambda v)).sum =
        Real.exp (lambda * v) * (l.map (fun e => Real.exp (-lambda * e.2))).sum := by
      intro l
      induction l with
      | nil => simp
      | cons a t ih => simp only [List.map_cons, List.sum_cons, ih, hfac]; ring
    rw [hT, gen, hfac, mul_div_mul_left _ _ (ne_of_gt (Real.exp_pos _))]

/-- **C21**: only score differences matter. -/
theorem C21_softmax_shift (lambda eps c : ℝ) (scores : List (Nat × ℝ)) :
    softmaxProbs lambda eps (scores.map (fun e => (e.1, e.2 + c))) = softmaxProbs lambda eps scores := by
  by_cases hne : scores = []
  · subst hne; rfl
  · obtain ⟨b, hfirst, v, hv, heq⟩ := softmax_eq lambda eps scores hne
    obtain ⟨b', hfirst', v', hv', heq'⟩ := softmax_eq lambda eps (scores.map (fun e => (e.1, e.2 + c))) (by simpa using hne)
    have hvv : v' = v + c := by
      obtain ⟨w, hw, hmin⟩ := hfirst
      obtain ⟨w', hw', hmin'⟩ := hfirst'
      rw [hv] at hw; rw [hv'] at hw'
      simp only [Option.some.injEq] at hw hw'
      subst hw hw'
      apply le_antisymm
      · refine (hmin' b (v + c) ?_).1
        rw [List.getElem?_map] at hv
        obtain ⟨e, he, rfl⟩ := Option.map_eq_some_iff.1 hv
        simp [he]
      · rw [List.map_map, List.getElem?_map] at hv'
        obtain ⟨e, he, hev⟩ := Option.map_eq_some_iff.1 hv'
        simp only [Function.comp] at hev
        have := (hmin b' e.2 (by rw [List.getElem?_map, he]; rfl)).1
        rw [← hev]
        linarith
    rw [heq, heq', List.map_map, List.map_map]
    have hw : (softWeight lambda v') ∘ (fun e : Nat × ℝ => (e.1, e.2 + c)) = softWeight lambda v := by
      funext e
      simp [softWeight, hvv]
    congr 1
    apply List.map_congr_left
    intro e _
    simp only [Function.comp]
    rw [hw]
    have := congrFun hw e
    simp only [Function.comp] at this
    rw [this]

/-- **C21** at the level of the reduction. -/
theorem C21_softmax_reduction (dbg : Bool) (m : Meta) (lambda eps : ℝ) (h0 : 0 ≤ eps) (h1 : eps ≤ 1) (child : Red ℝ)
    (s : Nat × child.State) (ft ft' : Features ℝ) (d d' : Depth) (off : Nat) (p : Prediction ℝ)
    (h : (Red.softmax m eps lambda child).predict dbg s ft d off = .ok (p, ft', d')) :
    ∃ scores out d1 r, child.predict dbg s.2 ft d1 0 = .ok (.actionScores scores, r) ∧ p = .actionProbs out ∧
      IsDistribution out ∧ (∀ e ∈ out, 0 < e.2) ∧ out.map (·.1) = List.range scores.length ∧
      (0 ≤ lambda → ∀ (i j : Nat) (a b a' b' : Nat × ℝ), scores[i]? = some a → scores[j]? = some b → out[i]? = some a' →
        out[j]? = some b' → a.2 ≤ b.2 → b'.2 ≤ a'.2) := by
  obtain ⟨d1, d2, _, h, _, _⟩ := wrapCall_ok h
  unfold Red.predictImpl at h
  obtain ⟨⟨q, ft1, d3⟩, hc, hk⟩ := bind_ok.1 h
  obtain ⟨scores, hs, hk'⟩ := bind_ok.1 hk
  obtain ⟨out, ho, hk''⟩ := bind_ok.1 hk'
  have hq := asScores_ok hs
  subst hq
  simp only [Except.ok.injEq, Prod.mk.injEq] at hk''
  have hids : scores.map (·.1) = List.range scores.length := by
    obtain ⟨_, _, _, h', _, _⟩ := wrapCall_ok hc
    exact predictImpl_scores_ids dbg child _ _ _ _ _ _ h'
  have hne : scores ≠ [] := by
    rintro rfl
    simp [softmaxProbs, cmpCheck, argMin, unwrapOpt, bind, Except.bind] at ho
  obtain ⟨out', h2, h3, h4, h5, h6, _, _⟩ := C21_softmax_distribution lambda eps h0 h1 scores hne
  rw [ho] at h2
  simp only [Except.ok.injEq] at h2
  subst h2
  exact ⟨scores, out, d1, (ft1, d3), hc, hk''.1.symm, h3, h4, by rw [h5, hids], h6⟩

/-- The hypotheses of C21 are met by a non-trivial case. -/
example : ∃ out, softmaxProbs (2 : ℝ) (1 / 5) [(0, 3), (1, 1), (2, 1)] = .ok out :=
  let ⟨out, h, _⟩ := C21_softmax_distribution 2 (1 / 5) (by norm_num) (by norm_num) [(0, 3), (1, 1), (2, 1)] (by simp)
  ⟨out, h⟩

/-! ### C22 -/

/-- The probability SquareCB computes for an action that is not the best one. -/
noncomputable def squareWeight (n : Nat) (gamma lowest score : ℝ) : ℝ := 1 / ((n : ℝ) + gamma * (score - lowest))

theorem nodup_fst_ne {l : List (Nat × ℝ)} (hnd : (l.map (·.1)).Nodup) {i j : Nat} {a b : Nat × ℝ} (ha : l[i]? = some a)
    (hb : l[j]? = some b) (h : a.1 = b.1) : i = j := by
  have h1 : (l.map (·.1))[i]? = some a.1 := by rw [List.getElem?_map, ha]; rfl
  have h2 : (l.map (·.1))[j]? = some a.1 := by rw [List.getElem?_map, hb, h]; rfl
  obtain ⟨hi, h1'⟩ := List.getElem?_eq_some_iff.1 h1
  obtain ⟨hj, h2'⟩ := List.getElem?_eq_some_iff.1 h2
  exact (hnd.getElem_inj_iff).1 (h1'.trans h2'.symm)

theorem foldl_skip (c : Nat × ℝ → Bool) (f : Nat × ℝ → ℝ) (l : List (Nat × ℝ)) : ∀ t : ℝ,
    l.foldl (fun t e => if c e = true then t else t + f e) t = t + (l.map (fun e => if c e = true then 0 else f e)).sum := by
  induction l with
  | nil => intro t; simp
  | cons a r ih =>
    intro t
    simp only [List.foldl_cons, List.map_cons, List.sum_cons]
    rw [ih]
    cases c a <;> simp
    ring

/-- The distribution SquareCB passes to `enforce_min_prob`. -/
theorem squareCb_eq (gamma eps : ℝ) (hg : 0 ≤ gamma) (scores : List (Nat × ℝ)) (hne : scores ≠ [])
    (hnd : (scores.map (·.1)).Nodup) :
    ∃ (best : Nat) (v : ℝ) (ps : List (Nat × ℝ)), IsFirstLowest (scores.map (·.2)) best ∧ (scores.map (·.2))[best]? = some v ∧
      squareCbProbs gamma eps scores = enforceUnwrap eps ps ∧ ps.map (·.1) = scores.map (·.1) ∧ IsDistribution ps ∧
      (∀ e ∈ ps, 0 < e.2) ∧
      (∀ i a p, scores[i]? = some a → ps[i]? = some p → i ≠ best → p.2 = squareWeight scores.length gamma v a.2) ∧
      (∀ i a p, scores[i]? = some a → ps[i]? = some p → i ≠ best → p.2 ≤ 1 / (scores.length : ℝ)) ∧
      (∀ p, ps[best]? = some p → 1 / (scores.length : ℝ) ≤ p.2) := by
  obtain ⟨b, hb, hfirst⟩ := argMin_spec (scores.map (·.2)) (by simpa using hne)
  obtain ⟨v, hv, hmin⟩ := hfirst
  have hv' := hv
  rw [List.getElem?_map] at hv'
  obtain ⟨be, hbe, rfl⟩ := Option.map_eq_some_iff.1 hv'
  have hblt : b < scores.length := (List.getElem?_eq_some_iff.1 hbe).1
  have hn : (0 : ℝ) < (scores.length : ℝ) := by
    have : 0 < scores.length := by omega
    exact_mod_cast this
  set n := scores.length with hndef
  let upd : Nat × ℝ → Nat × ℝ := fun e => if e.1 = be.1 then e else (e.1, squareWeight n gamma be.2 e.2)
  let total : ℝ := (scores.map (fun e => if decide (e.1 = be.1) = true then 0 else squareWeight n gamma be.2 e.2)).sum
  have hw : ∀ e ∈ scores, 0 < squareWeight n gamma be.2 e.2 ∧ squareWeight n gamma be.2 e.2 ≤ 1 / (n : ℝ) := by
    intro e he
    obtain ⟨i, hi⟩ := List.getElem?_of_mem he
    have hle := (hmin i e.2 (by rw [List.getElem?_map, hi]; rfl)).1
    have h1 : 0 ≤ gamma * (e.2 - be.2) := mul_nonneg hg (by linarith)
    unfold squareWeight
    exact ⟨by positivity, one_div_le_one_div_of_le hn (by linarith)⟩
  have hps_get : ∀ i a, scores[i]? = some a → i ≠ b →
      ((scores.map upd).set b (be.1, 1 - total))[i]? = some (a.1, squareWeight n gamma be.2 a.2) := by
    intro i a ha hi
    rw [List.getElem?_set_ne (Ne.symm hi), List.getElem?_map, ha]
    have hne' : a.1 ≠ be.1 := fun h => hi (nodup_fst_ne hnd ha hbe h)
    simp [upd, hne']
  have hps_best : ((scores.map upd).set b (be.1, 1 - total))[b]? = some (be.1, 1 - total) := by
    rw [List.getElem?_set_self (by simpa using hblt)]
  -- total is at most (n - 1) / n
  have htotal : total ≤ 1 - 1 / (n : ℝ) := by
    have hle : total ≤ (scores.map (fun e => if decide (e.1 = be.1) = true then 0 else 1 / (n : ℝ))).sum := by
      apply List.sum_le_sum
      intro e he
      split
      · exact le_rfl
      · exact (hw e he).2
    have hcount : ∀ l : List (Nat × ℝ), (l.map (fun e => if decide (e.1 = be.1) = true then (0 : ℝ) else 1 / (n : ℝ))).sum =
        ((l.length : ℝ) - (l.countP (fun e => decide (e.1 = be.1)) : ℝ)) * (1 / (n : ℝ)) := by
      intro l
      induction l with
      | nil => simp
      | cons a t ih =>
        simp only [List.map_cons, List.sum_cons, ih, List.length_cons, List.countP_cons]
        by_cases h : a.1 = be.1 <;> simp [h] <;> ring
    have hone : 1 ≤ scores.countP (fun e => decide (e.1 = be.1)) := by
      rw [Nat.one_le_iff_ne_zero, ← Nat.pos_iff_ne_zero, List.countP_pos_iff]
      exact ⟨be, List.mem_of_getElem? hbe, by simp⟩
    rw [hcount, ← hndef] at hle
    have hone' : (1 : ℝ) ≤ (scores.countP (fun e => decide (e.1 = be.1)) : ℝ) := by exact_mod_cast hone
    have h2 : ((n : ℝ) - (scores.countP (fun e => decide (e.1 = be.1)) : ℝ)) * (1 / (n : ℝ)) ≤ ((n : ℝ) - 1) * (1 / (n : ℝ)) :=
      mul_le_mul_of_nonneg_right (by linarith) (by positivity)
    have h3 : ((n : ℝ) - 1) * (1 / (n : ℝ)) = 1 - 1 / (n : ℝ) := by field_simp
    linarith
  have hn1 : 0 < 1 / (n : ℝ) := by positivity
  have hpos : ∀ e ∈ (scores.map upd).set b (be.1, 1 - total), 0 < e.2 := by
    intro e he
    obtain ⟨i, hi⟩ := List.getElem?_of_mem he
    by_cases hib : i = b
    · subst hib
      rw [hps_best] at hi
      simp only [Option.some.injEq] at hi
      subst hi
      simp only
      linarith
    · have hilt : i < scores.length := by
        have := (List.getElem?_eq_some_iff.1 hi).1
        simpa using this
      rw [hps_get i scores[i] (by simp [hilt]) hib] at hi
      simp only [Option.some.injEq] at hi
      subst hi
      exact (hw _ (List.getElem_mem hilt)).1
  have hsum : (((scores.map upd).set b (be.1, 1 - total)).map (·.2)).sum = 1 := by
    rw [List.map_set, sum_set _ b be.2 _ (by
      rw [List.map_map, List.getElem?_map, hbe]; simp [upd])]
    have hsplit : ∀ l : List (Nat × ℝ), ((l.map upd).map (·.2)).sum =
        (l.map (fun e => if decide (e.1 = be.1) = true then e.2 else 0)).sum +
        (l.map (fun e => if decide (e.1 = be.1) = true then 0 else squareWeight n gamma be.2 e.2)).sum := by
      intro l
      induction l with
      | nil => simp
      | cons a t ih =>
        simp only [List.map_cons, List.sum_cons, ih]
        by_cases h : a.1 = be.1 <;> simp [upd, h] <;> ring
    have hself : (scores.map (fun e => if decide (e.1 = be.1) = true then e.2 else 0)).sum = be.2 := by
      have hsub : ∀ (l : List (Nat × ℝ)) (k : Nat), (l.map (·.1)).Nodup → l[k]? = some be →
          (l.map (fun e => if decide (e.1 = be.1) = true then e.2 else 0)).sum = be.2 := by
        intro l
        induction l with
        | nil => intro k _ h; simp at h
        | cons a t ih =>
          intro k hnd hk
          have hnd' := List.nodup_cons.1 hnd
          cases k with
          | zero =>
            simp at hk
            subst hk
            have hz : (t.map (fun e => if decide (e.1 = a.1) = true then e.2 else 0)).sum = 0 := by
              apply List.sum_eq_zero
              intro x hx
              obtain ⟨e, he, rfl⟩ := List.mem_map.1 hx
              have : e.1 ≠ a.1 := fun h => hnd'.1 (List.mem_map.2 ⟨e, he, h⟩)
              simp [this]
            simp only [List.map_cons, List.sum_cons, hz]
            simp
          | succ k =>
            simp at hk
            have hne' : a.1 ≠ be.1 := fun h => hnd'.1 (List.mem_map.2 ⟨be, List.mem_of_getElem? hk, h.symm⟩)
            simp only [List.map_cons, List.sum_cons, ih k hnd'.2 hk]
            simp [hne']
      exact hsub scores b hnd hbe
    rw [hsplit, hself]
    simp only [total]
    ring
  refine ⟨b, be.2, (scores.map upd).set b (be.1, 1 - total), ⟨be.2, hv, hmin⟩, hv, ?_, ?_, ⟨fun e he => (hpos e he).le, hsum⟩,
    hpos, ?_, ?_, ?_⟩
  · unfold squareCbProbs
    rw [cmpCheck_real, hb]
    simp only [unwrapOpt, bind, Except.bind, hbe]
    have hupd : (fun e : Nat × ℝ => if e.1 = be.1 then e else
        (e.1, Flt.div Flt.one (Flt.add (Flt.ofNat scores.length) (Flt.mul gamma (Flt.sub e.2 be.2))))) = upd := rfl
    have hbu : (scores.map upd)[b]? = some be := by rw [List.getElem?_map, hbe]; simp [upd]
    rw [hupd, hbu]
    simp only
    congr 3
    have := foldl_skip (fun e => decide (e.1 = be.1)) (fun e => (upd e).2) scores 0
    simp only [decide_eq_true_eq] at this
    have htot : (List.map (fun e => if e.1 = be.1 then (0 : ℝ) else (upd e).2) scores).sum = total := by
      simp only [total]
      congr 1
      apply List.map_congr_left
      intro e _
      by_cases h : e.1 = be.1 <;> simp [upd, h]
    rw [htot, zero_add] at this
    show 1 - _ = 1 - total
    rw [← this]
    rfl
  · rw [List.map_set, List.map_map]
    apply List.ext_getElem?
    intro i
    have hfst : ∀ e, (upd e).1 = e.1 := by
      intro e
      simp only [upd]
      split <;> rfl
    by_cases hi : i = b
    · subst hi
      rw [List.getElem?_set_self (by simpa using hblt), List.getElem?_map, hbe]
      rfl
    · rw [List.getElem?_set_ne (Ne.symm hi), List.getElem?_map, List.getElem?_map]
      congr 1
      funext e
      exact hfst e
  · intro i a p ha hp hi
    rw [hps_get i a ha hi] at hp
    simp only [Option.some.injEq] at hp
    subst hp
    rfl
  · intro i a p ha hp hi
    rw [hps_get i a ha hi] at hp
    simp only [Option.some.injEq] at hp
    subst hp
    exact (hw a (List.mem_of_getElem? ha)).2
  · intro p hp
    rw [hps_best] at hp
    simp only [Option.some.injEq] at hp
    subst hp
    simp only
    linarith

/-- **C22** (`cb_explore_adf_squarecb.rs:136-173`). Over the reals, for nonempty scores with distinct actions, a nonnegative
gamma and epsilon in [0, 1]: the result is a distribution over the same actions in the same order; the first lowest-score action
gets at least 1/n, every other action at most 1/n, and a strictly lower score never gets a smaller probability. Without the
exploration floor the other actions get exactly 1 / (n + gamma * (score - lowest score)). -/
theorem C22_squarecb_distribution (gamma eps : ℝ) (hg : 0 ≤ gamma) (h0 : 0 ≤ eps) (h1 : eps ≤ 1)
    (scores : List (Nat × ℝ)) (hne : scores ≠ []) (hnd : (scores.map (·.1)).Nodup) :
    ∃ best v out, IsFirstLowest (scores.map (·.2)) best ∧ (scores.map (·.2))[best]? = some v ∧
      squareCbProbs gamma eps scores = .ok out ∧ IsDistribution out ∧ out.map (·.1) = scores.map (·.1) ∧
      (∀ i p, out[i]? = some p → i ≠ best → p.2 ≤ 1 / (scores.length : ℝ)) ∧
      (∀ p, out[best]? = some p → 1 / (scores.length : ℝ) ≤ p.2) ∧
      (∀ (i j : Nat) (a b a' b' : Nat × ℝ), scores[i]? = some a → scores[j]? = some b → out[i]? = some a' →
        out[j]? = some b' → a.2 < b.2 → b'.2 ≤ a'.2) ∧
      (eps = 0 → ∀ i a p, scores[i]? = some a → out[i]? = some p → i ≠ best →
        p.2 = 1 / ((scores.length : ℝ) + gamma * (a.2 - v))) := by
  obtain ⟨best, v, ps, hfirst, hv, heq, hids, hd, hpos, hw, hle, hbest⟩ := squareCb_eq gamma eps hg scores hne hnd
  obtain ⟨out, ho, hod, hop, hoids, hrank, hcap, hfl, hzero⟩ := enforceUnwrap_spec eps h0 h1 ps hd hpos
  have hlen : ps.length = scores.length := by simpa using congrArg List.length hids
  have holen : out.length = scores.length := by
    have := congrArg List.length hoids
    simp at this
    omega
  have hn : (0 : ℝ) < (scores.length : ℝ) := by
    have := List.length_pos_iff.2 hne
    exact_mod_cast this
  have hsmall : ∀ i p, out[i]? = some p → i ≠ best → p.2 ≤ 1 / (scores.length : ℝ) := by
    intro i p hp hi
    have hilt : i < scores.length := by
      have := (List.getElem?_eq_some_iff.1 hp).1
      omega
    have hps : ps[i]? = some ps[i] := by simp [hlen, hilt]
    have hcap' : (1 : ℝ) / (ps.length : ℝ) = 1 / (scores.length : ℝ) := by rw [hlen]
    have := hcap i _ p hps hp
    rw [hcap'] at this
    exact le_trans this (max_le (hle i scores[i] _ (by simp [hilt]) hps hi) le_rfl)
  have hbestlt : best < scores.length := by
    have := (List.getElem?_eq_some_iff.1 hv).1
    simpa using this
  have hbig : ∀ p, out[best]? = some p → 1 / (scores.length : ℝ) ≤ p.2 := by
    intro p hp
    -- all others are at most 1/n and the sum is one
    have hsum := hod.2
    have hp2 : (out.map (·.2))[best]? = some p.2 := by rw [List.getElem?_map, hp]; rfl
    have hset := sum_set (out.map (·.2)) best p.2 (1 / (scores.length : ℝ)) hp2
    have hbound : ((out.map (·.2)).set best (1 / (scores.length : ℝ))).sum ≤
        ((out.map (·.2)).set best (1 / (scores.length : ℝ))).length • (1 / (scores.length : ℝ)) := by
      apply List.sum_le_card_nsmul
      intro x hx
      obtain ⟨i, hi⟩ := List.getElem?_of_mem hx
      by_cases hib : i = best
      · subst hib
        rw [List.getElem?_set_self (by simpa [holen] using hbestlt)] at hi
        simp only [Option.some.injEq] at hi
        exact hi ▸ le_rfl
      · rw [List.getElem?_set_ne (Ne.symm hib), List.getElem?_map] at hi
        obtain ⟨q, hq, rfl⟩ := Option.map_eq_some_iff.1 hi
        exact hsmall i q hq hib
    rw [List.length_set, List.length_map, holen, nsmul_eq_mul, mul_one_div_cancel (ne_of_gt hn), hset, hsum] at hbound
    linarith
  refine ⟨best, v, out, hfirst, hv, by rw [heq, ho], hod, by rw [hoids, hids], hsmall, hbig, ?_, ?_⟩
  · intro i j a b a' b' ha hb ha' hb' hlt
    have hilt := (List.getElem?_eq_some_iff.1 ha).1
    have hjlt := (List.getElem?_eq_some_iff.1 hb).1
    obtain ⟨w, hw', hmin⟩ := hfirst
    rw [hv] at hw'
    simp only [Option.some.injEq] at hw'
    subst hw'
    have hjb : j ≠ best := by
      rintro rfl
      have h1 := (hmin i a.2 (by rw [List.getElem?_map, ha]; rfl)).1
      rw [List.getElem?_map, hb] at hv
      simp at hv
      linarith
    by_cases hib : i = best
    · subst hib
      exact le_trans (hsmall j b' hb' hjb) (hbig a' ha')
    · have hpi : ps[i]? = some ps[i] := by simp [hlen, hilt]
      have hpj : ps[j]? = some ps[j] := by simp [hlen, hjlt]
      refine hrank j i _ _ _ _ hpj hpi hb' ha' ?_
      rw [hw j b _ hb hpj hjb, hw i a _ ha hpi hib]
      unfold squareWeight
      have hai := (hmin i a.2 (by rw [List.getElem?_map, ha]; rfl)).1
      have h2 : 0 ≤ gamma * (a.2 - v) := mul_nonneg hg (by linarith)
      have h3 : gamma * (a.2 - v) ≤ gamma * (b.2 - v) := mul_le_mul_of_nonneg_left (by linarith) hg
      exact one_div_le_one_div_of_le (by linarith) (by linarith)
  · intro hz i a p ha hp hi
    rw [hzero hz] at hp
    exact hw i a p ha hp hi

/-- **C22** at the level of the reduction, in every state (so after any history), for a nonnegative gamma scale. -/
theorem C22_squarecb_reduction (dbg : Bool) (m : Meta) (eps gs ge : ℝ) (hgs : 0 ≤ gs) (h0 : 0 ≤ eps) (h1 : eps ≤ 1)
    (child : Red ℝ) (s : Nat × child.State) (ft ft' : Features ℝ) (d d' : Depth) (off : Nat) (p : Prediction ℝ)
    (h : (Red.squareCb m eps gs ge child).predict dbg s ft d off = .ok (p, ft', d')) :
    ∃ scores out best d1 r, child.predict dbg s.2 ft d1 0 = .ok (.actionScores scores, r) ∧ p = .actionProbs out ∧
      IsFirstLowest (scores.map (·.2)) best ∧ IsDistribution out ∧ out.map (·.1) = List.range scores.length ∧
      (∀ i p, out[i]? = some p → i ≠ best → p.2 ≤ 1 / (scores.length : ℝ)) ∧
      (∀ p, out[best]? = some p → 1 / (scores.length : ℝ) ≤ p.2) ∧
      (∀ (i j : Nat) (a b a' b' : Nat × ℝ), scores[i]? = some a → scores[j]? = some b → out[i]? = some a' →
        out[j]? = some b' → a.2 < b.2 → b'.2 ≤ a'.2) := by
  obtain ⟨d1, d2, _, h, _, _⟩ := wrapCall_ok h
  unfold Red.predictImpl at h
  obtain ⟨⟨q, ft1, d3⟩, hc, hk⟩ := bind_ok.1 h
  obtain ⟨scores, hs, hk'⟩ := bind_ok.1 hk
  obtain ⟨out, ho, hk''⟩ := bind_ok.1 hk'
  have hq := asScores_ok hs
  subst hq
  simp only [Except.ok.injEq, Prod.mk.injEq] at hk''
  have hids : scores.map (·.1) = List.range scores.length := by
    obtain ⟨_, _, _, h', _, _⟩ := wrapCall_ok hc
    exact predictImpl_scores_ids dbg child _ _ _ _ _ _ h'
  have hne : scores ≠ [] := by
    rintro rfl
    simp [squareCbProbs, cmpCheck, argMin, unwrapOpt, bind, Except.bind] at ho
  have hgamma : 0 ≤ squareCbGamma gs ge s.1 := by
    unfold squareCbGamma
    exact mul_nonneg hgs (Real.rpow_nonneg (Nat.cast_nonneg _) _)
  obtain ⟨best, v, out', h2, _, h3, h4, h5, h6, h7, h8, _⟩ :=
    C22_squarecb_distribution (squareCbGamma gs ge s.1) eps hgamma h0 h1 scores hne (by rw [hids]; exact List.nodup_range)
  rw [ho] at h3
  simp only [Except.ok.injEq] at h3
  subst h3
  exact ⟨scores, out, best, d1, (ft1, d3), hc, hk''.1.symm, h2, h4, by rw [h5, hids], h6, h7, h8⟩

/-- The hypotheses of C22 are met by a non-trivial case. -/
example : ∃ out, squareCbProbs (10 : ℝ) (1 / 5) [(0, 3), (1, 1), (2, 1)] = .ok out :=
  let ⟨_, _, out, _, _, h, _⟩ := C22_squarecb_distribution 10 (1 / 5) (by norm_num) (by norm_num) (by norm_num)
    [(0, 3), (1, 1), (2, 1)] (by simp) (by simp)
  ⟨out, h⟩

end Rml
