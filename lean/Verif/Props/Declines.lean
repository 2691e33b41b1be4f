import Verif.Props.SquareCb
import Verif.Props.ExplorePolicies
import Verif.Props.Safe
import Mathlib.Algebra.BigOperators.Fin

/-! C92: exploration declines as it should. For the same scores, SquareCB gives the best action more and every other action less probability the more it
has learned; softmax gives the best action more the larger lambda is, epsilon-greedy the smaller epsilon is. -/

set_option linter.unusedSectionVars false

namespace Rml

noncomputable local instance fltRealDeclines : Flt ℝ := fieldFlt ℝ

/-! ### Specification -/

/-- The probability that no action falls below: epsilon split among `n` actions; everything above 0.999 counts as 1. -/
noncomputable def floorOf (eps : ℝ) (n : Nat) : ℝ := if eps ≤ 999 / 1000 then eps / n else 1 / n

/-! ### The floor -/

/-- `enforce_min_prob` subtracts the same amount from all probabilities, but not below the floor. -/
theorem enforce_water (eps : ℝ) (h0 : 0 ≤ eps) (h1 : eps ≤ 1) (els : List (Nat × ℝ)) (hd : IsDistribution els) (hpos : ∀ e ∈ els, 0 < e.2) :
    ∃ tau, 0 ≤ tau ∧ enforceUnwrap eps els = .ok (els.map fun e => (e.1, max (e.2 - tau) (floorOf eps els.length))) ∧
      (els.map fun e => max (e.2 - tau) (floorOf eps els.length)).sum = 1 := by
  have hne : els ≠ [] := by
    rintro rfl
    have := hd.2
    simp at this
  have hlpos : (0 : ℝ) < (els.length : ℝ) := by
    have := List.length_pos_iff.2 hne
    exact_mod_cast this
  rcases eq_or_lt_of_le h0 with he | he
  · have hz := C19_zero_unchanged eps false els hne (by simp [← he])
    have hfl : floorOf eps els.length = 0 := by
      unfold floorOf
      rw [← he, if_pos (by norm_num), zero_div]
    have hid : ∀ e ∈ els, max (e.2 - 0) (floorOf eps els.length) = e.2 := by
      intro e hm
      rw [hfl, sub_zero, max_eq_left (hpos e hm).le]
    refine ⟨0, le_rfl, ?_, ?_⟩
    · have : (els.map fun e => (e.1, max (e.2 - 0) (floorOf eps els.length))) = els := by
        conv_rhs => rw [← List.map_id els]
        exact List.map_congr_left fun e hm => by rw [hid e hm]; rfl
      rw [this]
      simp [enforceUnwrap, hz, unwrapOpt, bind, Except.bind]
    · rw [List.map_congr_left hid]
      exact hd.2
  · obtain ⟨e0, he0⟩ := List.exists_mem_of_ne_nil _ hne
    have hsupp : ∃ e ∈ els, Supported false e := ⟨e0, he0, Or.inr (ne_of_gt (hpos e0 he0))⟩
    have hcount : supportCount false els = els.length := by
      unfold supportCount
      rw [List.countP_eq_length]
      intro e he
      simp [ne_of_gt (hpos e he)]
    obtain ⟨g, hg, hsum, hge, hmono, _, hform⟩ := enforce_result eps false els he h1 hd.1 hsupp
    have hall : (els.map (·.2)).filter (supp false) = els.map (·.2) := by
      rw [List.filter_eq_self]
      intro x hx
      obtain ⟨e, he, rfl⟩ := List.mem_map.1 hx
      simp [supp, ne_of_gt (hpos e he)]
    rw [hall, List.map_map] at hsum
    have hout : enforceUnwrap eps els = .ok (els.map fun e => (e.1, g e.2)) := by
      have : (els.map (fun e => if false || decide (0 < e.2) then (e.1, g e.2) else e)) = els.map fun e => (e.1, g e.2) :=
        List.map_congr_left fun e hm => by simp [hpos e hm]
      rw [this] at hg
      simp [enforceUnwrap, hg, unwrapOpt, bind, Except.bind]
    by_cases hu : eps ≤ 999 / 1000
    · obtain ⟨tau, htau⟩ := hform hu
      have hgt : ∀ x, g x = max (x - tau) (floorOf eps els.length) := by
        intro x
        rw [htau, hcount, floorOf, if_pos hu]
      refine ⟨tau, ?_, by simp only [← hgt]; exact hout, by simp only [← hgt]; exact hsum⟩
      by_contra hc
      have hlt : (els.map (·.2)).sum < ((els.map (·.2)).map g).sum := by
        have := List.sum_lt_sum_of_ne_nil (l := els.map (·.2)) (by simpa using hne) (fun x => x) g (fun x _ => by
          rw [htau]; exact lt_of_lt_of_le (by linarith : x < x - tau) (le_max_left _ _))
        rw [List.map_id'] at this
        exact this
      rw [List.map_map, hd.2] at hlt
      exact absurd hsum (ne_of_gt hlt)
    · -- uniform
      have h1n : ∀ e ∈ els, e.2 ≤ 1 := by
        intro e hm
        rw [← hd.2]
        exact List.single_le_sum (by
          intro x hx
          obtain ⟨e', he', rfl⟩ := List.mem_map.1 hx
          exact hd.1 e' he') _ (List.mem_map_of_mem hm)
      have hfl : floorOf eps els.length = 1 / (els.length : ℝ) := by rw [floorOf, if_neg hu]
      have hmax : ∀ e ∈ els, max (e.2 - 1) (floorOf eps els.length) = 1 / (els.length : ℝ) := by
        intro e hm
        rw [hfl, max_eq_right]
        have := h1n e hm
        have h2 : 0 < 1 / (els.length : ℝ) := by positivity
        linarith
      have huni : enforceMinProb eps false els = .ok (some (els.map (fun e => (e.1, 1 / (els.length : ℝ))))) := by
        unfold enforceMinProb
        rw [support_eq, supportCount_eq, hcount]
        have hlen : els.length ≠ 0 := fun h => hne (List.length_eq_zero_iff.1 h)
        have h2 : ¬ eps < 0 := not_lt.2 he.le
        have h3 : ¬ 1 < eps := not_lt.2 h1
        have h4 : ((999 : Int) : ℝ) / ((1000 : Nat) : ℝ) < eps := by push_cast; exact not_le.1 hu
        simp only [hlen, if_false, flt_eq, flt_zero, ne_of_gt he, decide_false, Bool.false_eq_true, flt_lt, h2, flt_one, h3,
          Bool.or_self, flt_lit, h4, decide_true, if_true, flt_div, flt_ofNat, Bool.false_or, decide_eq_true_eq]
        congr 2
        exact List.map_congr_left fun e hm => by rw [if_pos (hpos e hm)]
      refine ⟨1, zero_le_one, ?_, ?_⟩
      · have : (els.map fun e => (e.1, max (e.2 - 1) (floorOf eps els.length))) = els.map fun e => (e.1, 1 / (els.length : ℝ)) :=
          List.map_congr_left fun e hm => by rw [hmax e hm]
        rw [this]
        simp [enforceUnwrap, huni, unwrapOpt, bind, Except.bind]
      · rw [List.map_congr_left hmax, List.map_const', List.sum_replicate, nsmul_eq_mul, mul_one_div_cancel (ne_of_gt hlpos)]

/-- If the best probability is farther ahead of all others, it is not smaller after the floor is enforced. -/
theorem water_best {n : Nat} {P P' : Fin n → ℝ} {t t' m : ℝ} (hs : ∑ i, max (P i - t) m = 1) (hs' : ∑ i, max (P' i - t') m = 1) (b : Fin n)
    (h : ∀ i, P b - P i ≤ P' b - P' i) : max (P b - t) m ≤ max (P' b - t') m := by
  by_contra hc
  rw [not_le] at hc
  have hb : max (P b - t) m = P b - t := by
    apply max_eq_left
    by_contra h2
    rw [not_le] at h2
    rw [max_eq_right h2.le] at hc
    exact absurd (le_max_right (P' b - t') m) (not_le.2 hc)
  have hlt : ∑ i, max (P' i - t') m < ∑ i, max (P i - t) m := by
    refine Finset.sum_lt_sum (fun i _ => ?_) ⟨b, Finset.mem_univ _, hc⟩
    refine max_le_max ?_ le_rfl
    have h3 := h i
    have h4 := le_max_left (P' b - t') m
    linarith
  linarith

/-- If all others are smaller, they are not larger after the floor is enforced. -/
theorem water_others {n : Nat} {P P' : Fin n → ℝ} {t t' m : ℝ} (hs : ∑ i, max (P i - t) m = 1) (hs' : ∑ i, max (P' i - t') m = 1)
    (hp : ∑ i, P i = 1) (hp' : ∑ i, P' i = 1) (b : Fin n) (hb : ∀ i, P i ≤ P b) (hb' : ∀ i, P' i ≤ P' b) (h : ∀ i, i ≠ b → P' i ≤ P i) (i : Fin n)
    (hi : i ≠ b) : max (P' i - t') m ≤ max (P i - t) m := by
  by_contra hc
  rw [not_le] at hc
  have hm : m < P' i - t' := by
    by_contra h2
    rw [max_eq_right (not_lt.1 h2)] at hc
    exact absurd (le_max_right (P i - t) m) (not_le.2 hc)
  rw [max_eq_left hm.le] at hc
  have h1 := lt_of_le_of_lt (le_max_left (P i - t) m) hc
  have h2 := h i hi
  have ht : t' < t := by linarith
  have hsum : ∑ j, (max (P j - t) m - P j) = 0 := by rw [Finset.sum_sub_distrib, hs, hp, sub_self]
  have hsum' : ∑ j, (max (P' j - t') m - P' j) = 0 := by rw [Finset.sum_sub_distrib, hs', hp', sub_self]
  have hlt : ∑ j, (max (P j - t) m - P j) < ∑ j, (max (P' j - t') m - P' j) := by
    refine Finset.sum_lt_sum (fun j _ => ?_) ⟨i, Finset.mem_univ _, ?_⟩
    · by_cases hj : j = b
      · subst hj
        have h3 := le_max_left (P' j - t') m
        have h4 := hb i
        have h5 : max (P j - t) m - P j ≤ -t' := by
          rw [sub_le_iff_le_add]
          exact max_le (by linarith) (by linarith)
        linarith
      · have h3 := le_max_left (P' j - t') m
        have h4 := le_max_right (P' j - t') m
        have h5 := h j hj
        rw [sub_le_iff_le_add]
        exact max_le (by linarith) (by linarith)
    · rw [max_eq_left hm.le, sub_lt_iff_lt_add]
      exact max_lt (by linarith) (by linarith)
  linarith

theorem sum_fin {α : Type} (f : α → ℝ) (l : List α) : (l.map f).sum = ∑ i : Fin l.length, f l[i] := by
  induction l with
  | nil => simp
  | cons a l ih =>
    rw [List.map_cons, List.sum_cons, ih]
    exact (Fin.sum_univ_succ (fun i : Fin (l.length + 1) => f ((a :: l)[i.val]'(i.2)))).symm

theorem firstLowest_unique {l : List ℝ} {b b' : Nat} (h : IsFirstLowest l b) (h' : IsFirstLowest l b') : b = b' := by
  obtain ⟨v, hv, hm⟩ := h
  obtain ⟨v', hv', hm'⟩ := h'
  rcases lt_trichotomy b b' with hlt | rfl | hlt
  · exact absurd ((hm' b v hv).2 hlt) (not_lt.2 (hm b' v' hv').1)
  · rfl
  · exact absurd ((hm b' v' hv').2 hlt) (not_lt.2 (hm' b v hv).1)

/-- Two distributions over the same actions, after the floor is enforced. -/
theorem water_compare (eps : ℝ) (h0 : 0 ≤ eps) (h1 : eps ≤ 1) (ps ps' : List (Nat × ℝ)) (hd : IsDistribution ps) (hd' : IsDistribution ps')
    (hpos : ∀ e ∈ ps, 0 < e.2) (hpos' : ∀ e ∈ ps', 0 < e.2) (hlen : ps'.length = ps.length) (b : Nat) (x x' : Nat × ℝ) (hx : ps[b]? = some x)
    (hx' : ps'[b]? = some x') (hgap : ∀ (i : Nat) (y y' : Nat × ℝ), ps[i]? = some y → ps'[i]? = some y' → x.2 - y.2 ≤ x'.2 - y'.2) :
    ∃ out out', enforceUnwrap eps ps = .ok out ∧ enforceUnwrap eps ps' = .ok out' ∧
      (∀ y y', out[b]? = some y → out'[b]? = some y' → y.2 ≤ y'.2) ∧
      ((∀ e ∈ ps, e.2 ≤ x.2) → (∀ e ∈ ps', e.2 ≤ x'.2) → (∀ (i : Nat) (y y' : Nat × ℝ), i ≠ b → ps[i]? = some y → ps'[i]? = some y' → y'.2 ≤ y.2) →
        ∀ (i : Nat) (y y' : Nat × ℝ), i ≠ b → out[i]? = some y → out'[i]? = some y' → y'.2 ≤ y.2) := by
  obtain ⟨t, _, hw, hs⟩ := enforce_water eps h0 h1 ps hd hpos
  obtain ⟨t', _, hw', hs'⟩ := enforce_water eps h0 h1 ps' hd' hpos'
  rw [hlen] at hw' hs'
  obtain ⟨hb, hxb⟩ := List.getElem?_eq_some_iff.1 hx
  obtain ⟨hb', hxb'⟩ := List.getElem?_eq_some_iff.1 hx'
  have e1 : (ps.map fun e => max (e.2 - t) (floorOf eps ps.length)).sum = ∑ i : Fin ps.length, max (ps[i].2 - t) (floorOf eps ps.length) :=
    sum_fin _ ps
  have hcast : ∀ f : Nat × ℝ → ℝ, (ps'.map f).sum = ∑ i : Fin ps.length, f (ps'[i.val]'(by rw [hlen]; exact i.2)) := by
    intro f
    rw [sum_fin]
    exact Fintype.sum_equiv (finCongr hlen) _ _ fun i => rfl
  have e2 := hcast fun e => max (e.2 - t') (floorOf eps ps.length)
  rw [hs] at e1
  rw [hs'] at e2
  refine ⟨_, _, hw, hw', ?_, ?_⟩
  · intro y y' hy hy'
    rw [List.getElem?_map, hx] at hy
    rw [List.getElem?_map, hx'] at hy'
    simp only [Option.map_some, Option.some.injEq] at hy hy'
    subst hy hy'
    have := water_best (P := fun i : Fin ps.length => ps[i].2) (P' := fun i : Fin ps.length => (ps'[i.val]'(by rw [hlen]; exact i.2)).2)
      e1.symm e2.symm ⟨b, hb⟩ (by
        intro i
        simp only [Fin.getElem_fin, hxb, hxb']
        exact hgap i.val _ _ (List.getElem?_eq_getElem _) (List.getElem?_eq_getElem _))
    simp only [Fin.getElem_fin, hxb, hxb'] at this
    exact this
  · intro hm hm' hle i y y' hi hy hy'
    rw [List.getElem?_map] at hy hy'
    obtain ⟨z, hz, rfl⟩ := Option.map_eq_some_iff.1 hy
    obtain ⟨z', hz', rfl⟩ := Option.map_eq_some_iff.1 hy'
    obtain ⟨hi1, hz1⟩ := List.getElem?_eq_some_iff.1 hz
    obtain ⟨hi2, hz2⟩ := List.getElem?_eq_some_iff.1 hz'
    have p1 := sum_fin (fun e : Nat × ℝ => e.2) ps
    have p2 := hcast fun e => e.2
    rw [hd.2] at p1
    rw [hd'.2] at p2
    have := water_others (P := fun i : Fin ps.length => ps[i].2) (P' := fun i : Fin ps.length => (ps'[i.val]'(by rw [hlen]; exact i.2)).2)
      e1.symm e2.symm p1.symm p2.symm ⟨b, hb⟩ (by
        intro i
        simp only [Fin.getElem_fin, hxb]
        exact hm _ (List.getElem_mem _)) (by
        intro i
        simp only [hxb']
        exact hm' _ (List.getElem_mem _)) (by
        intro i hne
        refine hle i.val _ _ (fun h => hne (Fin.ext h)) (List.getElem?_eq_getElem _) (List.getElem?_eq_getElem _)) ⟨i, hi1⟩ (fun h => hi (congrArg Fin.val h))
    simp only [Fin.getElem_fin, hz1, hz2] at this
    exact this

theorem getElem?_of_ids {l l' : List (Nat × ℝ)} (h : l.map (·.1) = l'.map (·.1)) {i : Nat} {a : Nat × ℝ} (ha : l[i]? = some a) :
    ∃ a', l'[i]? = some a' := by
  have hlen : l.length = l'.length := by simpa using congrArg List.length h
  obtain ⟨hi, _⟩ := List.getElem?_eq_some_iff.1 ha
  exact ⟨_, List.getElem?_eq_getElem (by omega)⟩

/-- C92, SquareCB: with a larger gamma the best action (the first with the lowest score) does not get less probability, and no other action gets more. -/
theorem C92_squarecb (gamma gamma' eps : ℝ) (hg : 0 ≤ gamma) (hgg : gamma ≤ gamma') (h0 : 0 ≤ eps) (h1 : eps ≤ 1) (scores : List (Nat × ℝ))
    (hne : scores ≠ []) (hnd : (scores.map (·.1)).Nodup) :
    ∃ best out out', IsFirstLowest (scores.map (·.2)) best ∧ squareCbProbs gamma eps scores = .ok out ∧ squareCbProbs gamma' eps scores = .ok out' ∧
      (∀ p p', out[best]? = some p → out'[best]? = some p' → p.2 ≤ p'.2) ∧
      ∀ i p p', i ≠ best → out[i]? = some p → out'[i]? = some p' → p'.2 ≤ p.2 := by
  obtain ⟨b, v, ps, hf, hv, heq, hids, hd, hpos, hw, hle, hbest⟩ := squareCb_eq gamma eps hg scores hne hnd
  obtain ⟨b', v', ps', hf', hv', heq', hids', hd', hpos', hw', hle', hbest'⟩ := squareCb_eq gamma' eps (hg.trans hgg) scores hne hnd
  obtain rfl := firstLowest_unique hf hf'
  rw [hv] at hv'
  simp only [Option.some.injEq] at hv'
  subst hv'
  have hids2 : ps.map (·.1) = ps'.map (·.1) := hids.trans hids'.symm
  have hlen : ps'.length = ps.length := by simpa using (congrArg List.length hids2).symm
  have hn : (0 : ℝ) < (scores.length : ℝ) := by
    have := List.length_pos_iff.2 hne
    exact_mod_cast this
  obtain ⟨w, hw1, hmin⟩ := hf
  rw [hv] at hw1
  simp only [Option.some.injEq] at hw1
  subst hw1
  -- every other action has less
  have hother : ∀ (i : Nat) (y y' : Nat × ℝ), i ≠ b → ps[i]? = some y → ps'[i]? = some y' → y'.2 ≤ y.2 := by
    intro i y y' hi hy hy'
    obtain ⟨a, ha⟩ := getElem?_of_ids hids hy
    rw [hw i a y ha hy hi, hw' i a y' ha hy' hi]
    have h2 := (hmin i a.2 (by rw [List.getElem?_map, ha]; rfl)).1
    unfold squareWeight
    have h3 : gamma * (a.2 - v) ≤ gamma' * (a.2 - v) := mul_le_mul_of_nonneg_right hgg (by linarith)
    have h4 : 0 ≤ gamma * (a.2 - v) := mul_nonneg hg (by linarith)
    exact one_div_le_one_div_of_le (by linarith) (by linarith)
  obtain ⟨sb, hsb⟩ : ∃ sb, scores[b]? = some sb := by
    rw [List.getElem?_map] at hv
    obtain ⟨e, he, _⟩ := Option.map_eq_some_iff.1 hv
    exact ⟨e, he⟩
  obtain ⟨x, hx⟩ := getElem?_of_ids hids.symm hsb
  obtain ⟨x', hx'⟩ := getElem?_of_ids hids'.symm hsb
  -- the best action has the rest
  have hbx : x.2 ≤ x'.2 := by
    have hp := hd.2
    have hp' := hd'.2
    obtain ⟨hb1, hb2⟩ := List.getElem?_eq_some_iff.1 hx
    obtain ⟨hb1', hb2'⟩ := List.getElem?_eq_some_iff.1 hx'
    rw [sum_fin (fun e : Nat × ℝ => e.2)] at hp hp'
    by_contra hc
    rw [not_le] at hc
    have : ∑ i : Fin ps'.length, ps'[i].2 < ∑ i : Fin ps.length, ps[i].2 := by
      rw [Fintype.sum_equiv (finCongr hlen) (fun i : Fin ps'.length => ps'[i].2) (fun i : Fin ps.length => (ps'[i.val]'(by rw [hlen]; exact i.2)).2)
        (fun i => rfl)]
      refine Finset.sum_lt_sum (fun i _ => ?_) ⟨⟨b, hb1⟩, Finset.mem_univ _, ?_⟩
      · by_cases hi : i.val = b
        · simp only [Fin.getElem_fin, hi, hb2, hb2']
          exact hc.le
        · exact hother i.val _ _ hi (List.getElem?_eq_getElem _) (List.getElem?_eq_getElem _)
      · simp only [Fin.getElem_fin, hb2, hb2']
        exact hc
    linarith
  have hmost : ∀ (q : List (Nat × ℝ)) (z : Nat × ℝ), q.map (·.1) = scores.map (·.1) → q[b]? = some z → 1 / (scores.length : ℝ) ≤ z.2 →
      (∀ i a p, scores[i]? = some a → q[i]? = some p → i ≠ b → p.2 ≤ 1 / (scores.length : ℝ)) → ∀ e ∈ q, e.2 ≤ z.2 := by
    intro q z hq hz hz1 hq1 e he
    obtain ⟨i, hi⟩ := List.getElem?_of_mem he
    by_cases hib : i = b
    · subst hib
      rw [hz] at hi
      cases hi
      exact le_rfl
    · obtain ⟨a, ha⟩ := getElem?_of_ids hq hi
      exact (hq1 i a e ha hi hib).trans hz1
  obtain ⟨out, out', o1, o2, o3, o4⟩ := water_compare eps h0 h1 ps ps' hd hd' hpos hpos' hlen b x x' hx hx' (by
    intro i y y' hy hy'
    by_cases hi : i = b
    · subst hi
      rw [hx] at hy
      rw [hx'] at hy'
      cases hy
      cases hy'
      simp
    · have := hother i y y' hi hy hy'
      linarith)
  exact ⟨b, out, out', ⟨v, hv, hmin⟩, by rw [heq, o1], by rw [heq', o2], o3,
    o4 (hmost ps x hids hx (hbest x hx) hle) (hmost ps' x' hids' hx' (hbest' x' hx') hle') hother⟩

/-- The exploration factor does not decrease while SquareCB learns. -/
theorem gamma_mono (gs ge : ℝ) (hgs : 0 ≤ gs) (hge : 0 ≤ ge) {n n' : Nat} (h : n ≤ n') : squareCbGamma gs ge n ≤ squareCbGamma gs ge n' :=
  mul_le_mul_of_nonneg_left (Real.rpow_le_rpow (Nat.cast_nonneg _) (Nat.cast_le.2 h) hge) hgs

/-- C92, SquareCB over time: take a SquareCB model that predicts, and the same model but with more examples learned. Then that one predicts too, and
its prediction for the same example gives the best action at least as much probability, and every other action at most as much. -/
theorem C92_schedule (dbg : Bool) (m : Meta) (eps gs ge : ℝ) (hgs : 0 ≤ gs) (hge : 0 ≤ ge) (h0 : 0 ≤ eps) (h1 : eps ≤ 1) (base : Workspace ℝ)
    (n n' : Nat) (hn : n ≤ n') (ft ft1 : Features ℝ) (p : Prediction ℝ)
    (h : (⟨.squareCb m eps gs ge base.red, (n, base.st)⟩ : Workspace ℝ).predict dbg ft = .ok (p, ft1)) :
    ∃ p' ft2 scores out out' best ft3, (⟨.squareCb m eps gs ge base.red, (n', base.st)⟩ : Workspace ℝ).predict dbg ft = .ok (p', ft2) ∧
      base.predict dbg ft = .ok (.actionScores scores, ft3) ∧ p = .actionProbs out ∧ p' = .actionProbs out' ∧
      out.length = scores.length ∧ out'.length = scores.length ∧ IsFirstLowest (scores.map (·.2)) best ∧
      (∀ x x', out[best]? = some x → out'[best]? = some x' → x.2 ≤ x'.2) ∧
      ∀ i x x', i ≠ best → out[i]? = some x → out'[i]? = some x' → x'.2 ≤ x.2 := by
  have main : ∀ (k : Nat) (q : Prediction ℝ) (f : Features ℝ),
      (⟨.squareCb m eps gs ge base.red, (k, base.st)⟩ : Workspace ℝ).predict dbg ft = .ok (q, f) →
      ∃ scores out f3, base.predict dbg ft = .ok (.actionScores scores, f3) ∧ squareCbProbs (squareCbGamma gs ge k) eps scores = .ok out ∧
        q = .actionProbs out ∧ scores.map (·.1) = List.range scores.length := by
    intro k q f hq
    unfold Workspace.predict Red.predict at hq
    obtain ⟨⟨p1, f1, d1⟩, h1, hq⟩ := bind_ok.1 hq
    simp only [Except.ok.injEq, Prod.mk.injEq] at hq
    obtain ⟨rfl, rfl⟩ := hq
    obtain ⟨d1, d2, h2, h3, _, _⟩ := wrapCall_ok h1
    simp only at h2
    rw [(C27_no_overflow dbg _ 0 (by decide)).1] at h2
    simp only [Except.ok.injEq] at h2
    subst h2
    simp only [Red.predictImpl] at h3
    obtain ⟨⟨p2, f2, d3⟩, h4, h3⟩ := bind_ok.1 h3
    obtain ⟨sc, h5, h3⟩ := bind_ok.1 h3
    obtain ⟨pr, h6, h3⟩ := bind_ok.1 h3
    simp only [Except.ok.injEq, Prod.mk.injEq] at h3
    obtain ⟨rfl, _⟩ := h3
    have := asScores_ok h5
    simp only at this
    subst this
    refine ⟨sc, pr, f2, ?_, h6, rfl, ?_⟩
    · unfold Workspace.predict Red.predict
      simp only
      rw [h4, ok_bind]
    · obtain ⟨_, _, _, h', _, _⟩ := wrapCall_ok h4
      exact predictImpl_scores_ids dbg base.red _ _ _ _ _ _ h'
  obtain ⟨sc, out, f3, a1, a2, rfl, a4⟩ := main n p ft1 h
  have hne : sc ≠ [] := by
    rintro rfl
    simp [squareCbProbs, cmpCheck, argMin, unwrapOpt, bind, Except.bind] at a2
  have hnd : (sc.map (·.1)).Nodup := by rw [a4]; exact List.nodup_range
  have hg : 0 ≤ squareCbGamma gs ge n := mul_nonneg hgs (Real.rpow_nonneg (Nat.cast_nonneg _) _)
  have hg' : 0 ≤ squareCbGamma gs ge n' := mul_nonneg hgs (Real.rpow_nonneg (Nat.cast_nonneg _) _)
  obtain ⟨b, o, o', c1, c2, c3, c4, c5⟩ := C92_squarecb _ _ eps hg (gamma_mono gs ge hgs hge hn) h0 h1 sc hne hnd
  rw [a2] at c2
  cases c2
  have hl : ∀ (g : ℝ) (o : List (Nat × ℝ)), 0 ≤ g → squareCbProbs g eps sc = .ok o → o.length = sc.length := by
    intro g o hg ho
    obtain ⟨_, _, o2, _, _, d3, _, d5, _⟩ := C22_squarecb_distribution g eps hg h0 h1 sc hne hnd
    rw [ho] at d3
    cases d3
    simpa using congrArg List.length d5
  refine ⟨.actionProbs o', ft1, sc, out, o', b, f3, ?_, a1, rfl, rfl, hl _ _ hg a2, hl _ _ hg' c3, c1, c4, c5⟩
  -- the counter only enters through gamma
  unfold Workspace.predict Red.predict at h ⊢
  obtain ⟨⟨p1, f1, d1⟩, h1, hq⟩ := bind_ok.1 h
  simp only [Except.ok.injEq, Prod.mk.injEq] at hq
  obtain ⟨rfl, rfl⟩ := hq
  unfold wrapCall at h1 ⊢
  obtain ⟨e1, k1, h1⟩ := bind_ok.1 h1
  obtain ⟨⟨q2, f2, e2⟩, k2, h1⟩ := bind_ok.1 h1
  obtain ⟨e3, k3, h1⟩ := bind_ok.1 h1
  obtain ⟨_, k4, h1⟩ := bind_ok.1 h1
  simp only [Except.ok.injEq, Prod.mk.injEq] at h1
  obtain ⟨rfl, rfl, rfl⟩ := h1
  simp only [Red.predictImpl] at k2
  obtain ⟨⟨p3, f4, e4⟩, k5, k2⟩ := bind_ok.1 k2
  obtain ⟨sc2, k6, k2⟩ := bind_ok.1 k2
  obtain ⟨pr, k7, k2⟩ := bind_ok.1 k2
  simp only [Except.ok.injEq, Prod.mk.injEq] at k2
  obtain ⟨_, rfl, rfl⟩ := k2
  have e0 : e1 = 0 := by
    simp only at k1
    rw [(C27_no_overflow dbg _ 0 (by decide)).1] at k1
    simpa using k1.symm
  subst e0
  have hsc : sc2 = sc := by
    have := asScores_ok k6
    simp only at this
    subst this
    unfold Workspace.predict Red.predict at a1
    obtain ⟨⟨p5, f5, d5⟩, g1, g2⟩ := bind_ok.1 a1
    rw [k5] at g1
    cases g1
    simpa using congrArg Prod.fst (Except.ok.inj g2)
  subst hsc
  simp only [Red.predictImpl]
  rw [k1, ok_bind, k5, ok_bind, k6, ok_bind, c3, ok_bind, ok_bind, k3, ok_bind, k4, ok_bind]
  rfl

/-- C92, SquareCB: an action that is not the best one gets at most 1 / (n + gamma * gap), unless the floor is higher: with growing gamma all that is left
for actions with a higher score is the floor. -/
theorem C92_decay (gamma eps : ℝ) (hg : 0 ≤ gamma) (h0 : 0 ≤ eps) (h1 : eps ≤ 1) (scores : List (Nat × ℝ)) (hne : scores ≠ [])
    (hnd : (scores.map (·.1)).Nodup) :
    ∃ best v out, IsFirstLowest (scores.map (·.2)) best ∧ (scores.map (·.2))[best]? = some v ∧ squareCbProbs gamma eps scores = .ok out ∧
      ∀ (i : Nat) (a p : Nat × ℝ), i ≠ best → scores[i]? = some a → out[i]? = some p →
        p.2 ≤ max (1 / ((scores.length : ℝ) + gamma * (a.2 - v))) (floorOf eps scores.length) := by
  obtain ⟨b, v, ps, hf, hv, heq, hids, hd, hpos, hw, _, _⟩ := squareCb_eq gamma eps hg scores hne hnd
  obtain ⟨t, ht, hwater, _⟩ := enforce_water eps h0 h1 ps hd hpos
  have hlen : ps.length = scores.length := by simpa using congrArg List.length hids
  refine ⟨b, v, _, hf, hv, by rw [heq, hwater], fun i a p hi ha hp => ?_⟩
  rw [List.getElem?_map] at hp
  obtain ⟨y, hy, rfl⟩ := Option.map_eq_some_iff.1 hp
  have := hw i a y ha hy hi
  unfold squareWeight at this
  simp only [hlen]
  exact max_le_max (by linarith) le_rfl

/-- C92, softmax: with a larger lambda every action with the lowest score gets at least as much probability. -/
theorem C92_softmax (lambda lambda' eps : ℝ) (hl : 0 ≤ lambda) (hll : lambda ≤ lambda') (h0 : 0 ≤ eps) (h1 : eps ≤ 1) (scores : List (Nat × ℝ))
    (hne : scores ≠ []) :
    ∃ out out', softmaxProbs lambda eps scores = .ok out ∧ softmaxProbs lambda' eps scores = .ok out' ∧
      ∀ (b : Nat) (a p p' : Nat × ℝ), scores[b]? = some a → (∀ e ∈ scores, a.2 ≤ e.2) → out[b]? = some p → out'[b]? = some p' → p.2 ≤ p'.2 := by
  obtain ⟨b, hf, v, hv, heq⟩ := softmax_eq lambda eps scores hne
  obtain ⟨b', hf', v', hv', heq'⟩ := softmax_eq lambda' eps scores hne
  obtain rfl := firstLowest_unique hf hf'
  rw [hv] at hv'
  simp only [Option.some.injEq] at hv'
  subst hv'
  have hT : ∀ l : ℝ, 0 < (scores.map (softWeight l v)).sum := by
    intro l
    apply List.sum_pos
    · intro x hx
      obtain ⟨e, _, rfl⟩ := List.mem_map.1 hx
      exact Real.exp_pos _
    · simpa using hne
  have hpos : ∀ l : ℝ, ∀ e ∈ scores.map (fun e => (e.1, softWeight l v e / (scores.map (softWeight l v)).sum)), 0 < e.2 := by
    intro l e he
    obtain ⟨e', _, rfl⟩ := List.mem_map.1 he
    exact div_pos (Real.exp_pos _) (hT l)
  have hdist : ∀ l : ℝ, IsDistribution (scores.map (fun e => (e.1, softWeight l v e / (scores.map (softWeight l v)).sum))) := by
    intro l
    refine ⟨fun e he => (hpos l e he).le, ?_⟩
    rw [List.map_map]
    simp only [Function.comp_def]
    have gen : ∀ (T : ℝ) (k : List (Nat × ℝ)), (k.map (fun e => softWeight l v e / T)).sum = (k.map (softWeight l v)).sum / T := by
      intro T k
      induction k with
      | nil => simp
      | cons a t ih => simp only [List.map_cons, List.sum_cons, ih]; ring
    rw [gen]
    exact div_self (ne_of_gt (hT l))
  obtain ⟨w, hw1, hmin⟩ := hf
  rw [hv] at hw1
  simp only [Option.some.injEq] at hw1
  subst hw1
  have hmin' : ∀ e ∈ scores, v ≤ e.2 := by
    intro e he
    obtain ⟨i, hi⟩ := List.getElem?_of_mem he
    exact (hmin i e.2 (by rw [List.getElem?_map, hi]; rfl)).1
  have hTT : (scores.map (softWeight lambda' v)).sum ≤ (scores.map (softWeight lambda v)).sum := by
    apply List.sum_le_sum
    intro e he
    unfold softWeight
    apply Real.exp_le_exp.2
    have := mul_le_mul_of_nonneg_right hll (sub_nonneg.2 (hmin' e he))
    linarith
  have hw1 : ∀ l : ℝ, 0 ≤ l → ∀ e ∈ scores, softWeight l v e ≤ 1 := by
    intro l hl e he
    unfold softWeight
    rw [Real.exp_le_one_iff]
    have := mul_nonneg hl (sub_nonneg.2 (hmin' e he))
    linarith
  have hwle : ∀ e ∈ scores, softWeight lambda' v e ≤ softWeight lambda v e := by
    intro e he
    unfold softWeight
    apply Real.exp_le_exp.2
    have := mul_le_mul_of_nonneg_right hll (sub_nonneg.2 (hmin' e he))
    linarith
  -- one comparison for each action with the lowest score
  obtain ⟨out, ho, _⟩ := enforce_water eps h0 h1 _ (hdist lambda) (hpos lambda)
  obtain ⟨sb, hsb⟩ : ∃ sb, scores[b]? = some sb := by
    rw [List.getElem?_map] at hv
    obtain ⟨e, he, _⟩ := Option.map_eq_some_iff.1 hv
    exact ⟨e, he⟩
  have cmp : ∀ (c : Nat) (a : Nat × ℝ), scores[c]? = some a → a.2 = v →
      ∃ out out', softmaxProbs lambda eps scores = .ok out ∧ softmaxProbs lambda' eps scores = .ok out' ∧
        ∀ p p', out[c]? = some p → out'[c]? = some p' → p.2 ≤ p'.2 := by
    intro c a ha hav
    have hwa : ∀ l : ℝ, softWeight l v a = 1 := by
      intro l
      unfold softWeight
      rw [hav, sub_self, mul_zero, Real.exp_zero]
    obtain ⟨o, o', o1, o2, o3, _⟩ := water_compare eps h0 h1 _ _ (hdist lambda) (hdist lambda') (hpos lambda) (hpos lambda') (by simp) c
      (a.1, softWeight lambda v a / (scores.map (softWeight lambda v)).sum) (a.1, softWeight lambda' v a / (scores.map (softWeight lambda' v)).sum)
      (by rw [List.getElem?_map, ha]; rfl) (by rw [List.getElem?_map, ha]; rfl) (by
        intro i y y' hy hy'
        rw [List.getElem?_map] at hy hy'
        obtain ⟨z, hz, rfl⟩ := Option.map_eq_some_iff.1 hy
        rw [hz] at hy'
        simp only [Option.map_some, Option.some.injEq] at hy'
        subst hy'
        have hzm := List.mem_of_getElem? hz
        simp only
        rw [← sub_div, ← sub_div, hwa, hwa]
        have e1 := hw1 lambda hl z hzm
        have e2 := hwle z hzm
        exact div_le_div₀ (by linarith) (by linarith) (hT lambda') hTT)
    exact ⟨o, o', by rw [heq, o1], by rw [heq', o2], o3⟩
  have hsbv : sb.2 = v := by
    rw [List.getElem?_map, hsb] at hv
    simpa using hv
  obtain ⟨o, o', o1, o2, _⟩ := cmp b sb hsb hsbv
  refine ⟨o, o', o1, o2, fun c a p p' ha hmina hp hp' => ?_⟩
  have hav : a.2 = v := le_antisymm (hsbv ▸ hmina sb (List.mem_of_getElem? hsb)) (hmin' a (List.mem_of_getElem? ha))
  obtain ⟨q, q', q1, q2, q3⟩ := cmp c a ha hav
  rw [o1] at q1
  rw [o2] at q2
  cases q1
  cases q2
  exact q3 p p' hp hp'

/-- C92, epsilon-greedy: with a smaller epsilon the best action gets at least as much probability and every other action at most as much. -/
theorem C92_greedy (eps eps' : ℝ) (hee : eps' ≤ eps) (scores : List (Nat × ℝ)) (hne : scores ≠ []) :
    ∃ best out out', IsFirstLowest (scores.map (·.2)) best ∧ greedyProbs eps scores = .ok out ∧ greedyProbs eps' scores = .ok out' ∧
      (∀ p p', out[best]? = some p → out'[best]? = some p' → p.2 ≤ p'.2) ∧
      ∀ i p p', i ≠ best → out[i]? = some p → out'[i]? = some p' → p'.2 ≤ p.2 := by
  obtain ⟨b, out, hf, ho, _, hv, _, _⟩ := C20_greedy_distribution eps scores hne
  obtain ⟨b', out', hf', ho', _, hv', _, _⟩ := C20_greedy_distribution eps' scores hne
  obtain rfl := firstLowest_unique hf hf'
  have hn : (1 : ℝ) ≤ (scores.length : ℝ) := by
    have : 1 ≤ scores.length := List.length_pos_iff.2 hne
    exact_mod_cast this
  have hd : (eps - eps') / (scores.length : ℝ) ≤ eps - eps' := div_le_self (by linarith) hn
  rw [sub_div] at hd
  refine ⟨b, out, out', hf, ho, ho', fun p p' hp hp' => ?_, fun i p p' hi hp hp' => ?_⟩
  · rw [hv b p hp, hv' b p' hp', if_pos rfl, if_pos rfl]
    linarith
  · rw [hv i p hp, hv' i p' hp', if_neg hi, if_neg hi]
    exact div_le_div_of_nonneg_right hee (by linarith)

section Examples

/-- Three actions with scores 3, 1 and 2. -/
def exDecline : List (Nat × ℝ) := [(0, 3), (1, 1), (2, 2)]

/-- The hypotheses of C92_squarecb, C92_softmax and C92_greedy are met by three actions, exploration parameters 1 and 4, and epsilon 1/10. -/
example : (0 : ℝ) ≤ 1 ∧ (1 : ℝ) ≤ 4 ∧ (0 : ℝ) ≤ 1 / 10 ∧ (1 / 10 : ℝ) ≤ 1 ∧ exDecline ≠ [] ∧ (exDecline.map (·.1)).Nodup :=
  ⟨by norm_num, by norm_num, by norm_num, by norm_num, by simp [exDecline], by simp [exDecline]⟩

/-- One feature in the default namespace. -/
noncomputable def realFeat (i : U32) (v : ℝ) : SparseFeatures ℝ :=
  (SparseFeatures.new : SparseFeatures ℝ).modifyOrCreate .default (fun n => n.addFeature i v)

/-- SquareCB over CbAdf (mtr) over Coin. -/
noncomputable def realSquare : RedConfig ℝ := .squareCb (1 / 10) 10 (1 / 2) (.cbAdf .mtr (.coin CoinConfig.dflt))

/-- A contextual bandit example with two actions. -/
noncomputable def realCb : Features ℝ := .cbAdf ⟨some (realFeat 1#32 1), [realFeat 2#32 1, realFeat 3#32 2]⟩

theorem realFeat_all (i : U32) (v : ℝ) : (realFeat i v).allFeatures = [(i, v)] := rfl

open SparseFeatures in
theorem realFeat_wf (i : U32) (v : ℝ) : (realFeat i v).WF ∧ (realFeat i v).NoComposite := by
  refine ⟨⟨⟨by simp [realFeat, modifyOrCreate, setNamespace, SparseFeatures.insert, SparseFeatures.new, Sorted], ?_, ?_⟩, ?_⟩, ?_⟩
  · simp [realFeat, modifyOrCreate, setNamespace, SparseFeatures.insert, SparseFeatures.new, getOrCreate, lookup, NsFeats.addFeature, RVec.push, NsFeats.new,
      RVec.new]
  · simp [realFeat, modifyOrCreate, setNamespace, SparseFeatures.insert, SparseFeatures.new, getOrCreate, lookup, NsFeats.addFeature, NsFeats.new]
  · intro ns
    by_cases h : Namespace.default = ns <;>
      simp [realFeat, modifyOrCreate, setNamespace, SparseFeatures.insert, SparseFeatures.new, getOrCreate, lookup, NsFeats.addFeature, vw, h]
  · intro h; rfl

theorem realCb_formed : realCb.Formed := by
  refine ⟨?_, ?_⟩
  · intro s hs
    simp at hs
    subst hs
    exact realFeat_wf _ _
  · intro a ha
    simp at ha
    rcases ha with rfl | rfl <;> exact realFeat_wf _ _

/-- A SquareCB model as C92_schedule asks for: a new one, on an example with two actions. -/
example : ∃ (w : Workspace ℝ) (m : Meta) (base : Workspace ℝ) (p : Prediction ℝ) (ft1 : Features ℝ), Workspace.new tinyHash tinyGlobal realSquare = .ok w ∧
    w = ⟨.squareCb m (1 / 10) 10 (1 / 2) base.red, (0, base.st)⟩ ∧ w.predict false realCb = .ok (p, ft1) := by
  obtain ⟨w, hw⟩ : ∃ w, Workspace.new tinyHash tinyGlobal realSquare = .ok w := ⟨_, rfl⟩
  have hall : ∀ f ∈ realCb.objects, ∀ iv ∈ f.allFeatures, iv.1.toNat < 2 ^ 2 := by
    intro f hf iv hiv
    simp only [realCb, Features.objects, Option.toList, List.cons_append, List.nil_append, List.mem_cons, List.not_mem_nil, or_false] at hf
    rcases hf with rfl | rfl | rfl <;> rw [realFeat_all] at hiv <;> simp only [List.mem_singleton] at hiv <;> subst hiv <;> decide
  obtain ⟨r, hr⟩ := C79_exact false tinyHash tinyGlobal realSquare w hw ⟨.cb, .sparseCBAdf, .actionProbs⟩ rfl trivial
    ⟨by norm_num, by norm_num, by norm_num, trivial⟩ (fun _ => realCb) [.predict 0] (by
      intro call hcall
      rw [List.mem_singleton] at hcall
      subst hcall
      exact ⟨⟨realCb_formed, fun h => (Bool.noConfusion h), rfl, hall, fun h => (Bool.noConfusion h)⟩, fun _ => by simp [realCb, Features.actionList]⟩)
  unfold Session.run at hr
  obtain ⟨⟨S1, o⟩, h1, _⟩ := bind_ok.1 hr
  simp only [Session.step] at h1
  obtain ⟨⟨p, ft1⟩, h2, _⟩ := bind_ok.1 h1
  have hb := built_of_new hw
  obtain ⟨red, st⟩ := w
  simp only at hb
  cases hb with
  | squareCb hsq hb hc => exact ⟨_, _, ⟨_, _⟩, p, ft1, hw, rfl, h2⟩

end Examples

end Rml
