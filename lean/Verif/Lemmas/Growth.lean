import Verif.Lemmas.Reference
import Mathlib.Tactic.Linarith
import Mathlib.Tactic.Positivity

/-! Lemmas for C111: the wealth of coin betting grows at most linearly. -/

set_option linter.unusedSectionVars false

namespace Rml
namespace Reference
variable {K : Type} [Field K] [LinearOrder K] [IsStrictOrderedRing K]

theorem largestValue_cons' (gx : K × K) (l : List (K × K)) : largestValue (gx :: l) = max |gx.2| (largestValue l) := by
  simp [largestValue]

theorem largestValue_nonneg (l : List (K × K)) : 0 ≤ largestValue l := by
  induction l with
  | nil => simp [largestValue]
  | cons a l ih => rw [largestValue_cons']; exact ih.trans (le_max_right _ _)

theorem le_largestValue {l : List (K × K)} {gx : K × K} (h : gx ∈ l) : |gx.2| ≤ largestValue l := by
  induction l with
  | nil => simp at h
  | cons a l ih =>
    rw [largestValue_cons']
    rcases List.mem_cons.1 h with rfl | h
    · exact le_max_left _ _
    · exact (ih h).trans (le_max_right _ _)

/-- If `beta` bounds the gradients, it is the bound as soon as there was one. -/
theorem largestGradient_eq {beta : K} {l : List (K × K)} (h : ∀ gx ∈ l, |gx.1| ≤ beta) :
    largestGradient beta l = if ∀ gx ∈ l, gx.1 = 0 then 0 else beta := by
  unfold largestGradient
  split
  · rfl
  · rename_i h1
    push_neg at h1
    obtain ⟨gx, hm, _⟩ := h1
    have hb : 0 ≤ beta := (abs_nonneg _).trans (h gx hm)
    refine max_eq_left ?_
    clear hm
    induction l with
    | nil => simpa using hb
    | cons a l ih =>
      simp only [List.map_cons, List.foldr_cons]
      exact max_le (h a (by simp)) (ih fun x hx => h x (by simp [hx]))

theorem sum_zero {l : List (K × K)} (h : ∀ gx ∈ l, gx.1 = 0) : (l.map fun gx => gx.1 * gx.2).sum = 0 := by
  induction l with
  | nil => rfl
  | cons a l ih => simp [h a (by simp), ih fun x hx => h x (by simp [hx])]

theorem abs_sum_le (l : List (K × K)) : |(l.map fun gx => gx.1 * gx.2).sum| ≤ (l.map fun gx => |gx.1 * gx.2|).sum := by
  induction l with
  | nil => simp
  | cons a l ih =>
    simp only [List.map_cons, List.sum_cons]
    exact (abs_add_le _ _).trans (by linarith)

theorem bet_zero {l : List (K × K)} (h : ∀ gx ∈ l, gx.1 = 0) (w b : K) : bet w b l = 0 := by
  unfold bet
  rw [sum_zero h]
  simp

/-- The bet is settled at the price at which it was placed. -/
theorem settled_eq {alpha beta : K} {l : List (K × K)} {gx : K × K} (h : ∀ y ∈ gx :: l, |y.1| ≤ beta) :
    gx.1 * gx.2 * bet (wealth alpha beta l) (largestGradient beta (gx :: l) * largestValue (gx :: l)) l = gx.1 * (newBet alpha beta l gx.2 * gx.2) := by
  by_cases h0 : gx.1 = 0
  · simp [h0]
  by_cases h1 : ∀ y ∈ l, y.1 = 0
  · unfold newBet
    rw [bet_zero h1, bet_zero h1]; simp
  · unfold newBet
    rw [largestGradient_eq h, largestGradient_eq (fun y hy => h y (by simp [hy])), if_neg (fun k => h0 (k gx (by simp))), if_neg h1, largestValue_cons', max_comm]
    ring

/-- A bet is at most the wealth per unit of the bound. -/
theorem bet_le {w b : K} (hw : 0 ≤ w) (hb : 0 < b) (l : List (K × K)) : |bet w b l| ≤ w / b := by
  unfold bet
  rw [if_pos hb, abs_mul, abs_neg]
  have hs := abs_sum_le l
  set s := (l.map fun gx => |gx.1 * gx.2|).sum
  have hs0 : 0 ≤ s := (abs_nonneg _).trans hs
  rw [abs_of_nonneg (div_nonneg hw (mul_nonneg hb.le (by linarith))), div_mul_eq_mul_div, div_le_div_iff₀ (mul_pos hb (by linarith)) hb]
  have h1 := mul_le_mul_of_nonneg_left hs (mul_nonneg hw hb.le)
  have h2 : 0 ≤ w * b * b := by positivity
  nlinarith

theorem wealth_pos {alpha beta : K} (ha : 0 < alpha) : ∀ {l : List (K × K)}, (∀ y ∈ l, |y.1| ≤ beta) → 0 < wealth alpha beta l
  | [], _ => ha
  | gx :: l, h => by
    have ih := wealth_pos ha (l := l) (fun y hy => h y (by simp [hy]))
    rw [wealth]
    by_cases h0 : gx.1 * gx.2 = 0
    · rw [h0]; simpa using ih
    have hg : gx.1 ≠ 0 := fun k => h0 (by simp [k])
    have hx : gx.2 ≠ 0 := fun k => h0 (by simp [k])
    rw [largestGradient_eq h, if_neg (fun k => hg (k gx (by simp)))]
    have hbeta : 0 < beta := (abs_pos.2 hg).trans_le (h gx (by simp))
    have hv : |gx.2| ≤ largestValue (gx :: l) := le_largestValue (by simp)
    have hv0 : 0 < largestValue (gx :: l) := (abs_pos.2 hx).trans_le hv
    have hb : 0 < beta * largestValue (gx :: l) := mul_pos hbeta hv0
    have hle : |gx.1 * gx.2| ≤ beta * largestValue (gx :: l) := by
      rw [abs_mul]
      exact mul_le_mul (h gx (by simp)) hv (abs_nonneg _) hbeta.le
    generalize beta * largestValue (gx :: l) = b at hb hle
    generalize gx.1 * gx.2 = d at h0 hle
    unfold bet
    rw [if_pos hb]
    have hs := abs_sum_le l
    set s := (l.map fun gx => |gx.1 * gx.2|).sum
    set z := (l.map fun gx => gx.1 * gx.2).sum
    have hs0 : 0 ≤ s := (abs_nonneg _).trans hs
    have hD : 0 < b * (b + s) := mul_pos hb (by linarith)
    have hkey : -(d * z) < b * (b + s) := by
      calc -(d * z) ≤ |d * z| := neg_le_abs _
        _ = |d| * |z| := abs_mul _ _
        _ ≤ b * s := mul_le_mul hle hs (abs_nonneg _) hb.le
        _ < b * (b + s) := mul_lt_mul_of_pos_left (by linarith) hb
    have : wealth alpha beta l - d * (wealth alpha beta l / (b * (b + s)) * -z) = wealth alpha beta l * ((b * (b + s) + d * z) / (b * (b + s))) := by
      have := hD.ne'
      generalize b * (b + s) = D at this
      field_simp
      ring
    rw [this]
    exact mul_pos ih (div_pos (by linarith) hD)

/-- What an example must satisfy; `lo` and `hi` are bounds for the labels and the initial range. -/
structure Good (beta lo hi : K) (k : ℕ) (e : Example K) : Prop where
  weight : 0 < e.weight
  label : lo ≤ e.label ∧ e.label ≤ hi
  small : 2 * (hi - lo) * e.weight ≤ beta
  nodup : (e.values.map fun iv => iv.1).Nodup
  length : e.values.length ≤ k

theorem filter_nodup {vs : List (U32 × K)} (h : (vs.map fun iv => iv.1).Nodup) {iv : U32 × K} (hm : iv ∈ vs) :
    vs.filter (fun jv => jv.1 = iv.1) = [iv] := by
  induction vs with
  | nil => simp at hm
  | cons a l ih =>
    simp only [List.map_cons, List.nodup_cons] at h
    rcases List.mem_cons.1 hm with rfl | hm
    · rw [List.filter_cons_of_pos (by simp)]
      have : l.filter (fun jv => jv.1 = iv.1) = [] := by
        rw [List.filter_eq_nil_iff]
        intro x hx hh
        exact h.1 (List.mem_map.2 ⟨x, hx, of_decide_eq_true hh⟩)
      rw [this]
    · have : a.1 ≠ iv.1 := fun k => h.1 (List.mem_map.2 ⟨iv, hm, k.symm⟩)
      rw [List.filter_cons_of_neg (by simpa using this), ih h.2 hm]

theorem outcomes_cons (s : Step K) (h : List (Step K)) (i : U32) : outcomes (s :: h) i = outcomesOf s i ++ outcomes h i := by
  simp [outcomes]

theorem outcomesOf_mem {s : Step K} (hn : (s.ex.values.map fun iv => iv.1).Nodup) {iv : U32 × K} (hm : iv ∈ s.ex.values) :
    outcomesOf s iv.1 = [(s.gradient, iv.2)] := by
  unfold outcomesOf
  rw [filter_nodup hn hm]
  rfl

theorem outcomesOf_nil {s : Step K} {i : U32} (hm : i ∉ s.ex.values.map fun iv => iv.1) : outcomesOf s i = [] := by
  unfold outcomesOf
  have : s.ex.values.filter (fun iv => iv.1 = i) = [] := by
    rw [List.filter_eq_nil_iff]
    intro x hx hh
    exact hm (List.mem_map.2 ⟨x, hx, of_decide_eq_true hh⟩)
  rw [this]; rfl

/-- The sum of a function that vanishes elsewhere over the indices of an example. -/
theorem sum_indices {S : Finset U32} : ∀ {vs : List (U32 × K)}, (vs.map fun iv => iv.1).Nodup → (∀ iv ∈ vs, iv.1 ∈ S) → ∀ (f : U32 → K) (g : U32 × K → K),
    (∀ iv ∈ vs, f iv.1 = g iv) → (∀ i ∈ S, i ∉ vs.map (fun iv => iv.1) → f i = 0) → ∑ i ∈ S, f i = (vs.map g).sum := by
  intro vs hn hS f g hf h0
  have hsub : (vs.map fun iv => iv.1).toFinset ⊆ S := by
    intro i hi
    obtain ⟨iv, hm, rfl⟩ := List.mem_map.1 (List.mem_toFinset.1 hi)
    exact hS iv hm
  rw [← Finset.sum_subset hsub (fun i hi hn => h0 i hi (fun k => hn (List.mem_toFinset.2 k))), List.sum_toFinset _ hn, List.map_map]
  congr 1
  exact List.map_congr_left fun iv hm => hf iv hm

/-- What a round adds to the wealth of all bettors together. -/
theorem total_step {alpha beta : K} {h : List (Step K)} {s : Step K} {S : Finset U32} (hn : (s.ex.values.map fun iv => iv.1).Nodup) (hS : ∀ iv ∈ s.ex.values, iv.1 ∈ S)
    (hg : ∀ r ∈ s :: h, |r.gradient| ≤ beta) :
    ∑ i ∈ S, wealth alpha beta (outcomes (s :: h) i) = ∑ i ∈ S, wealth alpha beta (outcomes h i) -
      s.gradient * (s.ex.values.map fun iv => newBet alpha beta (outcomes h iv.1) iv.2 * iv.2).sum := by
  have hg' : ∀ i, ∀ y ∈ outcomes (s :: h) i, |y.1| ≤ beta := by
    intro i y hy
    obtain ⟨r, hr, hy⟩ := List.mem_flatMap.1 hy
    unfold outcomesOf at hy
    rw [List.mem_reverse, List.mem_map] at hy
    obtain ⟨iv, _, rfl⟩ := hy
    exact hg r hr
  have key := sum_indices hn hS (fun i => wealth alpha beta (outcomes h i) - wealth alpha beta (outcomes (s :: h) i))
    (fun iv => s.gradient * (newBet alpha beta (outcomes h iv.1) iv.2 * iv.2)) ?_ ?_
  · rw [Finset.sum_sub_distrib, List.sum_map_mul_left] at key
    linarith
  · intro iv hm
    have hh := hg' iv.1
    simp only [outcomes_cons, outcomesOf_mem hn hm, List.cons_append, List.nil_append] at hh ⊢
    rw [← settled_eq hh, wealth]
    ring
  · intro i _ hi
    simp only [outcomes_cons, outcomesOf_nil hi, List.nil_append, sub_self]

theorem lowest_cons (lo : K) (s : Step K) (h : List (Step K)) : lowest lo (s :: h) = min s.ex.label (lowest lo h) := by simp [lowest]
theorem highest_cons (hi : K) (s : Step K) (h : List (Step K)) : highest hi (s :: h) = max s.ex.label (highest hi h) := by simp [highest]

theorem normOf_le (h : List (Step K)) (e : Example K) : normOf h e ≤ e.values.length := by
  unfold normOf
  generalize e.values = vs
  induction vs with
  | nil => simp
  | cons a l ih =>
    simp only [List.map_cons, List.sum_cons, List.length_cons]
    push_cast
    have : (a.2 / max (largestValue (outcomes h a.1)) |a.2|) ^ 2 ≤ 1 := by
      rw [sq_le_one_iff_abs_le_one, abs_div]
      have h0 : 0 ≤ max (largestValue (outcomes h a.1)) |a.2| := (abs_nonneg _).trans (le_max_right _ _)
      rw [abs_of_nonneg h0]
      exact div_le_one_of_le₀ (le_max_right _ _) h0
    linarith

theorem normOf_nonneg (h : List (Step K)) (e : Example K) : 0 ≤ normOf h e := by
  unfold normOf
  refine List.sum_nonneg ?_
  intro x hx
  obtain ⟨iv, _, rfl⟩ := List.mem_map.1 hx
  positivity

/-- The winnings of one round. -/
theorem winnings {lo hi lo' hi' y w q avg k b : K} (hl : lo ≤ lo') (hh : hi' ≤ hi) (h0 : lo' ≤ 0) (h1 : 0 ≤ hi') (hy : lo' ≤ y) (hy' : y ≤ hi') (hw : 0 < w) (ha : 0 < avg)
    (hk : 0 ≤ k) (hwa : w * avg ≤ k * w + 1 / 1000000) (hb : 2 * (hi - lo) * w ≤ b) :
    |2 * (clip lo' hi' q - y) * w| ≤ b ∧
    -(2 * (clip lo' hi' q - y) * w * (q * avg)) ≤ (k * b + 2 * (hi - lo) / 1000000) * (hi - lo) := by
  have hR : 0 ≤ hi - lo := by linarith
  have hp : lo' ≤ clip lo' hi' q ∧ clip lo' hi' q ≤ hi' := ⟨le_max_left _ _, max_le (h0.trans h1) (min_le_right _ _)⟩
  have hpy : |clip lo' hi' q - y| ≤ hi - lo := abs_le.2 ⟨by linarith [hp.1], by linarith [hp.2]⟩
  constructor
  · rw [abs_mul, abs_mul, abs_of_pos hw, abs_of_pos (two_pos)]
    exact (mul_le_mul_of_nonneg_right (mul_le_mul_of_nonneg_left hpy two_pos.le) hw.le).trans hb
  · have hrhs : 0 ≤ (k * b + 2 * (hi - lo) / 1000000) * (hi - lo) := by
      have : 0 ≤ b := le_trans (by positivity) hb
      positivity
    rcases lt_or_ge hi' q with h | h
    · have : clip lo' hi' q = hi' := by rw [clip, min_eq_right h.le, max_eq_right (h0.trans h1)]
      rw [this]
      have a1 : 0 ≤ hi' - y := by linarith
      have a2 : 0 ≤ q := by linarith
      have : 0 ≤ 2 * (hi' - y) * w * (q * avg) := by positivity
      linarith
    rcases lt_or_ge q lo' with h2 | h2
    · have : clip lo' hi' q = lo' := by rw [clip, max_eq_left ((min_le_left _ _).trans h2.le)]
      rw [this]
      have a1 : 0 ≤ y - lo' := by linarith
      have a2 : 0 ≤ -q := by linarith
      have : 0 ≤ 2 * (y - lo') * w * (-q * avg) := by positivity
      linarith
    · have hc : clip lo' hi' q = q := by rw [clip, min_eq_left h, max_eq_right h2]
      rw [hc] at hpy ⊢
      have hq : |q| ≤ hi - lo := abs_le.2 ⟨by linarith, by linarith⟩
      calc -(2 * (q - y) * w * (q * avg)) ≤ |2 * (q - y) * w * (q * avg)| := neg_le_abs _
        _ = |q - y| * |q| * (2 * (w * avg)) := by
          rw [abs_mul, abs_mul, abs_mul, abs_mul, abs_of_pos hw, abs_of_pos ha, abs_of_pos (two_pos : (0:K) < 2)]; ring
        _ ≤ (hi - lo) * (hi - lo) * (2 * (w * avg)) :=
          mul_le_mul_of_nonneg_right (mul_le_mul hpy hq (abs_nonneg _) hR) (by positivity)
        _ ≤ (hi - lo) * (hi - lo) * (2 * (k * w + 1 / 1000000)) := mul_le_mul_of_nonneg_left (by linarith) (by positivity)
        _ = (k * (2 * (hi - lo) * w) + 2 * (hi - lo) / 1000000) * (hi - lo) := by ring
        _ ≤ (k * b + 2 * (hi - lo) / 1000000) * (hi - lo) := mul_le_mul_of_nonneg_right (by linarith [mul_le_mul_of_nonneg_left hb hk]) hR

/-- What training preserves. -/
structure GInv (alpha beta lo hi lo0 hi0 : K) (k n : ℕ) (h : List (Step K)) : Prop where
  low : lo ≤ lowest lo0 h ∧ lowest lo0 h ≤ 0
  high : 0 ≤ highest hi0 h ∧ highest hi0 h ≤ hi
  grad : ∀ r ∈ h, |r.gradient| ≤ beta
  sumw : 0 ≤ (h.map fun s => s.ex.weight).sum
  norm : 0 ≤ totalNorm h ∧ totalNorm h ≤ k * (h.map fun s => s.ex.weight).sum
  total : ∀ S : Finset U32, (∀ r ∈ h, ∀ iv ∈ r.ex.values, iv.1 ∈ S) →
    ∑ i ∈ S, wealth alpha beta (outcomes h i) ≤ S.card * alpha + n * ((k * beta + 2 * (hi - lo) / 1000000) * (hi - lo))

theorem average_bounds {h : List (Step K)} {e : Example K} {k : ℕ} (hs : 0 ≤ (h.map fun s => s.ex.weight).sum)
    (hn : 0 ≤ totalNorm h ∧ totalNorm h ≤ k * (h.map fun s => s.ex.weight).sum) (hw : 0 < e.weight) (hk : e.values.length ≤ k) :
    0 < average h e ∧ e.weight * average h e ≤ k * e.weight + 1 / 1000000 := by
  have h1 := normOf_le h e
  have h2 := normOf_nonneg h e
  have h3 : normOf h e ≤ k := h1.trans (by exact_mod_cast hk)
  unfold average
  generalize (h.map fun s => s.ex.weight).sum = W at *
  generalize totalNorm h = N at *
  generalize normOf h e = m at *
  generalize e.weight = w at *
  have hW : 0 < W + w := by linarith
  have hmw : 0 ≤ m * w := mul_nonneg h2 hw.le
  refine ⟨div_pos (by linarith [hn.1]) hW, ?_⟩
  rw [mul_div_assoc', div_le_iff₀ hW]
  have a1 : m * w ≤ k * w := mul_le_mul_of_nonneg_right h3 hw.le
  have a2 : N + m * w + 1 / 1000000 ≤ k * (W + w) + 1 / 1000000 := by linarith [hn.2]
  have a3 := mul_le_mul_of_nonneg_left a2 hw.le
  have a4 : w * (1 / 1000000) ≤ 1 / 1000000 * (W + w) := by linarith
  linarith

theorem GInv.step {alpha beta lo hi lo0 hi0 : K} {k n : ℕ} {h : List (Step K)} (H : GInv alpha beta lo hi lo0 hi0 k n h) {e : Example K} (he : Good beta lo hi k e) :
    GInv alpha beta lo hi lo0 hi0 k (n + 1) (step alpha beta lo0 hi0 h e :: h) := by
  obtain ⟨ha, hwa⟩ := average_bounds H.sumw H.norm he.weight he.length
  have hlo : lo ≤ min e.label (lowest lo0 h) := le_min he.label.1 H.low.1
  have hhi : max e.label (highest hi0 h) ≤ hi := max_le he.label.2 H.high.2
  have hlo0 : min e.label (lowest lo0 h) ≤ 0 := (min_le_right _ _).trans H.low.2
  have hhi0 : 0 ≤ max e.label (highest hi0 h) := H.high.1.trans (le_max_right _ _)
  have hwin := winnings (q := (e.values.map fun iv => newBet alpha beta (outcomes h iv.1) iv.2 * iv.2).sum / average h e) hlo hhi hlo0 hhi0 (min_le_left _ _) (le_max_left _ _)
    he.weight ha (Nat.cast_nonneg k) hwa he.small
  have hg : ∀ r ∈ Reference.step alpha beta lo0 hi0 h e :: h, |r.gradient| ≤ beta := by
    intro r hr
    rcases List.mem_cons.1 hr with rfl | hr
    · exact hwin.1
    · exact H.grad r hr
  refine ⟨?_, ?_, hg, ?_, ?_, ?_⟩
  · rw [lowest_cons]; exact ⟨hlo, hlo0⟩
  · rw [highest_cons]; exact ⟨hhi0, hhi⟩
  · simp only [List.map_cons, List.sum_cons, Reference.step]
    linarith [H.sumw, he.weight]
  · simp only [List.map_cons, List.sum_cons, Reference.step, totalNorm]
    have h1 := normOf_le h e
    have h2 := normOf_nonneg h e
    have h3 : normOf h e ≤ k := h1.trans (by exact_mod_cast he.length)
    have a1 := mul_le_mul_of_nonneg_right h3 he.weight.le
    have a2 := mul_nonneg h2 he.weight.le
    exact ⟨by linarith [H.norm.1], by linarith [H.norm.2]⟩
  · intro S hS
    rw [total_step he.nodup (fun iv hiv => hS _ (by simp) iv hiv) hg]
    have := H.total S (fun r hr => hS r (by simp [hr]))
    have hw2 := hwin.2
    rw [div_mul_cancel₀ _ ha.ne'] at hw2
    simp only [Reference.step] at hw2 ⊢
    push_cast
    linarith

theorem snoc (alpha beta lo hi : K) (es : List (Example K)) (e : Example K) :
    train alpha beta lo hi (es ++ [e]) = Reference.step alpha beta lo hi (train alpha beta lo hi es) e :: train alpha beta lo hi es := by
  simp [train]

theorem GInv.train {alpha beta lo hi lo0 hi0 : K} {k : ℕ} (h1 : lo ≤ lo0) (h2 : lo0 ≤ 0) (h3 : 0 ≤ hi0) (h4 : hi0 ≤ hi) (es : List (Example K))
    (he : ∀ e ∈ es, Good beta lo hi k e) : GInv alpha beta lo hi lo0 hi0 k es.length (train alpha beta lo0 hi0 es) := by
  induction es using List.reverseRecOn with
  | nil => exact ⟨⟨h1, h2⟩, ⟨h3, h4⟩, by simp [Reference.train], by simp [Reference.train], by simp [Reference.train, totalNorm], by simp [Reference.train, outcomes, wealth]⟩
  | append_singleton es e ih =>
    rw [snoc, List.length_append]
    exact (ih fun x hx => he x (by simp [hx])).step (he e (by simp))

/-- A feature that has the value one in every example, such as the constant. -/
structure CInv (ci : U32) (h : List (Step K)) : Prop where
  one : ∀ y ∈ outcomes h ci, y.2 = 1
  norm : (h.map fun s => s.ex.weight).sum ≤ totalNorm h

theorem CInv.normOf_ge {ci : U32} {h : List (Step K)} (H : CInv ci h) {e : Example K} (hm : (ci, 1) ∈ e.values) : 1 ≤ normOf h e := by
  have h1 : largestValue (outcomes h ci) ≤ 1 := by
    have := H.one
    generalize outcomes h ci = l at *
    induction l with
    | nil => simp [largestValue]
    | cons a l ih =>
      rw [largestValue_cons', this a (by simp), abs_one]
      exact max_le le_rfl (ih fun x hx => this x (by simp [hx]))
  have h2 : (1 / max (largestValue (outcomes h ci)) |(1 : K)|) ^ 2 = 1 := by
    rw [abs_one, max_eq_right h1]; simp
  unfold normOf
  rw [← h2]
  refine List.single_le_sum ?_ _ (List.mem_map.2 ⟨(ci, 1), hm, rfl⟩)
  intro x hx
  obtain ⟨iv, _, rfl⟩ := List.mem_map.1 hx
  positivity

theorem CInv.average_ge {ci : U32} {h : List (Step K)} (H : CInv ci h) {e : Example K} (hm : (ci, 1) ∈ e.values) (hw : 0 < e.weight)
    (hs : 0 ≤ (h.map fun s => s.ex.weight).sum) : 1 ≤ average h e := by
  have h1 := mul_le_mul_of_nonneg_right (H.normOf_ge hm) hw.le
  unfold average
  rw [le_div_iff₀ (by linarith)]
  have : (0 : K) < 1 / 1000000 := by positivity
  linarith [H.norm]

theorem CInv.step {ci : U32} {h : List (Step K)} (H : CInv ci h) {s : Step K} (hm : (ci, 1) ∈ s.ex.values) (hn : (s.ex.values.map fun iv => iv.1).Nodup)
    (hw : 0 < s.ex.weight) : CInv ci (s :: h) := by
  constructor
  · intro y hy
    rw [outcomes_cons, outcomesOf_mem (iv := (ci, 1)) hn hm] at hy
    rcases List.mem_cons.1 hy with rfl | hy
    · rfl
    · exact H.one y hy
  · have h1 := mul_le_mul_of_nonneg_right (H.normOf_ge hm) hw.le
    simp only [List.map_cons, List.sum_cons, totalNorm]
    linarith [H.norm]

theorem weightOf_bound {alpha beta lo hi lo0 hi0 : K} {k : ℕ} (halpha : 0 < alpha) (hb : 0 < beta) (h1 : lo ≤ lo0) (h2 : lo0 ≤ 0) (h3 : 0 ≤ hi0) (h4 : hi0 ≤ hi) (ci : U32) (S : Finset U32)
    (es : List (Example K)) (he : ∀ e ∈ es, Good beta lo hi k e ∧ (ci, 1) ∈ e.values ∧ ∀ iv ∈ e.values, iv.1 ∈ S) :
    CInv ci (train alpha beta lo0 hi0 es) ∧ (∀ r ∈ train alpha beta lo0 hi0 es, ∀ iv ∈ r.ex.values, iv.1 ∈ S) ∧
    ∀ i, |weightOf alpha beta (train alpha beta lo0 hi0 es) i| * largestValue (outcomes (train alpha beta lo0 hi0 es) i) ≤
      (S.card * alpha + es.length * ((k * beta + 2 * (hi - lo) / 1000000) * (hi - lo))) / beta := by
  have hR : 0 ≤ hi - lo := by linarith
  induction es using List.reverseRecOn with
  | nil =>
    refine ⟨⟨by simp [train, outcomes], by simp [train, totalNorm]⟩, by simp [train], fun i => ?_⟩
    simp only [train, List.foldl_nil, weightOf, abs_zero, zero_mul, List.length_nil, Nat.cast_zero, add_zero]
    positivity
  | append_singleton es e ih =>
    obtain ⟨hC, hS, hW⟩ := ih fun x hx => he x (by simp [hx])
    obtain ⟨hgood, hm, heS⟩ := he e (by simp)
    have hG := GInv.train (alpha := alpha) h1 h2 h3 h4 es (fun x hx => (he x (by simp [hx])).1)
    have hG' := hG.step hgood
    have hav := hC.average_ge hm hgood.weight hG.sumw
    rw [snoc, List.length_append]
    generalize train alpha beta lo0 hi0 es = h at *
    have hmono : (S.card * alpha + es.length * ((k * beta + 2 * (hi - lo) / 1000000) * (hi - lo))) / beta ≤
        (S.card * alpha + ((es.length + [e].length : ℕ) : K) * ((k * beta + 2 * (hi - lo) / 1000000) * (hi - lo))) / beta := by
      refine div_le_div_of_nonneg_right ?_ hb.le
      have : 0 ≤ (k * beta + 2 * (hi - lo) / 1000000) * (hi - lo) := by positivity
      simp only [List.length_singleton]
      push_cast
      linarith
    refine ⟨hC.step hm hgood.nodup hgood.weight, ?_, fun i => ?_⟩
    · intro r hr
      rcases List.mem_cons.1 hr with rfl | hr
      · exact heS
      · exact hS r hr
    · refine le_trans ?_ hmono
      by_cases hi' : i ∈ e.values.map fun iv => iv.1
      · obtain ⟨iv, hiv, rfl⟩ := List.mem_map.1 hi'
        have ho := outcomesOf_mem (s := Reference.step alpha beta lo0 hi0 h e) hgood.nodup hiv
        have hg : ∀ y ∈ outcomes (Reference.step alpha beta lo0 hi0 h e :: h) iv.1, |y.1| ≤ beta := by
          intro y hy
          obtain ⟨r, hr, hy⟩ := List.mem_flatMap.1 hy
          unfold outcomesOf at hy
          rw [List.mem_reverse, List.mem_map] at hy
          obtain ⟨iv, _, rfl⟩ := hy
          exact hG'.grad r hr
        rw [weightOf, if_neg (by rw [ho]; simp)]
        rw [outcomes_cons, ho, List.cons_append, List.nil_append] at hg ⊢
        set gx := ((Reference.step alpha beta lo0 hi0 h e).gradient, iv.2)
        have hpos := fun j => wealth_pos (alpha := alpha) (beta := beta) halpha (l := outcomes h j) (by
          intro y hy
          obtain ⟨r, hr, hy⟩ := List.mem_flatMap.1 hy
          unfold outcomesOf at hy
          rw [List.mem_reverse, List.mem_map] at hy
          obtain ⟨iv, _, rfl⟩ := hy
          exact hG.grad r hr)
        have htot : wealth alpha beta (outcomes h iv.1) ≤ S.card * alpha + es.length * ((k * beta + 2 * (hi - lo) / 1000000) * (hi - lo)) :=
          (Finset.single_le_sum (f := fun j => wealth alpha beta (outcomes h j)) (fun j _ => (hpos j).le) (heS iv hiv)).trans (hG.total S hS)
        have hB : 0 ≤ (S.card * alpha + es.length * ((k * beta + 2 * (hi - lo) / 1000000) * (hi - lo))) / beta := by
          have := (hpos iv.1).le.trans htot
          positivity
        have hava : (Reference.step alpha beta lo0 hi0 h e).average = average h e := rfl
        rw [hava, lastBet, abs_div, abs_of_pos (lt_of_lt_of_le one_pos hav)]
        rw [largestGradient_eq hg]
        split
        · simp only [zero_mul]
          unfold bet
          simpa using hB
        · rcases (largestValue_nonneg (gx :: outcomes h iv.1)).eq_or_lt with h0 | h0
          · rw [← h0, mul_zero]; exact hB
          · have hbl := bet_le (hpos iv.1).le (mul_pos hb h0) (outcomes h iv.1)
            generalize largestValue (gx :: outcomes h iv.1) = V at *
            have hV := h0.ne'
            have hbne := hb.ne'
            calc |bet (wealth alpha beta (outcomes h iv.1)) (beta * V) (outcomes h iv.1)| / average h e * V
                ≤ |bet (wealth alpha beta (outcomes h iv.1)) (beta * V) (outcomes h iv.1)| * V :=
                  mul_le_mul_of_nonneg_right (div_le_self (abs_nonneg _) hav) h0.le
              _ ≤ wealth alpha beta (outcomes h iv.1) / (beta * V) * V := mul_le_mul_of_nonneg_right hbl h0.le
              _ = wealth alpha beta (outcomes h iv.1) / beta := by field_simp
              _ ≤ _ := div_le_div_of_nonneg_right htot hb.le
      · have ho := outcomesOf_nil (s := Reference.step alpha beta lo0 hi0 h e) hi'
        rw [weightOf, if_pos ho, outcomes_cons, ho, List.nil_append]
        exact hW i

end Reference
end Rml
