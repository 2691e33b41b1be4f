import Verif.Props.Rounded
import Verif.Props.Progress
import Verif.Lemmas.Explore32
import Verif.Lemmas.CoinBound

/-!
# C94 on `f32` bit patterns

`C94_greedy` is about rounded real numbers. Here epsilon-greedy runs on the bit patterns of `f32` with the IEEE operations.
-/

namespace Rml

section
variable [t : F32Trans]

/-- Numbers are `f32`. -/
@[reducible] local instance greedyNumbers : Flt (BitVec 32) := ieeeFlt t

/-- The lowest score is the one of the lowest value. -/
theorem argMinFrom_val (r : Trans ℝ) (ys : List (BitVec 32)) : ∀ (i best : Nat) (bv : BitVec 32), IeeeFinite bv → (∀ y ∈ ys, IeeeFinite y) →
    argMinFrom i best bv ys = @argMinFrom ℝ (roundFlt fl32 r) i best (V bv) (ys.map V) := by
  induction ys with
  | nil => intro i best bv _ _; rfl
  | cons y ys ih =>
    intro i best bv hb hy
    have h1 := ih (i + 1) i y (hy y (by simp)) (fun z hz => hy z (by simp [hz]))
    have h2 := ih (i + 1) best bv hb (fun z hz => hy z (by simp [hz]))
    have h3 : Flt.lt y bv = @Flt.lt ℝ (roundFlt fl32 r) (V y) (V bv) := by
      rw [Bool.eq_iff_iff]
      refine (lt_val (t := t) (hy y (by simp)) hb).trans ?_
      exact (decide_eq_true_iff).symm
    rw [List.map_cons]
    unfold argMinFrom
    rw [h3, h1, h2]

theorem argMin_val (r : Trans ℝ) (ys : List (BitVec 32)) (h : ∀ y ∈ ys, IeeeFinite y) : argMin ys = @argMin ℝ (roundFlt fl32 r) (ys.map V) := by
  cases ys with
  | nil => rfl
  | cons y ys => exact congrArg some (argMinFrom_val r ys 1 0 y (h y (by simp)) (fun z hz => h z (by simp [hz])))

/-- C94, epsilon-greedy on `f32`: with finite scores and an epsilon between 0 and 1, and at most 2^24 actions, every probability is a finite number that is at least the floor, and their sum
differs from 1 by no more than rounding. -/
theorem C94_greedy_f32 (eps : BitVec 32) (he : IeeeFinite eps ∧ 0 ≤ ieeeValue eps ∧ ieeeValue eps ≤ 1) (scores : List (Nat × BitVec 32)) (hne : scores ≠ [])
    (hs : ∀ e ∈ scores, IeeeFinite e.2) (hn : scores.length ≤ 2 ^ 24) :
    ∃ out, greedyProbs eps scores = .ok out ∧ out.map (·.1) = scores.map (·.1) ∧
      (∀ e ∈ out, IeeeFinite e.2 ∧ 0 ≤ ieeeValue e.2 ∧ fl32 (ieeeValue eps / scores.length) ≤ ieeeValue e.2) ∧
      |(out.map (fun e => ieeeValue e.2)).sum - 1| ≤ 3 * (1 / 2 ^ 24) + ((scores.length : ℝ) + 3) * (1 / 2 ^ 150) := by
  have he' : 0 ≤ V eps ∧ V eps ≤ 1 := he.2
  obtain ⟨c1, c2⟩ := ofNat_exact hn
  have c3 : V (f32OfNat scores.length) = scores.length := c2
  have hl1 : (1 : ℝ) ≤ scores.length := by exact_mod_cast List.length_pos_iff.2 hne
  have hq := div_val (t := t) he.1 c1 (by rw [c3]; positivity) (by
    rw [c3, abs_div, abs_of_nonneg he'.1, abs_of_pos (by linarith : (0 : ℝ) < scores.length)]
    exact (div_le_self he'.1 hl1).trans (he'.2.trans (by norm_num)))
  have q0 : 0 ≤ V (f32Div eps (f32OfNat scores.length)) := by
    rw [hq.2, c3]
    exact fl32_nonneg (div_nonneg he'.1 (by linarith))
  have q1 : V (f32Div eps (f32OfNat scores.length)) ≤ 1 := by
    rw [hq.2, c3]
    have := fl_le (x := V eps / scores.length) (k := 0) (by norm_num) (by rw [zpow_zero]; exact (div_le_self he'.1 hl1).trans he'.2)
    rwa [zpow_zero] at this
  have hr := sub_val (t := t) one_fin he.1 (by rw [V_one, abs_of_nonneg (by linarith)]; exact le_trans (by linarith) (show (1 : ℝ) ≤ _ by norm_num))
  have r0 : 0 ≤ V (f32Sub one32 eps) := by
    rw [hr.2, V_one]
    exact fl32_nonneg (by linarith)
  have r1 : V (f32Sub one32 eps) ≤ 1 := by
    rw [hr.2, V_one]
    have := fl_le (x := 1 - V eps) (k := 0) (by norm_num) (by rw [zpow_zero]; linarith)
    rwa [zpow_zero] at this
  have ha := add_val (t := t) hq.1 hr.1 (by rw [abs_of_nonneg (by linarith)]; exact le_trans (by linarith) (show (2 : ℝ) ≤ _ by norm_num))
  have hround := C94_greedy rounding_fl32 (by norm_num) (by norm_num) (by norm_num) trans32 (V eps) he'.1 he'.2 (scores.map (fun e => (e.1, V e.2))) (by simpa using hne) (by simpa using hn)
  obtain ⟨out', g1, g2, g3, g4⟩ := hround
  have hmap : (scores.map (fun e => (e.1, V e.2))).map (·.2) = (scores.map (·.2)).map V := by simp [List.map_map, Function.comp_def]
  have hids : (scores.map (fun e => (e.1, V e.2))).map (·.1) = scores.map (·.1) := by simp [List.map_map, Function.comp_def]
  rw [List.length_map] at g3 g4
  rw [hids] at g2
  unfold greedyProbs at g1
  rw [hmap, ← argMin_val trans32 _ (fun y hy => by obtain ⟨e, h, rfl⟩ := List.mem_map.1 hy; exact hs e h), List.length_map] at g1
  have e1 : @Flt.div ℝ (roundFlt fl32 trans32) (V eps) (@Flt.ofNat ℝ (roundFlt fl32 trans32) scores.length) = V (f32Div eps (f32OfNat scores.length)) := by
    rw [hq.2, c3]
    show fl32 (V eps / fl32 (scores.length : ℝ)) = _
    rw [fl32_nat _ hn]
  have e2 : @Flt.sub ℝ (roundFlt fl32 trans32) (@Flt.one ℝ (roundFlt fl32 trans32)) (V eps) = V (f32Sub one32 eps) := by
    rw [hr.2, V_one]
    rfl
  rw [e1, e2] at g1
  unfold greedyProbs
  cases hb : argMin (scores.map (·.2)) with
  | none =>
    rw [hb] at g1
    cases g1
  | some b =>
    rw [hb] at g1
    simp only [unwrapOpt, ok_bind, List.getElem?_map, List.map_map] at g1 ⊢
    cases hsb : scores[b]? with
    | none =>
      rw [hsb] at g1
      cases g1
    | some e =>
      rw [hsb] at g1
      simp only [Option.map_some, Except.ok.injEq, Function.comp_def] at g1 ⊢
      set ob := (scores.map (fun e => (e.1, Flt.div eps (Flt.ofNat scores.length)))).set b (e.1, Flt.add (Flt.div eps (Flt.ofNat scores.length)) (Flt.sub Flt.one eps)) with hob
      have hval : out' = ob.map (fun x => (x.1, V x.2)) := by
        rw [← g1, hob, List.map_set, List.map_map]
        congr 1
        exact Prod.ext rfl ha.2.symm
      refine ⟨ob, rfl, ?_, fun x hx => ?_, ?_⟩
      · rw [← g2, hval, List.map_map]
        rfl
      · have h1 := g3 (x.1, V x.2) (by rw [hval]; exact List.mem_map.2 ⟨x, hx, rfl⟩)
        refine ⟨?_, le_trans (fl32_nonneg (div_nonneg he'.1 (by linarith))) h1, h1⟩
        rw [hob] at hx
        rcases List.mem_or_eq_of_mem_set hx with hx | rfl
        · obtain ⟨y, _, rfl⟩ := List.mem_map.1 hx
          exact hq.1
        · exact ha.1
      · rw [hval, List.map_map] at g4
        exact g4

end

/-- Epsilon 1/2 and two actions of scores 1 and 2. -/
example : ∃ eps : BitVec 32, (IeeeFinite eps ∧ 0 ≤ ieeeValue eps ∧ ieeeValue eps ≤ 1) ∧ ∀ e ∈ [(0, 0x3f800000#32), (1, 0x40000000#32)], IeeeFinite (e : Nat × BitVec 32).2 := by
  have v2 : V 0x3f000000#32 = 1 / 2 := by
    have := V_pow 126 (by norm_num) (by norm_num)
    norm_num at this
    exact this
  refine ⟨0x3f000000#32, ⟨by unfold IeeeFinite; decide, ?_, ?_⟩, ?_⟩
  · rw [show ieeeValue 0x3f000000#32 = 1 / 2 from v2]; norm_num
  · rw [show ieeeValue 0x3f000000#32 = 1 / 2 from v2]; norm_num
  · intro e he
    simp only [List.mem_cons, List.not_mem_nil, or_false] at he
    rcases he with rfl | rfl <;> (unfold IeeeFinite; decide)

end Rml
