import Verif.SpecExplore32
import Verif.Lemmas.Bound32
import Verif.Lemmas.Explore
import Verif.Lemmas.Safe2
import Verif.Props.Coin

/-! Single precision exploration: no probability is NaN, so nothing panics. -/

namespace Rml

/-! ### `enforce_min_prob` on any numbers -/

section generic
variable {F : Type} [Flt F]

theorem headLen_perm {l l' : List F} (h : l.Perm l') :
    headLen false l ≤ l'.length - (l'.filter (fun e => Flt.eq e Flt.zero)).length := by
  have h1 := headLen_le false l
  simp only [Bool.false_eq_true, if_false] at h1
  rw [← h.length_eq, ← (h.filter _).length_eq]
  exact h1

theorem enforce_runs {N : F → Prop} (hN : ∀ x, N x → Flt.isNaN x = false) {eps : F} (h0 : Flt.lt eps Flt.zero = false) (h1 : Flt.lt Flt.one eps = false)
    (hm : ∀ n y, Flt.eq eps Flt.zero = false → N (Flt.fmax y (Flt.div eps (Flt.ofNat n)))) (hd : ∀ n, N (Flt.div (Flt.one : F) (Flt.ofNat n)))
    {els : List (Nat × F)} (hne : els ≠ []) (hn : ∀ e ∈ els, N e.2) : ∃ out, enforceUnwrap eps els = .ok out ∧ ∀ e ∈ out, N e.2 := by
  have hl : ¬ els.length = 0 := fun h => hne (List.length_eq_zero_iff.1 h)
  unfold enforceUnwrap enforceMinProb
  rw [if_neg hl]
  cases hz : Flt.eq eps Flt.zero
  swap
  · rw [if_pos rfl]
    exact ⟨els, rfl, hn⟩
  rw [if_neg (by decide), h0, h1, if_neg (by decide)]
  simp only [Bool.false_eq_true, if_false]
  set support := els.length - (els.filter (fun e => Flt.eq e.2 Flt.zero)).length with hs
  split
  · refine ⟨_, rfl, fun e he => ?_⟩
    obtain ⟨x, hx, rfl⟩ := List.mem_map.1 he
    split
    · exact hd _
    · exact hn x hx
  · have hc : cmpCheck (els.map (·.2)) = .ok () := by
      unfold cmpCheck
      rw [if_neg]
      rintro ⟨_, hany⟩
      obtain ⟨v, hv, hnv⟩ := List.any_eq_true.1 hany
      obtain ⟨e, he, rfl⟩ := List.mem_map.1 hv
      rw [hN _ (hn e he)] at hnv
      cases hnv
    rw [hc, ok_bind]
    have hp := sortDesc_perm (els.map (·.2))
    cases hsort : sortDesc (els.map (·.2)) with
    | nil =>
      have := hp.length_eq
      rw [hsort] at this
      simp at this
      exact absurd (List.length_eq_zero_iff.1 this.symm) hne
    | cons p0 ps =>
      rw [hsort] at hp
      have h2 := headLen_perm hp
      rw [List.length_map, List.filter_map, List.length_map] at h2
      obtain ⟨s, h3⟩ := rhoLoop_ok false support (Flt.div eps (Flt.ofNat support)) (p0 :: ps) ⟨0, Flt.zero, 0, p0⟩ (by
        simp only [Nat.zero_add]
        exact h2)
      simp only
      rw [h3, ok_bind, ok_bind]
      refine ⟨_, rfl, fun e he => ?_⟩
      obtain ⟨x, hx, rfl⟩ := List.mem_map.1 he
      split
      · exact hm support _ hz
      · exact hn x hx

theorem enforce_ids {eps : F} {els out : List (Nat × F)} (h : enforceUnwrap eps els = .ok out) : out.map (·.1) = els.map (·.1) := by
  unfold enforceUnwrap enforceMinProb at h
  have key : ∀ (c : Nat × F → Bool) (g : Nat × F → F), (els.map (fun e => if c e then (e.1, g e) else e)).map (·.1) = els.map (·.1) := by
    intro c g
    rw [List.map_map]
    refine List.map_congr_left fun e _ => ?_
    simp only [Function.comp]
    split <;> rfl
  split at h
  · simp [unwrapOpt, bind, Except.bind] at h
  · split at h
    · simp only [ok_bind, unwrapOpt, Except.ok.injEq] at h
      rw [h]
    · split at h
      · simp [unwrapOpt, bind, Except.bind] at h
      · simp only [Bool.false_eq_true, if_false] at h
        split at h
        · simp only [ok_bind, unwrapOpt, Except.ok.injEq] at h
          rw [← h]
          exact key _ _
        · obtain ⟨r, h1, h⟩ := bind_ok.1 h
          obtain ⟨_, _, h1⟩ := bind_ok.1 h1
          split at h1
          · cases h1
          · obtain ⟨s, _, h1⟩ := bind_ok.1 h1
            simp only [Except.ok.injEq] at h1
            subst h1
            simp only [unwrapOpt, Except.ok.injEq] at h
            rw [← h]
            exact key _ _

theorem squareCb_runs {N T : F → Prop} {R : List (Nat × F) → Prop} {gamma eps : F} {sc : List (Nat × F)} {b : Nat} {be : Nat × F}
    (hc : cmpCheck (sc.map (·.2)) = .ok ()) (h1 : argMin (sc.map (·.2)) = some b) (h2 : sc[b]? = some be)
    (hen : ∀ els : List (Nat × F), els ≠ [] → (∀ e ∈ els, N e.2) → ∃ out, enforceUnwrap eps els = .ok out ∧ R out) (hn : ∀ e ∈ sc, N e.2)
    (hq : ∀ e ∈ sc, N (Flt.div Flt.one (Flt.add (Flt.ofNat sc.length) (Flt.mul gamma (Flt.sub e.2 be.2))))) (hz : T Flt.zero)
    (ha : ∀ a, ∀ e, T a → e ∈ sc → T (Flt.add a (Flt.div Flt.one (Flt.add (Flt.ofNat sc.length) (Flt.mul gamma (Flt.sub e.2 be.2))))))
    (hs : ∀ a, T a → N (Flt.sub Flt.one a)) : ∃ out, squareCbProbs gamma eps sc = .ok out ∧ R out := by
  have hne : sc ≠ [] := by rintro rfl; simp at h2
  unfold squareCbProbs
  rw [hc, ok_bind, h1]
  simp only [unwrapOpt, ok_bind, h2, List.getElem?_map, Option.map_some]
  refine hen _ (by simpa using hne) ?_
  intro e hmem
  rcases List.mem_or_eq_of_mem_set hmem with hmem | rfl
  · obtain ⟨x, hx, rfl⟩ := List.mem_map.1 hmem
    split
    · exact hn x hx
    · exact hq x hx
  · refine hs _ ?_
    have key : ∀ (l : List (Nat × F)) (a : F), T a → (∀ e ∈ l, e ∈ sc) →
        T (l.foldl (fun t e => if e.1 = be.1 then t else Flt.add t (if e.1 = be.1 then e else
          (e.1, Flt.div Flt.one (Flt.add (Flt.ofNat sc.length) (Flt.mul gamma (Flt.sub e.2 be.2))))).2) a) := by
      intro l
      induction l with
      | nil => intro a h _; exact h
      | cons x l ih =>
        intro a h hl
        simp only [List.foldl_cons]
        refine ih _ ?_ (fun e he => hl e (by simp [he]))
        split
        · exact h
        · exact ha a x h (hl x (by simp))
    exact key sc Flt.zero hz (fun e he => he)

theorem softmax_runs {N : F → Prop} {lam eps : F} {sc : List (Nat × F)} {b : Nat} {be : Nat × F}
    (hc : cmpCheck (sc.map (·.2)) = .ok ()) (h1 : argMin (sc.map (·.2)) = some b) (h2 : sc[b]? = some be) (hne : sc ≠ [])
    (hen : ∀ els : List (Nat × F), els ≠ [] → (∀ e ∈ els, N e.2) → ∃ out, enforceUnwrap eps els = .ok out ∧ ∀ e ∈ out, N e.2)
    (hq : ∀ e ∈ sc, N (Flt.div (Flt.exp (Flt.mul (Flt.neg lam) (Flt.sub e.2 be.2)))
      ((sc.map (fun e => Flt.exp (Flt.mul (Flt.neg lam) (Flt.sub e.2 be.2)))).foldl Flt.add Flt.zero))) :
    ∃ out, softmaxProbs lam eps sc = .ok out ∧ (∀ e ∈ out, N e.2) ∧ out.map (·.1) = sc.map (·.1) := by
  unfold softmaxProbs
  rw [hc, ok_bind, h1]
  simp only [unwrapOpt, ok_bind, h2]
  have ht : ∀ (w : Nat × F → F) (l : List (Nat × F)) (a : F), (l.map (fun e => (e.1, w e))).foldl (fun t e => Flt.add t e.2) a = (l.map w).foldl Flt.add a := by
    intro w l
    induction l with
    | nil => intro a; rfl
    | cons x l ih => intro a; simp only [List.map_cons, List.foldl_cons]; exact ih _
  rw [ht]
  obtain ⟨out, h5, h6⟩ := hen ((sc.map (fun e => (e.1, Flt.exp (Flt.mul (Flt.neg lam) (Flt.sub e.2 be.2))))).map (fun e =>
    (e.1, Flt.div e.2 ((sc.map (fun e => Flt.exp (Flt.mul (Flt.neg lam) (Flt.sub e.2 be.2)))).foldl Flt.add Flt.zero)))) (by simpa using hne) (by
    intro e hmem
    rw [List.map_map] at hmem
    obtain ⟨x, hx, rfl⟩ := List.mem_map.1 hmem
    exact hq x hx)
  refine ⟨out, h5, h6, ?_⟩
  rw [enforce_ids h5, List.map_map, List.map_map]
  rfl

end generic

/-! ### Rounded results on one side of a number -/

/-- A number at least `B`, or infinity. -/
def AtLeast (B : ℝ) (a : BitVec 32) : Prop := IeeeFinite a ∧ B ≤ V a ∨ IeeeInf a ∧ ieeeSign a = false

theorem cr_ge {x : ℝ} {r b : BitVec 32} (h : CorrectlyRounded x r) (hb : IeeeFinite b) (hx : V b ≤ x) (h0 : 0 ≤ x) : AtLeast (V b) r := by
  rcases lt_or_ge |x| (2 ^ 128 - 2 ^ 103) with h1 | h1
  · obtain ⟨h2, h3⟩ := h.1 h1
    refine .inl ⟨h2, ?_⟩
    by_contra hlt
    rw [not_le] at hlt
    have h4 := (h3 b hb).1
    rw [abs_of_nonpos (by show ieeeValue r - x ≤ 0; unfold V at hlt hx; linarith), abs_of_nonpos (by show ieeeValue b - x ≤ 0; unfold V at hx; linarith)] at h4
    unfold V at hlt
    linarith
  · obtain ⟨h2, h3⟩ := h.2 h1
    refine .inr ⟨h2, ?_⟩
    cases hs : ieeeSign r
    · rfl
    · exact absurd (h3.1 hs) (not_lt.2 h0)

theorem cr_le {x : ℝ} {r b : BitVec 32} (h : CorrectlyRounded x r) (hb : IeeeFinite b) (hx : x ≤ V b) (h0 : x < 0 ∨ |x| < 2 ^ 128 - 2 ^ 103) :
    IeeeFinite r ∧ V r ≤ V b ∨ IeeeInf r ∧ ieeeSign r = true := by
  rcases lt_or_ge |x| (2 ^ 128 - 2 ^ 103) with h1 | h1
  · obtain ⟨h2, h3⟩ := h.1 h1
    refine .inl ⟨h2, ?_⟩
    by_contra hlt
    rw [not_le] at hlt
    have h4 := (h3 b hb).1
    rw [abs_of_nonneg (by show 0 ≤ ieeeValue r - x; unfold V at hlt hx; linarith), abs_of_nonneg (by show 0 ≤ ieeeValue b - x; unfold V at hx; linarith)] at h4
    unfold V at hlt
    linarith
  · obtain ⟨h2, h3⟩ := h.2 h1
    refine .inr ⟨h2, h3.2 ?_⟩
    rcases h0 with h0 | h0
    · exact h0
    · exact absurd h1 (not_le.2 h0)

/-- The number one. -/
def one32 : BitVec 32 := 0x3f800000#32

theorem one_fin : IeeeFinite one32 := by unfold IeeeFinite; decide
theorem V_one : V one32 = 1 := by
  have h1 : ieeeSign one32 = false := by decide
  have h2 : ieeeExponent one32 = 127 := by decide
  have h3 : ieeeFraction one32 = 0 := by decide
  unfold V ieeeValue
  rw [h1, h2, h3]
  norm_num

theorem fin_nan {a : BitVec 32} (h : IeeeFinite a) : f32IsNaN a = false := by
  cases hn : f32IsNaN a
  · rfl
  · exact absurd ((ieeeNaN_iff a).2 hn).1 h

theorem AtLeast.nan {B : ℝ} {a : BitVec 32} (h : AtLeast B a) : f32IsNaN a = false := by
  rcases h with h | h
  · exact fin_nan h.1
  · exact not_nan_of_inf h.1

section
variable [t : F32Trans]

/-- Numbers are `f32`. -/
@[reducible] local instance exploreNumbers : Flt (BitVec 32) := ieeeFlt t

/-- Dividing a number between 0 and 1 by a number that is at least one gives a number between 0 and 1. -/
theorem div_unit {a b : BitVec 32} (ha : BetweenZeroOne a) (hb : AtLeast 1 b) : BetweenZeroOne (f32Div a b) := by
  rcases hb with ⟨hb, h1⟩ | ⟨hb, _⟩
  · have hpos : (0 : ℝ) < V b := by linarith
    have h2 : 0 ≤ V a / V b := div_nonneg ha.2.1 hpos.le
    have h3 : V a / V b ≤ 1 := (div_le_one hpos).2 (ha.2.2.trans h1)
    have hc := C97_div t a b ha.1 hb hpos.ne'
    have hsmall : |V a / V b| < 2 ^ 128 - 2 ^ 103 := by
      rw [abs_of_nonneg h2]
      refine h3.trans_lt ?_
      norm_num
    have h4 := cr_ge hc zero_fin (by rw [V_zero]; exact h2) h2
    have h5 := cr_le hc one_fin (by rw [V_one]; exact h3) (.inr hsmall)
    have h6 := (hc.1 hsmall).1
    refine ⟨h6, ?_, ?_⟩
    · rcases h4 with h4 | h4
      · rw [V_zero] at h4; exact h4.2
      · exact absurd h4.1.1 h6
    · rcases h5 with h5 | h5
      · rw [V_one] at h5; exact h5.2
      · exact absurd h5.1.1 h6
  · have hnn : ¬ IeeeNaN (f32Div a b) := by
      rw [show f32Div a b = (ieeeFlt t).div a b from rfl, C97_div_nan]
      rintro (h | h | h | h)
      · exact ha.1 h.1
      · exact h.2 hb.2
      · exact ha.1 h.1.1
      · have := fin_of_small (a := b) (by show |ieeeValue b| ≤ _; rw [h.2]; simp)
        exact this hb.1
    have h := (C97_div_special t a b hnn).2.2 hb
    refine ⟨h.1, ?_, ?_⟩
    · exact h.2.ge
    · rw [show ieeeValue (f32Div a b) = 0 from h.2]; norm_num

theorem ofNat_ge {n : Nat} (h : 1 ≤ n) : AtLeast 1 (f32OfNat n) := by
  have h1 : (1 : ℝ) ≤ n := by exact_mod_cast h
  have := cr_ge (C97_of_nat t n) one_fin (by rw [V_one]; exact h1) (by linarith)
  rwa [V_one] at this

theorem mul_ge {a b : BitVec 32} (ha : NotNegative a) (hb : NotNegative b) : AtLeast 0 (f32Mul a b) := by
  have h := mul_nonneg ha.2 hb.2
  have := cr_ge (C97_mul t a b ha.1 hb.1) zero_fin (by rw [V_zero]; exact h) h
  rwa [V_zero] at this

/-- `-a * b`. -/
theorem mul_neg_le {a b : BitVec 32} (ha : NotNegative a) (hb : NotNegative b) :
    IeeeFinite (f32Mul (f32Neg a) b) ∧ V (f32Mul (f32Neg a) b) ≤ 0 ∨ IeeeInf (f32Mul (f32Neg a) b) ∧ ieeeSign (f32Mul (f32Neg a) b) = true := by
  have hn := neg_fin ha.1
  have h : V (f32Neg a) * V b ≤ 0 := by
    rw [hn.2]
    have := mul_nonneg ha.2 hb.2
    unfold V
    linarith
  have := cr_le (C97_mul t (f32Neg a) b hn.1 hb.1) zero_fin (by rw [V_zero]; exact h) (by
    rcases h.lt_or_eq with h | h
    · exact .inl h
    · refine .inr ?_
      unfold V at h
      rw [h]
      norm_num)
  rwa [V_zero] at this

theorem mul_neg_zero {a b : BitVec 32} (ha : NotNegative a) (hb : IeeeFinite b) (h0 : V b = 0) :
    IeeeFinite (f32Mul (f32Neg a) b) ∧ V (f32Mul (f32Neg a) b) = 0 := by
  have hn := neg_fin ha.1
  have h := mul_val hn.1 hb (by rw [h0, mul_zero, abs_zero]; positivity)
  refine ⟨h.1, ?_⟩
  rw [h.2, h0, mul_zero]
  exact fl32_zero

theorem add_ge {a b : BitVec 32} (ha : AtLeast 1 a) (hb : AtLeast 0 b) : AtLeast 1 (f32Add a b) := by
  rcases ha with ⟨fa, ha⟩ | ⟨ia, sa⟩
  · rcases hb with ⟨fb, hb⟩ | ⟨ib, sb⟩
    · have := cr_ge (C97_add t a b fa fb) one_fin (by rw [V_one]; unfold V at ha hb; linarith) (by unfold V at ha hb; linarith)
      rwa [V_one] at this
    · have h := (C97_add_special t a b).2.1 ib (fun h => fa h.1) (fun h => absurd h.1 fa)
      rw [show f32Add a b = b from h]
      exact .inr ⟨ib, sb⟩
  · have h := (C97_add_special t a b).1 ia (by
      rcases hb with ⟨fb, _⟩ | ⟨ib, _⟩
      · exact fun h => fb h.1
      · exact fun h => h.2 ib.2) (by
      intro ib
      rcases hb with ⟨fb, _⟩ | ⟨_, sb⟩
      · exact absurd ib.1 fb
      · rw [sa, sb])
    rw [show f32Add a b = a from h]
    exact .inr ⟨ia, sa⟩

/-- A total of numbers between 0 and 1. -/
def TotalOk (lo : ℝ) (a : BitVec 32) : Prop := IeeeFinite a ∧ lo ≤ V a ∧ V a ≤ (2 : ℝ) ^ (25 : ℤ)

theorem total_add {lo : ℝ} (hlo : 0 ≤ lo) {a b : BitVec 32} (ha : TotalOk lo a) (hb : BetweenZeroOne b) : TotalOk lo (f32Add a b) ∧ V b ≤ V (f32Add a b) := by
  have hb' : 0 ≤ V b ∧ V b ≤ 1 := hb.2
  have h1 : 0 ≤ V a := hlo.trans ha.2.1
  have p1 : (2 : ℝ) ^ (25 : ℤ) + 1 ≤ (2 : ℝ) ^ (127 : ℤ) := by norm_num
  have h2 : |V a + V b| ≤ (2 : ℝ) ^ (127 : ℤ) := by
    rw [abs_of_nonneg (by linarith)]
    linarith [ha.2.2]
  have h3 := add_val ha.1 hb.1 h2
  have h4 : fl32 (V a) = V a := fl_V ha.1 (by rw [abs_of_nonneg h1]; linarith [ha.2.2])
  have h5 : fl32 (V b) = V b := fl_V hb.1 (by rw [abs_of_nonneg hb'.1]; linarith [hb'.2, ha.2.2])
  have h6 : V a ≤ V (f32Add a b) := by
    rw [h3.2]
    conv_lhs => rw [← h4]
    exact fl32_mono (by linarith)
  have h7 : V b ≤ V (f32Add a b) := by
    rw [h3.2]
    conv_lhs => rw [← h5]
    exact fl32_mono (by linarith)
  refine ⟨⟨h3.1, ha.2.1.trans h6, ?_⟩, h7⟩
  rw [h3.2]
  refine fl_stuck (by norm_num) ?_
  have : (2 : ℝ) ^ ((25 : ℤ) - 25) = 1 := by norm_num
  rw [this]
  linarith [ha.2.2]

theorem total_list {lo : ℝ} (hlo : 0 ≤ lo) (l : List (BitVec 32)) : ∀ a, TotalOk lo a → (∀ b ∈ l, BetweenZeroOne b) →
    TotalOk lo (l.foldl f32Add a) ∧ ∀ b ∈ l, V b ≤ V (l.foldl f32Add a) := by
  induction l with
  | nil => intro a ha _; exact ⟨ha, by simp⟩
  | cons b l ih =>
    intro a ha hl
    obtain ⟨h1, h2⟩ := total_add hlo ha (hl b (by simp))
    obtain ⟨h3, h4⟩ := ih (f32Add a b) h1 (fun x hx => hl x (by simp [hx]))
    obtain ⟨h5, _⟩ := (show TotalOk (V (f32Add a b)) (l.foldl f32Add (f32Add a b)) ∧ True from by
      refine ⟨?_, trivial⟩
      have h1' : TotalOk (V (f32Add a b)) (f32Add a b) := ⟨h1.1, le_rfl, h1.2.2⟩
      have hpos : 0 ≤ V (f32Add a b) := hlo.trans h1.2.1
      clear ih h3 h4
      have key : ∀ (lo : ℝ) (hlo : 0 ≤ lo) (m : List (BitVec 32)) (a : BitVec 32), TotalOk lo a → (∀ b ∈ m, BetweenZeroOne b) → TotalOk lo (m.foldl f32Add a) := by
        intro lo hlo m
        induction m with
        | nil => intro a ha _; exact ha
        | cons c m ih => intro a ha hm; exact ih _ (total_add hlo ha (hm c (by simp))).1 (fun x hx => hm x (by simp [hx]))
      exact key _ hpos l _ h1' (fun x hx => hl x (by simp [hx])))
    refine ⟨h3, fun x hx => ?_⟩
    rcases List.mem_cons.1 hx with rfl | hx
    · exact h2.trans h5.2.1
    · exact h4 x hx

/-! ### The lowest score -/

theorem argMinFrom_low (rest : List (BitVec 32)) : ∀ (pre : List (BitVec 32)) (best : Nat) (bv : BitVec 32), pre[best]? = some bv →
    (∀ w ∈ pre ++ rest, IeeeFinite w) → (∀ w ∈ pre, V bv ≤ V w) →
    ∃ v, (pre ++ rest)[argMinFrom pre.length best bv rest]? = some v ∧ ∀ w ∈ pre ++ rest, V v ≤ V w := by
  induction rest with
  | nil => intro pre best bv hb _ h; rw [List.append_nil]; exact ⟨bv, hb, h⟩
  | cons y ys ih =>
    intro pre best bv hb hf h
    have hbm : bv ∈ pre := List.mem_of_getElem? hb
    have e : pre ++ y :: ys = (pre ++ [y]) ++ ys := by simp
    have hl : pre.length + 1 = (pre ++ [y]).length := by simp
    unfold argMinFrom
    rw [e] at hf ⊢
    split
    · rename_i hlt
      rw [show Flt.lt y bv = f32Lt y bv from rfl, lt_val (hf y (by simp)) (hf bv (by simp [hbm]))] at hlt
      rw [hl]
      refine ih (pre ++ [y]) pre.length y (by simp) hf ?_
      intro w hw
      rcases List.mem_append.1 hw with hw | hw
      · exact hlt.le.trans (h w hw)
      · simp at hw; rw [hw]
    · rename_i hlt
      rw [show Flt.lt y bv = f32Lt y bv from rfl, lt_val (hf y (by simp)) (hf bv (by simp [hbm])), not_lt] at hlt
      rw [hl]
      refine ih (pre ++ [y]) best bv (by rw [List.getElem?_append_left (by rw [List.getElem?_eq_some_iff] at hb; exact hb.1)]; exact hb) hf ?_
      intro w hw
      rcases List.mem_append.1 hw with hw | hw
      · exact h w hw
      · simp at hw; rw [hw]; exact hlt

theorem argMin_low {sc : List (Nat × BitVec 32)} (hne : sc ≠ []) (hf : ∀ e ∈ sc, IeeeFinite e.2) :
    ∃ b be, argMin (sc.map (·.2)) = some b ∧ sc[b]? = some be ∧ ∀ e ∈ sc, V be.2 ≤ V e.2 := by
  cases sc with
  | nil => exact absurd rfl hne
  | cons x xs =>
    obtain ⟨v, h1, h2⟩ := argMinFrom_low (xs.map (·.2)) [x.2] 0 x.2 rfl (by
      intro w hw
      obtain ⟨e, he, rfl⟩ := List.mem_map.1 (show w ∈ (x :: xs).map (·.2) from hw)
      exact hf e he) (by simp)
    rw [show [x.2] ++ xs.map (·.2) = (x :: xs).map (·.2) from rfl, List.getElem?_map] at h1
    obtain ⟨be, h3, rfl⟩ := Option.map_eq_some_iff.1 h1
    exact ⟨_, be, rfl, h3, fun e he => h2 e.2 (List.mem_map.2 ⟨e, he, rfl⟩)⟩

/-! ### The three policies -/

theorem moderate_sub {a b : BitVec 32} (ha : Moderate a) (hb : Moderate b) (h : V b ≤ V a) : NotNegative (f32Sub a b) ∧ (a = b → V (f32Sub a b) = 0) := by
  have h1 : |V a| ≤ 2 ^ 126 := ha.2
  have h2 : |V b| ≤ 2 ^ 126 := hb.2
  rw [abs_le] at h1 h2
  have h3 := sub_val ha.1 hb.1 (by
    rw [abs_le, show (2 : ℝ) ^ (127 : ℤ) = 2 ^ 126 + 2 ^ 126 by norm_num]
    constructor <;> linarith [h1.1, h1.2, h2.1, h2.2])
  refine ⟨⟨h3.1, ?_⟩, ?_⟩
  · show 0 ≤ V _
    rw [h3.2]
    exact fl32_nonneg (by linarith)
  · rintro rfl
    rw [h3.2, sub_self]
    exact fl32_zero

theorem cmpCheck_fine {sc : List (Nat × BitVec 32)} (h : ∀ e ∈ sc, f32IsNaN e.2 = false) : cmpCheck (sc.map (·.2)) = .ok () := by
  unfold cmpCheck
  rw [if_neg]
  rintro ⟨_, hany⟩
  obtain ⟨v, hv, hnv⟩ := List.any_eq_true.1 hany
  obtain ⟨e, he, rfl⟩ := List.mem_map.1 hv
  rw [show Flt.isNaN e.2 = f32IsNaN e.2 from rfl, h e he] at hnv
  cases hnv

/-- No probability is NaN. -/
def NumbersOnly (ps : List (Nat × BitVec 32)) : Prop := ∀ e ∈ ps, f32IsNaN e.2 = false

omit t in
theorem unit_one : BetweenZeroOne one32 := ⟨one_fin, by rw [show ieeeValue one32 = 1 from V_one]; norm_num, V_one.le⟩

/-- A number that is not negative, or infinity. -/
abbrev Up (x : BitVec 32) : Prop := f32Le 0#32 x = true

theorem AtLeast.up {x : BitVec 32} (h : AtLeast 0 x) : Up x := by
  rcases h with ⟨hf, hv⟩ | ⟨hi, hs⟩
  · exact (C97_compare t 0#32 x zero_fin hf).2.1.2 (by rw [show ieeeValue 0#32 = 0 from V_zero]; exact hv)
  · unfold Up f32Le
    have h1 := not_nan_of_inf hi
    have h2 : f32IsNaN 0#32 = false := by decide
    have h3 : f32Key 0#32 = 0 := by decide
    rw [ieeeSign_eq] at hs
    rw [h1, h2, h3]
    unfold f32Key
    rw [hs]
    simp

theorem up_nan {x : BitVec 32} (h : Up x) : f32IsNaN x = false := by
  unfold Up f32Le at h
  cases hn : f32IsNaN x
  · rfl
  · rw [hn] at h
    simp at h

theorem unit_up {x : BitVec 32} (h : BetweenZeroOne x) : Up x := AtLeast.up (.inl ⟨h.1, h.2.1⟩)

theorem up_div_nat {a : BitVec 32} (ha : BetweenZeroOne a) (h0 : V a ≠ 0) (n : Nat) : Up (f32Div a (f32OfNat n)) := by
  rcases Nat.eq_zero_or_pos n with rfl | hn
  · have ha' : 0 ≤ V a := ha.2.1
    have hz : f32OfNat 0 = 0#32 := by decide
    rw [hz]
    have hnn : ¬ IeeeNaN (f32Div a 0#32) := by
      rw [show f32Div a 0#32 = (ieeeFlt t).div a 0#32 from rfl, C97_div_nan]
      rintro (h | h | h | h)
      · exact ha.1 h.1
      · exact zero_fin h.1
      · exact ha.1 h.1.1
      · exact h0 h.1
    have hsp := C97_div_special t a 0#32 hnn
    have hi := hsp.2.1 (.inr V_zero)
    refine AtLeast.up (.inr ⟨hi, ?_⟩)
    cases hs : ieeeSign (f32Div a 0#32)
    · rfl
    · exfalso
      have h1 := hsp.1.1 hs
      have h2 : ieeeSign 0#32 = false := by decide
      rw [h2] at h1
      have h3 : ieeeSign a = true := by simpa using h1
      have hpos : 0 < V a := lt_of_le_of_ne ha' (Ne.symm h0)
      unfold V ieeeValue at hpos
      rw [h3] at hpos
      simp only [if_true] at hpos
      have : (0 : ℝ) ≤ (if ieeeExponent a = 0 then (ieeeFraction a / 2 ^ 23 : ℝ) * (2 : ℝ) ^ (-126 : ℤ)
        else (1 + ieeeFraction a / 2 ^ 23 : ℝ) * (2 : ℝ) ^ ((ieeeExponent a : ℤ) - 127)) := by split <;> positivity
      linarith
  · exact unit_up (div_unit ha (ofNat_ge hn))

theorem enforce_gen {N : BitVec 32 → Prop} (hN : ∀ x, N x → f32IsNaN x = false) (hup : ∀ x, Up x → N x) {eps : BitVec 32} (he : BetweenZeroOne eps)
    {els : List (Nat × BitVec 32)} (hne : els ≠ []) (hn : ∀ e ∈ els, N e.2) : ∃ out, enforceUnwrap eps els = .ok out ∧ ∀ e ∈ out, N e.2 := by
  have _ : LawfulCmp (BitVec 32) := lawfulCmp_ieee t
  have he' : 0 ≤ V eps ∧ V eps ≤ 1 := he.2
  refine enforce_runs hN ?_ ?_ ?_ ?_ hne hn
  · cases h : (Flt.lt eps Flt.zero)
    · rfl
    · have := (lt_val he.1 zero_fin).1 h
      rw [V_zero] at this
      linarith
  · cases h : (Flt.lt Flt.one eps)
    · rfl
    · have := (lt_val one_fin he.1).1 h
      rw [V_one] at this
      linarith
  · intro n y h
    have h0 : V eps ≠ 0 := by
      intro h0
      have := (C97_compare t eps 0#32 he.1 zero_fin).2.2.2 (by rw [show ieeeValue eps = 0 from h0, show ieeeValue 0#32 = 0 from V_zero])
      rw [show (ieeeFlt t).eq eps 0#32 = Flt.eq eps Flt.zero from rfl, h] at this
      cases this
    have hm := up_div_nat he h0 n
    have hp := fmax_props y (Flt.div eps (Flt.ofNat n)) (up_nan hm)
    exact hup _ (LawfulCmp.le_trans _ _ _ hm hp.2.1)
  · exact fun n => hup _ (up_div_nat unit_one (by rw [V_one]; norm_num) n)

theorem enforce32 {eps : BitVec 32} (he : BetweenZeroOne eps) {els : List (Nat × BitVec 32)} (hne : els ≠ []) (hn : NumbersOnly els) :
    ∃ out, enforceUnwrap eps els = .ok out ∧ NumbersOnly out := enforce_gen (fun _ h => h) (fun _ h => up_nan h) he hne hn

theorem e32_add (a b : BitVec 32) : Flt.add a b = f32Add a b := rfl
theorem e32_sub (a b : BitVec 32) : Flt.sub a b = f32Sub a b := rfl
theorem e32_mul (a b : BitVec 32) : Flt.mul a b = f32Mul a b := rfl
theorem e32_div (a b : BitVec 32) : Flt.div a b = f32Div a b := rfl
theorem e32_ofNat (n : Nat) : (Flt.ofNat n : BitVec 32) = f32OfNat n := rfl
theorem e32_one : (Flt.one : BitVec 32) = one32 := rfl
theorem e32_zero : (Flt.zero : BitVec 32) = 0#32 := rfl
theorem e32_addf : (Flt.add : BitVec 32 → BitVec 32 → BitVec 32) = f32Add := rfl
theorem e32_neg (a : BitVec 32) : Flt.neg a = f32Neg a := rfl
theorem e32_exp (a : BitVec 32) : Flt.exp a = t.exp a := rfl

theorem softmax32 (hexp : SaneExp t) {lam eps : BitVec 32} (hl : NotNegative lam) (he : BetweenZeroOne eps) {sc : List (Nat × BitVec 32)} (hne : sc ≠ [])
    (hs : ∀ e ∈ sc, Moderate e.2) : ∃ out, softmaxProbs lam eps sc = .ok out ∧ (∀ e ∈ out, Up e.2) ∧ out.map (·.1) = sc.map (·.1) := by
  obtain ⟨b, be, h1, h2, h3⟩ := argMin_low hne (fun e he => (hs e he).1)
  have hbm := List.mem_of_getElem? h2
  have hu : ∀ e ∈ sc, BetweenZeroOne (t.exp (f32Mul (f32Neg lam) (f32Sub e.2 be.2))) :=
    fun e he => hexp.unit _ (mul_neg_le hl (moderate_sub (hs e he) (hs be hbm) (h3 e he)).1)
  have hbest : V (t.exp (f32Mul (f32Neg lam) (f32Sub be.2 be.2))) = 1 := by
    have hz := (moderate_sub (hs be hbm) (hs be hbm) le_rfl)
    have := mul_neg_zero hl hz.1.1 (hz.2 rfl)
    exact hexp.zero _ this.1 this.2
  have htot := total_list le_rfl (sc.map (fun e => t.exp (f32Mul (f32Neg lam) (f32Sub e.2 be.2)))) 0#32 ⟨zero_fin, V_zero.ge, by rw [V_zero]; positivity⟩ (by
    intro x hx
    obtain ⟨e, he, rfl⟩ := List.mem_map.1 hx
    exact hu e he)
  have hge : AtLeast 1 ((sc.map (fun e => t.exp (f32Mul (f32Neg lam) (f32Sub e.2 be.2)))).foldl f32Add 0#32) := by
    refine .inl ⟨htot.1.1, ?_⟩
    rw [← hbest]
    exact htot.2 _ (List.mem_map.2 ⟨be, hbm, rfl⟩)
  refine softmax_runs (N := Up) (cmpCheck_fine (fun e he => fin_nan (hs e he).1)) h1 h2 hne
    (fun els hne hn => enforce_gen (fun _ h => up_nan h) (fun _ h => h) he hne hn) ?_
  intro e he
  simp only [e32_sub, e32_neg, e32_div, e32_exp, e32_mul, e32_zero, e32_addf]
  exact unit_up (div_unit (hu e he) hge)

theorem fl_unit_err {x : ℝ} (h0 : 0 ≤ x) (h1 : x ≤ 1) : |fl32 x - x| ≤ 1 / 2 ^ 25 := by
  rcases h1.lt_or_eq with h1 | rfl
  · rcases h0.lt_or_eq with h0 | rfl
    · refine (fl32_err_ulp x).trans ?_
      have hu : ulpExp x ≤ -24 := by
        unfold ulpExp
        rw [abs_of_pos h0]
        have : Int.log 2 x < 0 := by
          rw [← Int.lt_zpow_iff_log_lt (by norm_num) h0]
          simpa using h1
        exact max_le (by omega) (by norm_num)
      have : (2 : ℝ) ^ ulpExp x ≤ (2 : ℝ) ^ (-24 : ℤ) := zpow_le_zpow_right₀ (by norm_num) hu
      calc (2 : ℝ) ^ ulpExp x / 2 ≤ (2 : ℝ) ^ (-24 : ℤ) / 2 := div_le_div_of_nonneg_right this (by norm_num)
        _ = 1 / 2 ^ 25 := by norm_num
    · rw [fl32_zero]; norm_num
  · have := fl_pow (k := 0) (by norm_num)
    simp only [zpow_zero] at this
    rw [this]
    norm_num

theorem div_le_self' {a : BitVec 32} (ha : BetweenZeroOne a) {n : Nat} (hn : 1 ≤ n) : V (f32Div a (f32OfNat n)) ≤ V a := by
  have ha' : 0 ≤ V a ∧ V a ≤ 1 := ha.2
  rcases ofNat_ge hn with ⟨hb, h1⟩ | ⟨hb, hs⟩
  · have hpos : (0 : ℝ) < V (f32OfNat n) := by linarith
    have h3 : V a / V (f32OfNat n) ≤ V a := div_le_self ha'.1 h1
    have h2 : 0 ≤ V a / V (f32OfNat n) := div_nonneg ha'.1 hpos.le
    have := cr_le (C97_div t a (f32OfNat n) ha.1 hb hpos.ne') ha.1 h3 (.inr (by
      show |V a / V (f32OfNat n)| < _
      rw [abs_of_nonneg h2]
      refine (h3.trans ha'.2).trans_lt ?_
      norm_num))
    rcases this with h | h
    · exact h.2
    · exact absurd h.1.1 (div_unit ha (.inl ⟨hb, h1⟩)).1
  · have hu := div_unit ha (.inr ⟨hb, hs⟩)
    have hnn : ¬ IeeeNaN (f32Div a (f32OfNat n)) := fun h => hu.1 h.1
    have := ((C97_div_special t a _ hnn).2.2 hb).2
    rw [show V (f32Div a (f32OfNat n)) = 0 from this]
    exact ha'.1

theorem greedy32 {eps : BitVec 32} (he : BetweenZeroOne eps) {sc : List (Nat × BitVec 32)} (hne : sc ≠ []) (hs : ∀ e ∈ sc, Moderate e.2) :
    ∃ out, greedyProbs eps sc = .ok out ∧ (∀ e ∈ out, BetweenZeroOne e.2) ∧ out.map (·.1) = sc.map (·.1) := by
  obtain ⟨b, be, h1, h2, h3⟩ := argMin_low hne (fun e he => (hs e he).1)
  have hlen : 1 ≤ sc.length := by cases sc with
    | nil => exact absurd rfl hne
    | cons _ _ => simp
  have hq := div_unit he (ofNat_ge hlen)
  have he' : 0 ≤ V eps ∧ V eps ≤ 1 := he.2
  have p1 : (1 : ℝ) ≤ (2 : ℝ) ^ (0 : ℤ) := by norm_num
  have p2 : (2 : ℝ) ^ (0 : ℤ) + 1 ≤ (2 : ℝ) ^ (127 : ℤ) := by norm_num
  have hsub := sub_val one_fin he.1 (by rw [V_one, abs_le]; constructor <;> linarith)
  have hsub0 : 0 ≤ V (f32Sub one32 eps) := by rw [hsub.2]; exact fl32_nonneg (by rw [V_one]; linarith)
  have hsub1 : V (f32Sub one32 eps) ≤ 1 := by
    rw [hsub.2]
    have := fl_le (x := V one32 - V eps) (k := 0) (by norm_num) (by rw [V_one]; linarith)
    simpa using this
  have hq' : 0 ≤ V (f32Div eps (f32OfNat sc.length)) ∧ V (f32Div eps (f32OfNat sc.length)) ≤ 1 := hq.2
  have hadd := add_val hq.1 hsub.1 (by rw [abs_le]; constructor <;> linarith)
  have hsum : V (f32Add (f32Div eps (f32OfNat sc.length)) (f32Sub one32 eps)) ≤ 1 := by
    rw [hadd.2]
    have e1 : V (f32Div eps (f32OfNat sc.length)) ≤ V eps := div_le_self' he hlen
    have e2 := fl_unit_err (x := V one32 - V eps) (by rw [V_one]; linarith) (by rw [V_one]; linarith)
    rw [← hsub.2, V_one] at e2
    have := fl_stuck (x := V (f32Div eps (f32OfNat sc.length)) + V (f32Sub one32 eps)) (k := 0) (by norm_num) (by
      rw [show (2 : ℝ) ^ (0 : ℤ) = 1 by norm_num, show (2 : ℝ) ^ ((0 : ℤ) - 25) = 1 / 2 ^ 25 by norm_num]
      rw [abs_le] at e2
      linarith [e2.1, e2.2])
    simpa using this
  have hsum0 : 0 ≤ V (f32Add (f32Div eps (f32OfNat sc.length)) (f32Sub one32 eps)) := by
    rw [hadd.2]
    exact fl32_nonneg (by linarith)
  unfold greedyProbs
  rw [h1]
  simp only [unwrapOpt, ok_bind, List.getElem?_map, h2, Option.map_some]
  refine ⟨_, rfl, ?_, ?_⟩
  · intro e hmem
    rcases List.mem_or_eq_of_mem_set hmem with hmem | rfl
    · obtain ⟨x, _, rfl⟩ := List.mem_map.1 hmem
      exact hq
    · exact ⟨hadd.1, hsum0, hsum⟩
  · rw [List.map_set, List.map_map]
    refine List.ext_getElem? fun k => ?_
    rw [List.getElem?_set]
    split
    · rename_i hk
      subst hk
      obtain ⟨hlt, hbe⟩ := List.getElem?_eq_some_iff.1 h2
      simp [hlt, hbe]
    · simp [Function.comp_def]

theorem square32 {gamma eps : BitVec 32} (hg : NotNegative gamma) (he : BetweenZeroOne eps) {sc : List (Nat × BitVec 32)} (hne : sc ≠ [])
    (hs : ∀ e ∈ sc, Moderate e.2) : ∃ out, squareCbProbs gamma eps sc = .ok out ∧ NumbersOnly out := by
  obtain ⟨b, be, h1, h2, h3⟩ := argMin_low hne (fun e he => (hs e he).1)
  have hbm := List.mem_of_getElem? h2
  have hlen : 1 ≤ sc.length := by cases sc with
    | nil => exact absurd rfl hne
    | cons _ _ => simp
  have hu : ∀ e ∈ sc, BetweenZeroOne (f32Div one32 (f32Add (f32OfNat sc.length) (f32Mul gamma (f32Sub e.2 be.2)))) := fun e he =>
    div_unit unit_one (add_ge (ofNat_ge hlen) (mul_ge hg (moderate_sub (hs e he) (hs be hbm) (h3 e he)).1))
  have p2 : (2 : ℝ) ^ (25 : ℤ) + 1 ≤ (2 : ℝ) ^ (127 : ℤ) := by norm_num
  refine squareCb_runs (N := fun x => f32IsNaN x = false) (T := TotalOk 0) (cmpCheck_fine (fun e he => fin_nan (hs e he).1)) h1 h2
    (fun els hne hn => enforce32 he hne hn) (fun e he => fin_nan (hs e he).1) ?_ ?_ ?_ ?_
  · intro e he
    simp only [e32_sub, e32_one, e32_div, e32_add, e32_mul, e32_ofNat]
    exact fin_nan (hu e he).1
  · rw [e32_zero]
    exact ⟨zero_fin, V_zero.ge, by rw [V_zero]; positivity⟩
  · intro a e ha he
    simp only [e32_sub, e32_one, e32_div, e32_add, e32_mul, e32_ofNat]
    exact (total_add le_rfl ha (hu e he)).1
  · intro a ha
    simp only [e32_sub, e32_one]
    exact fin_nan (sub_val one_fin ha.1 (by rw [V_one, abs_le]; constructor <;> linarith [ha.2.1, ha.2.2])).1

/-- Exploration on moderate scores gives numbers. -/
theorem probsOn32 (hexp : SaneExp t) (c : RedConfig (BitVec 32)) (h : Sane32 t c) : c.ProbsOn Moderate NumbersOnly := by
  induction c with
  | coin _ => trivial
  | unknown _ => trivial
  | binary c ih => exact ih h
  | cbAdf _ c ih => exact ih h
  | debug c ih => exact ih h
  | elementwise _ _ _ c ih => exact ih h
  | greedy e c ih => exact ⟨fun sc hne _ hs => (greedy32 h.1 hne hs).imp fun _ q => ⟨q.1, fun e he => fin_nan (q.2.1 e he).1⟩, ih h.2⟩
  | softmax e l c ih => exact ⟨fun sc hne _ hs => (softmax32 hexp h.2.1 h.1 hne hs).imp fun _ q => ⟨q.1, fun e he => up_nan (q.2.1 e he)⟩, ih h.2.2⟩
  | squareCb e gs ge c ih => exact ⟨fun n sc hne _ hs => square32 (h.2.1 n) h.1 hne hs, ih h.2.2⟩

end
end Rml
