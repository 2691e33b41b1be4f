import Verif.Lemmas.ExploreVal

/-!
# C94 on `f32` bit patterns: the floor, SquareCB and softmax

`C94_floor`, `C94_squarecb_partial` and `C94_softmax_partial` are about rounded real numbers. Here the same code runs on the bit patterns of `f32` with the IEEE
operations. Products of the parameter and differences of scores may overflow to infinity.
-/

namespace Rml

theorem squareCb_shape {F : Type} [Flt F] {gamma eps : F} {sc : List (Nat × F)} {b : Nat} {be : Nat × F} (hc : cmpCheck (sc.map (·.2)) = .ok ())
    (h1 : argMin (sc.map (·.2)) = some b) (h2 : sc[b]? = some be) (w : F → F) (hw : ∀ x, w x = Flt.div Flt.one (Flt.add (Flt.ofNat sc.length) (Flt.mul gamma (Flt.sub x be.2)))) :
    squareCbProbs gamma eps sc = enforceUnwrap eps ((sc.map (fun x => if x.1 = be.1 then x else (x.1, w x.2))).set b
      (be.1, Flt.sub Flt.one (sc.foldl (fun s x => if decide (x.1 = be.1) = true then s else Flt.add s (w x.2)) Flt.zero))) := by
  unfold squareCbProbs
  rw [hc, ok_bind, h1]
  simp only [unwrapOpt, ok_bind, h2, List.getElem?_map, Option.map_some, if_true, ← hw]
  congr 3
  congr 1
  congr 1
  funext s x
  by_cases h : x.1 = be.1 <;> simp [h]

theorem softmax_shape {F : Type} [Flt F] {lam eps : F} {sc : List (Nat × F)} {b : Nat} {be : Nat × F} (hc : cmpCheck (sc.map (·.2)) = .ok ())
    (h1 : argMin (sc.map (·.2)) = some b) (h2 : sc[b]? = some be) (w : F → F) (hw : ∀ x, w x = Flt.exp (Flt.mul (Flt.neg lam) (Flt.sub x be.2))) :
    softmaxProbs lam eps sc = enforceUnwrap eps (sc.map (fun x => (x.1, Flt.div (w x.2)
      (sc.foldl (fun s x => if false = true then s else Flt.add s (w x.2)) Flt.zero)))) := by
  unfold softmaxProbs
  rw [hc, ok_bind, h1]
  simp only [unwrapOpt, ok_bind, h2, ← hw, List.map_map, List.foldl_map, Bool.false_eq_true, if_false]
  rfl

section
variable [t : F32Trans]

/-- Numbers are `f32`. -/
@[reducible] local instance probNumbers : Flt (BitVec 32) := ieeeFlt t

/-- A sum of numbers that are at most `c`, all multiples of which are numbers of the format. -/
theorem total_val {α : Type} (skip : α → Bool) (g : α → BitVec 32) (gR : α → ℝ) (c : ℝ) (hc0 : 0 ≤ c) (hc1 : c ≤ 1) (hc : ∀ k : Nat, k ≤ 2 ^ 24 → fl32 (k * c) = k * c) (l : List α) :
    ∀ (a : BitVec 32) (k : Nat), IeeeFinite a → 0 ≤ V a → V a ≤ k * c → k + l.length ≤ 2 ^ 24 →
      (∀ x ∈ l, skip x = false → IeeeFinite (g x) ∧ V (g x) = gR x ∧ 0 ≤ gR x ∧ gR x ≤ c) →
      IeeeFinite (l.foldl (fun s x => if skip x = true then s else f32Add s (g x)) a) ∧
      V (l.foldl (fun s x => if skip x = true then s else f32Add s (g x)) a) = l.foldl (fun s x => if skip x = true then s else fl32 (s + gR x)) (V a) ∧
      0 ≤ V (l.foldl (fun s x => if skip x = true then s else f32Add s (g x)) a) ∧
      V (l.foldl (fun s x => if skip x = true then s else f32Add s (g x)) a) ≤ ((k + l.length : Nat) : ℝ) * c := by
  induction l with
  | nil => intro a k h1 h2 h3 _ _; exact ⟨h1, rfl, h2, by simpa using h3⟩
  | cons x l ih =>
    intro a k h1 h2 h3 h4 h5
    rw [List.length_cons] at h4
    simp only [List.foldl_cons]
    have hk : ((k + (l.length + 1) : Nat)) = ((k + 1) + l.length) := by omega
    rw [List.length_cons, hk]
    have h6 : ∀ y ∈ l, skip y = false → IeeeFinite (g y) ∧ V (g y) = gR y ∧ 0 ≤ gR y ∧ gR y ≤ c := fun y hy => h5 y (by simp [hy])
    have h7 : (k : ℝ) * c ≤ ((k + 1 : Nat) : ℝ) * c := by push_cast; nlinarith
    cases hx : skip x with
    | true =>
      simp only [if_true]
      exact ih a (k + 1) h1 h2 (h3.trans h7) (by omega) h6
    | false =>
      obtain ⟨g1, g2, g3, g4⟩ := h5 x (by simp) hx
      have hle : V a + V (g x) ≤ ((k + 1 : Nat) : ℝ) * c := by rw [g2]; push_cast; linarith
      have hbig : ((k + 1 : Nat) : ℝ) * c ≤ (2 : ℝ) ^ (24 : ℕ) := by
        have : ((k + 1 : Nat) : ℝ) ≤ (2 : ℝ) ^ (24 : ℕ) := by exact_mod_cast (by omega : k + 1 ≤ 2 ^ 24)
        have h0 : (0 : ℝ) ≤ ((k + 1 : Nat) : ℝ) := by positivity
        nlinarith
      have hs := add_val (t := t) h1 g1 (by
        rw [abs_of_nonneg (by rw [g2]; linarith)]
        exact hle.trans (hbig.trans (by norm_num)))
      simp only [Bool.false_eq_true, if_false]
      have h8 := ih (f32Add a (g x)) (k + 1) hs.1 (by rw [hs.2]; exact fl32_nonneg (by rw [g2]; linarith)) (by
        rw [hs.2, ← hc (k + 1) (by omega)]
        exact fl32_mono hle) (by omega) h6
      rw [hs.2, g2] at h8
      exact h8

omit t in
theorem multiples_pow (e : Nat) (he : e ≤ 24) (k : Nat) (hk : k ≤ 2 ^ 24) : fl32 (k * (2 : ℝ) ^ (-(e : ℤ))) = k * (2 : ℝ) ^ (-(e : ℤ)) := by
  have := fl32_exact (k : ℤ) (-(e : ℤ)) (by rw [abs_of_nonneg (by positivity)]; exact_mod_cast hk) (by omega)
  exact_mod_cast this

theorem add_infinity {a b : BitVec 32} (fa : IeeeFinite a) (ib : IeeeInf b) : f32Add a b = b :=
  (C97_add_special t a b).2.1 ib (fun h => fa h.1) (fun h => absurd h.1 fa)

/-- The denominator of the weight of an action in SquareCB: it is finite up to a threshold. -/
theorem den_val {n : Nat} (hn : n ≤ 2 ^ 24) {gamma x b : BitVec 32} (hg : NotNegative gamma) (hx : Moderate x) (hb : Moderate b) (hle : V b ≤ V x) :
    0 ≤ V gamma * fl32 (V x - V b) ∧
    (IeeeFinite (f32Add (f32OfNat n) (f32Mul gamma (f32Sub x b))) ↔ V gamma * fl32 (V x - V b) < 2 ^ 128 - 2 ^ 103 ∧
      fl32 n + fl32 (V gamma * fl32 (V x - V b)) < 2 ^ 128 - 2 ^ 103) ∧
    (IeeeFinite (f32Add (f32OfNat n) (f32Mul gamma (f32Sub x b))) →
      V (f32Add (f32OfNat n) (f32Mul gamma (f32Sub x b))) = fl32 (fl32 n + fl32 (V gamma * fl32 (V x - V b)))) ∧
    (¬ IeeeFinite (f32Add (f32OfNat n) (f32Mul gamma (f32Sub x b))) → IeeeInf (f32Add (f32OfNat n) (f32Mul gamma (f32Sub x b)))) := by
  obtain ⟨n1, n2⟩ := nat_valV hn
  obtain ⟨s1, s2⟩ := UpTo.subV (t := t) (k := 126) ⟨hx.1, hx.2.trans (by norm_num)⟩ ⟨hb.1, hb.2.trans (by norm_num)⟩ (by norm_num) (by norm_num)
  have p0 : 0 ≤ V gamma * fl32 (V x - V b) := mul_nonneg hg.2 (fl32_nonneg (by linarith))
  have hm := C97_mul t gamma (f32Sub x b) hg.1 s1.fin
  have hmv := (C97_rounding t gamma (f32Sub x b) hg.1 s1.fin).2.2.1
  change CorrectlyRounded (V gamma * V (f32Sub x b)) (f32Mul gamma (f32Sub x b)) at hm
  change IeeeFinite (f32Mul gamma (f32Sub x b)) → V (f32Mul gamma (f32Sub x b)) = fl32 (V gamma * V (f32Sub x b)) at hmv
  rw [s2] at hm hmv
  generalize f32Sub x b = d at hm hmv
  generalize V gamma * fl32 (V x - V b) = p at p0 hm hmv
  refine ⟨p0, ?_⟩
  rcases lt_or_ge p (2 ^ 128 - 2 ^ 103) with hp | hp
  · have f1 := (hm.1 (by rw [abs_of_nonneg p0]; exact hp)).1
    have f2 := hmv f1
    have ha := C97_add t (f32OfNat n) (f32Mul gamma d) n1.fin f1
    have hav := (C97_rounding t (f32OfNat n) (f32Mul gamma d) n1.fin f1).1
    change CorrectlyRounded (V (f32OfNat n) + V (f32Mul gamma d)) (f32Add (f32OfNat n) (f32Mul gamma d)) at ha
    change IeeeFinite (f32Add (f32OfNat n) (f32Mul gamma d)) → V (f32Add (f32OfNat n) (f32Mul gamma d)) = fl32 (V (f32OfNat n) + V (f32Mul gamma d)) at hav
    rw [f2, n2] at ha hav
    have q0 : 0 ≤ fl32 n + fl32 p := add_nonneg (fl32_nonneg (by positivity)) (fl32_nonneg p0)
    generalize f32Add (f32OfNat n) (f32Mul gamma d) = y at ha hav
    rcases lt_or_ge (fl32 n + fl32 p) (2 ^ 128 - 2 ^ 103) with hq | hq
    · have f3 := (ha.1 (by rw [abs_of_nonneg q0]; exact hq)).1
      exact ⟨⟨fun _ => ⟨hp, hq⟩, fun _ => f3⟩, hav, fun h => absurd f3 h⟩
    · have f3 := (ha.2 (by rw [abs_of_nonneg q0]; exact hq)).1
      exact ⟨⟨fun h => absurd f3.1 h, fun h => absurd h.2 (not_lt.2 hq)⟩, hav, fun _ => f3⟩
  · have f1 := (hm.2 (by rw [abs_of_nonneg p0]; exact hp)).1
    rw [add_infinity (t := t) n1.fin f1]
    generalize f32Mul gamma d = y at f1
    exact ⟨⟨fun h => absurd f1.1 h, fun h => absurd h.1 (not_lt.2 hp)⟩, fun h => absurd f1.1 h, fun _ => f1⟩

/-- The weights of the actions in SquareCB, also when the denominator overflows: they are those of real scores `phi`, in the same order, without overflow. -/
theorem weight_val {n e : Nat} (hn : n ≤ 2 ^ 24) (he24 : e ≤ 24) (hel : (2 : ℝ) ^ (e : ℤ) ≤ n) {gamma b : BitVec 32} (hg : NotNegative gamma) (hb : Moderate b) :
    ∃ phi : BitVec 32 → ℝ, phi b = V b ∧ (∀ x y, Moderate x → Moderate y → V b ≤ V x → V b ≤ V y → (V x < V y ↔ phi x < phi y)) ∧
    ∀ x, Moderate x → V b ≤ V x → UpTo (-(e : ℤ)) (f32Div one32 (f32Add (f32OfNat n) (f32Mul gamma (f32Sub x b)))) ∧
      V (f32Div one32 (f32Add (f32OfNat n) (f32Mul gamma (f32Sub x b)))) = fl32 (1 / fl32 (fl32 n + fl32 (V gamma * fl32 (phi x - V b)))) ∧
      0 ≤ V (f32Div one32 (f32Add (f32OfNat n) (f32Mul gamma (f32Sub x b)))) := by
  classical
  obtain ⟨n1, n2⟩ := nat_valV hn
  obtain ⟨o1, o2⟩ := one_valV
  obtain ⟨B, hB⟩ : ∃ B : ℝ, B = 2 ^ (310 : ℤ) := ⟨_, rfl⟩
  have hbig : 0 < B := by rw [hB]; positivity
  have hnr := fl32_nat n hn
  have hnl : (n : ℝ) ≤ (2 : ℝ) ^ (24 : ℕ) := by exact_mod_cast hn
  obtain ⟨phi, hphi⟩ : ∃ phi : BitVec 32 → ℝ, ∀ x, phi x = if IeeeFinite (f32Add (f32OfNat n) (f32Mul gamma (f32Sub x b))) then V x else V x + B := ⟨_, fun _ => rfl⟩
  have hbf : IeeeFinite (f32Add (f32OfNat n) (f32Mul gamma (f32Sub b b))) := by
    obtain ⟨_, h1, _⟩ := den_val (t := t) hn hg hb hb le_rfl
    rw [h1, sub_self, rounding_fl32.zero, mul_zero, rounding_fl32.zero, hnr]
    constructor
    · norm_num
    · rw [add_zero]
      exact hnl.trans_lt (by norm_num)
  refine ⟨phi, by rw [hphi, if_pos hbf], ?_, ?_⟩
  · intro x y hx hy hbx hby
    obtain ⟨_, x1, _⟩ := den_val (t := t) hn hg hx hb hbx
    obtain ⟨_, y1, _⟩ := den_val (t := t) hn hg hy hb hby
    have up : ∀ {u v : ℝ}, u ≤ v → (V gamma * fl32 (v - V b) < 2 ^ 128 - 2 ^ 103 ∧ fl32 n + fl32 (V gamma * fl32 (v - V b)) < 2 ^ 128 - 2 ^ 103) →
        V gamma * fl32 (u - V b) < 2 ^ 128 - 2 ^ 103 ∧ fl32 n + fl32 (V gamma * fl32 (u - V b)) < 2 ^ 128 - 2 ^ 103 := by
      intro u v huv h
      have h2 : V gamma * fl32 (u - V b) ≤ V gamma * fl32 (v - V b) := mul_le_mul_of_nonneg_left (fl32_mono (by linarith)) hg.2
      have h3 := fl32_mono h2
      exact ⟨h2.trans_lt h.1, by linarith [h.2]⟩
    rw [hphi, hphi]
    by_cases fx : IeeeFinite (f32Add (f32OfNat n) (f32Mul gamma (f32Sub x b))) <;> by_cases fy : IeeeFinite (f32Add (f32OfNat n) (f32Mul gamma (f32Sub y b)))
    · rw [if_pos fx, if_pos fy]
    · rw [if_pos fx, if_neg fy]
      have : V x < V y := by
        rcases lt_or_ge (V x) (V y) with h | h
        · exact h
        · exact absurd (y1.2 (up h (x1.1 fx))) fy
      exact ⟨fun h => by linarith only [h, hbig], fun _ => this⟩
    · rw [if_neg fx, if_pos fy]
      have : V y < V x := by
        rcases lt_or_ge (V y) (V x) with h | h
        · exact h
        · exact absurd (x1.2 (up h (y1.1 fy))) fx
      exact ⟨fun h => by linarith only [h, this], fun h => by linarith only [h, hbig, this]⟩
    · rw [if_neg fx, if_neg fy]
      constructor <;> intro h <;> linarith only [h]
  · intro x hx hbx
    obtain ⟨p0, x1, x2, x3⟩ := den_val (t := t) hn hg hx hb hbx
    rw [hphi]
    by_cases fx : IeeeFinite (f32Add (f32OfNat n) (f32Mul gamma (f32Sub x b)))
    · rw [if_pos fx]
      have hv := x2 fx
      generalize f32Add (f32OfNat n) (f32Mul gamma (f32Sub x b)) = y at fx hv
      have a4 : (2 : ℝ) ^ (e : ℤ) ≤ V y := by
        rw [hv]
        refine fl_ge (by omega) ?_
        rw [hnr]
        linarith [fl32_nonneg p0]
      have pe : (0 : ℝ) < 2 ^ (e : ℤ) := by positivity
      have hq : |1 / V y| ≤ (2 : ℝ) ^ (-(e : ℤ)) := by
        rw [abs_of_nonneg (div_nonneg zero_le_one (by linarith)), zpow_neg, one_div]
        exact inv_anti₀ pe a4
      obtain ⟨d1, d2⟩ := div_val (t := t) o1.fin fx (by linarith) (by
        rw [o2]
        exact hq.trans (pow_mono (by omega)))
      rw [o2] at d2
      refine ⟨⟨d1, ?_⟩, ?_, ?_⟩
      · rw [d2]
        exact fl_abs_le (by omega) hq
      · rw [d2, hv]
      · rw [d2]
        exact fl32_nonneg (div_nonneg zero_le_one (by linarith))
    · rw [if_neg fx]
      have hinf := x3 fx
      have gpos : (2 : ℝ) ^ (-151 : ℤ) ≤ V gamma := by
        by_contra h
        have h1 : V gamma ≤ 1 / 2 ^ 151 := by
          have := (not_le.1 h).le
          norm_num at this ⊢
          exact this
        have h2 := fl_V (t := t) hg.1 (by rw [abs_of_nonneg (show 0 ≤ V gamma from hg.2)]; exact h1.trans (by norm_num))
        rw [fl32_tiny hg.2 h1] at h2
        refine fx (x1.2 ?_)
        rw [← h2, zero_mul, rounding_fl32.zero, hnr, add_zero]
        exact ⟨by norm_num, hnl.trans_lt (by norm_num)⟩
      have hb3 : B ≤ fl32 (V x + B - V b) := by
        have h : B ≤ V x + B - V b := by linarith
        rw [hB] at h ⊢
        exact fl_ge (by norm_num) h
      have hb4 : (2 : ℝ) ^ (159 : ℤ) ≤ V gamma * fl32 (V x + B - V b) := by
        have h : (2 : ℝ) ^ (159 : ℤ) = 2 ^ (-151 : ℤ) * B := by rw [hB, ← zpow_add₀ (by norm_num)]; norm_num
        rw [h]
        exact mul_le_mul gpos hb3 hbig.le hg.2
      have hb5 := fl_ge (by norm_num) hb4
      have hb6 : (2 : ℝ) ^ (159 : ℤ) ≤ fl32 (fl32 n + fl32 (V gamma * fl32 (V x + B - V b))) := fl_ge (by norm_num) (by
        rw [hnr]
        linarith [Nat.cast_nonneg (α := ℝ) n])
      have hz : fl32 (1 / fl32 (fl32 n + fl32 (V gamma * fl32 (V x + B - V b)))) = 0 := by
        have pp : (0 : ℝ) < 2 ^ (159 : ℤ) := by positivity
        refine fl32_tiny (div_nonneg zero_le_one (pp.le.trans hb6)) ?_
        refine (one_div_le_one_div_of_le pp hb6).trans ?_
        norm_num
      rw [hz]
      have hge : AtLeast 1 (f32Add (f32OfNat n) (f32Mul gamma (f32Sub x b))) := by
        refine add_ge (ofNat_ge ?_) (mul_ge hg (moderate_sub hx hb hbx).1)
        by_contra h
        have : n = 0 := by omega
        subst this
        have pe : (0 : ℝ) < 2 ^ (e : ℤ) := by positivity
        rw [Nat.cast_zero] at hel
        linarith
      have hu := div_unit unit_one hge
      generalize f32Add (f32OfNat n) (f32Mul gamma (f32Sub x b)) = y at hinf hu
      have hv := ((C97_div_special t one32 y (fun h => hu.1 h.1)).2.2 hinf).2
      change V (f32Div one32 y) = 0 at hv
      exact ⟨⟨hu.1, by rw [hv, abs_zero]; positivity⟩, hv, hv.ge⟩

/-- The lowest score depends on the order only. -/
theorem argMinFrom_order (r : Trans ℝ) (phi : BitVec 32 → ℝ) (P : BitVec 32 → Prop) (hP : ∀ x y, P x → P y → (Flt.lt x y = true ↔ phi x < phi y)) (ys : List (BitVec 32)) :
    ∀ (i best : Nat) (bv : BitVec 32), P bv → (∀ y ∈ ys, P y) → argMinFrom i best bv ys = @argMinFrom ℝ (roundFlt fl32 r) i best (phi bv) (ys.map phi) := by
  induction ys with
  | nil => intro i best bv _ _; rfl
  | cons y ys ih =>
    intro i best bv hb hy
    have h1 := ih (i + 1) i y (hy y (by simp)) (fun z hz => hy z (by simp [hz]))
    have h2 := ih (i + 1) best bv hb (fun z hz => hy z (by simp [hz]))
    have h3 : Flt.lt y bv = @Flt.lt ℝ (roundFlt fl32 r) (phi y) (phi bv) := by
      rw [Bool.eq_iff_iff]
      exact (hP y bv (hy y (by simp)) hb).trans decide_eq_true_iff.symm
    rw [List.map_cons]
    unfold argMinFrom
    rw [h3, h1, h2]

theorem argMin_order (r : Trans ℝ) (phi : BitVec 32 → ℝ) (P : BitVec 32 → Prop) (hP : ∀ x y, P x → P y → (Flt.lt x y = true ↔ phi x < phi y)) (ys : List (BitVec 32))
    (h : ∀ y ∈ ys, P y) : argMin ys = @argMin ℝ (roundFlt fl32 r) (ys.map phi) := by
  cases ys with
  | nil => rfl
  | cons y ys => exact congrArg some (argMinFrom_order r phi P hP ys 1 0 y (h y (by simp)) (fun z hz => h z (by simp [hz])))

set_option maxHeartbeats 1000000 in
/-- SquareCB on bit patterns. -/
theorem squareCb_val (r : Trans ℝ) {gamma eps : BitVec 32} (hg : NotNegative gamma) (he : BetweenZeroOne eps) {sc : List (Nat × BitVec 32)} (hne : sc ≠ [])
    (hnd : (sc.map (·.1)).Nodup) (hs : ∀ e ∈ sc, Moderate e.2) (hn : sc.length ≤ 2 ^ 24) :
    ∃ phi : BitVec 32 → ℝ, (∀ x ∈ sc, ∀ y ∈ sc, (V x.2 < V y.2 ↔ phi x.2 < phi y.2)) ∧
    @squareCbProbs ℝ (roundFlt fl32 r) (V gamma) (V eps) (sc.map (fun x => (x.1, phi x.2))) = (squareCbProbs gamma eps sc).map valuesOf ∧
    ∀ out, squareCbProbs gamma eps sc = .ok out → ∀ o ∈ out, IeeeFinite o.2 := by
  obtain ⟨b, be, h1, h2, h3⟩ := argMin_low hne (fun e he => (hs e he).1)
  have hbm := List.mem_of_getElem? h2
  have hlen : 1 ≤ sc.length := by cases sc with
    | nil => exact absurd rfl hne
    | cons _ _ => simp
  have hfin : ∀ y ∈ sc.map (·.2), IeeeFinite y := fun y hy => by obtain ⟨e, h, rfl⟩ := List.mem_map.1 hy; exact (hs e h).1
  obtain ⟨n1, n2⟩ := nat_valV hn
  obtain ⟨o1, o2⟩ := one_valV
  set e := Nat.log 2 sc.length with hedef
  have he24 : e ≤ 24 := by
    have := Nat.log_mono_right (b := 2) hn
    rwa [Nat.log_pow (by norm_num)] at this
  have hel : (2 : ℝ) ^ (e : ℤ) ≤ sc.length := by exact_mod_cast Nat.pow_log_le_self 2 (by omega)
  have heu : (sc.length : ℝ) < 2 * (2 : ℝ) ^ (e : ℤ) := by
    have : sc.length < 2 ^ (e + 1) := Nat.lt_pow_succ_log_self (by norm_num) _
    rw [pow_succ] at this
    have h : (sc.length : ℝ) < ((2 ^ e * 2 : Nat) : ℝ) := by exact_mod_cast this
    push_cast at h
    rw [zpow_natCast]
    linarith
  obtain ⟨w, hw⟩ : ∃ w : BitVec 32 → BitVec 32, ∀ x, w x = f32Div one32 (f32Add (f32OfNat sc.length) (f32Mul gamma (f32Sub x be.2))) := ⟨_, fun _ => rfl⟩
  obtain ⟨wR, hwR⟩ : ∃ wR : ℝ → ℝ, ∀ x, wR x = fl32 (1 / fl32 (fl32 sc.length + fl32 (V gamma * fl32 (x - V be.2)))) := ⟨_, fun _ => rfl⟩
  obtain ⟨phi, ph1, ph2, ph3⟩ := weight_val (t := t) hn he24 hel hg (hs be hbm)
  have hord : ∀ x ∈ sc, ∀ y ∈ sc, (V x.2 < V y.2 ↔ phi x.2 < phi y.2) := fun x hx y hy => ph2 x.2 y.2 (hs x hx) (hs y hy) (h3 x hx) (h3 y hy)
  have hvals : (sc.map (fun x => (x.1, phi x.2))).map (·.2) = (sc.map (·.2)).map phi := by rw [List.map_map, List.map_map]; rfl
  have hvlen : (sc.map (fun x => (x.1, phi x.2))).length = sc.length := by simp
  have k2 : @cmpCheck ℝ (roundFlt fl32 r) ((sc.map (fun x => (x.1, phi x.2))).map (·.2)) = .ok () := by
    unfold cmpCheck
    rw [if_neg]
    rintro ⟨_, h⟩
    rw [List.any_eq_true] at h
    obtain ⟨x, h3, h4⟩ := h
    cases h4
  have k3 : @argMin ℝ (roundFlt fl32 r) ((sc.map (fun x => (x.1, phi x.2))).map (·.2)) = some b := by
    rw [hvals, ← argMin_order r phi (fun x => x ∈ sc.map (·.2)) ?_ _ (fun y hy => hy)]
    · exact h1
    · intro x y hx hy
      obtain ⟨x, hx', rfl⟩ := List.mem_map.1 hx
      obtain ⟨y, hy', rfl⟩ := List.mem_map.1 hy
      exact (lt_val (t := t) (hs x hx').1 (hs y hy').1).trans (hord x hx' y hy')
  have k4 : (sc.map (fun x => (x.1, phi x.2)))[b]? = some (be.1, V be.2) := by
    rw [List.getElem?_map, h2, Option.map_some, ph1]
  have key : ∀ x ∈ sc, UpTo (-(e : ℤ)) (w x.2) ∧ V (w x.2) = wR (phi x.2) ∧ 0 ≤ wR (phi x.2) := by
    intro x hx
    obtain ⟨a1, a2, a3⟩ := ph3 x.2 (hs x hx) (h3 x hx)
    rw [← hw, ← hwR] at a2
    rw [← hw] at a1 a3
    exact ⟨a1, a2, a2 ▸ a3⟩
  have hc1 : (2 : ℝ) ^ (-(e : ℤ)) ≤ 1 := by
    rw [zpow_neg]
    exact inv_le_one_of_one_le₀ (one_le_zpow₀ (by norm_num) (by positivity))
  obtain ⟨f1, f2, f3, f4⟩ := total_val (t := t) (fun x : Nat × BitVec 32 => decide (x.1 = be.1)) (fun x => w x.2) (fun x => wR (phi x.2)) ((2 : ℝ) ^ (-(e : ℤ))) (by positivity) hc1 (multiples_pow e he24) sc 0#32 0
    zero_fin V_zero.ge (by rw [V_zero]; simp) (by omega) (fun x hx _ => by
      obtain ⟨a, b, c⟩ := key x hx
      exact ⟨a.fin, b, c, b ▸ (le_abs_self _).trans a.le⟩)
  set tot := sc.foldl (fun s x => if decide (x.1 = be.1) = true then s else f32Add s (w x.2)) 0#32 with htot
  have ftwo : V tot ≤ 2 := by
    refine f4.trans ?_
    rw [zero_add, zpow_neg]
    rw [← div_eq_mul_inv, div_le_iff₀ (by positivity)]
    linarith
  obtain ⟨b1, b2⟩ := sub_val (t := t) one_fin f1 (by
    rw [o2]
    exact le_trans (show |1 - V tot| ≤ 1 by rw [abs_le]; constructor <;> linarith) (by norm_num))
  have b3 : UpTo 0 (f32Sub one32 tot) := ⟨b1, by
    rw [b2, o2]
    exact fl_abs_le (by norm_num) (by rw [zpow_zero, abs_le]; constructor <;> linarith)⟩
  set els := (sc.map (fun x => if x.1 = be.1 then x else (x.1, w x.2))).set b (be.1, f32Sub one32 tot) with hels
  have hbest : ∀ i x, sc[i]? = some x → i ≠ b → x.1 ≠ be.1 := by
    intro i x hi hib heq
    obtain ⟨l1, e1⟩ := List.getElem?_eq_some_iff.1 hi
    obtain ⟨l2, e2⟩ := List.getElem?_eq_some_iff.1 h2
    refine hib ((List.Nodup.getElem_inj_iff hnd (hi := by simpa using l1) (hj := by simpa using l2)).1 ?_)
    rw [List.getElem_map, List.getElem_map, e1, e2]
    exact heq
  have hb : b < sc.length := (List.getElem?_eq_some_iff.1 h2).1
  have hmem : ∀ x ∈ els, UpTo 0 x.2 := by
    intro x hx
    obtain ⟨i, hi⟩ := List.mem_iff_getElem?.1 hx
    rw [hels, List.getElem?_set] at hi
    split at hi
    · split at hi
      · cases hi; exact b3
      · cases hi
    · rename_i hne'
      rw [List.getElem?_map] at hi
      obtain ⟨y, hy, rfl⟩ := Option.map_eq_some_iff.1 hi
      rw [if_neg (hbest i y hy (fun h => hne' h.symm))]
      exact (key y (List.mem_of_getElem? hy)).1.mono (by omega)
  have hpos : ∃ x ∈ els, 0 < V x.2 := by
    by_cases hone : ∃ i x, sc[i]? = some x ∧ i ≠ b ∧ 0 < wR (phi x.2)
    · obtain ⟨i, x, hi, hib, hp⟩ := hone
      refine ⟨(x.1, w x.2), ?_, ?_⟩
      · refine List.mem_iff_getElem?.2 ⟨i, ?_⟩
        rw [hels, List.getElem?_set_ne (fun h => hib h.symm), List.getElem?_map, hi, Option.map_some, if_neg (hbest i x hi hib)]
      · simp only
        rw [(key x (List.mem_of_getElem? hi)).2.1]
        exact hp
    · refine ⟨(be.1, f32Sub one32 tot), ?_, ?_⟩
      · refine List.mem_iff_getElem?.2 ⟨b, ?_⟩
        rw [hels, List.getElem?_set_self (by simpa using hb)]
      · have hall : ∀ x ∈ sc, decide (x.1 = be.1) = false → IeeeFinite (w x.2) ∧ V (w x.2) = wR (phi x.2) ∧ 0 ≤ wR (phi x.2) ∧ wR (phi x.2) ≤ 0 := by
          intro x hx hd
          obtain ⟨i, hi⟩ := List.mem_iff_getElem?.1 hx
          obtain ⟨a, b', c⟩ := key x hx
          refine ⟨a.fin, b', c, not_lt.1 fun hp => hone ⟨i, x, hi, ?_, hp⟩⟩
          rintro rfl
          rw [h2] at hi
          cases hi
          simp at hd
        obtain ⟨_, _, _, z⟩ := total_val (t := t) (fun x : Nat × BitVec 32 => decide (x.1 = be.1)) (fun x => w x.2) (fun x => wR (phi x.2)) 0 le_rfl zero_le_one (fun k _ => by rw [mul_zero]; exact rounding_fl32.zero) sc 0#32 0
          zero_fin V_zero.ge (by rw [V_zero]; simp) (by omega) hall
        have ht0 : V tot = 0 := le_antisymm (by rw [mul_zero] at z; exact z) f3
        simp only
        rw [b2, o2, ht0, sub_zero, rounding_fl32.one]
        norm_num
  have hne' : els ≠ [] := by
    intro h
    have := congrArg List.length h
    rw [hels, List.length_set, List.length_map] at this
    simp at this
    exact hne this
  obtain ⟨z1, z2⟩ := enforce_val r he hne' hmem hpos (by rw [hels, List.length_set, List.length_map]; exact hn)
  have hbits : squareCbProbs gamma eps sc = enforceUnwrap eps els := squareCb_shape (cmpCheck_fine (fun e he => fin_nan (hs e he).1)) h1 h2 w hw
  have hreal : @squareCbProbs ℝ (roundFlt fl32 r) (V gamma) (V eps) (sc.map (fun x => (x.1, phi x.2))) = @enforceUnwrap ℝ (roundFlt fl32 r) (V eps) (valuesOf els) := by
    rw [@squareCb_shape ℝ (roundFlt fl32 r) (V gamma) (V eps) (sc.map (fun x => (x.1, phi x.2))) b (be.1, V be.2) k2 k3 k4 wR (by rw [hvlen]; exact hwR)]
    congr 1
    rw [hels]
    unfold valuesOf
    rw [List.map_set, List.map_map, List.map_map, List.foldl_map]
    have e1 : V (f32Sub one32 tot) = fl32 (1 - sc.foldl (fun s x => if decide (x.1 = be.1) = true then s else fl32 (s + wR (phi x.2))) 0) := by
      rw [b2, o2, f2, V_zero]
    simp only
    rw [e1]
    have e2 : sc.map ((fun x : Nat × ℝ => if x.1 = be.1 then x else (x.1, wR x.2)) ∘ fun x => (x.1, phi x.2)) =
        sc.map ((fun x => (x.1, V x.2)) ∘ fun x : Nat × BitVec 32 => if x.1 = be.1 then x else (x.1, w x.2)) := by
      refine List.map_congr_left fun x hx => ?_
      simp only [Function.comp_def]
      split
      · rename_i hid
        obtain ⟨i, hi⟩ := List.mem_iff_getElem?.1 hx
        by_cases hib : i = b
        · rw [hib, h2] at hi
          cases hi
          rw [ph1]
        · exact absurd hid (hbest i x hi hib)
      · rw [(key x hx).2.1]
    rw [e2]
    rfl
  refine ⟨phi, hord, ?_⟩
  rw [hbits, hreal]
  exact ⟨z1, z2⟩

/-- The exponential function of the platform on numbers that are not positive, as a function of the value: `E` increases, is not negative, is 1 at 0
and 0 far below it, as at minus infinity. -/
structure ExpIs (t : F32Trans) (E : ℝ → ℝ) : Prop where
  mono : Monotone E
  nonneg : ∀ x, 0 ≤ E x
  zero : E 0 = 1
  value : ∀ x, IeeeFinite x → ieeeValue x ≤ 0 → IeeeFinite (t.exp x) ∧ ieeeValue (t.exp x) = E (ieeeValue x)
  far : ∀ x, x ≤ -2 ^ 127 → E x = 0
  inf : ∀ x, IeeeInf x → ieeeSign x = true → IeeeFinite (t.exp x) ∧ ieeeValue (t.exp x) = 0

set_option maxHeartbeats 1000000 in
/-- Softmax on bit patterns. -/
theorem softmax_val (r : Trans ℝ) (hE : ExpIs t r.exp) {lam eps : BitVec 32} (hl : NotNegative lam) (he : BetweenZeroOne eps) {sc : List (Nat × BitVec 32)}
    (hne : sc ≠ []) (hs : ∀ e ∈ sc, Moderate e.2) (hn : sc.length ≤ 2 ^ 24) :
    @softmaxProbs ℝ (roundFlt fl32 r) (V lam) (V eps) (valuesOf sc) = (softmaxProbs lam eps sc).map valuesOf ∧
    ∀ out, softmaxProbs lam eps sc = .ok out → ∀ o ∈ out, IeeeFinite o.2 := by
  obtain ⟨b, be, h1, h2, h3⟩ := argMin_low hne (fun e he => (hs e he).1)
  have hbm := List.mem_of_getElem? h2
  have hfin : ∀ y ∈ sc.map (·.2), IeeeFinite y := fun y hy => by obtain ⟨e, h, rfl⟩ := List.mem_map.1 hy; exact (hs e h).1
  have hvals : (valuesOf sc).map (·.2) = (sc.map (·.2)).map V := by simp [valuesOf, Function.comp_def]
  have k2 : @cmpCheck ℝ (roundFlt fl32 r) ((valuesOf sc).map (·.2)) = .ok () := by
    unfold cmpCheck
    rw [if_neg]
    rintro ⟨_, h⟩
    rw [List.any_eq_true] at h
    obtain ⟨x, h3, h4⟩ := h
    cases h4
  have k3 : @argMin ℝ (roundFlt fl32 r) ((valuesOf sc).map (·.2)) = some b := by
    rw [hvals, ← argMin_val r _ hfin]
    exact h1
  have k4 : (valuesOf sc)[b]? = some (be.1, V be.2) := by
    unfold valuesOf
    rw [List.getElem?_map, h2]
    rfl
  obtain ⟨w, hw⟩ : ∃ w : BitVec 32 → BitVec 32, ∀ x, w x = t.exp (f32Mul (f32Neg lam) (f32Sub x be.2)) := ⟨_, fun _ => rfl⟩
  obtain ⟨wR, hwR⟩ : ∃ wR : ℝ → ℝ, ∀ x, wR x = r.exp (fl32 (-(V lam) * fl32 (x - V be.2))) := ⟨_, fun _ => rfl⟩
  have key : ∀ x ∈ sc, IeeeFinite (w x.2) ∧ V (w x.2) = wR (V x.2) ∧ 0 ≤ wR (V x.2) ∧ wR (V x.2) ≤ 1 := by
    intro x hx
    obtain ⟨s1, s2⟩ := UpTo.subV (t := t) (k := 126) ⟨(hs x hx).1, (hs x hx).2.trans (by norm_num)⟩ ⟨(hs be hbm).1, (hs be hbm).2.trans (by norm_num)⟩ (by norm_num) (by norm_num)
    have g := neg_fin (t := t) hl.1
    have d0 : 0 ≤ fl32 (V x.2 - V be.2) := fl32_nonneg (by linarith [h3 x hx])
    have l0 : 0 ≤ V lam := hl.2
    have m0 : fl32 (-(V lam) * fl32 (V x.2 - V be.2)) ≤ 0 := by
      rw [← rounding_fl32.zero]
      refine fl32_mono ?_
      nlinarith
    have hle : wR (V x.2) ≤ 1 := by
      rw [hwR, ← hE.zero]
      exact hE.mono m0
    have h0 : 0 ≤ wR (V x.2) := by
      rw [hwR]
      exact hE.nonneg _
    have hm := C97_mul t (f32Neg lam) (f32Sub x.2 be.2) g.1 s1.fin
    have hmv := (C97_rounding t (f32Neg lam) (f32Sub x.2 be.2) g.1 s1.fin).2.2.1
    change CorrectlyRounded (V (f32Neg lam) * V (f32Sub x.2 be.2)) (f32Mul (f32Neg lam) (f32Sub x.2 be.2)) at hm
    change IeeeFinite (f32Mul (f32Neg lam) (f32Sub x.2 be.2)) → V (f32Mul (f32Neg lam) (f32Sub x.2 be.2)) = fl32 (V (f32Neg lam) * V (f32Sub x.2 be.2)) at hmv
    rw [show V (f32Neg lam) = -V lam from g.2, s2] at hm hmv
    refine and_assoc.1 ⟨?_, h0, hle⟩
    rw [hw, hwR]
    generalize f32Mul (f32Neg lam) (f32Sub x.2 be.2) = y at hm hmv
    generalize -V lam * fl32 (V x.2 - V be.2) = p at hm hmv m0
    rcases lt_or_ge |p| (2 ^ 128 - 2 ^ 103) with hp | hp
    · have f1 := (hm.1 hp).1
      have f2 := hmv f1
      have := hE.value y f1 (show V y ≤ 0 by rw [f2]; exact m0)
      rw [← f2]
      exact this
    · obtain ⟨f1, f2⟩ := hm.2 hp
      have pneg : p < 0 := by
        by_contra h
        have h1 := fl_ge (x := p) (k := 127) (by norm_num) (by rw [abs_of_nonneg (not_lt.1 h)] at hp; exact le_trans (by norm_num) hp)
        have h2 : (0 : ℝ) < 2 ^ (127 : ℤ) := by positivity
        linarith
      have f3 := hE.inf y f1 (f2.2 pneg)
      refine ⟨f3.1, (show V (t.exp y) = 0 from f3.2).trans (hE.far _ ?_).symm⟩
      have h1 := fl_ge (x := -p) (k := 127) (by norm_num) (by rw [abs_of_neg pneg] at hp; exact le_trans (by norm_num) hp)
      rw [fl32_neg] at h1
      norm_num at h1 ⊢
      linarith
  have hbest : wR (V be.2) = 1 := by rw [hwR, sub_self, rounding_fl32.zero, mul_zero, rounding_fl32.zero, hE.zero]
  obtain ⟨f1, f2, f3, f4⟩ := total_val (t := t) (fun _ : Nat × BitVec 32 => false) (fun x => w x.2) (fun x => wR (V x.2)) 1 zero_le_one le_rfl
    (fun k hk => by rw [mul_one]; exact fl32_nat k hk) sc 0#32 0 zero_fin V_zero.ge (by rw [V_zero]; simp) (by omega) (fun x hx _ => key x hx)
  have htot := total_list le_rfl (sc.map (fun e => w e.2)) 0#32 ⟨zero_fin, V_zero.ge, by rw [V_zero]; positivity⟩ (by
    intro x hx
    obtain ⟨e, he, rfl⟩ := List.mem_map.1 hx
    obtain ⟨a, b, c, d⟩ := key e he
    exact ⟨a, by rw [show ieeeValue (w e.2) = _ from b]; exact c, by rw [show ieeeValue (w e.2) = _ from b]; exact d⟩)
  have hge := htot.2 (w be.2) (List.mem_map.2 ⟨be, hbm, rfl⟩)
  rw [(key be hbm).2.1, hbest, List.foldl_map] at hge
  have hfold : sc.foldl (fun s x => if false = true then s else f32Add s (w x.2)) 0#32 = sc.foldl (fun s x => f32Add s (w x.2)) 0#32 := by
    simp only [Bool.false_eq_true, if_false]
  rw [← hfold] at hge
  set tot := sc.foldl (fun s x => if false = true then s else f32Add s (w x.2)) 0#32 with htotdef
  have ftot : UpTo 24 tot := ⟨f1, by
    rw [abs_of_nonneg f3]
    refine f4.trans ?_
    rw [zero_add, mul_one]
    have : (sc.length : ℝ) ≤ (2 : ℝ) ^ (24 : ℕ) := by exact_mod_cast hn
    exact this.trans (by norm_num)⟩
  have fge : (2 : ℝ) ^ (0 : ℤ) ≤ |V tot| := by rw [zpow_zero]; exact hge.trans (le_abs_self _)
  have key2 : ∀ x ∈ sc, UpTo 0 (f32Div (w x.2) tot) ∧ V (f32Div (w x.2) tot) = fl32 (wR (V x.2) / V tot) := by
    intro x hx
    obtain ⟨a, b, c, d⟩ := key x hx
    have hu : UpTo 0 (w x.2) := ⟨a, by rw [b, abs_of_nonneg c, zpow_zero]; exact d⟩
    obtain ⟨d1, d2⟩ := hu.div (t := t) ftot fge (by norm_num) (by norm_num)
    rw [b] at d2
    exact ⟨d1.mono (by norm_num), d2⟩
  obtain ⟨z1, z2⟩ := enforce_val r he (els := sc.map (fun x => (x.1, f32Div (w x.2) tot))) (by simpa using hne) (by
    intro e he
    obtain ⟨x, hx, rfl⟩ := List.mem_map.1 he
    exact (key2 x hx).1) (by
    refine ⟨(be.1, f32Div (w be.2) tot), List.mem_map.2 ⟨be, hbm, rfl⟩, ?_⟩
    simp only
    rw [(key2 be hbm).2, hbest]
    refine lt_of_lt_of_le (by positivity : (0 : ℝ) < 2 ^ (-24 : ℤ)) (fl_ge (by norm_num) ?_)
    have hp : 0 < V tot := by linarith
    rw [le_div_iff₀ hp]
    have h24 := (le_abs_self _).trans ftot.le
    have h : (2 : ℝ) ^ (-24 : ℤ) * V tot ≤ (2 : ℝ) ^ (-24 : ℤ) * 2 ^ (24 : ℤ) := mul_le_mul_of_nonneg_left h24 (by positivity)
    refine h.trans (le_of_eq ?_)
    norm_num) (by rw [List.length_map]; exact hn)
  have hbits : softmaxProbs lam eps sc = enforceUnwrap eps (sc.map (fun x => (x.1, f32Div (w x.2) tot))) :=
    softmax_shape (cmpCheck_fine (fun e he => fin_nan (hs e he).1)) h1 h2 w hw
  have hreal : @softmaxProbs ℝ (roundFlt fl32 r) (V lam) (V eps) (valuesOf sc) =
      @enforceUnwrap ℝ (roundFlt fl32 r) (V eps) (valuesOf (sc.map (fun x => (x.1, f32Div (w x.2) tot)))) := by
    rw [@softmax_shape ℝ (roundFlt fl32 r) (V lam) (V eps) (valuesOf sc) b (be.1, V be.2) k2 k3 k4 wR hwR]
    congr 1
    unfold valuesOf
    rw [List.map_map, List.map_map, List.foldl_map]
    refine List.map_congr_left fun x hx => Prod.ext rfl ?_
    simp only [Function.comp_def]
    rw [(key2 x hx).2, f2, V_zero]
    rfl
  rw [hbits, hreal]
  exact ⟨z1, z2⟩

omit t in
/-- What a result on values says about the bit patterns. -/
theorem from_values {x : M (List (Nat × BitVec 32))} {y : M (List (Nat × ℝ))} (h : y = x.map valuesOf) {v : List (Nat × ℝ)} (hy : y = .ok v) : ∃ out, x = .ok out ∧ v = valuesOf out := by
  cases x with
  | error e => rw [h] at hy; cases hy
  | ok out =>
    rw [h] at hy
    simp only [Except.map] at hy
    exact ⟨out, rfl, (Except.ok.inj hy).symm⟩

omit t in
theorem values_get {l : List (Nat × BitVec 32)} {i : Nat} {e : Nat × BitVec 32} (h : l[i]? = some e) : (valuesOf l)[i]? = some (e.1, V e.2) := by
  unfold valuesOf
  rw [List.getElem?_map, h]
  rfl

omit t in
theorem values_fst (l : List (Nat × BitVec 32)) : (valuesOf l).map (·.1) = l.map (·.1) := by
  unfold valuesOf
  rw [List.map_map]
  rfl

omit t in
theorem values_sum (l : List (Nat × BitVec 32)) : ((valuesOf l).map (·.2)).sum = (l.map (fun e => ieeeValue e.2)).sum := by
  unfold valuesOf
  rw [List.map_map]
  rfl

omit t in
theorem values_len (l : List (Nat × BitVec 32)) : (valuesOf l).length = l.length := by simp [valuesOf]

/-- C94, the floor of exploration on `f32`: actions with probability 0 keep it, the others get the floor, a more likely action stays more likely, and the sum differs
from 1 by no more than rounding. -/
theorem C94_floor_f32 (eps : BitVec 32) (he : IeeeFinite eps ∧ 0 < ieeeValue eps ∧ ieeeValue eps ≤ 1) (els : List (Nat × BitVec 32))
    (hels : ∀ e ∈ els, IeeeFinite e.2 ∧ 0 ≤ ieeeValue e.2 ∧ ieeeValue e.2 ≤ 1) (hsum : (els.map (fun e => ieeeValue e.2)).sum ≤ 2) (hpos : ∃ e ∈ els, 0 < ieeeValue e.2)
    (hn : els.length ≤ 160000) :
    ∃ out, enforceUnwrap eps els = .ok out ∧ out.map (·.1) = els.map (·.1) ∧ (∀ o ∈ out, IeeeFinite o.2) ∧
      (∀ (i : Nat) (e o : Nat × BitVec 32), els[i]? = some e → out[i]? = some o → (ieeeValue e.2 = 0 → ieeeValue o.2 = 0) ∧
        (0 < ieeeValue e.2 → fl32 (ieeeValue eps / (els.filter (fun e => decide (0 < ieeeValue e.2))).length) ≤ ieeeValue o.2)) ∧
      (∀ (i j : Nat) (e e' o o' : Nat × BitVec 32), els[i]? = some e → els[j]? = some e' → out[i]? = some o → out[j]? = some o' →
        ieeeValue e.2 ≤ ieeeValue e'.2 → ieeeValue o.2 ≤ ieeeValue o'.2) ∧
      |(out.map (fun o => ieeeValue o.2)).sum - 1| ≤ 123 * (els.length : ℝ) * (1 / 2 ^ 24 + (els.length : ℝ) * (1 / 2 ^ 150)) := by
  have hlen : (els.length : ℝ) ≤ 160000 := by exact_mod_cast hn
  have hne : els ≠ [] := by rintro rfl; simp at hpos
  obtain ⟨v, v1, v2, v3, v4, v5⟩ := C94_floor rounding_fl32 (by norm_num) trans32 (ieeeValue eps) he.2.1 he.2.2 (valuesOf els) (by
      intro e h
      obtain ⟨x, hx, rfl⟩ := List.mem_map.1 h
      exact (hels x hx).2.1) (by rw [values_sum]; exact hsum) (by
      obtain ⟨x, hx, hp⟩ := hpos
      exact ⟨_, List.mem_map.2 ⟨x, hx, rfl⟩, hp⟩) (by rw [values_len]; omega) (by
      rw [values_len]
      have h0 : (0 : ℝ) ≤ els.length := by positivity
      norm_num
      linarith)
  obtain ⟨z1, z2⟩ := enforce_val (t := t) trans32 (eps := eps) ⟨he.1, he.2.1.le, he.2.2⟩ hne (fun e h => ⟨(hels e h).1, by
    rw [abs_of_nonneg (show 0 ≤ V e.2 from (hels e h).2.1), zpow_zero]
    exact (hels e h).2.2⟩) hpos (by omega)
  obtain ⟨out, o1, rfl⟩ := from_values z1 v1
  rw [values_fst, values_fst] at v2
  rw [values_sum, values_len] at v5
  refine ⟨out, o1, v2, z2 out o1, ?_, ?_, v5⟩
  · intro i e o hi ho
    have := v3 i _ _ (values_get hi) (values_get ho)
    refine ⟨this.1, fun h => ?_⟩
    have h2 := this.2 h
    have h3 : ((valuesOf els).filter (fun e => decide (0 < e.2))).length = (els.filter (fun e => decide (0 < ieeeValue e.2))).length := by
      unfold valuesOf
      rw [List.filter_map, List.length_map]
      rfl
    rw [h3] at h2
    exact h2
  · intro i j e e' o o' hi hj ho ho' h
    exact v4 i j _ _ _ _ (values_get hi) (values_get hj) (values_get ho) (values_get ho') h

/-- C94, SquareCB on `f32`: with any finite gamma that is not negative, scores up to 2^126 in magnitude and at most 1600 actions, every probability is a finite number that is not negative, the sum
differs from 1 by no more than rounding, every action has the floor unless its weight is rounded to 0, and among the actions that are not the best one a cheaper action is at
least as likely. -/
theorem C94_squarecb_f32_partial (gamma eps : BitVec 32) (hg : IeeeFinite gamma ∧ 0 ≤ ieeeValue gamma)
    (he : IeeeFinite eps ∧ 0 ≤ ieeeValue eps ∧ ieeeValue eps ≤ 1) (scores : List (Nat × BitVec 32)) (hne : scores ≠ []) (hnd : (scores.map (·.1)).Nodup)
    (hs : ∀ e ∈ scores, IeeeFinite e.2 ∧ |ieeeValue e.2| ≤ 2 ^ 126) (hn : scores.length ≤ 1600) :
    ∃ best out, IsFirstLowest (scores.map (fun e => ieeeValue e.2)) best ∧ squareCbProbs gamma eps scores = .ok out ∧ out.map (·.1) = scores.map (·.1) ∧
      (∀ e ∈ out, IeeeFinite e.2 ∧ 0 ≤ ieeeValue e.2 ∧ (ieeeValue e.2 = 0 ∨ fl32 (ieeeValue eps / scores.length) ≤ ieeeValue e.2)) ∧
      (∀ (i j : Nat) (e e' o o' : Nat × BitVec 32), scores[i]? = some e → scores[j]? = some e' → out[i]? = some o → out[j]? = some o' → i ≠ best → j ≠ best →
        ieeeValue e.2 ≤ ieeeValue e'.2 → ieeeValue o'.2 ≤ ieeeValue o.2) ∧
      |(out.map (fun e => ieeeValue e.2)).sum - 1| ≤ 123 * (scores.length : ℝ) * (1 / 2 ^ 24 + (scores.length : ℝ) * (1 / 2 ^ 150)) := by
  have hlen : (scores.length : ℝ) ≤ 1600 := by exact_mod_cast hn
  have h0 : (0 : ℝ) ≤ scores.length := by positivity
  obtain ⟨phi, hord, z1, z2⟩ := squareCb_val (t := t) trans32 (gamma := gamma) (eps := eps) hg he hne hnd hs (by omega)
  have hlen2 : (scores.map (fun x => (x.1, phi x.2))).length = scores.length := by simp
  have hfst : (scores.map (fun x => (x.1, phi x.2))).map (·.1) = scores.map (·.1) := by rw [List.map_map]; rfl
  obtain ⟨best, v, v0, v1, v2, v3, v4, v5⟩ := C94_squarecb_partial rounding_fl32 (by norm_num) trans32 (ieeeValue gamma) (ieeeValue eps) hg.2 he.2.1 he.2.2
    (scores.map (fun x => (x.1, phi x.2))) (by simpa using hne) (by rw [hfst]; exact hnd) (by rw [hlen2]; omega)
    (by rw [hlen2]; norm_num; linarith) (by
      rw [hlen2]
      have : (scores.length : ℝ) ^ 2 ≤ 1600 ^ 2 := by gcongr
      norm_num at this ⊢
      linarith)
  obtain ⟨out, o1, rfl⟩ := from_values z1 v1
  rw [values_fst, hfst] at v2
  rw [values_sum, hlen2] at v5
  rw [hlen2] at v3
  have get : ∀ {i : Nat} {e : Nat × BitVec 32}, scores[i]? = some e → (scores.map (fun x => (x.1, phi x.2)))[i]? = some (e.1, phi e.2) := fun h => by
    rw [List.getElem?_map, h, Option.map_some]
  refine ⟨best, out, ?_, o1, v2, ?_, ?_, v5⟩
  · obtain ⟨z, hz, hmin⟩ := v0
    rw [List.map_map, List.getElem?_map] at hz
    obtain ⟨e, he', rfl⟩ := Option.map_eq_some_iff.1 hz
    refine ⟨ieeeValue e.2, by rw [List.getElem?_map, he', Option.map_some], fun i w hi => ?_⟩
    rw [List.getElem?_map] at hi
    obtain ⟨e2, he2, rfl⟩ := Option.map_eq_some_iff.1 hi
    have := hmin i (phi e2.2) (by rw [List.map_map, List.getElem?_map, he2]; rfl)
    have m1 := List.mem_of_getElem? he'
    have m2 := List.mem_of_getElem? he2
    exact ⟨not_lt.1 fun h => absurd ((hord e2 m2 e m1).1 h) (not_lt.2 this.1), fun h => (hord e m1 e2 m2).2 (this.2 h)⟩
  · intro e h
    have h3 := v3 _ (List.mem_map.2 ⟨e, h, rfl⟩)
    refine ⟨z2 out o1 e h, ?_, h3⟩
    rcases h3 with h3 | h3
    · exact (show V e.2 = 0 from h3).ge
    · exact (fl32_nonneg (div_nonneg he.2.1 h0)).trans h3
  · intro i j e e' o o' hi hj ho ho' hib hjb h
    refine v4 i j _ _ _ _ (get hi) (get hj) (values_get ho) (values_get ho') hib hjb ?_
    exact not_lt.1 fun h2 => absurd ((hord e' (List.mem_of_getElem? hj) e (List.mem_of_getElem? hi)).2 h2) (not_lt.2 h)

/-- C94, softmax on `f32`: with any finite lambda that is not negative, scores up to 2^126 in magnitude and at most 160000 actions, every probability is a finite number that is not negative, the sum differs
from 1 by no more than rounding, every action has the floor unless its weight is rounded to 0, and a cheaper action is at least as likely. -/
theorem C94_softmax_f32_partial (E : ℝ → ℝ) (hE : ExpIs t E) (lambda eps : BitVec 32) (hl : IeeeFinite lambda ∧ 0 ≤ ieeeValue lambda)
    (he : IeeeFinite eps ∧ 0 ≤ ieeeValue eps ∧ ieeeValue eps ≤ 1) (scores : List (Nat × BitVec 32)) (hne : scores ≠ [])
    (hs : ∀ e ∈ scores, IeeeFinite e.2 ∧ |ieeeValue e.2| ≤ 2 ^ 126) (hn : scores.length ≤ 160000) :
    ∃ out, softmaxProbs lambda eps scores = .ok out ∧ out.map (·.1) = scores.map (·.1) ∧
      (∀ e ∈ out, IeeeFinite e.2 ∧ 0 ≤ ieeeValue e.2 ∧ (ieeeValue e.2 = 0 ∨ fl32 (ieeeValue eps / scores.length) ≤ ieeeValue e.2)) ∧
      (∀ (i j : Nat) (e e' o o' : Nat × BitVec 32), scores[i]? = some e → scores[j]? = some e' → out[i]? = some o → out[j]? = some o' →
        ieeeValue e.2 ≤ ieeeValue e'.2 → ieeeValue o'.2 ≤ ieeeValue o.2) ∧
      |(out.map (fun e => ieeeValue e.2)).sum - 1| ≤ 123 * (scores.length : ℝ) * (1 / 2 ^ 24 + (scores.length : ℝ) * (1 / 2 ^ 150)) := by
  have hlen : (scores.length : ℝ) ≤ 160000 := by exact_mod_cast hn
  have h0 : (0 : ℝ) ≤ scores.length := by positivity
  obtain ⟨v, v1, v2, v3, v4, v5⟩ := C94_softmax_partial rounding_fl32 (by norm_num) { trans32 with exp := E } hE.zero hE.nonneg hE.mono (ieeeValue lambda) (ieeeValue eps) hl.2 he.2.1
    he.2.2 (valuesOf scores) (by intro h; exact hne (by simpa [valuesOf] using h)) (by rw [values_len]; omega)
    (by rw [values_len]; norm_num; linarith)
  obtain ⟨z1, z2⟩ := softmax_val (t := t) { trans32 with exp := E } hE (lam := lambda) (eps := eps) hl he hne hs (by omega)
  obtain ⟨out, o1, rfl⟩ := from_values z1 v1
  rw [values_fst, values_fst] at v2
  rw [values_sum, values_len] at v5
  rw [values_len] at v3
  refine ⟨out, o1, v2, ?_, ?_, v5⟩
  · intro e h
    have h3 := v3 _ (List.mem_map.2 ⟨e, h, rfl⟩)
    refine ⟨z2 out o1 e h, ?_, h3⟩
    rcases h3 with h3 | h3
    · exact (show V e.2 = 0 from h3).ge
    · exact (fl32_nonneg (div_nonneg he.2.1 h0)).trans h3
  · intro i j e e' o o' hi hj ho ho' h
    exact v4 i j _ _ _ _ (values_get hi) (values_get hj) (values_get ho) (values_get ho') h

end

/-- Three actions of cost 1, 2 and 0 with epsilon 1/2 and lambda or gamma 2, and an exponential function that is 0 below 0, meet the hypotheses. -/
example : ∃ (t : F32Trans) (E : ℝ → ℝ) (lambda eps : BitVec 32) (scores : List (Nat × BitVec 32)), ExpIs t E ∧ (IeeeFinite lambda ∧ 0 ≤ ieeeValue lambda) ∧
    (IeeeFinite eps ∧ 0 < ieeeValue eps ∧ ieeeValue eps ≤ 1) ∧ scores.length = 3 ∧ (scores.map (·.1)).Nodup ∧
    (∀ e ∈ scores, IeeeFinite e.2 ∧ |ieeeValue e.2| ≤ 2 ^ 126) := by
  have v0 := V_zero
  have v1 := V_one
  have v2 : V 0x40000000#32 = 2 := by
    have := V_pow 128 (by norm_num) (by norm_num)
    norm_num at this
    exact this
  have vh : V 0x3f000000#32 = 1 / 2 := by
    have := V_pow 126 (by norm_num) (by norm_num)
    norm_num at this
    exact this
  have f2 : IeeeFinite 0x40000000#32 := by unfold IeeeFinite; decide
  have fh : IeeeFinite 0x3f000000#32 := by unfold IeeeFinite; decide
  unfold V at v0 v1 v2 vh
  classical
  refine ⟨⟨fun x => if ieeeSign x = true ∧ ieeeValue x ≠ 0 then 0#32 else one32, id, fun a _ => a, id⟩, fun x => if x < 0 then 0 else 1, 0x40000000#32, 0x3f000000#32,
    [(0, one32), (1, 0x40000000#32), (2, 0#32)], ⟨?_, ?_, ?_, ?_, ?_, ?_⟩, ⟨f2, by rw [v2]; norm_num⟩, ⟨fh, by rw [vh]; norm_num, by rw [vh]; norm_num⟩, rfl, by decide, ?_⟩
  · intro x y h
    simp only
    split <;> split <;> first | linarith | norm_num
  · intro x
    show (0 : ℝ) ≤ if x < 0 then 0 else 1
    split <;> norm_num
  · simp
  · intro x _ hx
    show IeeeFinite (if ieeeSign x = true ∧ ieeeValue x ≠ 0 then 0#32 else one32) ∧ ieeeValue (if ieeeSign x = true ∧ ieeeValue x ≠ 0 then 0#32 else one32) =
      if ieeeValue x < 0 then 0 else 1
    by_cases hz : ieeeValue x = 0
    · rw [if_neg (by simp [hz]), if_neg (by simp [hz])]
      exact ⟨one_fin, v1⟩
    · have hlt := lt_of_le_of_ne hx hz
      have hsn : ieeeSign x = true := by
        by_contra hsn
        refine absurd hlt (not_lt.2 ?_)
        unfold ieeeValue
        rw [if_neg hsn, one_mul]
        split <;> positivity
      rw [if_pos ⟨hsn, hz⟩, if_pos hlt]
      exact ⟨zero_fin, v0⟩
  · intro x hx
    show (if x < 0 then (0 : ℝ) else 1) = 0
    rw [if_pos]
    have : (0 : ℝ) < 2 ^ 127 := by positivity
    linarith
  · intro x hx hsn
    show IeeeFinite (if ieeeSign x = true ∧ ieeeValue x ≠ 0 then 0#32 else one32) ∧ ieeeValue (if ieeeSign x = true ∧ ieeeValue x ≠ 0 then 0#32 else one32) = 0
    have hz : ieeeValue x ≠ 0 := by
      unfold ieeeValue
      rw [if_pos hsn, if_neg (by rw [hx.1]; norm_num)]
      have : (0 : ℝ) < (1 + ieeeFraction x / 2 ^ 23 : ℝ) * (2 : ℝ) ^ ((ieeeExponent x : ℤ) - 127) := by positivity
      linarith
    rw [if_pos ⟨hsn, hz⟩]
    exact ⟨zero_fin, v0⟩
  · intro e he
    simp only [List.mem_cons, List.not_mem_nil, or_false] at he
    rcases he with rfl | rfl | rfl
    · exact ⟨one_fin, by rw [v1]; norm_num⟩
    · exact ⟨f2, by rw [v2]; norm_num⟩
    · exact ⟨zero_fin, by rw [v0]; norm_num⟩

/-- Probabilities 1/2 and 1/2 and 0 meet the hypotheses of the floor. -/
example : ∃ els : List (Nat × BitVec 32), els.length = 3 ∧ (∀ e ∈ els, IeeeFinite e.2 ∧ 0 ≤ ieeeValue e.2 ∧ ieeeValue e.2 ≤ 1) ∧
    (els.map (fun e => ieeeValue e.2)).sum ≤ 2 ∧ (∃ e ∈ els, 0 < ieeeValue e.2) ∧ ∃ e ∈ els, ieeeValue e.2 = 0 := by
  have v0 := V_zero
  have vh : V 0x3f000000#32 = 1 / 2 := by
    have := V_pow 126 (by norm_num) (by norm_num)
    norm_num at this
    exact this
  have fh : IeeeFinite 0x3f000000#32 := by unfold IeeeFinite; decide
  unfold V at v0 vh
  refine ⟨[(0, 0x3f000000#32), (1, 0x3f000000#32), (2, 0#32)], rfl, ?_, ?_, ⟨(0, 0x3f000000#32), by simp, by simp only; rw [vh]; norm_num⟩, ⟨(2, 0#32), by simp, v0⟩⟩
  · intro e he
    simp only [List.mem_cons, List.not_mem_nil, or_false] at he
    rcases he with rfl | rfl | rfl
    · exact ⟨fh, by rw [vh]; norm_num, by rw [vh]; norm_num⟩
    · exact ⟨fh, by rw [vh]; norm_num, by rw [vh]; norm_num⟩
    · exact ⟨zero_fin, by rw [v0], by rw [v0]; norm_num⟩
  · simp only [List.map_cons, List.map_nil, List.sum_cons, List.sum_nil]
    rw [v0, vh]
    norm_num

end Rml
