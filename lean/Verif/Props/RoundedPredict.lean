import Verif.Props.RoundedMetrics
import Verif.Props.Visit
import Mathlib.Analysis.SpecialFunctions.Sigmoid
import Mathlib.Analysis.Calculus.MeanValue

/-!
C96: predictions in floating point. The raw prediction of the Coin regressor differs from the sum of value times weight over all features and interactions by a stated
rounding error.
-/

set_option linter.unusedSectionVars false

namespace Rml

variable {fl : ℝ → ℝ} {u eta : ℝ}

/-- Exact arithmetic on the reals, with the exact exponential function. -/
@[reducible] noncomputable def exactFlt : Flt ℝ := @fieldFlt ℝ _ _ transReal

theorem forall2_flatMap {α β : Type} {R : β → β → Prop} (l : List α) (f g : α → List β) (h : ∀ x ∈ l, List.Forall₂ R (f x) (g x)) :
    List.Forall₂ R (l.flatMap f) (l.flatMap g) := by
  induction l with
  | nil => exact .nil
  | cons a l ih =>
    rw [List.flatMap_cons, List.flatMap_cons]
    exact List.rel_append (h a (by simp)) (ih fun x hx => h x (by simp [hx]))

theorem forall2_map {α β : Type} {R : β → β → Prop} (l : List α) (f g : α → β) (h : ∀ x ∈ l, R (f x) (g x)) : List.Forall₂ R (l.map f) (l.map g) := by
  induction l with
  | nil => exact .nil
  | cons a l ih => exact .cons (h a (by simp)) (ih fun x hx => h x (by simp [hx]))

theorem nsIter_mem (f : SparseFeatures ℝ) (ns : Namespace) (e : U32 × ℝ) (h : e ∈ nsIter f ns) : e ∈ f.allFeatures := by
  unfold nsIter SparseFeatures.getNamespace at h
  cases hl : SparseFeatures.lookup f.entries ns with
  | none => simp [hl] at h
  | some n =>
    simp only [hl] at h
    split at h
    · rename_i n' hn
      split at hn
      · cases hn
        have : ∀ l : List (Namespace × NsFeats ℝ), SparseFeatures.lookup l ns = some n → ∃ k, (k, n) ∈ l := by
          intro l
          induction l with
          | nil => intro h; simp [SparseFeatures.lookup] at h
          | cons a l ih =>
            intro h
            unfold SparseFeatures.lookup at h
            split at h
            · cases h
              exact ⟨a.1, by simp⟩
            · obtain ⟨k, hk⟩ := ih h
              exact ⟨k, by simp [hk]⟩
        obtain ⟨k, hk⟩ := this _ hl
        exact List.mem_flatMap.2 ⟨_, hk, h⟩
      · simp at hn
    · simp at h

/-- The value of a feature: not changed by rounding, or a product with one or two roundings. -/
def CloseValue (u eta V : ℝ) (a b : U32 × ℝ) : Prop := a.1 = b.1 ∧ |a.2 - b.2| ≤ 203 / 100 * u * |b.2| + 203 / 100 * eta * V

theorem visited_round (h : Rounding fl u eta) (hu : 0 ≤ u) (hue : u + eta ≤ 1 / 100) (t : Trans ℝ) (c : PassCfg) (f : SparseFeatures ℝ) (V : ℝ) (hV1 : 1 ≤ V)
    (hV : ∀ e ∈ f.allFeatures, |e.2| ≤ V) :
    List.Forall₂ (CloseValue u eta V) (@visited ℝ (roundFlt fl t) c f) (@visited ℝ exactFlt c f) := by
  have he := h.eta_nonneg
  have hV0 : 0 ≤ V := by linarith
  have heV : 0 ≤ eta * V := by positivity
  have same : ∀ e : U32 × ℝ, CloseValue u eta V e e := by
    intro e
    refine ⟨rfl, ?_⟩
    rw [sub_self, abs_zero]
    positivity
  have heta : eta ≤ eta * V := by nlinarith
  have hmul : ∀ a b : ℝ, |fl (a * b) - a * b| ≤ u * |a * b| + eta := fun a b => h.err _
  unfold visited
  refine List.rel_append (List.rel_append (List.rel_append ?_ ?_) ?_) ?_
  · exact List.forall₂_same.2 fun e _ => same e
  · refine forall2_flatMap _ _ _ fun p _ => ?_
    unfold quadVisit
    refine forall2_flatMap _ _ _ fun x hx => forall2_map _ _ _ fun y hy => ⟨rfl, ?_⟩
    show |fl (x.1.2 * y.2) - x.1.2 * y.2| ≤ _ * |x.1.2 * y.2| + _
    have := hmul x.1.2 y.2
    have h2 : 0 ≤ u * |x.1.2 * y.2| := by positivity
    nlinarith
  · refine forall2_flatMap _ _ _ fun p _ => ?_
    unfold cubicVisit
    refine forall2_flatMap _ _ _ fun x hx => forall2_flatMap _ _ _ fun y hy => forall2_map _ _ _ fun z hz => ⟨rfl, ?_⟩
    show |fl (fl (x.1.2 * y.2) * z.2) - x.1.2 * y.2 * z.2| ≤ _ * |x.1.2 * y.2 * z.2| + _
    have hzV : |z.2| ≤ V := hV z (nsIter_mem f _ z (List.mem_of_mem_drop hz))
    have e1 := hmul x.1.2 y.2
    set q := x.1.2 * y.2 with hq
    set r := fl q with hr
    have e2 : |r * z.2 - q * z.2| ≤ u * |q * z.2| + eta * V := by
      have : r * z.2 - q * z.2 = (r - q) * z.2 := by ring
      rw [this, abs_mul, abs_mul]
      have a1 := mul_le_mul_of_nonneg_right e1 (abs_nonneg z.2)
      have a2 := mul_le_mul_of_nonneg_left hzV he
      nlinarith
    have e3 := h.err (r * z.2)
    have e4 : |r * z.2| ≤ |q * z.2| + (u * |q * z.2| + eta * V) := by
      have : r * z.2 = q * z.2 + (r * z.2 - q * z.2) := by ring
      rw [this]
      exact (abs_add_le _ _).trans (by linarith)
    have e5 : |fl (r * z.2) - q * z.2| ≤ |fl (r * z.2) - r * z.2| + |r * z.2 - q * z.2| := by
      have : fl (r * z.2) - q * z.2 = (fl (r * z.2) - r * z.2) + (r * z.2 - q * z.2) := by ring
      rw [this]
      exact abs_add_le _ _
    set w := |q * z.2| with hw
    have hw0 : 0 ≤ w := abs_nonneg _
    have e6 := mul_le_mul_of_nonneg_left e4 hu
    have q1 : u * (u * w) ≤ 1 / 100 * (u * w) := mul_le_mul_of_nonneg_right (by linarith) (by positivity)
    have q2 : u * (eta * V) ≤ 1 / 100 * (eta * V) := mul_le_mul_of_nonneg_right (by linarith) heV
    have q3 : 0 ≤ u * w := by positivity
    have q5 : u * (w + (u * w + eta * V)) = u * w + u * (u * w) + u * (eta * V) := by ring
    have q6 : 203 / 100 * u * w = 203 / 100 * (u * w) := by ring
    have q7 : 203 / 100 * eta * V = 203 / 100 * (eta * V) := by ring
    rw [q6, q7]
    linarith
  · unfold constVisit
    split
    · exact .cons (same _) .nil
    · exact .nil

theorem term_err (h : Rounding fl u eta) (hu : 0 ≤ u) (hue : u + eta ≤ 1 / 100) {V : ℝ} (hV1 : 1 ≤ V) {v' v w : ℝ}
    (hv : |v' - v| ≤ 203 / 100 * u * |v| + 203 / 100 * eta * V) :
    |fl (v' * w) - v * w| ≤ 16 / 5 * u * |v * w| + 11 / 5 * eta * (V * |w|) + 6 / 5 * eta := by
  have he := h.eta_nonneg
  have hw0 := abs_nonneg w
  set C := V * |w| with hC
  have hC0 : 0 ≤ C := by positivity
  have e2 : |v' * w - v * w| ≤ 203 / 100 * (u * |v * w|) + 203 / 100 * (eta * C) := by
    have : v' * w - v * w = (v' - v) * w := by ring
    rw [this, abs_mul, abs_mul, hC]
    have := mul_le_mul_of_nonneg_right hv hw0
    nlinarith
  have e3 := h.err (v' * w)
  set z := |v * w| with hz
  have hz0 : 0 ≤ z := abs_nonneg _
  have e4 : |v' * w| ≤ z + (203 / 100 * (u * z) + 203 / 100 * (eta * C)) := by
    have : v' * w = v * w + (v' * w - v * w) := by ring
    rw [this]
    exact (abs_add_le _ _).trans (by linarith)
  have e5 : |fl (v' * w) - v * w| ≤ |fl (v' * w) - v' * w| + |v' * w - v * w| := by
    have : fl (v' * w) - v * w = (fl (v' * w) - v' * w) + (v' * w - v * w) := by ring
    rw [this]
    exact abs_add_le _ _
  have e6 := mul_le_mul_of_nonneg_left e4 hu
  have q1 : u * (u * z) ≤ 1 / 100 * (u * z) := mul_le_mul_of_nonneg_right (by linarith) (by positivity)
  have q2 : u * (eta * C) ≤ 1 / 100 * (eta * C) := mul_le_mul_of_nonneg_right (by linarith) (by positivity)
  have q3 : 0 ≤ u * z := by positivity
  have q4 : 0 ≤ eta * C := by positivity
  have q5 : u * (z + (203 / 100 * (u * z) + 203 / 100 * (eta * C))) = u * z + 203 / 100 * (u * (u * z)) + 203 / 100 * (u * (eta * C)) := by ring
  have q6 : 16 / 5 * u * z = 16 / 5 * (u * z) := by ring
  have q7 : 11 / 5 * eta * C = 11 / 5 * (eta * C) := by ring
  rw [q6, q7]
  linarith

/-- C96: the raw prediction differs from the exact sum of value times weight over the features, interactions and the constant by at most
`(2 n + 4) u` times the sum of the absolute values of the products (and underflow). -/
theorem C96_raw (h : Rounding fl u eta) (hu : 0 ≤ u) (t : Trans ℝ) (dbg : Bool) (c : Coin ℝ) (f : SparseFeatures ℝ) (V : ℝ) (hV1 : 1 ≤ V)
    (hV : ∀ e ∈ f.allFeatures, |e.2| ≤ V) (wt : U32 → ℝ)
    (hw : ∀ iv ∈ @visited ℝ exactFlt c.pass f, c.weights.weightAt dbg iv.1.toNat 0 = .ok (wt iv.1))
    (hs : ((@visited ℝ exactFlt c.pass f).length : ℝ) * (u + eta) ≤ 1 / 100) (hue : u + eta ≤ 1 / 100) :
    ∃ s, @Coin.rawSum ℝ (roundFlt fl t) dbg c f = .ok s ∧
      |s - ((@visited ℝ exactFlt c.pass f).map (fun iv => iv.2 * wt iv.1)).sum| ≤
        (2 * ((@visited ℝ exactFlt c.pass f).length : ℝ) + 4) * u * ((@visited ℝ exactFlt c.pass f).map (fun iv => |iv.2 * wt iv.1|)).sum +
        3 * eta * V * ((@visited ℝ exactFlt c.pass f).map (fun iv => |wt iv.1|)).sum + 4 * ((@visited ℝ exactFlt c.pass f).length : ℝ) * eta := by
  have he := h.eta_nonneg
  have hV0 : 0 ≤ V := by linarith
  have hvis := visited_round h hu hue t c.pass f V hV1 hV
  unfold Coin.rawSum foreachFeature
  set vr := @visited ℝ (roundFlt fl t) c.pass f with hvr
  set ve := @visited ℝ exactFlt c.pass f with hve
  -- one list of pairs
  have hpair : ∃ l : List ((U32 × ℝ) × (U32 × ℝ)), l.map (·.1) = vr ∧ l.map (·.2) = ve ∧ ∀ e ∈ l, CloseValue u eta V e.1 e.2 := by
    clear hw hs
    clear hvr hve
    clear_value vr ve
    induction hvis with
    | nil => exact ⟨[], rfl, rfl, by simp⟩
    | cons h1 _ ih =>
      obtain ⟨l, l1, l2, l3⟩ := ih
      refine ⟨(_, _) :: l, by rw [List.map_cons, l1], by rw [List.map_cons, l2], ?_⟩
      intro e hm
      rcases List.mem_cons.1 hm with rfl | hm
      · exact h1
      · exact l3 e hm
  obtain ⟨l, l1, l2, l3⟩ := hpair
  have hfold : ∀ (k : List ((U32 × ℝ) × (U32 × ℝ))) (a : ℝ), (∀ e ∈ k, e ∈ l) →
      (k.map (·.1)).foldlM (fun s iv => do
        let w ← c.weights.weightAt dbg iv.1.toNat 0
        (.ok (@Flt.add ℝ (roundFlt fl t) s (@Flt.mul ℝ (roundFlt fl t) iv.2 w)) : M ℝ)) a =
      .ok ((k.map (fun e => fl (e.1.2 * wt e.2.1))).foldl (fun t x => fl (t + x)) a) := by
    intro k
    induction k with
    | nil => intro a _; rfl
    | cons e k ih =>
      intro a hk
      have hm := hk e (by simp)
      have hwe : c.weights.weightAt dbg e.1.1.toNat 0 = .ok (wt e.2.1) := by
        rw [(l3 e hm).1]
        exact hw e.2 (by rw [← l2]; exact List.mem_map_of_mem hm)
      rw [List.map_cons, List.foldlM_cons, hwe, List.map_cons, List.foldl_cons]
      exact ih _ fun x hx => hk x (by simp [hx])
  refine ⟨(l.map (fun e => fl (e.1.2 * wt e.2.1))).foldl (fun t x => fl (t + x)) 0, ?_, ?_⟩
  · rw [← l1]
    exact hfold l 0 fun _ hx => hx
  · have hlen : l.length = ve.length := by rw [← l2, List.length_map]
    rw [← hlen] at hs ⊢
    obtain ⟨q, _⟩ := total_round h hu l (fun e => fl (e.1.2 * wt e.2.1)) (fun e => e.2.2 * wt e.2.1) (fun e => V * |wt e.2.1|) (fun e _ => by positivity) hs
      (fun e hm => term_err h hu hue hV1 (l3 e hm).2)
    rw [← l2, List.map_map, List.map_map, List.map_map]
    refine q.trans ?_
    have e1 : (l.map (fun e => V * |wt e.2.1|)).sum = V * (l.map ((fun iv => |wt iv.1|) ∘ fun x => x.2)).sum := by
      have : ∀ k : List ((U32 × ℝ) × (U32 × ℝ)), (k.map (fun e => V * |wt e.2.1|)).sum = V * (k.map ((fun iv => |wt iv.1|) ∘ fun x => x.2)).sum := by
        intro k
        induction k with
        | nil => simp
        | cons a k ih =>
          simp only [List.map_cons, List.sum_cons, ih, Function.comp]
          ring
      exact this l
    rw [e1]
    have hA : 0 ≤ (l.map ((fun iv : U32 × ℝ => |iv.2 * wt iv.1|) ∘ fun x => x.2)).sum := List.sum_nonneg fun x hx => by
      obtain ⟨e, _, rfl⟩ := List.mem_map.1 hx
      exact abs_nonneg _
    have hB : 0 ≤ (l.map ((fun iv : U32 × ℝ => |wt iv.1|) ∘ fun x => x.2)).sum := List.sum_nonneg fun x hx => by
      obtain ⟨e, _, rfl⟩ := List.mem_map.1 hx
      exact abs_nonneg _
    have hA' : (l.map (fun e => |e.2.2 * wt e.2.1|)).sum = (l.map ((fun iv : U32 × ℝ => |iv.2 * wt iv.1|) ∘ fun x => x.2)).sum := rfl
    rw [hA']
    set A := (l.map ((fun iv : U32 × ℝ => |iv.2 * wt iv.1|) ∘ fun x => x.2)).sum
    set B := (l.map ((fun iv : U32 × ℝ => |wt iv.1|) ∘ fun x => x.2)).sum
    have p1 : 0 ≤ u * A := mul_nonneg hu hA
    have p2 : 0 ≤ eta * (V * B) := mul_nonneg he (mul_nonneg hV0 hB)
    have p3 : 0 ≤ (l.length : ℝ) * eta := by positivity
    nlinarith

/-- The weight stored for a feature. -/
def Coin.storedWeight (dbg : Bool) (c : Coin ℝ) (i : U32) : ℝ :=
  match c.weights.weightAt dbg i.toNat 0 with
  | .ok x => x
  | .error _ => 0

theorem pass_weights (dbg : Bool) (w : DenseWeights ℝ) (func : ℝ → ℝ → ℝ → ℝ) (vs : List (U32 × ℝ)) (a x : ℝ)
    (h : vs.foldlM (fun s iv => do
        let wt ← w.weightAt dbg iv.1.toNat 0
        (.ok (func s iv.2 wt) : M ℝ)) a = .ok x) : ∀ iv ∈ vs, ∃ y, w.weightAt dbg iv.1.toNat 0 = .ok y := by
  induction vs generalizing a with
  | nil => simp
  | cons e vs ih =>
    rw [List.foldlM_cons] at h
    obtain ⟨b, h1, h2⟩ := bind_ok.1 h
    obtain ⟨y, h3, _⟩ := bind_ok.1 h1
    intro iv hm
    rcases List.mem_cons.1 hm with rfl | hm
    · exact ⟨y, h3⟩
    · exact ih _ h2 iv hm

/-- The bound on the error of a raw prediction. `2^-24` and `2^-150` in `f32`. -/
noncomputable def predictionError (u eta V : ℝ) (terms : List (ℝ × ℝ)) : ℝ :=
  (2 * (terms.length : ℝ) + 4) * u * (terms.map (fun x => |x.1 * x.2|)).sum + 3 * eta * V * (terms.map (fun x => |x.2|)).sum + 4 * (terms.length : ℝ) * eta

theorem sigmoid_lipschitz (a b : ℝ) : |Real.sigmoid a - Real.sigmoid b| ≤ 1 / 4 * |a - b| := by
  have := Convex.norm_image_sub_le_of_norm_deriv_le (f := Real.sigmoid) (s := Set.univ) (C := 1 / 4) (x := b) (y := a)
    (fun x _ => differentiable_sigmoid.differentiableAt) (fun x _ => ?_) convex_univ (Set.mem_univ _) (Set.mem_univ _)
  · simpa [Real.norm_eq_abs] using this
  · rw [Real.deriv_sigmoid, Real.norm_eq_abs, abs_of_nonneg (mul_nonneg (Real.sigmoid_nonneg x) (by linarith [Real.sigmoid_le_one x]))]
    nlinarith [sq_nonneg (Real.sigmoid x - 1 / 2)]

theorem link_round (h : Rounding fl u eta) (hu : 0 ≤ u) (hue : u + eta ≤ 1 / 100) (t : Trans ℝ)
    (hexp : ∀ x, |t.exp x - Real.exp x| ≤ u * Real.exp x + eta) (x : ℝ) :
    |@LinkFunction.link ℝ (roundFlt fl t) .logistic x - Real.sigmoid x| ≤ 4 * (u + eta) := by
  have he := h.eta_nonneg
  show |fl (1 / fl (1 + t.exp (-x))) - Real.sigmoid x| ≤ _
  rw [Real.sigmoid_def]
  set e := Real.exp (-x) with hee
  have he0 : 0 < e := Real.exp_pos _
  have h1 := abs_le.1 (hexp (-x))
  set E := t.exp (-x) with hE
  have ue : u * e ≤ 1 / 100 * e := mul_le_mul_of_nonneg_right (by linarith) he0.le
  have hs0 : 0 < 1 + E := by linarith [h1.1]
  have h2 := h.err (1 + E)
  rw [abs_of_pos hs0] at h2
  have h2 := abs_le.1 h2
  set s := fl (1 + E) with hs
  set d := u + eta with hd
  have hd0 : 0 ≤ d := by linarith
  have ed : 0 ≤ d * e := by positivity
  have q1 : u * (1 + E) ≤ 102 / 100 * (u * (1 + e)) := by
    have : 1 + E ≤ 102 / 100 * (1 + e) := by linarith [h1.2]
    have := mul_le_mul_of_nonneg_left this hu
    linarith
  have etae : 0 ≤ eta * e := by positivity
  have ue0 : 0 ≤ u * e := by positivity
  have hde : d * e = u * e + eta * e := by rw [hd]; ring
  have q3 : |s - (1 + e)| ≤ 205 / 100 * (d * (1 + e)) := by
    have b1 : d * (1 + e) = u + eta + u * e + eta * e := by rw [hd]; ring
    have b2 : u * (1 + e) = u + u * e := by ring
    rw [b1, abs_le]
    rw [b2] at q1
    constructor <;> linarith [h1.1, h1.2, h2.1, h2.2]
  have q4 : d * (1 + e) ≤ 1 / 100 * (1 + e) := mul_le_mul_of_nonneg_right hue (by linarith)
  have q5 : 97 / 100 * (1 + e) ≤ s := by linarith [(abs_le.1 q3).1]
  have hspos : 0 < s := by linarith
  have q6 : |1 / s - (1 + e)⁻¹| ≤ 22 / 10 * d := by
    have : 1 / s - (1 + e)⁻¹ = -(s - (1 + e)) / (s * (1 + e)) := by field_simp; ring
    rw [this, abs_div, abs_neg, abs_of_pos (by positivity : 0 < s * (1 + e)), div_le_iff₀ (by positivity)]
    have c1 : 97 / 100 * (1 + e) * (1 + e) ≤ s * (1 + e) := mul_le_mul_of_nonneg_right q5 (by linarith)
    have c2 : (1 + e) ≤ (1 + e) * (1 + e) := by nlinarith
    have c3 : 97 / 100 * (1 + e) ≤ s * (1 + e) := by linarith
    have c4 := mul_le_mul_of_nonneg_left c3 hd0
    nlinarith
  have hinv : (1 + e)⁻¹ ≤ 1 := inv_le_one_of_one_le₀ (by linarith)
  have h3 := h.err (1 / s)
  rw [abs_of_pos (by positivity : (0 : ℝ) < 1 / s)] at h3
  have q7 : 1 / s ≤ 11 / 10 := by linarith [(abs_le.1 q6).2]
  have q8 : u * (1 / s) ≤ u * (11 / 10) := mul_le_mul_of_nonneg_left q7 hu
  have : fl (1 / s) - (1 + e)⁻¹ = (fl (1 / s) - 1 / s) + (1 / s - (1 + e)⁻¹) := by ring
  rw [this]
  exact (abs_add_le _ _).trans (by linarith)

theorem clamp_lipschitz (a b lo hi : ℝ) : |(if a < lo then lo else if hi < a then hi else a) - (if b < lo then lo else if hi < b then hi else b)| ≤ |a - b| ∨ hi < lo := by
  by_cases hle : lo ≤ hi
  · left
    rw [abs_le]
    have h1 := neg_abs_le (a - b)
    have h2 := le_abs_self (a - b)
    constructor <;> split_ifs <;> linarith [abs_nonneg (a - b)]
  · exact .inr (not_le.1 hle)

/-- C96: if a prediction in exact arithmetic succeeds with `(p, raw)`, the same prediction in rounded arithmetic succeeds, its raw prediction is within
`predictionError` of `raw`, and the prediction is within the same bound for the identity link, and within a quarter of it plus `4 (u + eta)` for the logistic link, given
that the exponential function is accurate up to a rounding. -/
theorem C96_predict (h : Rounding fl u eta) (hu : 0 ≤ u) (t : Trans ℝ) (hexp : ∀ x, |t.exp x - Real.exp x| ≤ u * Real.exp x + eta) (dbg : Bool) (c : Coin ℝ)
    (f : SparseFeatures ℝ) (V : ℝ) (hV1 : 1 ≤ V) (hV : ∀ e ∈ f.allFeatures, |e.2| ≤ V) (p raw : ℝ) (hp : @Coin.predict ℝ exactFlt dbg c f = .ok (p, raw))
    (hs : ((@visited ℝ exactFlt c.pass f).length : ℝ) * (u + eta) ≤ 1 / 100) (hue : u + eta ≤ 1 / 100) :
    ∃ p' raw' B, @Coin.predict ℝ (roundFlt fl t) dbg c f = .ok (p', raw') ∧
      B = predictionError u eta V ((@visited ℝ exactFlt c.pass f).map (fun iv => (iv.2, c.storedWeight dbg iv.1))) ∧
      |raw' - raw| ≤ B ∧
      (c.config.linkFunction = .identity → |p' - p| ≤ B) ∧
      (c.config.linkFunction = .logistic → |p' - p| ≤ B / 4 + 4 * (u + eta)) := by
  unfold Coin.predict at hp
  obtain ⟨x, h1, hp⟩ := bind_ok.1 hp
  obtain ⟨y, h2, hp⟩ := bind_ok.1 hp
  have hx : x = raw := by
    have := (Prod.mk.injEq _ _ _ _).mp (Except.ok.inj hp)
    exact this.2
  have hpy : p = @LinkFunction.link ℝ exactFlt c.config.linkFunction y := ((Prod.mk.injEq _ _ _ _).mp (Except.ok.inj hp)).1.symm
  subst hx
  have hw : ∀ iv ∈ @visited ℝ exactFlt c.pass f, c.weights.weightAt dbg iv.1.toNat 0 = .ok (c.storedWeight dbg iv.1) := by
    intro iv hm
    have h1' : @foreachFeature ℝ exactFlt ℝ dbg 0 f c.weights c.pass (fun acc v w => acc + v * w) 0 = .ok x := h1
    unfold foreachFeature at h1'
    obtain ⟨y, hy⟩ := pass_weights dbg c.weights (fun acc v w => acc + v * w) _ _ _ h1' iv hm
    unfold Coin.storedWeight
    rw [hy]
  have hraw : x = ((@visited ℝ exactFlt c.pass f).map (fun iv => iv.2 * c.storedWeight dbg iv.1)).sum := by
    have q := @C12_read_pass_folds ℝ exactFlt ℝ dbg 0 f c.weights c.pass (fun acc v w => acc + v * w) 0 (c.storedWeight dbg) hw
    have h1' : @foreachFeature ℝ exactFlt ℝ dbg 0 f c.weights c.pass (fun acc v w => acc + v * w) 0 = .ok x := h1
    rw [q] at h1'
    rw [← Except.ok.inj h1']
    have : ∀ (l : List (U32 × ℝ)) (a : ℝ), l.foldl (fun s iv => s + iv.2 * c.storedWeight dbg iv.1) a = a + (l.map (fun iv => iv.2 * c.storedWeight dbg iv.1)).sum := by
      intro l
      induction l with
      | nil => simp
      | cons e l ih => intro a; rw [List.foldl_cons, ih, List.map_cons, List.sum_cons]; ring
    rw [this, zero_add]
  obtain ⟨r, hr, hb⟩ := C96_raw h hu t dbg c f V hV1 hV (c.storedWeight dbg) hw hs hue
  rw [← hraw] at hb
  have hlohi : c.minLabel ≤ c.maxLabel := by
    by_contra hlt
    have : @Flt.clamp ℝ exactFlt x c.minLabel c.maxLabel = .error .assert := by
      unfold Flt.clamp
      exact if_neg (by simpa using hlt)
    rw [show @Flt.clamp ℝ exactFlt x c.minLabel c.maxLabel = .ok y from h2] at this
    cases this
  have hclx : y = if x < c.minLabel then c.minLabel else if c.maxLabel < x then c.maxLabel else x := by
    have : @Flt.clamp ℝ exactFlt x c.minLabel c.maxLabel = .ok (if x < c.minLabel then c.minLabel else if c.maxLabel < x then c.maxLabel else x) := by
      show (if decide (c.minLabel ≤ c.maxLabel) = true then
        (Except.ok (if decide (x < c.minLabel) = true then c.minLabel else if decide (c.maxLabel < x) = true then c.maxLabel else x) : M ℝ) else .error .assert) = _
      rw [if_pos (decide_eq_true hlohi)]
      simp only [decide_eq_true_eq]
    rw [show @Flt.clamp ℝ exactFlt x c.minLabel c.maxLabel = .ok y from h2] at this
    exact Except.ok.inj this
  have hclr : @Flt.clamp ℝ (roundFlt fl t) r c.minLabel c.maxLabel = .ok (if r < c.minLabel then c.minLabel else if c.maxLabel < r then c.maxLabel else r) := by
    show (if decide (c.minLabel ≤ c.maxLabel) = true then
      (Except.ok (if decide (r < c.minLabel) = true then c.minLabel else if decide (c.maxLabel < r) = true then c.maxLabel else r) : M ℝ) else .error .assert) = _
    rw [if_pos (decide_eq_true hlohi)]
    simp only [decide_eq_true_eq]
  set z := if r < c.minLabel then c.minLabel else if c.maxLabel < r then c.maxLabel else r with hz
  have hzy : |z - y| ≤ |r - x| := by
    rw [hclx]
    rcases clamp_lipschitz r x c.minLabel c.maxLabel with q | q
    · exact q
    · exact absurd hlohi (not_le.2 q)
  refine ⟨@LinkFunction.link ℝ (roundFlt fl t) c.config.linkFunction z, r, _, ?_, rfl, ?_, ?_, ?_⟩
  · unfold Coin.predict
    rw [hr]
    show (do let cl ← @Flt.clamp ℝ (roundFlt fl t) r c.minLabel c.maxLabel; (Except.ok (@LinkFunction.link ℝ (roundFlt fl t) c.config.linkFunction cl, r) : M (ℝ × ℝ))) = _
    rw [hclr]
    rfl
  · refine hb.trans (le_of_eq ?_)
    simp only [predictionError, List.length_map, List.map_map]
    rfl
  · intro hk
    rw [hpy, hk]
    refine (hzy.trans hb).trans (le_of_eq ?_)
    simp only [predictionError, List.length_map, List.map_map]
    rfl
  · intro hk
    rw [hpy, hk]
    have l1 := link_round h hu hue t hexp z
    have l2 := sigmoid_lipschitz z y
    have l3 : @LinkFunction.link ℝ exactFlt .logistic y = Real.sigmoid y := by
      rw [Real.sigmoid_def]
      show 1 / (1 + Real.exp (-y)) = _
      rw [one_div]
    rw [l3]
    have hB : |r - x| ≤ predictionError u eta V ((@visited ℝ exactFlt c.pass f).map (fun iv => (iv.2, c.storedWeight dbg iv.1))) := by
      refine hb.trans (le_of_eq ?_)
      simp only [predictionError, List.length_map, List.map_map]
      rfl
    have : @LinkFunction.link ℝ (roundFlt fl t) .logistic z - Real.sigmoid y =
        (@LinkFunction.link ℝ (roundFlt fl t) .logistic z - Real.sigmoid z) + (Real.sigmoid z - Real.sigmoid y) := by ring
    rw [this]
    exact (abs_add_le _ _).trans (by linarith)

/-- A model with two weights, `1` and `1/3`, and the interaction of the default namespace with itself. -/
noncomputable def exCoin96 : Coin ℝ :=
  { weights := ⟨[1, 0, 0, 0, 0, 0, 0, 0, 1 / 3, 0, 0, 0, 0, 0, 0, 0], 2, 1, 6, 0, 3⟩, config := ⟨4, 1, 0, 0, .squared, .identity⟩,
    modelStates := [⟨0, 0⟩], averageSquaredNormX := 0, minLabel := -100, maxLabel := 100, lossFunction := .squared, pass := ⟨[(.default, .default)], [], 1, false⟩ }

/-- Two features with values 2 and 3. -/
noncomputable def exFeats96 : SparseFeatures ℝ := ⟨[(.default, ⟨.default, ⟨[0#32, 1#32], 2⟩, ⟨[2, 3], 2⟩, true⟩)]⟩

theorem exVisited96 : @visited ℝ exactFlt exCoin96.pass exFeats96 = [(0#32, 2), (1#32, 3), (0#32, 4), (1#32, 6), (0#32, 9)] := by
  have e1 : (4 : ℝ) = @Flt.mul ℝ exactFlt 2 2 := by show 4 = (2 : ℝ) * 2; norm_num
  have e2 : (6 : ℝ) = @Flt.mul ℝ exactFlt 2 3 := by show 6 = (2 : ℝ) * 3; norm_num
  have e3 : (9 : ℝ) = @Flt.mul ℝ exactFlt 3 3 := by show 9 = (3 : ℝ) * 3; norm_num
  rw [e1, e2, e3]
  have m1 : maskIdx 1 (fnvMul 0#32 ^^^ 0#32) = 0#32 := by decide
  have m2 : maskIdx 1 (fnvMul 0#32 ^^^ 1#32) = 1#32 := by decide
  have m3 : maskIdx 1 (fnvMul 1#32 ^^^ 1#32) = 0#32 := by decide
  calc _ = [(0#32, 2), (1#32, 3), (maskIdx 1 (fnvMul 0#32 ^^^ 0#32), @Flt.mul ℝ exactFlt 2 2), (maskIdx 1 (fnvMul 0#32 ^^^ 1#32), @Flt.mul ℝ exactFlt 2 3),
      (maskIdx 1 (fnvMul 1#32 ^^^ 1#32), @Flt.mul ℝ exactFlt 3 3)] := rfl
    _ = _ := by rw [m1, m2, m3]

theorem exPredict96 (dbg : Bool) : @Coin.predict ℝ exactFlt dbg exCoin96 exFeats96 = .ok (18, 18) := by
  have w0 : exCoin96.weights.weightAt dbg (0#32).toNat 0 = .ok 1 := by cases dbg <;> rfl
  have w1 : exCoin96.weights.weightAt dbg (1#32).toNat 0 = .ok (1 / 3) := by cases dbg <;> rfl
  have hr : @Coin.rawSum ℝ exactFlt dbg exCoin96 exFeats96 = .ok 18 := by
    unfold Coin.rawSum foreachFeature
    rw [exVisited96]
    simp only [List.foldlM_cons, List.foldlM_nil, w0, w1]
    show (Except.ok (0 + 2 * 1 + 3 * (1 / 3) + 4 * 1 + 6 * (1 / 3) + 9 * 1) : M ℝ) = .ok 18
    norm_num
  have hc : @Flt.clamp ℝ exactFlt 18 (-100) 100 = .ok 18 := by
    show (if decide ((-100 : ℝ) ≤ 100) = true then (Except.ok (if decide ((18 : ℝ) < -100) = true then -100 else if decide ((100 : ℝ) < 18) = true then 100 else 18) : M ℝ)
      else .error .assert) = _
    norm_num
  unfold Coin.predict
  rw [hr]
  show (do let cl ← @Flt.clamp ℝ exactFlt 18 (-100) 100; (Except.ok (cl, 18) : M (ℝ × ℝ))) = _
  rw [hc]
  rfl

/-- C96 applies to `f32`: a model with five terms. -/
example : ∃ p' raw' B, @Coin.predict ℝ (roundFlt fl32 trans32) true exCoin96 exFeats96 = .ok (p', raw') ∧ |raw' - 18| ≤ B ∧ |p' - 18| ≤ B ∧ B ≤ 1 / 10000 := by
  obtain ⟨p', raw', B, h1, h2, h3, h4, _⟩ := C96_predict rounding_fl32 (by norm_num) trans32 (fun x => by
      have := rounding_fl32.err (Real.exp x)
      rwa [abs_of_pos (Real.exp_pos x)] at this) true exCoin96 exFeats96 3 (by norm_num)
    (by
      intro e he
      have : e ∈ [((0#32 : U32), (2 : ℝ)), (1#32, 3)] := he
      simp only [List.mem_cons, List.not_mem_nil, or_false] at this
      rcases this with rfl | rfl <;> norm_num) 18 18 (exPredict96 true) (by rw [exVisited96]; norm_num) (by norm_num)
  refine ⟨p', raw', B, h1, h3, h4 rfl, ?_⟩
  rw [h2, exVisited96]
  have w0 : exCoin96.storedWeight true 0#32 = 1 := rfl
  have w1 : exCoin96.storedWeight true 1#32 = 1 / 3 := rfl
  simp only [List.map_cons, List.map_nil, w0, w1, predictionError, List.length_cons, List.length_nil, List.sum_cons, List.sum_nil]
  norm_num [abs_of_pos]

/-- The features 2^24, 1 and -2^24, all with the same weight 1. -/
noncomputable def exFeatsCancel : SparseFeatures ℝ := ⟨[(.default, ⟨.default, ⟨[0#32, 0#32, 0#32], 3⟩, ⟨[2 ^ 24, 1, -2 ^ 24], 3⟩, true⟩)]⟩

/-- A model with one weight, 1. -/
noncomputable def exCoinCancel : Coin ℝ := { exCoin96 with pass := ⟨[], [], 1, false⟩ }

/-- The bound of C96 is in terms of the sum of the absolute values of the terms. It is not possible to bound the error relative to the prediction itself: with features
2^24, 1 and -2^24 and weight 1 each, the raw prediction should be 1 and is 0 in `f32`. -/
theorem C96_relative_false (t : Trans ℝ) :
    ¬ ∀ (dbg : Bool) (c : Coin ℝ) (f : SparseFeatures ℝ) (p raw p' raw' : ℝ), @Coin.predict ℝ exactFlt dbg c f = .ok (p, raw) →
      @Coin.predict ℝ (roundFlt fl32 t) dbg c f = .ok (p', raw') → |raw' - raw| ≤ 1 / 2 * |raw| := by
  intro hall
  have w0 : exCoinCancel.weights.weightAt true (0#32).toNat 0 = .ok 1 := rfl
  have hv : @visited ℝ exactFlt exCoinCancel.pass exFeatsCancel = [(0#32, 2 ^ 24), (0#32, 1), (0#32, -2 ^ 24)] := rfl
  have hv' : @visited ℝ (roundFlt fl32 t) exCoinCancel.pass exFeatsCancel = [(0#32, 2 ^ 24), (0#32, 1), (0#32, -2 ^ 24)] := rfl
  have hr : @Coin.rawSum ℝ exactFlt true exCoinCancel exFeatsCancel = .ok 1 := by
    unfold Coin.rawSum foreachFeature
    rw [hv]
    simp only [List.foldlM_cons, List.foldlM_nil, w0]
    show (Except.ok (0 + 2 ^ 24 * 1 + 1 * 1 + -2 ^ 24 * 1) : M ℝ) = .ok 1
    norm_num
  have n0 : fl32 0 = 0 := by simpa using fl32_nat 0 (by norm_num)
  have n1 : fl32 1 = 1 := by simpa using fl32_nat 1 (by norm_num)
  have n2 : fl32 (2 ^ 24) = 2 ^ 24 := by
    have := fl32_nat (2 ^ 24) le_rfl
    norm_num at this ⊢
    exact this
  have n3 : fl32 (-2 ^ 24) = -2 ^ 24 := by rw [rounding_fl32.neg, n2]
  have hr' : @Coin.rawSum ℝ (roundFlt fl32 t) true exCoinCancel exFeatsCancel = .ok 0 := by
    unfold Coin.rawSum foreachFeature
    rw [hv']
    simp only [List.foldlM_cons, List.foldlM_nil, w0]
    show (Except.ok (fl32 (fl32 (fl32 (0 + fl32 (2 ^ 24 * 1)) + fl32 (1 * 1)) + fl32 (-2 ^ 24 * 1))) : M ℝ) = .ok 0
    rw [mul_one, mul_one, mul_one, n2, n3, n1, zero_add, n2, fl32_stuck, add_neg_cancel, n0]
  have hp : @Coin.predict ℝ exactFlt true exCoinCancel exFeatsCancel = .ok (1, 1) := by
    have hc : @Flt.clamp ℝ exactFlt 1 (-100) 100 = .ok 1 := by
      show (if decide ((-100 : ℝ) ≤ 100) = true then (Except.ok (if decide ((1 : ℝ) < -100) = true then -100 else if decide ((100 : ℝ) < 1) = true then 100 else 1) : M ℝ)
        else .error .assert) = _
      norm_num
    unfold Coin.predict
    rw [hr]
    show (do let cl ← @Flt.clamp ℝ exactFlt 1 (-100) 100; (Except.ok (cl, 1) : M (ℝ × ℝ))) = _
    rw [hc]
    rfl
  have hp' : @Coin.predict ℝ (roundFlt fl32 t) true exCoinCancel exFeatsCancel = .ok (0, 0) := by
    have hc : @Flt.clamp ℝ (roundFlt fl32 t) 0 (-100) 100 = .ok 0 := by
      show (if decide ((-100 : ℝ) ≤ 100) = true then (Except.ok (if decide ((0 : ℝ) < -100) = true then -100 else if decide ((100 : ℝ) < 0) = true then 100 else 0) : M ℝ)
        else .error .assert) = _
      norm_num
    unfold Coin.predict
    rw [hr']
    show (do let cl ← @Flt.clamp ℝ (roundFlt fl32 t) 0 (-100) 100; (Except.ok (cl, 0) : M (ℝ × ℝ))) = _
    rw [hc]
    rfl
  have := hall true _ _ _ _ _ _ hp hp'
  norm_num at this

end Rml
