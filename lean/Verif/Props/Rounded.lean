import Verif.Lemmas.Round
import Verif.Props.ExplorePolicies
import Mathlib.Algebra.BigOperators.Fin

/-!
C94: exploration in floating point. The probabilities add up to 1 up to a stated rounding error, for every way of rounding with relative error `u` and
underflow error `eta` (`f32`: 2^-24 and 2^-150, `rounding_fl32`).
-/

set_option linter.unusedSectionVars false

namespace Rml
open scoped BigOperators

/-! ### Comparisons do not round -/

theorem argMin_round (fl : ℝ → ℝ) (t : Trans ℝ) (l : List ℝ) : @argMin ℝ (roundFlt fl t) l = @argMin ℝ (fieldFlt ℝ) l := by
  have : ∀ (l : List ℝ) (i b : Nat) (v : ℝ), @argMinFrom ℝ (roundFlt fl t) i b v l = @argMinFrom ℝ (fieldFlt ℝ) i b v l := by
    intro l
    induction l with
    | nil => intro i b v; rfl
    | cons x l ih =>
      intro i b v
      unfold argMinFrom
      rw [ih, ih]
      rfl
  cases l with
  | nil => rfl
  | cons x l => exact congrArg some (this l 1 0 x)

theorem firstLowest_round {fl : ℝ → ℝ} {t : Trans ℝ} {scores : List (Nat × ℝ)} (hne : scores ≠ []) :
    ∃ b e, @argMin ℝ (roundFlt fl t) (scores.map (·.2)) = some b ∧ scores[b]? = some e ∧ IsFirstLowest (scores.map (·.2)) b ∧ ∀ x ∈ scores, e.2 ≤ x.2 := by
  rw [argMin_round]
  obtain ⟨b, hb, hf⟩ := argMin_spec (K := ℝ) (scores.map (·.2)) (by simpa using hne)
  have hf' := hf
  obtain ⟨v, hv, hmin⟩ := hf'
  rw [List.getElem?_map] at hv
  obtain ⟨e, he, rfl⟩ := Option.map_eq_some_iff.1 hv
  refine ⟨b, e, hb, he, hf, fun x hx => ?_⟩
  obtain ⟨i, hi⟩ := List.getElem?_of_mem hx
  exact (hmin i x.2 (by rw [List.getElem?_map, hi]; rfl)).1

variable {fl : ℝ → ℝ} {u eta : ℝ}

theorem Rounding.zero (h : Rounding fl u eta) : fl 0 = 0 := by simpa using h.nat 0 (by norm_num)

theorem Rounding.one (h : Rounding fl u eta) : fl 1 = 1 := by simpa using h.nat 1 (by norm_num)

theorem Rounding.nonneg (h : Rounding fl u eta) {x : ℝ} (hx : 0 ≤ x) : 0 ≤ fl x := by
  have := h.mono hx
  rwa [h.zero] at this

theorem Rounding.eta_nonneg (h : Rounding fl u eta) : 0 ≤ eta := by
  have := h.err 0
  rw [h.zero] at this
  simpa using this

/-! ### Sums -/

/-- Adding up numbers that are not negative: the error grows at most linearly. -/
theorem fold_err (h : Rounding fl u eta) (hu : 0 ≤ u) (l : List ℝ) : ∀ (S : ℝ) (k : Nat) (a b : ℝ), (∀ x ∈ l, 0 ≤ x) → 0 ≤ b → b + l.sum ≤ S →
    2 * ((k : ℝ) + l.length) * u ≤ 1 → |a - b| ≤ 2 * k * (u * S + eta) →
    |l.foldl (fun t x => fl (t + x)) a - (b + l.sum)| ≤ 2 * ((k : ℝ) + l.length) * (u * S + eta) := by
  have he := h.eta_nonneg
  induction l with
  | nil => intro S k a b _ _ _ _ hab; simpa using hab
  | cons x l ih =>
    intro S k a b hl hb hS hk hab
    have hx := hl x (by simp)
    have hl' : ∀ y ∈ l, 0 ≤ y := fun y hy => hl y (List.mem_cons_of_mem _ hy)
    have hls : 0 ≤ l.sum := List.sum_nonneg hl'
    rw [List.sum_cons] at hS
    rw [List.length_cons, Nat.cast_add, Nat.cast_one] at hk
    have hlen : (0 : ℝ) ≤ l.length := Nat.cast_nonneg _
    have hk0 : (0 : ℝ) ≤ k := Nat.cast_nonneg _
    have hS0 : 0 ≤ S := by linarith
    have hq : 0 ≤ u * S + eta := by positivity
    have step : |fl (a + x) - (b + x)| ≤ 2 * ((k + 1 : Nat) : ℝ) * (u * S + eta) := by
      have h1 := h.err (a + x)
      have h2 : |a + x| ≤ S + 2 * k * (u * S + eta) := by
        rw [abs_le] at hab ⊢
        constructor <;> linarith
      have h3 : |fl (a + x) - (b + x)| ≤ |fl (a + x) - (a + x)| + |a - b| := by
        have : fl (a + x) - (b + x) = (fl (a + x) - (a + x)) + (a - b) := by ring
        rw [this]
        exact abs_add_le _ _
      have h4 := mul_le_mul_of_nonneg_left h2 hu
      have h5 : 2 * (k : ℝ) * u ≤ 1 := by nlinarith
      have h6 : u * (2 * k * (u * S + eta)) ≤ 1 * (u * S + eta) := by
        have := mul_le_mul_of_nonneg_right h5 hq
        linarith
      push_cast
      linarith
    have := ih S (k + 1) (fl (a + x)) (b + x) hl' (by linarith) (by linarith) (by push_cast; linarith) step
    rw [List.foldl_cons, List.sum_cons, List.length_cons]
    push_cast at this ⊢
    have e1 : b + (x + l.sum) = b + x + l.sum := by ring
    have e2 : (k : ℝ) + (l.length + 1) = k + 1 + l.length := by ring
    rw [e1, e2]
    exact this

/-- The sum of a list of numbers that are not negative. -/
theorem sum_err (h : Rounding fl u eta) (hu : 0 ≤ u) (l : List ℝ) (hl : ∀ x ∈ l, 0 ≤ x) (hn : 2 * (l.length : ℝ) * u ≤ 1) :
    |l.foldl (fun t x => fl (t + x)) 0 - l.sum| ≤ 2 * (l.length : ℝ) * (u * l.sum + eta) := by
  have := fold_err h hu l l.sum 0 0 0 hl le_rfl (by simp) (by simpa using hn) (by simp)
  simpa using this

/-- C94, epsilon-greedy: the sum of the probabilities differs from 1 by no more than rounding. -/
theorem C94_greedy (h : Rounding fl u eta) (hu0 : 0 ≤ u) (hu : u ≤ 1 / 4) (heta : eta ≤ 1 / 4) (t : Trans ℝ) (eps : ℝ) (h0 : 0 ≤ eps) (h1 : eps ≤ 1)
    (scores : List (Nat × ℝ)) (hne : scores ≠ []) (hn : scores.length ≤ 2 ^ 24) :
    ∃ out, @greedyProbs ℝ (roundFlt fl t) eps scores = .ok out ∧ out.map (·.1) = scores.map (·.1) ∧ (∀ e ∈ out, fl (eps / scores.length) ≤ e.2) ∧
      |(out.map (·.2)).sum - 1| ≤ 3 * u + ((scores.length : ℝ) + 3) * eta := by
  obtain ⟨b, e, hb, he, _, _⟩ := @firstLowest_round fl t scores hne
  have hlt : b < scores.length := (List.getElem?_eq_some_iff.1 he).1
  have he0 := h.eta_nonneg
  have hn1 : (1 : ℝ) ≤ (scores.length : ℝ) := by
    have : 1 ≤ scores.length := by omega
    exact_mod_cast this
  set q := fl (eps / (scores.length : ℝ)) with hq
  set r := fl (1 - eps) with hr
  have hq0 : 0 ≤ q := h.nonneg (div_nonneg h0 (by linarith))
  have hr0 : 0 ≤ r := h.nonneg (by linarith)
  refine ⟨(scores.map (fun e => (e.1, q))).set b (e.1, fl (q + r)), ?_, ?_, ?_, ?_⟩
  · unfold greedyProbs
    rw [hb]
    simp only [unwrapOpt, Except.bind, bind]
    have h2 : @Flt.div ℝ (roundFlt fl t) eps (@Flt.ofNat ℝ (roundFlt fl t) scores.length) = q := by
      show fl (eps / fl (scores.length : ℝ)) = q
      rw [h.nat _ hn]
    rw [h2, List.getElem?_map, he]
    rfl
  · rw [List.map_set, List.map_map]
    apply List.ext_getElem?
    intro i
    rw [List.getElem?_set]
    split
    · rename_i hi
      subst hi
      simp only [List.length_map, hlt, if_true, List.getElem?_map, he, Option.map_some]
    · simp [List.getElem?_map, Function.comp_def]
  · intro x hx
    rcases List.mem_or_eq_of_mem_set hx with hx | rfl
    · obtain ⟨y, _, rfl⟩ := List.mem_map.1 hx
      exact le_rfl
    · show q ≤ fl (q + r)
      have e1 := h.mono (show q ≤ q + r by linarith)
      rwa [hq, h.idem] at e1
  · have hsum : (((scores.map (fun e => (e.1, q))).set b (e.1, fl (q + r))).map (·.2)).sum = ((scores.length : ℝ) - 1) * q + fl (q + r) := by
      rw [List.map_set, List.map_map]
      simp only [Function.comp_def]
      have hlen : b < (scores.map (fun _ => q)).length := by simpa using hlt
      have := List.sum_set (scores.map (fun _ => q)) b (fl (q + r))
      rw [this, if_pos hlen]
      have h3 : ((scores.map fun _ => q).take b).sum = (b : ℝ) * q := by
        rw [← List.map_take]
        simp
        left
        omega
      have h4 : ((scores.map fun _ => q).drop (b + 1)).sum = ((scores.length : ℝ) - b - 1) * q := by
        rw [← List.map_drop]
        simp
        left
        rw [Nat.cast_sub (by omega)]
        push_cast
        ring
      rw [h3, h4]
      ring
    rw [hsum]
    have a1 := h.err (eps / (scores.length : ℝ))
    have a2 := h.err (1 - eps)
    have a3 := h.err (q + r)
    rw [← hq] at a1
    rw [← hr] at a2
    have hd0 : 0 ≤ eps / (scores.length : ℝ) := div_nonneg h0 (by linarith)
    have hd1 : eps / (scores.length : ℝ) ≤ eps := div_le_self h0 hn1
    rw [abs_of_nonneg hd0] at a1
    rw [abs_of_nonneg (show (0 : ℝ) ≤ 1 - eps by linarith)] at a2
    rw [abs_of_nonneg (add_nonneg hq0 hr0)] at a3
    have hmul : (scores.length : ℝ) * (eps / (scores.length : ℝ)) = eps := mul_div_cancel₀ _ (by linarith)
    have b1 : |(scores.length : ℝ) * q - eps| ≤ u * eps + (scores.length : ℝ) * eta := by
      have : (scores.length : ℝ) * q - eps = (scores.length : ℝ) * (q - eps / (scores.length : ℝ)) := by rw [mul_sub, hmul]
      rw [this, abs_mul, abs_of_nonneg (show (0 : ℝ) ≤ (scores.length : ℝ) by linarith)]
      have := mul_le_mul_of_nonneg_left a1 (show (0 : ℝ) ≤ (scores.length : ℝ) by linarith)
      rw [mul_add] at this
      have e : (scores.length : ℝ) * (u * (eps / (scores.length : ℝ))) = u * eps := by rw [mul_left_comm, hmul]
      linarith
    have b2 : q + r ≤ 1 + u + 2 * eta := by
      rw [abs_le] at a1 a2
      nlinarith
    have b3 : u * (q + r) ≤ 2 * u := by
      have := mul_le_mul_of_nonneg_left (show q + r ≤ 2 by linarith) hu0
      linarith
    rw [abs_le] at a2 a3 b1 ⊢
    constructor <;> nlinarith

/-! ### The uniform floor -/

theorem sortDesc_round (fl : ℝ → ℝ) (t : Trans ℝ) (l : List ℝ) : @sortDesc ℝ (roundFlt fl t) l = @sortDesc ℝ (fieldFlt ℝ) l := by
  have hins : ∀ (x : ℝ) (l : List ℝ), @insertDesc ℝ (roundFlt fl t) x l = @insertDesc ℝ (fieldFlt ℝ) x l := by
    intro x l
    induction l with
    | nil => rfl
    | cons y l ih =>
      unfold insertDesc
      rw [ih]
      rfl
  induction l with
  | nil => rfl
  | cons x l ih =>
    unfold sortDesc
    rw [ih, hins]

/-- The computed threshold before rounding it to a bound for one action. -/
noncomputable def tauRound (fl : ℝ → ℝ) (n : Nat) (m : ℝ) (j : Nat) (rs : ℝ) : ℝ := fl (fl (fl (fl (((n - j - 1 : Nat) : ℝ) * m) + rs) - 1) / ((j : ℝ) + 1))

/-- The error that one comparison can make. -/
def slack (u eta : ℝ) (n : Nat) : ℝ := 41 * (u + n * eta)

theorem err_of (h : Rounding fl u eta) (hu : 0 ≤ u) {x B : ℝ} (hx : |x| ≤ B) : |fl x - x| ≤ u * B + eta :=
  (h.err x).trans (by have := mul_le_mul_of_nonneg_left hx hu; linarith)

theorem tau_err (h : Rounding fl u eta) (hu : 0 ≤ u) {n j : Nat} (hj : j < n) (hs : (n : ℝ) * (u + eta) ≤ 1 / 100) {m S rs : ℝ} (hm0 : 0 ≤ m)
    (hm : (n : ℝ) * m ≤ 2) (hS0 : 0 ≤ S) (hS : S ≤ 2) (hrs : |rs - S| ≤ 2 * ((j : ℝ) + 1) * (2 * u + eta)) :
    |tauRound fl n m j rs - tauOf n m j S| ≤ 29 * u + 6 * eta ∧ |tauRound fl n m j rs| ≤ 10 := by
  have he := h.eta_nonneg
  have hn : (1 : ℝ) ≤ n := by
    have : 1 ≤ n := by omega
    exact_mod_cast this
  have hue : u + eta ≤ 1 / 100 := by nlinarith
  have hjn : (j : ℝ) + 1 ≤ n := by exact_mod_cast hj
  set E := 2 * ((j : ℝ) + 1) * (2 * u + eta) with hE
  have hE1 : E ≤ 4 / 100 := by nlinarith
  have hE0 : 0 ≤ E := by positivity
  have hc : ((n - j - 1 : Nat) : ℝ) = (n : ℝ) - j - 1 := by
    rw [Nat.sub_sub, Nat.cast_sub (by omega)]
    push_cast
    ring
  have hc0 : 0 ≤ (n : ℝ) - j - 1 := by rw [← hc]; positivity
  have hj0 : (0 : ℝ) ≤ j := Nat.cast_nonneg _
  have hcm0 : 0 ≤ ((n : ℝ) - j - 1) * m := mul_nonneg hc0 hm0
  have hcm : ((n : ℝ) - j - 1) * m ≤ 2 := by nlinarith
  unfold tauRound
  rw [hc]
  set a := fl (((n : ℝ) - j - 1) * m) with ha
  have ea := err_of h hu (B := 2) (x := ((n : ℝ) - j - 1) * m) (by rw [abs_of_nonneg hcm0]; exact hcm)
  rw [← ha] at ea
  rw [abs_le] at hrs ea
  set b := fl (a + rs) with hb
  have eb := err_of h hu (B := 6) (x := a + rs) (by rw [abs_le]; constructor <;> linarith)
  rw [← hb] at eb
  rw [abs_le] at eb
  set c := fl (b - 1) with hcc
  have ec := err_of h hu (B := 8) (x := b - 1) (by rw [abs_le]; constructor <;> linarith)
  rw [← hcc] at ec
  rw [abs_le] at ec
  have hnum : |c - (((n : ℝ) - j - 1) * m + S - 1)| ≤ E + 16 * u + 3 * eta := by
    rw [abs_le]
    constructor <;> linarith
  have hj1 : (1 : ℝ) ≤ (j : ℝ) + 1 := by linarith
  have hcb : |c| ≤ 9 := by rw [abs_le]; constructor <;> linarith
  have hdiv : |c / ((j : ℝ) + 1)| ≤ 9 := by
    rw [abs_div, abs_of_pos (show (0 : ℝ) < (j : ℝ) + 1 by linarith)]
    exact (div_le_self (abs_nonneg _) hj1).trans hcb
  have ed := err_of h hu hdiv
  have hq : |c / ((j : ℝ) + 1) - tauOf n m j S| ≤ 20 * u + 5 * eta := by
    unfold tauOf
    rw [← sub_div, abs_div, abs_of_pos (show (0 : ℝ) < (j : ℝ) + 1 by linarith), div_le_iff₀ (by linarith)]
    refine hnum.trans ?_
    rw [hE]
    nlinarith
  rw [abs_le] at ed hq hdiv
  constructor <;> rw [abs_le] <;> constructor <;> linarith

theorem slack_ge {n : Nat} (hn : 1 ≤ n) (hu : 0 ≤ u) (he : 0 ≤ eta) : 41 * u + 7 * eta ≤ slack u eta n := by
  have : (1 : ℝ) ≤ n := by exact_mod_cast hn
  unfold slack
  nlinarith

theorem thr_err (h : Rounding fl u eta) (hu : 0 ≤ u) {n j : Nat} (hj : j < n) (hs : (n : ℝ) * (u + eta) ≤ 1 / 100) {m S rs : ℝ} (hm0 : 0 ≤ m)
    (hm : (n : ℝ) * m ≤ 2) (hS0 : 0 ≤ S) (hS : S ≤ 2) (hrs : |rs - S| ≤ 2 * ((j : ℝ) + 1) * (2 * u + eta)) :
    |fl (tauRound fl n m j rs + m) - (tauOf n m j S + m)| ≤ slack u eta n := by
  obtain ⟨h1, h2⟩ := tau_err h hu hj hs hm0 hm hS0 hS hrs
  have hn : (1 : ℝ) ≤ n := by
    have : 1 ≤ n := by omega
    exact_mod_cast this
  have hm2 : m ≤ 2 := by nlinarith
  have h3 := slack_ge (u := u) (eta := eta) (n := n) (by omega) hu h.eta_nonneg
  rw [abs_le] at h1 h2
  have h4 := err_of h hu (B := 12) (x := tauRound fl n m j rs + m) (by rw [abs_le]; constructor <;> linarith)
  rw [abs_le] at h4 ⊢
  constructor <;> linarith

/-- Invariant of the loop, with rounding. -/
structure RndInv (fl : ℝ → ℝ) (u eta : ℝ) (n : Nat) (m : ℝ) (pre : List ℝ) (s : RhoState ℝ) : Prop where
  idx : s.idx = pre.length
  sum : s.runningSum = pre.foldl (fun t x => fl (t + x)) 0
  lt : s.rhoIdx < pre.length
  rsum : |s.rhoSum - (pre.take (s.rhoIdx + 1)).sum| ≤ 2 * ((s.rhoIdx : ℝ) + 1) * (2 * u + eta)
  above : ∀ x ∈ pre.take (s.rhoIdx + 1), tauOf n m s.rhoIdx (pre.take (s.rhoIdx + 1)).sum - slack u eta n ≤ x - m
  below : ∀ x ∈ pre.drop (s.rhoIdx + 1), x - m ≤ tauOf n m s.rhoIdx (pre.take (s.rhoIdx + 1)).sum + 2 * slack u eta n

/-- What one step of the loop does with the support `cz || p ≠ 0`. -/
theorem loop_step (h : Rounding fl u eta) (t : Trans ℝ) (cz : Bool) (n : Nat) (hn : n ≤ 2 ^ 24) (m p : ℝ) (ps : List ℝ) (s : RhoState ℝ) (hp : cz = true ∨ p ≠ 0)
    (hidx : s.idx < n) :
    @rhoLoop ℝ (roundFlt fl t) cz n m (p :: ps) s = @rhoLoop ℝ (roundFlt fl t) cz n m ps
      (if fl (tauRound fl n m s.idx (fl (s.runningSum + p)) + m) < p then ⟨s.idx + 1, fl (s.runningSum + p), s.idx, fl (s.runningSum + p)⟩
        else ⟨s.idx + 1, fl (s.runningSum + p), s.rhoIdx, s.rhoSum⟩) := by
  have hcond : (!cz && decide (p = 0)) = false := by
    rcases hp with rfl | h
    · rfl
    · simp [h]
  conv_lhs => unfold rhoLoop
  have e1 : (!cz && @Flt.eq ℝ (roundFlt fl t) p (@Flt.zero ℝ (roundFlt fl t))) = false := hcond
  rw [e1, if_neg (by simp), if_neg (by omega)]
  have e2 : fl ((n - s.idx - 1 : Nat) : ℝ) = ((n - s.idx - 1 : Nat) : ℝ) := h.nat _ (by omega)
  have e3 : fl (fl (s.idx : ℝ) + 1) = (s.idx : ℝ) + 1 := by
    rw [h.nat _ (by omega)]
    have := h.nat (s.idx + 1) (by omega)
    push_cast at this
    exact this
  have e4 : fl (fl (fl (fl (fl (fl ((n - s.idx - 1 : Nat) : ℝ) * m) + fl (s.runningSum + p)) - 1) / fl (fl (s.idx : ℝ) + 1)) + m) =
      fl (tauRound fl n m s.idx (fl (s.runningSum + p)) + m) := by
    rw [e2, e3]
    rfl
  have e5 : @Flt.lt ℝ (roundFlt fl t) (fl (fl (fl (fl (fl (fl ((n - s.idx - 1 : Nat) : ℝ) * m) + fl (s.runningSum + p)) - 1) / fl (fl (s.idx : ℝ) + 1)) + m)) p =
      decide (fl (tauRound fl n m s.idx (fl (s.runningSum + p)) + m) < p) := by
    rw [e4]
    rfl
  have e6 : ∀ c : Bool, (@Flt.lt ℝ (roundFlt fl t) (fl (fl (fl (fl (fl (fl ((n - s.idx - 1 : Nat) : ℝ) * m) + fl (s.runningSum + p)) - 1) / fl (fl (s.idx : ℝ) + 1)) + m)) p = c) →
      ∀ s' : RhoState ℝ, (bif c then ⟨s.idx + 1, fl (s.runningSum + p), s.idx, fl (s.runningSum + p)⟩ else ⟨s.idx + 1, fl (s.runningSum + p), s.rhoIdx, s.rhoSum⟩) = s' →
      (let s1 := if @Flt.lt ℝ (roundFlt fl t) (fl (fl (fl (fl (fl (fl ((n - s.idx - 1 : Nat) : ℝ) * m) + fl (s.runningSum + p)) - 1) / fl (fl (s.idx : ℝ) + 1)) + m)) p then
        { s with rhoIdx := s.idx, rhoSum := fl (s.runningSum + p) } else s; ({ s1 with idx := s1.idx + 1, runningSum := fl (s.runningSum + p) } : RhoState ℝ)) = s' := by
    intro c hc s' hs'
    rw [hc]
    cases c <;> exact hs'
  refine congrArg (@rhoLoop ℝ (roundFlt fl t) cz n m ps) (e6 _ e5 _ ?_)
  by_cases hc : fl (tauRound fl n m s.idx (fl (s.runningSum + p)) + m) < p
  · rw [if_pos hc, decide_eq_true hc]
    rfl
  · rw [if_neg hc, decide_eq_false hc]
    rfl

theorem prefix_err (h : Rounding fl u eta) (hu : 0 ≤ u) {n : Nat} (hs : (n : ℝ) * (u + eta) ≤ 1 / 100) {l : List ℝ} (hl : ∀ x ∈ l, 0 ≤ x) (hlen : l.length ≤ n)
    (hsum : l.sum ≤ 2) : |l.foldl (fun t x => fl (t + x)) 0 - l.sum| ≤ 2 * (l.length : ℝ) * (2 * u + eta) := by
  have he := h.eta_nonneg
  have hlen' : (l.length : ℝ) ≤ n := by exact_mod_cast hlen
  have hl0 : (0 : ℝ) ≤ l.length := Nat.cast_nonneg _
  have h1 := sum_err h hu l hl (by nlinarith)
  have h2 : u * l.sum + eta ≤ 2 * u + eta := by nlinarith
  have h3 : 2 * (l.length : ℝ) * (u * l.sum + eta) ≤ 2 * (l.length : ℝ) * (2 * u + eta) :=
    mul_le_mul_of_nonneg_left h2 (by linarith)
  linarith

theorem loop_round (h : Rounding fl u eta) (hu : 0 ≤ u) (t : Trans ℝ) (cz : Bool) (n : Nat) (hn : n ≤ 2 ^ 24) (hs : (n : ℝ) * (u + eta) ≤ 1 / 100) (m : ℝ)
    (hm0 : 0 ≤ m) (hm : (n : ℝ) * m ≤ 2) (rest : List ℝ) : ∀ (pre : List ℝ) (s : RhoState ℝ), (pre ++ rest).Pairwise (· ≥ ·) → (pre ++ rest).length ≤ n →
    (∀ x ∈ pre ++ rest, 0 ≤ x) → (pre ++ rest).sum ≤ 2 → (∀ x ∈ rest, cz = true ∨ x ≠ 0) → RndInv fl u eta n m pre s →
    ∀ tail : List ℝ, (tail = [] ∨ (cz = false ∧ tail.head? = some 0)) →
    ∃ s', @rhoLoop ℝ (roundFlt fl t) cz n m (rest ++ tail) s = .ok s' ∧ RndInv fl u eta n m (pre ++ rest) s' := by
  induction rest with
  | nil =>
    intro pre s _ _ _ _ _ hinv tail ht
    refine ⟨s, ?_, by simpa using hinv⟩
    rcases ht with rfl | ⟨rfl, ht⟩
    · rfl
    · cases tail with
      | nil => rfl
      | cons a l =>
        simp only [List.head?_cons, Option.some.injEq] at ht
        subst ht
        have : (!false && @Flt.eq ℝ (roundFlt fl t) 0 (@Flt.zero ℝ (roundFlt fl t))) = true := by
          show (!false && decide ((0 : ℝ) = 0)) = true
          simp
        rw [List.nil_append, @rhoLoop.eq_def ℝ (roundFlt fl t)]
        simp only []
        rw [if_pos this]
  | cons p rest ih =>
    intro pre s hsort hlen hnn hsum hnz hinv tail ht
    have happ : pre ++ p :: rest = (pre ++ [p]) ++ rest := by simp
    have hidx : s.idx < n := by
      rw [hinv.idx]
      simp at hlen
      omega
    rw [List.cons_append, loop_step h t cz n hn m p (rest ++ tail) s (hnz p (by simp)) hidx, happ]
    have hpre_nn : ∀ x ∈ pre ++ [p], 0 ≤ x := fun x hx => hnn x (by rw [happ]; exact List.mem_append_left _ hx)
    have hrest_nn : 0 ≤ rest.sum := List.sum_nonneg fun x hx => hnn x (by simp [hx])
    have hS : (pre ++ [p]).sum ≤ 2 := by
      rw [happ, List.sum_append] at hsum
      linarith
    have hS0 : 0 ≤ (pre ++ [p]).sum := List.sum_nonneg hpre_nn
    have hfold : fl (s.runningSum + p) = (pre ++ [p]).foldl (fun t x => fl (t + x)) 0 := by
      rw [List.foldl_append, hinv.sum]
      rfl
    have hlen1 : (pre ++ [p]).length ≤ n := by
      rw [happ, List.length_append] at hlen
      omega
    have hrs := prefix_err h hu hs hpre_nn hlen1 hS
    have hcnt : ((pre ++ [p]).length : ℝ) = (s.idx : ℝ) + 1 := by
      rw [hinv.idx, List.length_append]
      simp
    rw [hcnt] at hrs
    have hthr := thr_err h hu hidx hs hm0 hm hS0 hS hrs
    rw [hinv.idx, ← hfold] at hthr
    rw [abs_le] at hthr
    have hge : ∀ x ∈ pre, p ≤ x := fun x hx => (List.pairwise_append.1 hsort).2.2 x hx p (by simp)
    have hlt := hinv.lt
    refine ih (pre ++ [p]) _ (by rw [← happ]; exact hsort) (by rw [← happ]; exact hlen) (by rw [← happ]; exact hnn) (by rw [← happ]; exact hsum)
      (fun x hx => hnz x (by simp [hx])) ?_ tail ht
    split
    · rename_i hc
      rw [hinv.idx] at hc
      have htake : (pre ++ [p]).take (pre.length + 1) = pre ++ [p] := List.take_of_length_le (by simp)
      refine ⟨by simp [hinv.idx], hfold, by simp [hinv.idx], ?_, ?_, ?_⟩
      · simp only [hinv.idx, htake, hfold]
        rw [hinv.idx] at hrs
        exact hrs
      · intro x hx
        simp only [hinv.idx, htake] at hx ⊢
        have : p ≤ x := by
          rcases List.mem_append.1 hx with hx | hx
          · exact hge x hx
          · simp at hx
            exact hx.ge
        linarith
      · intro x hx
        simp only [hinv.idx] at hx
        rw [List.drop_of_length_le (by simp)] at hx
        simp at hx
    · rename_i hc
      rw [hinv.idx] at hc
      push Not at hc
      have htake : (pre ++ [p]).take (s.rhoIdx + 1) = pre.take (s.rhoIdx + 1) := List.take_append_of_le_length (by omega)
      have hdrop : (pre ++ [p]).drop (s.rhoIdx + 1) = pre.drop (s.rhoIdx + 1) ++ [p] := List.drop_append_of_le_length (by omega)
      refine ⟨by simp [hinv.idx], hfold, by simp; omega, ?_, ?_, ?_⟩
      · simp only [htake]
        exact hinv.rsum
      · intro x hx
        simp only [htake] at hx ⊢
        exact hinv.above x hx
      · intro x hx
        simp only [htake, hdrop] at hx ⊢
        rcases List.mem_append.1 hx with hx | hx
        · exact hinv.below x hx
        · simp at hx
          subst hx
          by_cases hd : pre.drop (s.rhoIdx + 1) = []
          · -- the element right after the last one that passed
            have hl : pre.length = s.rhoIdx + 1 := by
              rw [List.drop_eq_nil_iff] at hd
              omega
            have htk : pre.take (s.rhoIdx + 1) = pre := List.take_of_length_le (by omega)
            rw [htk]
            have hst := tau_step n m s.rhoIdx pre.sum x
            have hsx : (pre ++ [x]).sum = pre.sum + x := by simp
            rw [hsx, hl] at hthr
            rw [hl] at hc
            have hr : (0 : ℝ) ≤ s.rhoIdx := Nat.cast_nonneg _
            have hsl : 0 ≤ slack u eta n := by
              unfold slack
              have := h.eta_nonneg
              positivity
            have hx1 : x - m ≤ tauOf n m (s.rhoIdx + 1) (pre.sum + x) + slack u eta n := by linarith
            have hx2 := mul_le_mul_of_nonneg_left hx1 (show (0 : ℝ) ≤ (s.rhoIdx : ℝ) + 1 + 1 by linarith)
            rw [mul_add, hst] at hx2
            have hx3 : ((s.rhoIdx : ℝ) + 1) * (x - m) ≤ ((s.rhoIdx : ℝ) + 1) * (tauOf n m s.rhoIdx pre.sum + 2 * slack u eta n) := by nlinarith
            exact le_of_mul_le_mul_left hx3 (by linarith)
          · obtain ⟨y, hy⟩ := List.exists_mem_of_ne_nil _ hd
            have h1 := hinv.below y hy
            have h2 := hge y (List.mem_of_mem_drop hy)
            linarith

/-- The loop from the start. -/
theorem loop_round_start (h : Rounding fl u eta) (hu : 0 ≤ u) (t : Trans ℝ) (cz : Bool) (n : Nat) (hn : n ≤ 2 ^ 24) (hs : (n : ℝ) * (u + eta) ≤ 1 / 100) (m : ℝ)
    (hm0 : 0 ≤ m) (hm : (n : ℝ) * m ≤ 1 + (u + n * eta)) (p0 : ℝ) (rest tail : List ℝ) (hsort : (p0 :: rest).Pairwise (· ≥ ·))
    (hlen : (p0 :: rest).length = n) (hnn : ∀ x ∈ p0 :: rest, 0 ≤ x) (hsum : (p0 :: rest).sum ≤ 2) (hnz : ∀ x ∈ p0 :: rest, cz = true ∨ x ≠ 0)
    (ht : tail = [] ∨ (cz = false ∧ tail.head? = some 0)) :
    ∃ s', @rhoLoop ℝ (roundFlt fl t) cz n m (p0 :: rest ++ tail) ⟨0, 0, 0, p0⟩ = .ok s' ∧ RndInv fl u eta n m (p0 :: rest) s' := by
  have hn1 : 1 ≤ n := by simp at hlen; omega
  have he := h.eta_nonneg
  have hn1' : (1 : ℝ) ≤ n := by exact_mod_cast hn1
  have hp0 := hnn p0 (by simp)
  have hr0 : 0 ≤ rest.sum := List.sum_nonneg fun x hx => hnn x (by simp [hx])
  have hp2 : p0 ≤ 2 := by rw [List.sum_cons] at hsum; linarith
  have hm2 : (n : ℝ) * m ≤ 2 := by nlinarith
  rw [List.cons_append, loop_step h t cz n hn m p0 (rest ++ tail) _ (hnz p0 (by simp)) (by show 0 < n; omega)]
  have hone : |fl (0 + p0) - p0| ≤ 2 * (2 * u + eta) := by
    have := prefix_err h hu hs (l := [p0]) (by simpa using hp0) (by simpa using hn1) (by simpa using hp2)
    simpa using this
  have htake : [p0].take (0 + 1) = [p0] := rfl
  have habove : tauOf n m 0 [p0].sum - slack u eta n ≤ p0 - m := by
    simp only [tauOf, List.sum_cons, List.sum_nil, add_zero, Nat.cast_zero, zero_add, div_one, sub_zero]
    have : u + (n : ℝ) * eta ≤ slack u eta n := by
      unfold slack
      have : 0 ≤ u + (n : ℝ) * eta := by positivity
      linarith
    linarith
  have key : ∀ rs : ℝ, |rs - p0| ≤ 2 * (2 * u + eta) → RndInv fl u eta n m [p0] ⟨0 + 1, fl (0 + p0), 0, rs⟩ := by
    intro rs hrs
    refine ⟨rfl, rfl, by simp, by simpa using hrs, ?_, by simp⟩
    intro x hx
    simp at hx
    subst hx
    exact habove
  have hinv : RndInv fl u eta n m [p0] (if fl (tauRound fl n m 0 (fl (0 + p0)) + m) < p0 then ⟨0 + 1, fl (0 + p0), 0, fl (0 + p0)⟩ else ⟨0 + 1, fl (0 + p0), 0, p0⟩) := by
    split
    · exact key _ hone
    · refine key _ ?_
      rw [sub_self, abs_zero]
      positivity
  exact loop_round h hu t cz n hn hs m hm0 hm2 rest [p0] _ (by simpa using hsort) (by simpa using hlen.le) (by simpa using hnn) (by simpa using hsum)
    (fun x hx => hnz x (by simp [hx])) hinv tail ht

/-- What the probabilities add up to after the floor. -/
theorem sum_round (h : Rounding fl u eta) (hu : 0 ≤ u) {n : Nat} (hs : (n : ℝ) * (u + eta) ≤ 1 / 100) {m : ℝ} (hm0 : 0 ≤ m) (hm : (n : ℝ) * m ≤ 2)
    {pre : List ℝ} {s : RhoState ℝ} (hlen : pre.length = n) (hnn : ∀ x ∈ pre, 0 ≤ x) (hsum : pre.sum ≤ 2) (hinv : RndInv fl u eta n m pre s) :
    |(pre.map (fun x => max (fl (x - tauRound fl n m s.rhoIdx s.rhoSum)) m)).sum - 1| ≤ 3 * n * slack u eta n := by
  have he := h.eta_nonneg
  have hlt := hinv.lt
  have hn1 : 1 ≤ n := by omega
  have hsl0 : 0 ≤ slack u eta n := by unfold slack; positivity
  set A := pre.take (s.rhoIdx + 1) with hA
  set B := pre.drop (s.rhoIdx + 1) with hB
  have hsplit : pre = A ++ B := (List.take_append_drop _ _).symm
  have hAnn : ∀ x ∈ A, 0 ≤ x := fun x hx => hnn x (List.mem_of_mem_take hx)
  have hBnn : ∀ x ∈ B, 0 ≤ x := fun x hx => hnn x (List.mem_of_mem_drop hx)
  have hS : A.sum ≤ 2 := by
    have : pre.sum = A.sum + B.sum := by rw [hsplit, List.sum_append]
    have := List.sum_nonneg hBnn
    linarith
  obtain ⟨h1, h2⟩ := tau_err h hu (j := s.rhoIdx) (by omega) hs hm0 hm (List.sum_nonneg hAnn) hS hinv.rsum
  have hge := slack_ge (u := u) (eta := eta) hn1 hu he
  set tau := tauRound fl n m s.rhoIdx s.rhoSum with htau
  set T := tauOf n m s.rhoIdx A.sum with hT
  have hx : ∀ x ∈ pre, |fl (x - tau) - (x - T)| ≤ slack u eta n := by
    intro x hx
    have hx0 := hnn x hx
    have hx2 : x ≤ 2 := by
      have := List.single_le_sum hnn x hx
      linarith
    rw [abs_le] at h1 h2
    have h3 := err_of h hu (B := 12) (x := x - tau) (by rw [abs_le]; constructor <;> linarith)
    rw [abs_le] at h3 ⊢
    constructor <;> linarith
  have gen : ∀ (l : List ℝ) (f g : ℝ → ℝ) (d : ℝ), (∀ x ∈ l, |f x - g x| ≤ d) → |(l.map f).sum - (l.map g).sum| ≤ l.length * d := by
    intro l f g d hl
    induction l with
    | nil => simp
    | cons a l ih =>
      have i1 := ih fun x hx => hl x (List.mem_cons_of_mem _ hx)
      have i2 := hl a (by simp)
      simp only [List.map_cons, List.sum_cons, List.length_cons, Nat.cast_add, Nat.cast_one]
      rw [abs_le] at i1 i2 ⊢
      constructor <;> linarith
  have g1 := gen A (fun x => max (fl (x - tau)) m) (fun x => x - T) (slack u eta n) (by
    intro x hxA
    have a1 := hx x (List.mem_of_mem_take hxA)
    have a2 := hinv.above x hxA
    rw [abs_le] at a1 ⊢
    refine ⟨?_, ?_⟩
    · have := le_max_left (fl (x - tau)) m
      linarith
    · have : max (fl (x - tau)) m ≤ x - T + slack u eta n := max_le (by linarith) (by linarith)
      linarith)
  have g2 := gen B (fun x => max (fl (x - tau)) m) (fun _ => m) (3 * slack u eta n) (by
    intro x hxB
    have a1 := hx x (List.mem_of_mem_drop hxB)
    have a2 := hinv.below x hxB
    rw [abs_le] at a1 ⊢
    refine ⟨?_, ?_⟩
    · have := le_max_right (fl (x - tau)) m
      linarith
    · have : max (fl (x - tau)) m ≤ m + 3 * slack u eta n := max_le (by linarith) (by linarith)
      linarith)
  have hAlen : A.length = s.rhoIdx + 1 := by rw [hA, List.length_take]; omega
  have hBlen : B.length = n - (s.rhoIdx + 1) := by rw [hB, List.length_drop]; omega
  have e1 : (A.map (fun x => x - T)).sum = A.sum - ((s.rhoIdx : ℝ) + 1) * T := by
    have : ∀ l : List ℝ, (l.map (fun x => x - T)).sum = l.sum - l.length * T := by
      intro l
      induction l with
      | nil => simp
      | cons a l ih =>
        simp only [List.map_cons, List.sum_cons, List.length_cons, Nat.cast_add, Nat.cast_one, ih]
        ring
    rw [this, hAlen]
    push_cast
    ring
  have e2 : (B.map (fun _ => m)).sum = ((n : ℝ) - s.rhoIdx - 1) * m := by
    rw [List.map_const', List.sum_replicate, nsmul_eq_mul, hBlen, Nat.cast_sub (by omega)]
    push_cast
    ring
  have e3 : ((s.rhoIdx : ℝ) + 1) * T = ((n : ℝ) - s.rhoIdx - 1) * m + A.sum - 1 := by
    rw [hT, tauOf, mul_div_cancel₀ _ (by positivity)]
  rw [hsplit, List.map_append, List.sum_append]
  rw [e1, e3] at g1
  rw [e2] at g2
  have hcount : (A.length : ℝ) + B.length = n := by
    rw [hAlen, hBlen]
    rw [Nat.cast_sub (by omega)]
    ring
  have hA0 : (0 : ℝ) ≤ A.length := Nat.cast_nonneg _
  have hfin : (A.length : ℝ) * slack u eta n + B.length * (3 * slack u eta n) ≤ 3 * n * slack u eta n := by
    rw [← hcount]
    nlinarith
  rw [abs_le] at g1 g2 ⊢
  constructor <;> linarith

/-- `enforce_min_prob` with rounding. -/
theorem enforce_round (h : Rounding fl u eta) (hu : 0 ≤ u) (t : Trans ℝ) (eps : ℝ) (cz : Bool) (els : List (Nat × ℝ)) (h0 : 0 < eps) (h1 : eps ≤ 1)
    (hn : ∀ e ∈ els, 0 ≤ e.2) (hsum : (els.map (·.2)).sum ≤ 2) (hN : ((els.map (·.2)).filter (supp cz)).length ≤ 2 ^ 24)
    (hs : (((els.map (·.2)).filter (supp cz)).length : ℝ) * (u + eta) ≤ 1 / 100) (hpos : 0 < ((els.map (·.2)).filter (supp cz)).length) :
    ∃ g : ℝ → ℝ, Monotone g ∧ (∀ x, fl (eps / (((els.map (·.2)).filter (supp cz)).length : ℝ)) ≤ g x) ∧
      @enforceMinProb ℝ (roundFlt fl t) eps cz els = .ok (some (els.map (fun e => if cz || decide (0 < e.2) then (e.1, g e.2) else e))) ∧
      |(((els.map (·.2)).filter (supp cz)).map g).sum - 1| ≤
        123 * (((els.map (·.2)).filter (supp cz)).length : ℝ) * (u + (((els.map (·.2)).filter (supp cz)).length : ℝ) * eta) := by
  set P := els.map (·.2) with hP
  set N := (P.filter (supp cz)).length with hNdef
  have he := h.eta_nonneg
  have hN1 : (1 : ℝ) ≤ N := by exact_mod_cast hpos
  have hN0 : (0 : ℝ) < N := by linarith
  have hPn : ∀ x ∈ P, 0 ≤ x := by
    intro x hx
    obtain ⟨e, he, rfl⟩ := List.mem_map.1 hx
    exact hn e he
  have hlen : els.length ≠ 0 := by
    intro h
    have : els = [] := List.length_eq_zero_iff.1 h
    subst this
    simp [hP] at hNdef
    omega
  have hm1 : |fl (eps / N) - eps / N| ≤ u * (1 / N) + eta := err_of h hu (by
    rw [abs_of_nonneg (by positivity)]
    exact div_le_div_of_nonneg_right h1 hN0.le)
  have hm0 : 0 ≤ fl (eps / N) := h.nonneg (by positivity)
  have hm : (N : ℝ) * fl (eps / N) ≤ 1 + (u + N * eta) := by
    rw [abs_le] at hm1
    have a1 : (N : ℝ) * fl (eps / N) ≤ N * (eps / N + (u * (1 / N) + eta)) := mul_le_mul_of_nonneg_left (by linarith) hN0.le
    have a2 : (N : ℝ) * (eps / N + (u * (1 / N) + eta)) = eps + u + N * eta := by field_simp; ring
    nlinarith
  have hofN : (@Flt.ofNat ℝ (roundFlt fl t) N) = N := h.nat N hN
  have hsup : (if cz then els.length else els.length - (els.filter (fun e => @Flt.eq ℝ (roundFlt fl t) e.2 (@Flt.zero ℝ (roundFlt fl t)))).length) = N :=
    support_eq (K := ℝ) cz els
  have hne : @Flt.eq ℝ (roundFlt fl t) eps (@Flt.zero ℝ (roundFlt fl t)) = false := decide_eq_false (ne_of_gt h0)
  have hlt : (@Flt.lt ℝ (roundFlt fl t) eps (@Flt.zero ℝ (roundFlt fl t)) || @Flt.lt ℝ (roundFlt fl t) (@Flt.one ℝ (roundFlt fl t)) eps) = false := by
    show (decide (eps < 0) || decide (1 < eps)) = false
    rw [decide_eq_false (not_lt.2 h0.le), decide_eq_false (not_lt.2 h1)]
    rfl
  by_cases hbig : fl ((999 : Int) / (1000 : Nat)) < eps
  · refine ⟨fun _ => fl (1 / N), fun _ _ _ => le_rfl, fun _ => h.mono (div_le_div_of_nonneg_right h1 hN0.le), ?_, ?_⟩
    · unfold enforceMinProb
      have hb : @Flt.lt ℝ (roundFlt fl t) (@Flt.lit ℝ (roundFlt fl t) 999 1000) eps = true := decide_eq_true hbig
      simp only [hlen, if_false, hne, hlt, Bool.false_eq_true, hsup, hb, if_true, hofN]
      rfl
    · rw [List.map_const', List.sum_replicate, nsmul_eq_mul, ← hNdef]
      have a0 : |fl (1 / N) - 1 / N| ≤ u * (1 / N) + eta := err_of h hu (by rw [abs_of_nonneg (by positivity)])
      have a1 : |(N : ℝ) * fl (1 / N) - 1| ≤ u + N * eta := by
        have : (N : ℝ) * fl (1 / N) - 1 = N * (fl (1 / N) - 1 / N) := by field_simp
        rw [this, abs_mul, abs_of_pos hN0]
        calc (N : ℝ) * |fl (1 / N) - 1 / N| ≤ N * (u * (1 / N) + eta) := mul_le_mul_of_nonneg_left a0 hN0.le
          _ = u + N * eta := by field_simp
      refine a1.trans ?_
      have : (N : ℝ) ≤ N ^ 2 := by nlinarith
      nlinarith
  · cases hsd : @sortDesc ℝ (roundFlt fl t) P with
    | nil =>
      rw [sortDesc_round] at hsd
      have := @sortDesc_length ℝ (fieldFlt ℝ) P
      rw [hsd] at this
      simp [hP] at this
      exact absurd (by simp [this]) hlen
    | cons p0 rest =>
      rw [sortDesc_round] at hsd
      have hperm := @sortDesc_perm ℝ (fieldFlt ℝ) P
      have hsort := sortDesc_sorted (K := ℝ) P
      rw [hsd] at hperm hsort
      have hn' : ∀ x ∈ p0 :: rest, 0 ≤ x := fun x hx => hPn x (hperm.mem_iff.1 hx)
      have hfp := hperm.filter (supp cz)
      have hsplit : p0 :: rest = (p0 :: rest).filter (supp cz) ++ (if cz then [] else (p0 :: rest).filter (fun x => decide (x = 0))) := by
        cases cz with
        | true =>
          have : (supp true : ℝ → Bool) = fun _ => true := by funext x; simp [supp]
          rw [this]; simp
        | false =>
          have : (supp false : ℝ → Bool) = fun x => decide (x ≠ 0) := by funext x; simp [supp]
          rw [this]
          simpa using sorted_split _ hsort hn'
      have hlenA : ((p0 :: rest).filter (supp cz)).length = N := by rw [hNdef]; exact hfp.length_eq
      cases hA : (p0 :: rest).filter (supp cz) with
      | nil => rw [hA] at hlenA; simp at hlenA; omega
      | cons a tl =>
        rw [hA] at hsplit hlenA
        have ha : p0 = a := by
          simp only [List.cons_append, List.cons.injEq] at hsplit
          exact hsplit.1
        subst ha
        have hsortA : (p0 :: tl).Pairwise (· ≥ ·) := by rw [← hA]; exact hsort.filter _
        have hAnn : ∀ x ∈ p0 :: tl, 0 ≤ x := by
          intro x hx
          rw [← hA] at hx
          exact hn' x (List.mem_filter.1 hx).1
        have hAsum : (p0 :: tl).sum ≤ 2 := by
          have e1 : (p0 :: rest).sum = P.sum := hperm.sum_eq
          have e2 := congrArg List.sum hsplit
          rw [List.sum_append] at e2
          have e3 : 0 ≤ (if cz then [] else (p0 :: rest).filter (fun x => decide (x = 0))).sum := by
            refine List.sum_nonneg fun x hx => ?_
            cases cz with
            | true => simp at hx
            | false => exact hn' x (List.mem_filter.1 hx).1
          linarith
        obtain ⟨s', l1, l2⟩ := loop_round_start h hu t cz N hN hs (fl (eps / N)) hm0 hm p0 tl (if cz then [] else (p0 :: rest).filter (fun x => decide (x = 0))) hsortA hlenA hAnn hAsum
          (by intro x hx
              rw [← hA] at hx
              have := (List.mem_filter.1 hx).2
              simpa [supp] using this)
          (by cases cz with
              | true => left; rfl
              | false =>
                simp only [Bool.false_eq_true, if_false]
                cases hz : (p0 :: rest).filter (fun x => decide (x = 0)) with
                | nil => left; rfl
                | cons z zs =>
                  right
                  have hz0 : z ∈ (p0 :: rest).filter (fun x => decide (x = 0)) := by rw [hz]; simp
                  have := (List.mem_filter.1 hz0).2
                  simp at this
                  simp [this])
        rw [← hsplit] at l1
        have hlt2 : s'.rhoIdx < N := by
          have := l2.lt
          omega
        refine ⟨fun x => max (fl (x - tauRound fl N (fl (eps / N)) s'.rhoIdx s'.rhoSum)) (fl (eps / N)), ?_, fun x => le_max_right _ _, ?_, ?_⟩
        · intro x y hxy
          exact max_le_max (h.mono (by linarith)) le_rfl
        · unfold enforceMinProb
          have hb : @Flt.lt ℝ (roundFlt fl t) (@Flt.lit ℝ (roundFlt fl t) 999 1000) eps = false := decide_eq_false hbig
          simp only [hlen, if_false, hne, hlt, Bool.false_eq_true, hsup, hb, hofN]
          have hcmp : @cmpCheck ℝ (roundFlt fl t) P = .ok () := by
            unfold cmpCheck
            rw [if_neg]
            rintro ⟨_, h⟩
            simp at h
          rw [← hP, hcmp, sortDesc_round, hsd]
          have htau : @Flt.div ℝ (roundFlt fl t) (@Flt.sub ℝ (roundFlt fl t) (@Flt.add ℝ (roundFlt fl t) (@Flt.mul ℝ (roundFlt fl t) (@Flt.sub ℝ (roundFlt fl t)
              (@Flt.sub ℝ (roundFlt fl t) (N : ℝ) (@Flt.ofNat ℝ (roundFlt fl t) s'.rhoIdx)) (@Flt.one ℝ (roundFlt fl t))) (fl (eps / N))) s'.rhoSum) (@Flt.one ℝ (roundFlt fl t)))
              (@Flt.add ℝ (roundFlt fl t) (@Flt.ofNat ℝ (roundFlt fl t) s'.rhoIdx) (@Flt.one ℝ (roundFlt fl t))) = tauRound fl N (fl (eps / N)) s'.rhoIdx s'.rhoSum := by
            show fl (fl (fl (fl (fl (fl ((N : ℝ) - fl (s'.rhoIdx : ℝ)) - 1) * fl (eps / N)) + s'.rhoSum) - 1) / fl (fl (s'.rhoIdx : ℝ) + 1)) = _
            have e1 : fl (s'.rhoIdx : ℝ) = s'.rhoIdx := h.nat _ (by omega)
            have e2 : fl ((N : ℝ) - s'.rhoIdx) = ((N - s'.rhoIdx : Nat) : ℝ) := by
              rw [← Nat.cast_sub (by omega)]
              exact h.nat _ (by omega)
            have e3 : fl (((N - s'.rhoIdx : Nat) : ℝ) - 1) = ((N - s'.rhoIdx - 1 : Nat) : ℝ) := by
              have : (((N - s'.rhoIdx : Nat) : ℝ) - 1) = ((N - s'.rhoIdx - 1 : Nat) : ℝ) := by
                rw [Nat.cast_sub (n := N - s'.rhoIdx) (m := 1) (by omega)]
                simp
              rw [this]
              exact h.nat _ (by omega)
            have e4 : fl ((s'.rhoIdx : ℝ) + 1) = (s'.rhoIdx : ℝ) + 1 := by
              have := h.nat (s'.rhoIdx + 1) (by omega)
              push_cast at this
              exact this
            rw [e1, e2, e3, e4]
            rfl
          show (do let s ← @rhoLoop ℝ (roundFlt fl t) cz N (fl (eps / N)) (p0 :: rest) ⟨0, 0, 0, p0⟩; _) = _
          rw [l1]
          simp only [Except.bind, bind]
          refine congrArg (fun x => Except.ok (some x)) (List.map_congr_left fun e _ => ?_)
          rw [← htau]
          rfl
        · have hm2 : (N : ℝ) * fl (eps / N) ≤ 2 := by nlinarith
          have := sum_round h hu hs hm0 hm2 hlenA hAnn hAsum l2
          have e := ((hfp.map (fun x => max (fl (x - tauRound fl N (fl (eps / N)) s'.rhoIdx s'.rhoSum)) (fl (eps / N)))).sum_eq)
          rw [hA] at e
          rw [← e]
          refine this.trans (le_of_eq ?_)
          unfold slack
          ring

/-- C94, the floor of exploration (`enforce_min_prob`): actions with probability 0 keep it, the others get the floor, a more likely action stays more likely, and
the sum differs from 1 by no more than rounding. -/
theorem C94_floor (h : Rounding fl u eta) (hu : 0 ≤ u) (t : Trans ℝ) (eps : ℝ) (h0 : 0 < eps) (h1 : eps ≤ 1) (els : List (Nat × ℝ)) (hnn : ∀ e ∈ els, 0 ≤ e.2)
    (hsum : (els.map (·.2)).sum ≤ 2) (hpos : ∃ e ∈ els, 0 < e.2) (hn : els.length ≤ 2 ^ 24) (hs : (els.length : ℝ) * (u + eta) ≤ 1 / 100) :
    ∃ out, @enforceUnwrap ℝ (roundFlt fl t) eps els = .ok out ∧ out.map (·.1) = els.map (·.1) ∧
      (∀ (i : Nat) (e o : Nat × ℝ), els[i]? = some e → out[i]? = some o → (e.2 = 0 → o.2 = 0) ∧ (0 < e.2 → fl (eps / (els.filter (fun e => decide (0 < e.2))).length) ≤ o.2)) ∧
      (∀ (i j : Nat) (e e' o o' : Nat × ℝ), els[i]? = some e → els[j]? = some e' → out[i]? = some o → out[j]? = some o' → e.2 ≤ e'.2 → o.2 ≤ o'.2) ∧
      |(out.map (·.2)).sum - 1| ≤ 123 * (els.length : ℝ) * (u + (els.length : ℝ) * eta) := by
  have he := h.eta_nonneg
  have hle : ((els.map (·.2)).filter (supp false)).length ≤ els.length := (List.length_filter_le _ _).trans (by simp)
  have hle' : (((els.map (·.2)).filter (supp false)).length : ℝ) ≤ els.length := by exact_mod_cast hle
  have hpos' : 0 < ((els.map (·.2)).filter (supp false)).length := by
    obtain ⟨e, hm, hp⟩ := hpos
    refine List.length_pos_of_mem (a := e.2) (List.mem_filter.2 ⟨List.mem_map_of_mem hm, ?_⟩)
    simp [supp, ne_of_gt hp]
  have hk : ((els.map (·.2)).filter (supp false)).length = (els.filter (fun e => decide (0 < e.2))).length := by
    rw [List.filter_map, List.length_map]
    congr 1
    refine List.filter_congr fun e hm => ?_
    have := hnn e hm
    simp only [supp, Function.comp, Bool.false_or]
    by_cases hz : e.2 = 0
    · simp [hz]
    · simp [hz, lt_of_le_of_ne this (Ne.symm hz)]
  have hs' : (((els.map (·.2)).filter (supp false)).length : ℝ) * (u + eta) ≤ 1 / 100 :=
    (mul_le_mul_of_nonneg_right hle' (by linarith)).trans hs
  obtain ⟨g, hg, hfloor, hout, hgs⟩ := enforce_round h hu t eps false els h0 h1 hnn hsum (hle.trans hn) hs' hpos'
  rw [hk] at hfloor
  have hg0 : ∀ x, 0 ≤ g x := fun x => (h.nonneg (by positivity)).trans (hfloor x)
  refine ⟨_, by unfold enforceUnwrap; rw [hout]; rfl, ?_, ?_, ?_, ?_⟩
  · rw [List.map_map]
    refine List.map_congr_left fun e _ => ?_
    simp only [Function.comp]
    split <;> rfl
  · intro i e o hi ho
    rw [List.getElem?_map, hi] at ho
    simp only [Option.map_some, Option.some.injEq, Bool.false_or, decide_eq_true_eq] at ho
    subst ho
    refine ⟨fun hz => ?_, fun hp => ?_⟩
    · rw [if_neg (by rw [hz]; exact lt_irrefl _)]
      exact hz
    · rw [if_pos hp]
      exact hfloor _
  · intro i j e e' o o' hi hj ho ho' hlt
    rw [List.getElem?_map, hi] at ho
    rw [List.getElem?_map, hj] at ho'
    simp only [Option.map_some, Option.some.injEq, Bool.false_or, decide_eq_true_eq] at ho ho'
    subst ho
    subst ho'
    have hn' := hnn e' (List.mem_of_getElem? hj)
    by_cases hp : 0 < e.2
    · rw [if_pos hp, if_pos (hp.trans_le hlt)]
      exact hg hlt
    · rw [if_neg hp]
      by_cases hp' : 0 < e'.2
      · rw [if_pos hp']
        exact (not_lt.1 hp).trans (hg0 _)
      · rw [if_neg hp']
        exact hlt
  · rw [sum_supported (K := ℝ) false g els hnn]
    refine hgs.trans ?_
    have : (0 : ℝ) ≤ (((els.map (·.2)).filter (supp false)).length : ℝ) := Nat.cast_nonneg _
    gcongr

/-- The floor, applied to what an exploration policy computed. -/
theorem policy_round (h : Rounding fl u eta) (hu : 0 ≤ u) (t : Trans ℝ) (eps : ℝ) (h0 : 0 ≤ eps) (h1 : eps ≤ 1) (els : List (Nat × ℝ)) (hne : els ≠ [])
    (hnn : ∀ e ∈ els, 0 ≤ e.2) (hsum : |(els.map (·.2)).sum - 1| ≤ 6 * (els.length : ℝ) * (u + eta)) (hn : els.length ≤ 2 ^ 24)
    (hs : (els.length : ℝ) * (u + eta) ≤ 1 / 100) :
    ∃ out, @enforceUnwrap ℝ (roundFlt fl t) eps els = .ok out ∧ out.map (·.1) = els.map (·.1) ∧
      (∀ e ∈ out, e.2 = 0 ∨ fl (eps / els.length) ≤ e.2) ∧
      (∀ (i j : Nat) (e e' o o' : Nat × ℝ), els[i]? = some e → els[j]? = some e' → out[i]? = some o → out[j]? = some o' → e.2 ≤ e'.2 → o.2 ≤ o'.2) ∧
      |(out.map (·.2)).sum - 1| ≤ 123 * (els.length : ℝ) * (u + (els.length : ℝ) * eta) := by
  have he := h.eta_nonneg
  have hl : 0 < els.length := List.length_pos_iff.2 hne
  have hl1 : (1 : ℝ) ≤ els.length := by exact_mod_cast hl
  rcases h0.eq_or_lt with rfl | h0
  · refine ⟨els, ?_, rfl, ?_, ?_, ?_⟩
    · unfold enforceUnwrap enforceMinProb
      have hz : @Flt.eq ℝ (roundFlt fl t) 0 (@Flt.zero ℝ (roundFlt fl t)) = true := decide_eq_true rfl
      rw [if_neg (by omega), hz, if_pos rfl]
      rfl
    · intro e hm
      right
      rw [zero_div, h.zero]
      exact hnn e hm
    · intro i j e e' o o' hi hj ho ho' hlt
      rw [hi] at ho
      rw [hj] at ho'
      cases ho
      cases ho'
      exact hlt
    · refine hsum.trans ?_
      have : (els.length : ℝ) * (u + eta) ≤ els.length * (u + els.length * eta) := by
        refine mul_le_mul_of_nonneg_left ?_ (by linarith)
        nlinarith
      have h2 : 0 ≤ (els.length : ℝ) * (u + eta) := by positivity
      linarith
  · rw [abs_le] at hsum
    have hpos : ∃ e ∈ els, 0 < e.2 := by
      by_contra hcon
      push Not at hcon
      have : (els.map (·.2)).sum ≤ 0 := by
        have := List.sum_le_card_nsmul (els.map (·.2)) 0 fun x hx => by
          obtain ⟨e, hm, rfl⟩ := List.mem_map.1 hx
          exact hcon e hm
        simpa using this
      linarith
    obtain ⟨out, r1, r2, r3, r4, r5⟩ := C94_floor h hu t eps h0 h1 els hnn (by linarith) hpos hn hs
    refine ⟨out, r1, r2, ?_, r4, r5⟩
    intro o ho
    obtain ⟨i, hi⟩ := List.getElem?_of_mem ho
    have hlen : out.length = els.length := by
      have := congrArg List.length r2
      simpa using this
    have hlt : i < els.length := by
      have := (List.getElem?_eq_some_iff.1 hi).1
      omega
    have hel := List.getElem?_eq_getElem hlt
    obtain ⟨q1, q2⟩ := r3 i _ o hel hi
    rcases (hnn _ (List.mem_of_getElem? hel)).eq_or_lt with hz | hp
    · left
      exact q1 hz.symm
    · right
      refine (h.mono ?_).trans (q2 hp)
      have hkpos : 0 < (els.filter (fun e => decide (0 < e.2))).length :=
        List.length_pos_of_mem (List.mem_filter.2 ⟨List.mem_of_getElem? hel, by simpa using hp⟩)
      refine div_le_div_of_nonneg_left h0.le (by exact_mod_cast hkpos) ?_
      exact_mod_cast List.length_filter_le _ _

theorem map_sum_err (f g : (Nat × ℝ) → ℝ) (a b : ℝ) (l : List (Nat × ℝ)) (hl : ∀ e ∈ l, |f e - g e| ≤ a * g e + b) :
    |(l.map f).sum - (l.map g).sum| ≤ a * (l.map g).sum + l.length * b := by
  induction l with
  | nil => simp
  | cons e l ih =>
    have i1 := ih fun x hx => hl x (List.mem_cons_of_mem _ hx)
    have i2 := hl e (by simp)
    simp only [List.map_cons, List.sum_cons, List.length_cons, Nat.cast_add, Nat.cast_one]
    rw [abs_le] at i1 i2 ⊢
    constructor <;> nlinarith

/-- Dividing by the rounded total gives a sum near one. -/
theorem normalise_round (h : Rounding fl u eta) (hu : 0 ≤ u) (ws : List (Nat × ℝ)) (hnn : ∀ e ∈ ws, 0 ≤ e.2) (hW : 1 ≤ (ws.map (·.2)).sum)
    (hs : (ws.length : ℝ) * (u + eta) ≤ 1 / 100) :
    |((ws.map (fun e => fl (e.2 / ws.foldl (fun t e => fl (t + e.2)) 0))).sum) - 1| ≤ 6 * (ws.length : ℝ) * (u + eta) ∧
      0 < ws.foldl (fun t e => fl (t + e.2)) 0 := by
  have he := h.eta_nonneg
  set W := (ws.map (·.2)).sum with hWd
  have hl1 : (1 : ℝ) ≤ ws.length := by
    have : 0 < ws.length := by
      rcases ws with _ | ⟨e, ws⟩
      · simp [hWd] at hW
        linarith
      · simp
    exact_mod_cast this
  have hue : u + eta ≤ 1 / 100 := by nlinarith
  have hfold : ws.foldl (fun t e => fl (t + e.2)) 0 = (ws.map (·.2)).foldl (fun t x => fl (t + x)) 0 := by rw [List.foldl_map]
  set T := ws.foldl (fun t e => fl (t + e.2)) 0 with hT
  have hn0 : (0 : ℝ) ≤ ws.length := by linarith
  have e1 := sum_err h hu (ws.map (·.2)) (by
    intro x hx
    obtain ⟨e, hm, rfl⟩ := List.mem_map.1 hx
    exact hnn e hm) (by rw [List.length_map]; nlinarith)
  rw [← hfold, ← hWd, List.length_map] at e1
  set d := 2 * (ws.length : ℝ) * (u + eta) with hd
  have hd0 : 0 ≤ d := by positivity
  have hd1 : d ≤ 1 / 50 := by rw [hd]; linarith
  have e2 : |T - W| ≤ d * W := by
    refine e1.trans ?_
    rw [hd]
    have : u * W + eta ≤ (u + eta) * W := by nlinarith
    calc 2 * (ws.length : ℝ) * (u * W + eta) ≤ 2 * (ws.length : ℝ) * ((u + eta) * W) := mul_le_mul_of_nonneg_left this (by linarith)
      _ = 2 * (ws.length : ℝ) * (u + eta) * W := by ring
  rw [abs_le] at e2
  have hTpos : 0 < T := by nlinarith
  refine ⟨?_, hTpos⟩
  have e3 := map_sum_err (fun e => fl (e.2 / T)) (fun e => e.2 / T) u eta ws (by
    intro e hm
    have := h.err (e.2 / T)
    rwa [abs_of_nonneg (div_nonneg (hnn e hm) hTpos.le)] at this)
  have e4 : (ws.map (fun e => e.2 / T)).sum = W / T := by
    have : ∀ l : List (Nat × ℝ), (l.map (fun e => e.2 / T)).sum = (l.map (·.2)).sum / T := by
      intro l
      induction l with
      | nil => simp
      | cons a l ih => simp only [List.map_cons, List.sum_cons, ih, add_div]
    rw [this]
  rw [e4] at e3
  have e5 : W / T - 1 ≤ 11 / 10 * d := by
    rw [sub_le_iff_le_add, div_le_iff₀ hTpos]
    have q1 : (11 / 10 * d + 1) * (W - d * W) ≤ (11 / 10 * d + 1) * T := mul_le_mul_of_nonneg_left (by linarith) (by positivity)
    have q2 : 0 ≤ d * (1 / 10 - 11 / 10 * d) * W := mul_nonneg (mul_nonneg hd0 (by linarith)) (by linarith)
    nlinarith
  have e6' : 1 - d ≤ W / T := by
    rw [le_div_iff₀ hTpos]
    have q1 : (1 - d) * T ≤ (1 - d) * (W + d * W) := mul_le_mul_of_nonneg_left (by linarith) (by linarith)
    have q2 : 0 ≤ d * d * W := mul_nonneg (mul_nonneg hd0 hd0) (by linarith)
    nlinarith
  have e6 : -d ≤ W / T - 1 := by linarith
  have e7 : u * (W / T) ≤ u * (11 / 10) := mul_le_mul_of_nonneg_left (by linarith) hu
  have e8 : u ≤ ws.length * u := by nlinarith
  rw [abs_le] at e3 ⊢
  constructor
  · rw [hd] at e6
    nlinarith
  · rw [hd] at e5
    nlinarith

/-- C94, softmax: whatever the accuracy of the exponential function, the sum of the probabilities differs from 1 by no more than rounding; every action has the
floor unless its weight is rounded to 0; a cheaper action is at least as likely. -/
theorem C94_softmax_partial (h : Rounding fl u eta) (hu : 0 ≤ u) (t : Trans ℝ) (ht0 : t.exp 0 = 1) (htn : ∀ x, 0 ≤ t.exp x) (htm : Monotone t.exp) (lambda eps : ℝ)
    (hl : 0 ≤ lambda) (h0 : 0 ≤ eps) (h1 : eps ≤ 1) (scores : List (Nat × ℝ)) (hne : scores ≠ []) (hn : scores.length ≤ 2 ^ 24)
    (hs : (scores.length : ℝ) * (u + eta) ≤ 1 / 100) :
    ∃ out, @softmaxProbs ℝ (roundFlt fl t) lambda eps scores = .ok out ∧ out.map (·.1) = scores.map (·.1) ∧
      (∀ e ∈ out, e.2 = 0 ∨ fl (eps / scores.length) ≤ e.2) ∧
      (∀ (i j : Nat) (e e' o o' : Nat × ℝ), scores[i]? = some e → scores[j]? = some e' → out[i]? = some o → out[j]? = some o' → e.2 ≤ e'.2 → o'.2 ≤ o.2) ∧
      |(out.map (·.2)).sum - 1| ≤ 123 * (scores.length : ℝ) * (u + (scores.length : ℝ) * eta) := by
  have he0 := h.eta_nonneg
  obtain ⟨b, e, hb, he, _, hmin⟩ := @firstLowest_round fl t scores hne
  set w : Nat × ℝ → ℝ := fun x => t.exp (fl (-lambda * fl (x.2 - e.2))) with hw
  set ws := scores.map (fun x => (x.1, w x)) with hws
  have hwe : w e = 1 := by
    simp only [hw, sub_self, h.zero, mul_zero, ht0]
  have hwslen : ws.length = scores.length := by simp [hws]
  have hsum2 : (ws.map (·.2)) = scores.map w := by rw [hws, List.map_map]; rfl
  have hnn : ∀ x ∈ ws, 0 ≤ x.2 := by
    intro x hx
    obtain ⟨y, _, rfl⟩ := List.mem_map.1 hx
    exact htn _
  have hW : 1 ≤ (ws.map (·.2)).sum := by
    rw [hsum2, ← hwe]
    refine List.single_le_sum (fun x hx => ?_) _ (List.mem_map_of_mem (List.mem_of_getElem? he))
    obtain ⟨y, _, rfl⟩ := List.mem_map.1 hx
    exact htn _
  obtain ⟨n1, n2⟩ := normalise_round h hu ws hnn hW (by rw [hwslen]; exact hs)
  set T := ws.foldl (fun t e => fl (t + e.2)) 0 with hT
  set els := ws.map (fun x => (x.1, fl (x.2 / T))) with hels
  have helslen : els.length = scores.length := by simp [hels, hwslen]
  obtain ⟨out, r1, r2, r3, r4, r5⟩ := policy_round h hu t eps h0 h1 els (by
      intro hc
      rw [hc] at helslen
      simp at helslen
      exact hne (List.length_eq_zero_iff.1 helslen.symm)) (by
      intro x hx
      obtain ⟨y, hy, rfl⟩ := List.mem_map.1 hx
      exact h.nonneg (div_nonneg (hnn y hy) n2.le)) (by
      rw [helslen, hels, List.map_map, ← hwslen]
      exact n1) (by rw [helslen]; exact hn) (by rw [helslen]; exact hs)
  rw [helslen] at r3 r5
  refine ⟨out, ?_, ?_, r3, ?_, r5⟩
  · unfold softmaxProbs
    have hcmp : @cmpCheck ℝ (roundFlt fl t) (scores.map (·.2)) = .ok () := by
      unfold cmpCheck
      rw [if_neg]
      rintro ⟨_, h⟩
      simp at h
    rw [hcmp, hb]
    simp only [unwrapOpt, Except.bind, bind, he]
    exact r1
  · rw [r2, hels, hws, List.map_map, List.map_map]
    rfl
  · intro i j x x' o o' hi hj ho ho' hlt
    have hei : ∀ (i : Nat) (x : Nat × ℝ), scores[i]? = some x → els[i]? = some (x.1, fl (w x / T)) := by
      intro i x hi
      rw [hels, hws, List.getElem?_map, List.getElem?_map, hi]
      rfl
    refine r4 j i _ _ o' o (hei j x' hj) (hei i x hi) ho' ho (h.mono (div_le_div_of_nonneg_right (htm (h.mono ?_)) n2.le))
    have := h.mono (show x.2 - e.2 ≤ x'.2 - e.2 by linarith)
    nlinarith

theorem fold_others (fl : ℝ → ℝ) (k : Nat) (w : Nat × ℝ → ℝ) (l : List (Nat × ℝ)) (hl : ∀ e ∈ l, e.1 ≠ k) : ∀ t : ℝ,
    l.foldl (fun t e => if e.1 = k then t else fl (t + (if e.1 = k then e else (e.1, w e)).2)) t = (l.map w).foldl (fun t x => fl (t + x)) t := by
  induction l with
  | nil => intro t; rfl
  | cons a l ih =>
    intro t
    have ha := hl a (by simp)
    simp only [List.foldl_cons, List.map_cons]
    rw [if_neg ha, if_neg ha]
    exact ih (fun e he => hl e (by simp [he])) _

/-- C94, SquareCB: the sum of the probabilities differs from 1 by no more than rounding; every action has the floor unless its weight is rounded to 0; among the
actions that are not the best one a cheaper action is at least as likely. -/
theorem C94_squarecb_partial (h : Rounding fl u eta) (hu : 0 ≤ u) (t : Trans ℝ) (gamma eps : ℝ) (hg : 0 ≤ gamma) (h0 : 0 ≤ eps) (h1 : eps ≤ 1) (scores : List (Nat × ℝ))
    (hne : scores ≠ []) (hnd : (scores.map (·.1)).Nodup) (hn : scores.length ≤ 2 ^ 24) (hs : (scores.length : ℝ) * (u + eta) ≤ 1 / 100)
    (hs2 : 6 * (scores.length : ℝ) ^ 2 * (u + eta) ≤ 1) :
    ∃ best out, IsFirstLowest (scores.map (·.2)) best ∧ @squareCbProbs ℝ (roundFlt fl t) gamma eps scores = .ok out ∧ out.map (·.1) = scores.map (·.1) ∧
      (∀ e ∈ out, e.2 = 0 ∨ fl (eps / scores.length) ≤ e.2) ∧
      (∀ (i j : Nat) (e e' o o' : Nat × ℝ), scores[i]? = some e → scores[j]? = some e' → out[i]? = some o → out[j]? = some o' → i ≠ best → j ≠ best → e.2 ≤ e'.2 → o'.2 ≤ o.2) ∧
      |(out.map (·.2)).sum - 1| ≤ 123 * (scores.length : ℝ) * (u + (scores.length : ℝ) * eta) := by
  have he0 := h.eta_nonneg
  obtain ⟨b, be, hb, hbe, hfirst, hmin⟩ := @firstLowest_round fl t scores hne
  have hblt : b < scores.length := (List.getElem?_eq_some_iff.1 hbe).1
  set n := scores.length with hndef
  have hn1 : (1 : ℝ) ≤ n := by
    have : 1 ≤ n := by omega
    exact_mod_cast this
  have hue : u + eta ≤ 1 / 100 := by nlinarith
  set w : Nat × ℝ → ℝ := fun e => fl (1 / fl (n + fl (gamma * fl (e.2 - be.2)))) with hw
  have hsplit : scores = scores.take b ++ be :: scores.drop (b + 1) := by
    have e1 := (List.take_append_drop b scores).symm
    rw [List.drop_eq_getElem_cons hblt] at e1
    have e2 : scores[b] = be := by
      rw [List.getElem?_eq_getElem hblt] at hbe
      exact Option.some.inj hbe
    rwa [e2] at e1
  set A := scores.take b with hA
  set B := scores.drop (b + 1) with hB
  have hAlen : A.length = b := by rw [hA, List.length_take]; omega
  have hnd' : ((A ++ be :: B).map (·.1)).Nodup := by rw [← hsplit]; exact hnd
  rw [List.map_append, List.map_cons, List.nodup_append] at hnd'
  have hAk : ∀ e ∈ A, e.1 ≠ be.1 := fun e he hc => hnd'.2.2 e.1 (List.mem_map_of_mem he) be.1 (by simp) hc
  have hBk : ∀ e ∈ B, e.1 ≠ be.1 := fun e he hc => (List.nodup_cons.1 hnd'.2.1).1 (List.mem_map.2 ⟨e, he, hc⟩)
  set O := A ++ B with hO
  have hOk : ∀ e ∈ O, e.1 ≠ be.1 := fun e he => (List.mem_append.1 he).elim (hAk e) (hBk e)
  have hOm : ∀ e ∈ O, e ∈ scores := by
    intro e he
    rw [hsplit]
    rcases List.mem_append.1 he with he | he
    · exact List.mem_append_left _ he
    · exact List.mem_append_right _ (List.mem_cons_of_mem _ he)
  have hOlen : O.length + 1 = n := by
    have := congrArg List.length hsplit
    rw [List.length_append, List.length_cons] at this
    rw [hO, List.length_append]
    omega
  have hOlen' : (O.length : ℝ) = n - 1 := by
    have : ((O.length + 1 : Nat) : ℝ) = n := by rw [hOlen]
    push_cast at this
    linarith
  -- the weights
  have hden : ∀ e ∈ scores, (n : ℝ) ≤ fl (n + fl (gamma * fl (e.2 - be.2))) := by
    intro e he
    have := h.mono (show (n : ℝ) ≤ n + fl (gamma * fl (e.2 - be.2)) by
      have := h.nonneg (mul_nonneg hg (h.nonneg (sub_nonneg.2 (hmin e he))))
      linarith)
    rwa [h.nat n hn] at this
  have hw0 : ∀ e ∈ scores, 0 ≤ w e := fun e he => h.nonneg (div_nonneg zero_le_one (by have := hden e he; linarith))
  have hw1 : ∀ e ∈ scores, w e ≤ 1 / n + (u / n + eta) := by
    intro e he
    have e1 : w e ≤ fl (1 / n) := h.mono (div_le_div_of_nonneg_left zero_le_one (by linarith) (hden e he))
    have e2 := err_of h hu (x := (1 : ℝ) / n) (B := 1 / n) (by rw [abs_of_nonneg (by positivity)])
    rw [abs_le] at e2
    have : u * (1 / (n : ℝ)) = u / n := by ring
    linarith
  have hO0 : ∀ x ∈ O.map w, 0 ≤ x := by
    intro x hx
    obtain ⟨e, he, rfl⟩ := List.mem_map.1 hx
    exact hw0 e (hOm e he)
  set S := (O.map w).sum with hS
  have hS0 : 0 ≤ S := List.sum_nonneg hO0
  have hS1 : S ≤ 1 - 1 / n + (u + n * eta) := by
    have e1 := List.sum_le_card_nsmul (O.map w) (1 / n + (u / n + eta)) fun x hx => by
      obtain ⟨e, he, rfl⟩ := List.mem_map.1 hx
      exact hw1 e (hOm e he)
    rw [List.length_map, nsmul_eq_mul, hOlen', ← hS] at e1
    have e2 : ((n : ℝ) - 1) * (1 / n + (u / n + eta)) = 1 - 1 / n + (u - u / n + (n - 1) * eta) := by
      field_simp
    have e3 : 0 ≤ u / n := by positivity
    linarith
  set T := (O.map w).foldl (fun t x => fl (t + x)) 0 with hT
  have hn0 : 0 ≤ 1 / (n : ℝ) := by positivity
  have hS2 : S ≤ 11 / 10 := by nlinarith
  have eT : |T - S| ≤ 2 * n * (11 / 10 * u + eta) := by
    have e1 := sum_err h hu (O.map w) hO0 (by rw [List.length_map]; nlinarith)
    rw [List.length_map, ← hT, ← hS] at e1
    refine e1.trans ?_
    have : u * S + eta ≤ 11 / 10 * u + eta := by nlinarith
    have h3 : 0 ≤ u * S + eta := by positivity
    exact mul_le_mul (by linarith) this h3 (by linarith)
  have hn2 : 6 * (n : ℝ) * (u + eta) ≤ 1 / n := by
    rw [le_div_iff₀ (by linarith)]
    nlinarith
  have hnu : u ≤ n * u := by nlinarith
  have hne' : eta ≤ n * eta := by nlinarith
  have hT1 : T ≤ 1 := by
    rw [abs_le] at eT
    nlinarith
  have hT0 : -1 ≤ T := by
    rw [abs_le] at eT
    nlinarith
  set v := fl (1 - T) with hv
  have hv0 : 0 ≤ v := h.nonneg (by linarith)
  have ev : |v - (1 - T)| ≤ u * 2 + eta := err_of h hu (by rw [abs_le]; constructor <;> linarith)
  set els := A.map (fun e => (e.1, w e)) ++ (be.1, v) :: B.map (fun e => (e.1, w e)) with hels
  have helslen : els.length = n := by
    rw [hels, List.length_append, List.length_cons, List.length_map, List.length_map]
    have := hOlen
    rw [hO, List.length_append] at this
    omega
  have helssum : (els.map (·.2)).sum = S + v := by
    rw [hels, List.map_append, List.map_cons, List.sum_append, List.sum_cons, List.map_map, List.map_map, hS, hO, List.map_append, List.sum_append]
    have : ((fun x : Nat × ℝ => x.2) ∘ fun e : Nat × ℝ => (e.1, w e)) = w := rfl
    rw [this]
    ring
  have hmap : ∀ l : List (Nat × ℝ), (∀ e ∈ l, e.1 ≠ be.1) → l.map (fun e => if e.1 = be.1 then e else (e.1, w e)) = l.map (fun e => (e.1, w e)) := by
    intro l hl
    refine List.map_congr_left fun e he => ?_
    rw [if_neg (hl e he)]
  obtain ⟨out, r1, r2, r3, r4, r5⟩ := policy_round h hu t eps h0 h1 els (by
      intro hc
      rw [hc] at helslen
      simp at helslen
      omega) (by
      intro x hx
      rw [hels] at hx
      rcases List.mem_append.1 hx with hx | hx
      · obtain ⟨y, hy, rfl⟩ := List.mem_map.1 hx
        exact hw0 y (hOm y (List.mem_append_left _ hy))
      · rcases List.mem_cons.1 hx with rfl | hx
        · exact hv0
        · obtain ⟨y, hy, rfl⟩ := List.mem_map.1 hx
          exact hw0 y (hOm y (List.mem_append_right _ hy))) (by
      rw [helslen, helssum]
      rw [abs_le] at eT ev ⊢
      constructor <;> nlinarith) (by rw [helslen]; exact hn) (by rw [helslen]; exact hs)
  rw [helslen] at r3 r5
  refine ⟨b, out, hfirst, ?_, ?_, r3, ?_, r5⟩
  · unfold squareCbProbs
    have hcmp : @cmpCheck ℝ (roundFlt fl t) (scores.map (·.2)) = .ok () := by
      unfold cmpCheck
      rw [if_neg]
      rintro ⟨_, h⟩
      simp at h
    rw [hcmp, hb]
    simp only [unwrapOpt, Except.bind, bind, hbe]
    have hupd : (fun e : Nat × ℝ => if e.1 = be.1 then e else (e.1, @Flt.div ℝ (roundFlt fl t) (@Flt.one ℝ (roundFlt fl t)) (@Flt.add ℝ (roundFlt fl t)
        (@Flt.ofNat ℝ (roundFlt fl t) scores.length) (@Flt.mul ℝ (roundFlt fl t) gamma (@Flt.sub ℝ (roundFlt fl t) e.2 be.2))))) =
        fun e => if e.1 = be.1 then e else (e.1, w e) := by
      funext e
      show (if e.1 = be.1 then e else (e.1, fl (1 / fl (fl (n : ℝ) + fl (gamma * fl (e.2 - be.2)))))) = _
      rw [h.nat n hn]
    rw [hupd]
    have hmapall : scores.map (fun e => if e.1 = be.1 then e else (e.1, w e)) = A.map (fun e => (e.1, w e)) ++ be :: B.map (fun e => (e.1, w e)) := by
      rw [hsplit, List.map_append, List.map_cons, hmap A hAk, hmap B hBk, if_pos rfl]
    have hget : (A.map (fun e => (e.1, w e)) ++ be :: B.map (fun e => (e.1, w e)))[b]? = some be := by
      rw [List.getElem?_append_right (by rw [List.length_map, hAlen]), List.length_map, hAlen]
      simp
    have hfold : scores.foldl (fun t e => if e.1 = be.1 then t else fl (t + (if e.1 = be.1 then e else (e.1, w e)).2)) 0 = T := by
      rw [hsplit, List.foldl_append, List.foldl_cons, if_pos rfl, hT, hO, List.map_append, List.foldl_append, ← fold_others fl be.1 w A hAk 0,
        ← fold_others fl be.1 w B hBk]
    have hset : (A.map (fun e => (e.1, w e)) ++ be :: B.map (fun e => (e.1, w e))).set b (be.1, v) = els := by
      rw [List.set_append_right _ _ (by rw [List.length_map, hAlen]), List.length_map, hAlen]
      simp [hels]
    rw [hmapall, hget]
    show @enforceUnwrap ℝ (roundFlt fl t) eps ((A.map (fun e => (e.1, w e)) ++ be :: B.map (fun e => (e.1, w e))).set b
      (be.1, fl (1 - scores.foldl (fun t e => if e.1 = be.1 then t else fl (t + (if e.1 = be.1 then e else
        (e.1, fl (1 / fl (fl (n : ℝ) + fl (gamma * fl (e.2 - be.2)))))).2)) 0))) = _
    rw [h.nat n hn, hfold, ← hv, hset]
    exact r1
  · rw [r2, hels]
    conv_rhs => rw [hsplit]
    rw [List.map_append, List.map_cons, List.map_append, List.map_cons, List.map_map, List.map_map]
    rfl
  · intro i j x x' o o' hi hj ho ho' hib hjb hlt
    have hei : ∀ (i : Nat) (x : Nat × ℝ), scores[i]? = some x → i ≠ b → els[i]? = some (x.1, w x) := by
      intro i x hi hib
      rw [hsplit] at hi
      rw [hels]
      rcases lt_or_gt_of_ne hib with hlt | hgt
      · rw [List.getElem?_append_left (by omega)] at hi
        rw [List.getElem?_append_left (by rw [List.length_map]; omega), List.getElem?_map, hi]
        rfl
      · obtain ⟨k, rfl⟩ := Nat.exists_eq_add_of_lt hgt
        rw [List.getElem?_append_right (by omega), hAlen, show b + k + 1 - b = k + 1 by omega, List.getElem?_cons_succ] at hi
        rw [List.getElem?_append_right (by rw [List.length_map]; omega), List.length_map, hAlen, show b + k + 1 - b = k + 1 by omega, List.getElem?_cons_succ,
          List.getElem?_map, hi]
        rfl
    refine r4 j i _ _ o' o (hei j x' hj hjb) (hei i x hi hib) ho' ho (h.mono ?_)
    refine div_le_div_of_nonneg_left zero_le_one (by have := hden x (List.mem_of_getElem? hi); linarith) (h.mono ?_)
    have := h.mono (mul_le_mul_of_nonneg_left (h.mono (show x.2 - be.2 ≤ x'.2 - be.2 by linarith)) hg)
    linarith

/-! ### `f32` -/

/-- `f32` functions: the exponential function is the exact one, rounded. -/
noncomputable def trans32 : Trans ℝ where
  exp := fun x => fl32 (Real.exp x)
  ln := fun x => fl32 (Real.log x)
  powf := fun x y => fl32 (x ^ y)
  sqrt := fun x => fl32 (Real.sqrt x)

theorem trans32_zero : trans32.exp 0 = 1 := by
  show fl32 (Real.exp 0) = 1
  rw [Real.exp_zero]
  exact rounding_fl32.one

theorem trans32_nonneg (x : ℝ) : 0 ≤ trans32.exp x := fl32_nonneg (Real.exp_pos x).le

theorem trans32_mono : Monotone trans32.exp := fun _ _ h => fl32_mono (Real.exp_le_exp.2 h)

theorem exp_small : Real.exp (-200) ≤ 1 / 2 ^ 151 := by
  have h1 : (2 : ℝ) ≤ Real.exp 1 := by
    have := Real.add_one_le_exp (1 : ℝ)
    linarith
  have h2 : Real.exp (-200) = (Real.exp 1 ^ 200)⁻¹ := by
    rw [← Real.exp_nat_mul, ← Real.exp_neg]
    norm_num
  rw [h2, one_div]
  refine inv_anti₀ (by positivity) ?_
  calc (2 : ℝ) ^ 151 ≤ 2 ^ 200 := by norm_num
    _ ≤ Real.exp 1 ^ 200 := pow_le_pow_left₀ (by norm_num) h1 200

/-- C94 does not hold in full: in `f32` the uniform exploration of softmax is lost for an action whose weight is rounded to 0. With two actions of cost 0 and 1,
lambda 200 and epsilon 1/2 the second action has probability 0, not at least 1/4. -/
theorem C94_softmax_floor_false :
    ¬ ∀ (lambda eps : ℝ) (scores out : List (Nat × ℝ)), 0 ≤ lambda → 0 ≤ eps → eps ≤ 1 → @softmaxProbs ℝ (roundFlt fl32 trans32) lambda eps scores = .ok out →
      ∀ e ∈ out, fl32 (eps / scores.length) ≤ e.2 := by
  intro hall
  have h := rounding_fl32
  have hone := h.one
  have hzero := h.zero
  have h200 : fl32 (-200) = -200 := by
    rw [fl32_neg]
    have := fl32_nat 200 (by norm_num)
    push_cast at this
    rw [this]
  have hq : fl32 ((1 / 2) / 2) = 1 / 4 := by
    have := fl32_exact 1 (-2) (by norm_num) (by norm_num)
    norm_num at this ⊢
    exact this
  have hexp : trans32.exp (-200) = 0 := fl32_tiny (Real.exp_pos _).le exp_small
  have hsoft : @softmaxProbs ℝ (roundFlt fl32 trans32) 200 (1 / 2) [(0, 0), (1, 1)] = @enforceUnwrap ℝ (roundFlt fl32 trans32) (1 / 2) [(0, 1), (1, 0)] := by
    have hmin : @argMin ℝ (roundFlt fl32 trans32) [(0 : ℝ), 1] = some 0 := by
      rw [argMin_round]
      simp [argMin, argMinFrom]
    unfold softmaxProbs
    have hcmp : @cmpCheck ℝ (roundFlt fl32 trans32) [(0 : ℝ), 1] = .ok () := by
      unfold cmpCheck
      rw [if_neg]
      rintro ⟨_, h⟩
      simp at h
    show (do @cmpCheck ℝ (roundFlt fl32 trans32) [(0 : ℝ), 1]; let best ← unwrapOpt (@argMin ℝ (roundFlt fl32 trans32) [(0 : ℝ), 1]); _) = _
    rw [hcmp, hmin]
    show @enforceUnwrap ℝ (roundFlt fl32 trans32) (1 / 2)
      [(0, fl32 (trans32.exp (fl32 (-200 * fl32 (0 - 0))) / fl32 (fl32 (0 + trans32.exp (fl32 (-200 * fl32 (0 - 0)))) + trans32.exp (fl32 (-200 * fl32 (1 - 0)))))),
       (1, fl32 (trans32.exp (fl32 (-200 * fl32 (1 - 0))) / fl32 (fl32 (0 + trans32.exp (fl32 (-200 * fl32 (0 - 0)))) + trans32.exp (fl32 (-200 * fl32 (1 - 0))))))] = _
    simp only [sub_zero, hzero, hone, mul_zero, mul_one, h200, hexp, trans32_zero, zero_add, add_zero, div_one]
  obtain ⟨out, r1, r2, r3, _⟩ := C94_floor h (by norm_num) trans32 (1 / 2) (by norm_num) (by norm_num) [(0, 1), (1, 0)] (by simp) (by simp) ⟨(0, 1), by simp, by simp⟩
    (by norm_num) (by norm_num)
  have hlen : out.length = 2 := by
    have := congrArg List.length r2
    simpa using this
  have ho : out[1]? = some out[1] := List.getElem?_eq_getElem (by omega)
  have hz := (r3 1 (1, 0) out[1] rfl ho).1 rfl
  have := hall 200 (1 / 2) [(0, 0), (1, 1)] out (by norm_num) (by norm_num) (by norm_num) (hsoft.trans r1) out[1] (List.getElem_mem _)
  rw [hz] at this
  simp only [List.length_cons, List.length_nil, zero_add, Nat.reduceAdd, Nat.cast_ofNat] at this
  rw [hq] at this
  norm_num at this

/-- The hypotheses of C94 are met by `f32` and a thousand actions. -/
example (scores : List (Nat × ℝ)) (hn : scores.length = 1000) :
    ∃ out, @softmaxProbs ℝ (roundFlt fl32 trans32) 1 (1 / 10) scores = .ok out ∧ |(out.map (·.2)).sum - 1| ≤ 1 / 100 := by
  obtain ⟨out, h1, _, _, _, h2⟩ := C94_softmax_partial rounding_fl32 (by norm_num) trans32 trans32_zero trans32_nonneg trans32_mono 1 (1 / 10) (by norm_num) (by norm_num) (by norm_num)
    scores (by rintro rfl; simp at hn) (by rw [hn]; norm_num) (by rw [hn]; norm_num)
  refine ⟨out, h1, h2.trans ?_⟩
  rw [hn]
  norm_num

example (scores : List (Nat × ℝ)) (hn : scores.length = 1000) (hnd : (scores.map (·.1)).Nodup) :
    ∃ out, @squareCbProbs ℝ (roundFlt fl32 trans32) 10 (1 / 10) scores = .ok out ∧ |(out.map (·.2)).sum - 1| ≤ 1 / 100 := by
  obtain ⟨_, out, _, h1, _, _, _, h2⟩ := C94_squarecb_partial rounding_fl32 (by norm_num) trans32 10 (1 / 10) (by norm_num) (by norm_num) (by norm_num)
    scores (by rintro rfl; simp at hn) hnd (by rw [hn]; norm_num) (by rw [hn]; norm_num) (by rw [hn]; norm_num)
  refine ⟨out, h1, h2.trans ?_⟩
  rw [hn]
  norm_num

example (scores : List (Nat × ℝ)) (hn : scores.length = 1000) :
    ∃ out, @greedyProbs ℝ (roundFlt fl32 trans32) (1 / 10) scores = .ok out ∧ |(out.map (·.2)).sum - 1| ≤ 1 / 1000000 := by
  obtain ⟨out, h1, _, _, h2⟩ := C94_greedy rounding_fl32 (by norm_num) (by norm_num) (by norm_num) trans32 (1 / 10) (by norm_num) (by norm_num)
    scores (by rintro rfl; simp at hn) (by rw [hn]; norm_num)
  refine ⟨out, h1, h2.trans ?_⟩
  rw [hn]
  norm_num

end Rml
