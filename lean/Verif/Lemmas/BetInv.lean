import Verif.Lemmas.Betting
import Verif.Lemmas.Units

/-
What the wealth of a weight is worth after any sequence of updates (C104): the invariant of a weight.
-/

set_option linter.unusedSectionVars false

namespace Rml
open Coin Real
variable [Trans ℝ]

attribute [local instance] fieldFlt

/-- What is known about a weight after `n` updates of size at most `beta`, with values that are 0 or at least `m` in size. -/
structure BInv (alpha beta m C : ℝ) (n : ℕ) (s : WState ℝ) : Prop where
  mx_nonneg : 0 ≤ s.mx
  mx_min : s.mx = 0 ∨ m ≤ s.mx
  mg : s.mg = 0 ∨ s.mg = beta
  zero : s.mg * s.mx = 0 → s.zt = 0 ∧ s.g2 = 0 ∧ s.we = 0
  z : |s.zt| ≤ s.g2
  g2 : s.g2 ≤ n * (s.mg * s.mx)
  wealth : 0 < s.mg * s.mx → alpha * C ^ (-log (s.mx / m)) *
    Bet.pot ((s.g2 + s.zt) / (2 * (s.mg * s.mx))) ((s.g2 - s.zt) / (2 * (s.mg * s.mx))) ≤ alpha + s.we

theorem BInv.init {alpha beta m C : ℝ} : BInv alpha beta m C 0 ⟨0, 0, 0, 0, 0, 0⟩ :=
  ⟨le_refl _, .inl rfl, .inl rfl, fun _ => ⟨rfl, rfl, rfl⟩, by simp, by simp, by simp⟩

theorem betWeight_eq (alpha : ℝ) (s : WState ℝ) (mx : ℝ) :
    betWeight alpha s mx = if 0 < s.mg * mx then (alpha + s.we) / ((s.mg * mx) * (s.mg * mx + s.g2)) * s.zt else 0 := by
  simp [betWeight]

theorem update_zt (alpha beta avg g x : ℝ) (s : WState ℝ) : (innerUpdate alpha beta avg g x s).zt = s.zt - g * x := by
  simp [innerUpdate, sub_eq_add_neg]

theorem update_g2 (alpha beta avg g x : ℝ) (s : WState ℝ) : (innerUpdate alpha beta avg g x s).g2 = s.g2 + |g * x| := by
  simp [innerUpdate]

/-- The bet that an update settles. -/
noncomputable def settled (alpha beta g x : ℝ) (s : WState ℝ) : ℝ :=
  betWeight alpha { s with mg := if s.mg < |g| then max |g| beta else s.mg } (max s.mx |x|)

theorem update_mgmx (alpha beta avg g x : ℝ) (s : WState ℝ) :
    betWeight alpha { s with mg := (innerUpdate alpha beta avg g x s).mg } (innerUpdate alpha beta avg g x s).mx =
      settled alpha beta g x s := by
  rw [innerUpdate_mg, innerUpdate_mx]; rfl

theorem update_we (alpha beta avg g x : ℝ) (s : WState ℝ) :
    (innerUpdate alpha beta avg g x s).we = s.we - g * x * settled alpha beta g x s := by
  rw [← update_mgmx alpha beta avg g x s]
  simp [innerUpdate, sub_eq_add_neg]

theorem update_xt (alpha beta avg g x : ℝ) (s : WState ℝ) :
    (innerUpdate alpha beta avg g x s).xt = settled alpha beta g x s / avg := by
  rw [← update_mgmx alpha beta avg g x s]
  simp [innerUpdate]

/-- The bet that is settled is the bet of the prediction. -/
theorem BInv.settled_eq {alpha beta m C : ℝ} {n : ℕ} {s : WState ℝ} (h : BInv alpha beta m C n s) {g x : ℝ} (hg : |g| ≤ beta) :
    settled alpha beta g x s = betWeight alpha s (max s.mx |x|) := by
  unfold settled
  split
  · rename_i hlt
    rcases h.mg with e | e
    · obtain ⟨hz, _, _⟩ := h.zero (by rw [e]; simp)
      rw [betWeight_eq, betWeight_eq]
      simp [hz]
    · rw [e] at hlt; linarith
  · rfl

theorem BInv.step {alpha beta m C : ℝ} {n N : ℕ} {s : WState ℝ} (h : BInv alpha beta m C n s) (ha : 0 < alpha) (hb : 0 < beta) (hm : 0 < m)
    (hC : C = 5 * (N + 2)) (hn : n + 1 ≤ N) {g x : ℝ} (avg : ℝ) (hg : |g| ≤ beta) (hx : x = 0 ∨ m ≤ |x|) :
    BInv alpha beta m C (n + 1) (innerUpdate alpha beta avg g x s) := by
  have hC1 : 1 ≤ C := by rw [hC]; have : (0 : ℝ) ≤ N := Nat.cast_nonneg N; linarith
  have hC0 : 0 < C := by linarith
  have hmx := innerUpdate_mx alpha beta avg g x s
  have hmg := innerUpdate_mg alpha beta avg g x s
  have hset := h.settled_eq (x := x) hg
  have hzt := update_zt alpha beta avg g x s
  have hg2 := update_g2 alpha beta avg g x s
  have hwe := update_we alpha beta avg g x s
  rw [hset, betWeight_eq] at hwe
  set s' := innerUpdate alpha beta avg g x s
  have hmx1 : s.mx ≤ s'.mx := by rw [hmx]; exact le_max_left _ _
  have hmx2 : |x| ≤ s'.mx := by rw [hmx]; exact le_max_right _ _
  have hmx0 : 0 ≤ s'.mx := h.mx_nonneg.trans hmx1
  have hmgs : s'.mg = 0 ∨ s'.mg = beta := by
    rw [hmg]; split
    · right; exact max_eq_right hg
    · exact h.mg
  have hmg2 : |g| ≤ s'.mg := by
    rw [hmg]; split
    · exact le_max_left _ _
    · rename_i hl; exact not_lt.1 hl
  have hmg0 : 0 ≤ s'.mg := (abs_nonneg g).trans hmg2
  have hmg1 : s.mg ≤ s'.mg := by
    rw [hmg]; split
    · rename_i hl; exact hl.le.trans (le_max_left _ _)
    · exact le_refl _
  have hmgn : 0 ≤ s.mg := by rcases h.mg with e | e <;> rw [e]; exact hb.le
  have hL : s.mg * s.mx ≤ s'.mg * s'.mx := mul_le_mul hmg1 hmx1 h.mx_nonneg hmg0
  have hgx : |g * x| ≤ s'.mg * s'.mx := by rw [abs_mul]; exact mul_le_mul hmg2 hmx2 (abs_nonneg _) hmg0
  have hminx : s'.mx = 0 ∨ m ≤ s'.mx := by
    rw [hmx]
    rcases h.mx_min with e | e
    · rcases hx with e' | e'
      · left; rw [e, e']; simp
      · right; exact e'.trans (le_max_right _ _)
    · right; exact e.trans (le_max_left _ _)
  have hg20 : 0 ≤ s.g2 := (abs_nonneg _).trans h.z
  refine ⟨hmx0, hminx, hmgs, ?_, ?_, ?_, ?_⟩
  · intro h0
    have e1 : s.mg * s.mx = 0 := le_antisymm (h0 ▸ hL) (mul_nonneg hmgn h.mx_nonneg)
    have e2 : g * x = 0 := abs_eq_zero.1 (le_antisymm (h0 ▸ hgx) (abs_nonneg _))
    obtain ⟨q1, q2, q3⟩ := h.zero e1
    rw [hzt, hg2, hwe, e2, q1, q2, q3]
    simp
  · rw [hzt, hg2]
    exact (abs_sub _ _).trans (add_le_add h.z (le_refl _))
  · rw [hg2]
    push_cast
    have : s.g2 ≤ n * (s'.mg * s'.mx) := h.g2.trans (mul_le_mul_of_nonneg_left hL (Nat.cast_nonneg n))
    linarith
  · intro hL'
    set L := s'.mg * s'.mx with hLdef
    have hms : m ≤ s'.mx := by
      rcases hminx with e | e
      · rw [hLdef, e] at hL'; simp at hL'
      · exact e
    have hmxpos : 0 < s'.mx := by linarith
    have hp : 0 ≤ (s.g2 + s.zt) / (2 * L) := div_nonneg (by have := (abs_le.1 h.z).1; linarith) (by linarith)
    have hq : 0 ≤ (s.g2 - s.zt) / (2 * L) := div_nonneg (by have := (abs_le.1 h.z).2; linarith) (by linarith)
    have hA : alpha * C ^ (-log (s'.mx / m)) * Bet.pot ((s.g2 + s.zt) / (2 * L)) ((s.g2 - s.zt) / (2 * L)) ≤ alpha + s.we := by
      rcases (mul_nonneg hmgn h.mx_nonneg).lt_or_eq with hpos | hzero
      · have hmgpos : 0 < s.mg := (pos_iff_pos_of_mul_pos hpos).2 (pos_of_mul_pos_right hpos hmgn)
        have hmxp : 0 < s.mx := pos_of_mul_pos_right hpos hmgn
        have e1 : s.mg = beta := by
          rcases h.mg with e | e
          · rw [e] at hmgpos; exact absurd hmgpos (lt_irrefl _)
          · exact e
        have e2 : s'.mg = s.mg := by
          rcases hmgs with e | e
          · rw [e] at hmg1; linarith
          · rw [e, e1]
        have hmm : m ≤ s.mx := by
          rcases h.mx_min with e | e
          · rw [e] at hmxp; exact absurd hmxp (lt_irrefl _)
          · exact e
        set r := s.mx / s'.mx with hr
        have hr0 : 0 < r := div_pos hmxp hmxpos
        have hr1 : r ≤ 1 := (div_le_one hmxpos).2 hmx1
        have p0 : 0 ≤ (s.g2 + s.zt) / (2 * (s.mg * s.mx)) := div_nonneg (by have := (abs_le.1 h.z).1; linarith) (by linarith)
        have q0 : 0 ≤ (s.g2 - s.zt) / (2 * (s.mg * s.mx)) := div_nonneg (by have := (abs_le.1 h.z).2; linarith) (by linarith)
        have ep : (s.g2 + s.zt) / (2 * L) = r * ((s.g2 + s.zt) / (2 * (s.mg * s.mx))) := by
          rw [hLdef, e2, hr]; field_simp
        have eq' : (s.g2 - s.zt) / (2 * L) = r * ((s.g2 - s.zt) / (2 * (s.mg * s.mx))) := by
          rw [hLdef, e2, hr]; field_simp
        have hsc := Bet.scale p0 q0 hr0 hr1
        rw [← ep, ← eq'] at hsc
        have hold := h.wealth hpos
        have hlow := Bet.pot_lower p0 q0
        set P := Bet.pot ((s.g2 + s.zt) / (2 * (s.mg * s.mx))) ((s.g2 - s.zt) / (2 * (s.mg * s.mx))) with hP
        have hPpos : 0 < P := Bet.pot_pos p0 q0
        have hsum : (s.g2 + s.zt) / (2 * (s.mg * s.mx)) + (s.g2 - s.zt) / (2 * (s.mg * s.mx)) ≤ N := by
          rw [← add_div]
          have : s.g2 + s.zt + (s.g2 - s.zt) = 2 * s.g2 := by ring
          rw [this, mul_div_mul_left _ _ (by norm_num), div_le_iff₀ hpos]
          refine h.g2.trans (mul_le_mul_of_nonneg_right ?_ hpos.le)
          exact_mod_cast (by omega : n ≤ N)
        have hPC : 1 ≤ P * C := by
          have hd : 0 < 5 * ((s.g2 + s.zt) / (2 * (s.mg * s.mx)) + (s.g2 - s.zt) / (2 * (s.mg * s.mx)) + 2) := by linarith
          rw [div_le_iff₀ hd] at hlow
          refine hlow.trans (mul_le_mul_of_nonneg_left ?_ hPpos.le)
          rw [hC]; linarith
        have h1r : 1 - r ≤ log (s'.mx / s.mx) := by
          have := one_sub_inv_le_log_of_pos (div_pos hmxpos hmxp)
          rw [inv_div] at this
          exact this
        have hPr : P ^ r ≤ P * C ^ log (s'.mx / s.mx) := by
          have a1 : P ^ r = P * P ^ (r - 1) := by
            rw [← rpow_one_add' hPpos.le (by linarith)]; congr 1; ring
          rw [a1]
          refine mul_le_mul_of_nonneg_left ?_ hPpos.le
          have a2 : P ^ (r - 1) ≤ C ^ (1 - r) := by
            have : r - 1 = -(1 - r) := by ring
            rw [this, rpow_neg hPpos.le, ← inv_rpow hPpos.le]
            refine rpow_le_rpow (inv_nonneg.2 hPpos.le) ?_ (by linarith)
            rw [inv_le_iff_one_le_mul₀ hPpos]; linarith
          exact a2.trans (rpow_le_rpow_of_exponent_le hC1 h1r)
        have hcc : C ^ (-log (s'.mx / m)) * C ^ log (s'.mx / s.mx) = C ^ (-log (s.mx / m)) := by
          rw [← rpow_add hC0]
          congr 1
          rw [log_div hmxpos.ne' hm.ne', log_div hmxpos.ne' hmxp.ne', log_div hmxp.ne' hm.ne']
          ring
        have hcp : 0 < C ^ (-log (s'.mx / m)) := rpow_pos_of_pos hC0 _
        calc alpha * C ^ (-log (s'.mx / m)) * Bet.pot ((s.g2 + s.zt) / (2 * L)) ((s.g2 - s.zt) / (2 * L))
            ≤ alpha * C ^ (-log (s'.mx / m)) * (P * C ^ log (s'.mx / s.mx)) :=
              mul_le_mul_of_nonneg_left (hsc.trans hPr) (by positivity)
          _ = alpha * (C ^ (-log (s'.mx / m)) * C ^ log (s'.mx / s.mx)) * P := by ring
          _ = alpha * C ^ (-log (s.mx / m)) * P := by rw [hcc]
          _ ≤ _ := hold
      · obtain ⟨q1, q2, q3⟩ := h.zero hzero.symm
        rw [q1, q2, q3]
        simp only [add_zero, zero_div, sub_zero, Bet.pot_zero, mul_one]
        have : C ^ (-log (s'.mx / m)) ≤ 1 := by
          apply rpow_le_one_of_one_le_of_nonpos hC1
          have := log_nonneg ((one_le_div hm).2 hms)
          linarith
        nlinarith
    have hW : (0 : ℝ) < alpha + s.we := by
      refine lt_of_lt_of_le ?_ hA
      have := Bet.pot_pos hp hq
      have := rpow_pos_of_pos hC0 (-log (s'.mx / m))
      positivity
    set K := alpha * C ^ (-log (s'.mx / m)) with hK
    have hK0 : 0 < K := mul_pos ha (rpow_pos_of_pos hC0 _)
    set p := (s.g2 + s.zt) / (2 * L) with hpd
    set q := (s.g2 - s.zt) / (2 * L) with hqd
    have hpq : (p - q) / (1 + p + q) = s.zt / (L + s.g2) := by
      rw [hpd, hqd]
      have : L + s.g2 ≠ 0 := by linarith
      have e : 1 + (s.g2 + s.zt) / (2 * L) + (s.g2 - s.zt) / (2 * L) = (L + s.g2) / L := by field_simp; ring
      have e' : (s.g2 + s.zt) / (2 * L) - (s.g2 - s.zt) / (2 * L) = s.zt / L := by field_simp; ring
      rw [e, e']; field_simp
    have hmul : s.mg * max s.mx |x| = L ∨ s.zt = 0 := by
      rw [hmg]
        at hLdef
      by_cases hlt : s.mg < |g|
      · right
        rcases h.mg with e | e
        · exact (h.zero (by rw [e]; simp)).1
        · rw [e] at hlt; linarith
      · left; rw [hLdef, if_neg hlt, hmx]
    have hwe' : alpha + s'.we = (alpha + s.we) * (1 - g * x / L * (s.zt / (L + s.g2))) := by
      rw [hwe]
      rcases hmul with e | e
      · rw [e, if_pos hL']
        have : L + s.g2 ≠ 0 := by linarith
        field_simp
        ring
      · simp [e]
    rw [hwe', hzt, hg2]
    have hbz : |s.zt / (L + s.g2)| ≤ 1 := by
      rw [abs_div, abs_of_pos (show 0 < L + s.g2 by linarith), div_le_one (by linarith)]
      linarith [h.z]
    have hc1 : |g * x / L| ≤ 1 := by
      rw [abs_div, abs_of_pos hL', div_le_one hL']; exact hgx
    have hpr : |g * x / L * (s.zt / (L + s.g2))| ≤ 1 := by
      rw [abs_mul]; exact mul_le_one₀ hc1 (abs_nonneg _) hbz
    have hpr2 := (abs_le.1 hpr).2
    rcases le_total 0 (g * x) with hs | hs
    · have e1 : (s.g2 + |g * x| + (s.zt - g * x)) / (2 * L) = p := by
        rw [abs_of_nonneg hs, hpd]; congr 1; ring
      have e2 : (s.g2 + |g * x| - (s.zt - g * x)) / (2 * L) = q + g * x / L := by
        rw [abs_of_nonneg hs, hqd]; field_simp; ring
      rw [e1, e2]
      have := Bet.step_down hp hq (c := g * x / L) (div_nonneg hs hL'.le) (abs_le.1 hc1).2
      rw [hpq] at this
      calc K * Bet.pot p (q + g * x / L) ≤ K * (Bet.pot p q * (1 - g * x / L * (s.zt / (L + s.g2)))) :=
            mul_le_mul_of_nonneg_left this hK0.le
        _ = (K * Bet.pot p q) * (1 - g * x / L * (s.zt / (L + s.g2))) := by ring
        _ ≤ _ := mul_le_mul_of_nonneg_right hA (by linarith)
    · have e1 : (s.g2 + |g * x| + (s.zt - g * x)) / (2 * L) = p + -(g * x / L) := by
        rw [abs_of_nonpos hs, hpd]; field_simp; ring
      have e2 : (s.g2 + |g * x| - (s.zt - g * x)) / (2 * L) = q := by
        rw [abs_of_nonpos hs, hqd]; congr 1; ring
      rw [e1, e2]
      have := Bet.step_up hp hq (c := -(g * x / L)) (by rw [neg_nonneg]; exact div_nonpos_of_nonpos_of_nonneg hs hL'.le)
        (by have := (abs_le.1 hc1).1; linarith)
      rw [hpq] at this
      calc K * Bet.pot (p + -(g * x / L)) q ≤ K * (Bet.pot p q * (1 + -(g * x / L) * (s.zt / (L + s.g2)))) :=
            mul_le_mul_of_nonneg_left this hK0.le
        _ = (K * Bet.pot p q) * (1 - g * x / L * (s.zt / (L + s.g2))) := by ring
        _ ≤ _ := mul_le_mul_of_nonneg_right hA (by linarith)

theorem exp_young {k A X : ℝ} (hk : 0 < k) (hA : 0 < A) : k * X - A * exp X ≤ k * (log (k / A) - 1) := by
  have h := add_one_le_exp (X - log (k / A))
  have e : A * exp X = k * exp (X - log (k / A)) := by
    rw [exp_sub, exp_log (div_pos hk hA)]; field_simp
  rw [e]
  nlinarith

/-- How far behind a weight can be. -/
theorem BInv.regret {alpha beta m C : ℝ} {n : ℕ} {s : WState ℝ} (h : BInv alpha beta m C n s) (ha : 0 < alpha) (hb : 0 < beta) (hm : 0 < m)
    (hC : C = 5 * (n + 2)) (u M : ℝ) (hM : s.mx ≤ M) (hmM : m ≤ M) :
    u * s.zt - s.we ≤ alpha + 2 * |u| * (beta * M) * √n *
      (log (1 + 2 * |u| * (beta * M) * √n / alpha) + (1 + log (M / m)) * log (5 * (n + 2))) := by
  have hn0 : (0 : ℝ) ≤ n := Nat.cast_nonneg n
  have hC1 : 1 ≤ C := by rw [hC]; linarith
  have hC0 : 0 < C := by linarith
  have hMp : 0 < M := by linarith
  have hk0 : 0 ≤ 2 * |u| * (beta * M) * √n := by positivity
  have hlogM : 0 ≤ log (M / m) := log_nonneg ((one_le_div hm).2 hmM)
  have hlogC : 0 ≤ log (5 * ((n : ℝ) + 2)) := by rw [← hC]; exact log_nonneg hC1
  have hl1 : 0 ≤ log (1 + 2 * |u| * (beta * M) * √n / alpha) := log_nonneg (by have := div_nonneg hk0 ha.le; linarith)
  have hR : 0 ≤ 2 * |u| * (beta * M) * √n * (log (1 + 2 * |u| * (beta * M) * √n / alpha) + (1 + log (M / m)) * log (5 * (n + 2))) := by
    apply mul_nonneg hk0
    have := mul_nonneg (show 0 ≤ 1 + log (M / m) by linarith) hlogC
    linarith
  have hmgn : 0 ≤ s.mg := by rcases h.mg with e | e <;> rw [e]; exact hb.le
  rcases (mul_nonneg hmgn h.mx_nonneg).lt_or_eq with hpos | hzero
  swap
  · obtain ⟨q1, _, q3⟩ := h.zero hzero.symm
    rw [q1, q3]; simp only [mul_zero, sub_zero]; linarith
  have hw := h.wealth hpos
  have hmxp : 0 < s.mx := pos_of_mul_pos_right hpos hmgn
  have hmg : s.mg = beta := by
    rcases h.mg with e | e
    · rw [e] at hpos; simp at hpos
    · exact e
  have hmm : m ≤ s.mx := by
    rcases h.mx_min with e | e
    · rw [e] at hmxp; exact absurd hmxp (lt_irrefl _)
    · exact e
  set L := s.mg * s.mx with hL
  have p0 : 0 ≤ (s.g2 + s.zt) / (2 * L) := div_nonneg (by have := (abs_le.1 h.z).1; linarith) (by linarith)
  have q0 : 0 ≤ (s.g2 - s.zt) / (2 * L) := div_nonneg (by have := (abs_le.1 h.z).2; linarith) (by linarith)
  have hcp : 0 < C ^ (-log (s.mx / m)) := rpow_pos_of_pos hC0 _
  have hW : 0 < alpha + s.we := by
    refine lt_of_lt_of_le ?_ hw
    have := Bet.pot_pos p0 q0
    positivity
  by_cases hz : u * s.zt ≤ 0
  · linarith
  have hu : u ≠ 0 := by rintro rfl; simp at hz
  have hn : 0 < n := by
    rcases Nat.eq_zero_or_pos n with e | e
    · have h1 := h.g2
      rw [e] at h1
      simp only [Nat.cast_zero, zero_mul] at h1
      have h2 : s.zt = 0 := abs_eq_zero.1 (le_antisymm (h.z.trans h1) (abs_nonneg _))
      rw [h2] at hz; simp at hz
    · exact e
  have hn1 : (1 : ℝ) ≤ n := by exact_mod_cast hn
  have hsq : 1 ≤ √(n : ℝ) := by rw [one_le_sqrt]; exact hn1
  have hsq2 : √(n : ℝ) * √(n : ℝ) = n := mul_self_sqrt hn0
  obtain ⟨σ, hσ, hσ1⟩ : ∃ σ : ℝ, u = |u| * σ ∧ |σ| = 1 := by
    rcases le_total 0 u with e | e
    · exact ⟨1, by rw [abs_of_nonneg e]; ring, by simp⟩
    · exact ⟨-1, by rw [abs_of_nonpos e]; ring, by simp⟩
  have hσσ : σ ^ 2 = 1 := by rw [← sq_abs, hσ1]; norm_num
  set b := σ / (2 * √n) with hbd
  have hbabs : |b| ≤ 1 / 2 := by
    rw [hbd, abs_div, hσ1, abs_of_pos (by positivity), div_le_div_iff₀ (by positivity) (by norm_num)]
    linarith
  have hlow := Bet.lower p0 q0 (b := b) (by linarith)
  have hexp := Bet.exp_lower p0 q0 hbabs
  have hdiff : (s.g2 + s.zt) / (2 * L) - (s.g2 - s.zt) / (2 * L) = s.zt / L := by field_simp; ring
  have hsum : (s.g2 + s.zt) / (2 * L) + (s.g2 - s.zt) / (2 * L) = s.g2 / L := by field_simp; ring
  rw [hdiff, hsum] at hexp
  have hG : s.g2 / L ≤ n := by rw [div_le_iff₀ hpos]; exact h.g2
  have hG0 : 0 ≤ s.g2 / L := div_nonneg ((abs_nonneg _).trans h.z) hpos.le
  have hbG : b ^ 2 * (s.g2 / L) ≤ 1 / 4 := by
    have : b ^ 2 = 1 / (4 * n) := by
      rw [hbd, div_pow, hσσ, mul_pow, sq (√(n : ℝ)), hsq2]; norm_num
    rw [this, div_mul_eq_mul_div, one_mul, div_le_div_iff₀ (by positivity) (by norm_num)]
    linarith
  set X := b * (s.zt / L) with hX
  have hpot : exp (X - 1 / 4) / C ≤ Bet.pot ((s.g2 + s.zt) / (2 * L)) ((s.g2 - s.zt) / (2 * L)) := by
    refine le_trans ?_ hlow
    have a1 : exp (X - 1 / 4) ≤ (1 + b) ^ ((s.g2 + s.zt) / (2 * L)) * (1 - b) ^ ((s.g2 - s.zt) / (2 * L)) :=
      (exp_le_exp.2 (by linarith)).trans hexp
    rw [hsum]
    refine div_le_div₀ ((exp_pos _).le.trans a1) a1 (by linarith) ?_
    rw [hC]; linarith
  set A := alpha * C ^ (-log (s.mx / m)) * (exp (-(1 / 4)) / C) with hA
  have hA0 : 0 < A := by positivity
  have hAW : A * exp X ≤ alpha + s.we := by
    refine le_trans ?_ hw
    have e : A * exp X = alpha * C ^ (-log (s.mx / m)) * (exp (X - 1 / 4) / C) := by
      rw [hA, sub_eq_add_neg, exp_add]; ring
    rw [e]
    exact mul_le_mul_of_nonneg_left hpot (by positivity)
  set k0 := 2 * |u| * L * √n with hk0d
  have hk0p : 0 < k0 := by positivity
  have hkX : u * s.zt = k0 * X := by
    rw [hX, hbd, hk0d]
    rw [hσ, abs_mul, abs_abs, hσ1]
    field_simp
  have hyoung := exp_young (X := X) hk0p hA0
  have hlogA0 : log A = log alpha - (1 + log (s.mx / m)) * log C - 1 / 4 := by
    rw [hA, log_mul (by positivity) (by positivity), log_mul (by positivity) (by positivity),
      log_div (exp_pos _).ne' hC0.ne', log_exp, log_rpow hC0]
    ring
  have hlogA : log (k0 / A) = log (k0 / alpha) + (1 + log (s.mx / m)) * log C + 1 / 4 := by
    rw [log_div hk0p.ne' hA0.ne', log_div hk0p.ne' ha.ne', hlogA0]
    ring
  set k := 2 * |u| * (beta * M) * √n with hkd
  have hkk : k0 ≤ k := by
    rw [hk0d, hkd, hL, hmg]
    have : beta * s.mx ≤ beta * M := mul_le_mul_of_nonneg_left hM hb.le
    have h2 : 2 * |u| * (beta * s.mx) ≤ 2 * |u| * (beta * M) := mul_le_mul_of_nonneg_left this (by positivity)
    exact mul_le_mul_of_nonneg_right h2 (by positivity)
  have hl2 : log (k0 / alpha) ≤ log (1 + k / alpha) := by
    apply log_le_log (by positivity)
    have : k0 / alpha ≤ k / alpha := div_le_div_of_nonneg_right hkk ha.le
    linarith
  have hl3 : log (s.mx / m) ≤ log (M / m) := log_le_log (by positivity) (div_le_div_of_nonneg_right hM hm.le)
  have hl4 : (1 + log (s.mx / m)) * log C ≤ (1 + log (M / m)) * log C := mul_le_mul_of_nonneg_right (by linarith) (log_nonneg hC1)
  rw [hkX]
  have hfin : k0 * (log (k0 / A) - 1) ≤ k * (log (1 + k / alpha) + (1 + log (M / m)) * log (5 * (n + 2))) := by
    rw [hlogA, ← hC]
    calc k0 * (log (k0 / alpha) + (1 + log (s.mx / m)) * log C + 1 / 4 - 1)
        ≤ k0 * (log (1 + k / alpha) + (1 + log (M / m)) * log C) := mul_le_mul_of_nonneg_left (by linarith) hk0p.le
      _ ≤ _ := mul_le_mul_of_nonneg_right hkk (by
          have := mul_nonneg (show 0 ≤ 1 + log (M / m) by linarith) (log_nonneg hC1)
          linarith)
  linarith

end Rml
