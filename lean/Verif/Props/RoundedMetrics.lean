import Verif.Props.Rounded
import Verif.Props.Train

/-!
C95: metrics in floating point. The reported mean differs from the exact mean by a stated rounding error, as long as there are not too many examples.
-/

set_option linter.unusedSectionVars false

namespace Rml

variable {fl : ℝ → ℝ} {u eta : ℝ}

/-- Forward error of a running sum of numbers of any sign. -/
theorem signed_sum_err (h : Rounding fl u eta) (hu : 0 ≤ u) (l : List ℝ) (hn : 2 * (l.length : ℝ) * u ≤ 1) :
    |l.foldl (fun t x => fl (t + x)) 0 - l.sum| ≤ 2 * (l.length : ℝ) * (u * (l.map (fun x => |x|)).sum + eta) := by
  have he := h.eta_nonneg
  induction l using List.reverseRecOn with
  | nil => simp
  | append_singleton l x ih =>
    rw [List.length_append, List.length_singleton, Nat.cast_add, Nat.cast_one] at hn ⊢
    have hl0 : (0 : ℝ) ≤ l.length := Nat.cast_nonneg _
    have i1 := ih (by nlinarith)
    rw [List.foldl_append, List.sum_append, List.map_append, List.sum_append]
    simp only [List.foldl_cons, List.foldl_nil, List.sum_singleton, List.map_cons, List.map_nil]
    set A := (l.map (fun x => |x|)).sum with hA
    set f := l.foldl (fun t x => fl (t + x)) 0 with hf
    have hA0 : 0 ≤ A := List.sum_nonneg fun y hy => by
      obtain ⟨z, _, rfl⟩ := List.mem_map.1 hy
      exact abs_nonneg z
    have hS : |l.sum| ≤ A := by
      have : ∀ l : List ℝ, |l.sum| ≤ (l.map (fun x => |x|)).sum := by
        intro l
        induction l with
        | nil => simp
        | cons a l ih =>
          simp only [List.sum_cons, List.map_cons]
          exact (abs_add_le _ _).trans (by linarith)
      exact this l
    set E := 2 * (l.length : ℝ) * (u * A + eta) with hE
    have hx0 := abs_nonneg x
    have e1 := h.err (f + x)
    have e2 : |f + x| ≤ A + |x| + E := by
      have : f + x = (f - l.sum) + (l.sum + x) := by ring
      rw [this]
      have a1 := abs_add_le (f - l.sum) (l.sum + x)
      have a2 := abs_add_le l.sum x
      linarith
    have e3 : u * |f + x| ≤ u * (A + |x| + E) := mul_le_mul_of_nonneg_left e2 hu
    have e4 : u * E ≤ u * A + eta := by
      have : u * E = (2 * (l.length : ℝ) * u) * (u * A + eta) := by rw [hE]; ring
      rw [this]
      have h3 : 0 ≤ u * A + eta := by positivity
      have h4 : 2 * (l.length : ℝ) * u ≤ 1 := by nlinarith
      nlinarith
    have e5 : |fl (f + x) - (l.sum + x)| ≤ |fl (f + x) - (f + x)| + |f - l.sum| := by
      have : fl (f + x) - (l.sum + x) = (fl (f + x) - (f + x)) + (f - l.sum) := by ring
      rw [this]
      exact abs_add_le _ _
    have e6 : 2 * ((l.length : ℝ) + 1) * (u * (A + |x|) + eta) = E + 2 * (l.length : ℝ) * (u * |x|) + 2 * (u * (A + |x|) + eta) := by
      rw [hE]
      ring
    have e7 : 0 ≤ 2 * (l.length : ℝ) * (u * |x|) := by positivity
    have e8 : 0 ≤ u * |x| := by positivity
    rw [e6]
    linarith

/-- Elements computed with a small error and added up one after the other. -/
theorem total_round {α : Type} (h : Rounding fl u eta) (hu : 0 ≤ u) (l : List α) (y z c : α → ℝ) (hc : ∀ e ∈ l, 0 ≤ c e)
    (hs : (l.length : ℝ) * (u + eta) ≤ 1 / 100)
    (hy : ∀ e ∈ l, |y e - z e| ≤ 16 / 5 * u * |z e| + 11 / 5 * eta * c e + 6 / 5 * eta) :
    |(l.map y).foldl (fun t x => fl (t + x)) 0 - (l.map z).sum| ≤
      (2 * (l.length : ℝ) + 10 / 3) * u * (l.map (fun e => |z e|)).sum + 5 / 2 * eta * (l.map c).sum + 7 / 2 * (l.length : ℝ) * eta ∧
    |(l.map z).sum| ≤ (l.map (fun e => |z e|)).sum := by
  have he := h.eta_nonneg
  have hC0 : 0 ≤ (l.map c).sum := List.sum_nonneg fun x hx => by
    obtain ⟨e, hm, rfl⟩ := List.mem_map.1 hx
    exact hc e hm
  have hA0 : 0 ≤ (l.map (fun e => |z e|)).sum := List.sum_nonneg fun x hx => by
    obtain ⟨e, _, rfl⟩ := List.mem_map.1 hx
    exact abs_nonneg _
  have hsums : ∀ l : List α, (∀ e ∈ l, |y e - z e| ≤ 16 / 5 * u * |z e| + 11 / 5 * eta * c e + 6 / 5 * eta) →
      |(l.map y).sum - (l.map z).sum| ≤ 16 / 5 * u * (l.map (fun e => |z e|)).sum + 11 / 5 * eta * (l.map c).sum + l.length * (6 / 5 * eta) ∧
      ((l.map y).map (fun x => |x|)).sum ≤ (l.map (fun e => |z e|)).sum +
        (16 / 5 * u * (l.map (fun e => |z e|)).sum + 11 / 5 * eta * (l.map c).sum + l.length * (6 / 5 * eta)) ∧
      |(l.map z).sum| ≤ (l.map (fun e => |z e|)).sum := by
    intro l
    induction l with
    | nil => intro _; simp
    | cons a l ih =>
      intro hl
      obtain ⟨i1, i2, i3⟩ := ih fun e he => hl e (by simp [he])
      have i0 := hl a (by simp)
      simp only [List.map_cons, List.sum_cons, List.length_cons, Nat.cast_add, Nat.cast_one]
      refine ⟨?_, ?_, ?_⟩
      · have : y a + (l.map y).sum - (z a + (l.map z).sum) = (y a - z a) + ((l.map y).sum - (l.map z).sum) := by ring
        rw [this]
        have := abs_add_le (y a - z a) ((l.map y).sum - (l.map z).sum)
        linarith
      · have : |y a| ≤ |z a| + |y a - z a| := by
          have := abs_add_le (z a) (y a - z a)
          rwa [add_sub_cancel] at this
        linarith
      · exact (abs_add_le _ _).trans (by linarith)
  obtain ⟨s1, s2, s3⟩ := hsums l hy
  refine ⟨?_, s3⟩
  set A := (l.map (fun e => |z e|)).sum with hA
  set C := (l.map c).sum with hC
  set Z := (l.map z).sum with hZ
  set Y := (l.map y).sum with hY
  set n : ℝ := ((l.length : ℕ) : ℝ) with hnd
  set E := 16 / 5 * u * A + 11 / 5 * eta * C + n * (6 / 5 * eta) with hE
  have hn0 : 0 ≤ n := Nat.cast_nonneg _
  have hE0 : 0 ≤ E := by positivity
  have t1 := signed_sum_err h hu (l.map y) (by rw [List.length_map]; nlinarith)
  rw [List.length_map, ← hY, ← hnd] at t1
  set T := (l.map y).foldl (fun t x => fl (t + x)) 0 with hT
  set B := ((l.map y).map (fun x => |x|)).sum with hB
  have hnu : n * u ≤ 1 / 100 := by nlinarith
  have t2 : 2 * n * (u * B + eta) ≤ 2 * (n * u) * A + 1 / 50 * E + 2 * (n * eta) := by
    have a1 : n * u * B ≤ n * u * (A + E) := mul_le_mul_of_nonneg_left s2 (by positivity)
    have a2 : n * u * E ≤ 1 / 100 * E := mul_le_mul_of_nonneg_right hnu hE0
    have a3 : 2 * n * (u * B + eta) = 2 * (n * u * B) + 2 * (n * eta) := by ring
    have a4 : n * u * (A + E) = n * u * A + n * u * E := by ring
    clear_value E
    linarith
  have t3 : |T - Z| ≤ 51 / 50 * E + 2 * (n * u) * A + 2 * (n * eta) := by
    have : T - Z = (T - Y) + (Y - Z) := by ring
    rw [this]
    have := abs_add_le (T - Y) (Y - Z)
    linarith
  refine t3.trans ?_
  have b1 : E = 16 / 5 * (u * A) + 11 / 5 * (eta * C) + 6 / 5 * (n * eta) := by rw [hE]; ring
  have b2 : (2 * n + 10 / 3) * u * A + 5 / 2 * eta * C + 7 / 2 * n * eta = 2 * (n * u) * A + 10 / 3 * (u * A) + 5 / 2 * (eta * C) + 7 / 2 * (n * eta) := by ring
  have a3 : 0 ≤ eta * C := by positivity
  have a4 : 0 ≤ n * eta := by positivity
  have a5 : 0 ≤ u * A := by positivity
  rw [b2]
  clear_value E
  linarith

/-- A reported mean: elements computed with a small error, added up one after the other and divided by their number. -/
theorem mean_round {α : Type} (h : Rounding fl u eta) (hu : 0 ≤ u) (l : List α) (y z c : α → ℝ) (hc : ∀ e ∈ l, 0 ≤ c e) (hne : l ≠ []) (hn : l.length ≤ 2 ^ 24)
    (hs : (l.length : ℝ) * (u + eta) ≤ 1 / 100)
    (hy : ∀ e ∈ l, |y e - z e| ≤ 16 / 5 * u * |z e| + 11 / 5 * eta * c e + 6 / 5 * eta) :
    |fl ((l.map y).foldl (fun t x => fl (t + x)) 0 / fl l.length) - (l.map z).sum / l.length| ≤
      7 * u * (l.map (fun e => |z e|)).sum + 3 * eta * ((l.map c).sum / l.length) + 6 * eta := by
  have he := h.eta_nonneg
  have hl1 : (1 : ℝ) ≤ l.length := by exact_mod_cast List.length_pos_iff.2 hne
  have hue : u + eta ≤ 1 / 100 := by nlinarith
  obtain ⟨t3, s3⟩ := total_round h hu l y z c hc hs hy
  have hC0 : 0 ≤ (l.map c).sum := List.sum_nonneg fun x hx => by
    obtain ⟨e, hm, rfl⟩ := List.mem_map.1 hx
    exact hc e hm
  have hA0 : 0 ≤ (l.map (fun e => |z e|)).sum := (abs_nonneg _).trans s3
  set A := (l.map (fun e => |z e|)).sum with hA
  set C := (l.map c).sum with hC
  set Z := (l.map z).sum with hZ
  set n : ℝ := ((l.length : ℕ) : ℝ) with hnd
  set T := (l.map y).foldl (fun t x => fl (t + x)) 0 with hT
  have hn0 : 0 < n := by linarith
  set G := (2 * n + 10 / 3) * u * A + 5 / 2 * eta * C + 7 / 2 * n * eta with hG
  have hG0 : 0 ≤ G := by positivity
  have t4 : |T| ≤ A + G := by
    have : T = (T - Z) + Z := by ring
    rw [this]
    have := abs_add_le (T - Z) Z
    linarith
  rw [h.nat _ hn, ← hnd]
  have t5 := h.err (T / n)
  rw [abs_div, abs_of_pos hn0] at t5
  have t6 : |fl (T / n) - Z / n| ≤ (G + u * (A + G)) / n + eta := by
    have e1 : fl (T / n) - Z / n = (fl (T / n) - T / n) + (T - Z) / n := by ring
    rw [e1]
    have e2 := abs_add_le (fl (T / n) - T / n) ((T - Z) / n)
    rw [abs_div, abs_of_pos hn0] at e2
    have e3 : |T - Z| / n ≤ G / n := div_le_div_of_nonneg_right t3 hn0.le
    have e4 : u * (|T| / n) ≤ u * ((A + G) / n) := mul_le_mul_of_nonneg_left (div_le_div_of_nonneg_right t4 hn0.le) hu
    have e5 : (G + u * (A + G)) / n = G / n + u * ((A + G) / n) := by ring
    linarith
  refine t6.trans ?_
  have t7 : G + u * (A + G) ≤ 7 * u * A * n + 3 * eta * C + 5 * (n * eta) := by
    have a1 : u * G ≤ 1 / 100 * G := mul_le_mul_of_nonneg_right (by linarith) hG0
    have a2 : u * A ≤ u * A * n := by
      have : 0 ≤ u * A := by positivity
      nlinarith
    have a3 : 0 ≤ eta * C := by positivity
    have a4 : 0 ≤ n * eta := by positivity
    have a5 : 0 ≤ u * A := by positivity
    have b2 : G = 2 * (u * A * n) + 10 / 3 * (u * A) + 5 / 2 * (eta * C) + 7 / 2 * (n * eta) := by rw [hG]; ring
    have b3 : G + u * (A + G) = G + u * A + u * G := by ring
    have b4 : 7 * u * A * n = 7 * (u * A * n) := by ring
    rw [b3, b4]
    clear_value G
    linarith
  have t8 : (G + u * (A + G)) / n ≤ (7 * u * A * n + 3 * eta * C + 5 * (n * eta)) / n := div_le_div_of_nonneg_right t7 hn0.le
  have t9 : (7 * u * A * n + 3 * eta * C + 5 * (n * eta)) / n = 7 * u * A + 3 * eta * (C / n) + 5 * eta := by
    field_simp
  linarith

/-- The metric adds the rounded squares one after the other. -/
theorem mse_feed_round (fl : ℝ → ℝ) (t : Trans ℝ) (pts : List (Features ℝ × SimpleLabel ℝ × (ℝ × ℝ))) (v : ℝ) (c : Nat) :
    @Metric.feed ℝ (roundFlt fl t) (pts.map (fun x => (x.1, Label.simple x.2.1, Prediction.scalar x.2.2.1 x.2.2.2))) (.mse v c) =
      .ok (.mse ((pts.map (fun x => fl (fl (x.2.1.value - x.2.2.1) * fl (x.2.1.value - x.2.2.1)))).foldl (fun t x => fl (t + x)) v) (c + pts.length)) := by
  induction pts generalizing v c with
  | nil => rfl
  | cons x pts ih =>
    have q := ih (fl (v + fl (fl (x.2.1.value - x.2.2.1) * fl (x.2.1.value - x.2.2.1)))) (c + 1)
    simp only [Metric.feed, List.map_cons, List.foldlM_cons, List.foldl_cons, List.length_cons] at q ⊢
    refine Eq.trans q ?_
    rw [Nat.add_assoc, Nat.add_comm 1]

theorem square_err (h : Rounding fl u eta) (hu : 0 ≤ u) (hue : u + eta ≤ 1 / 100) (x : ℝ) :
    |fl (fl x * fl x) - x ^ 2| ≤ 16 / 5 * u * |x ^ 2| + 11 / 5 * eta * |x| + 6 / 5 * eta := by
  have he := h.eta_nonneg
  have h1 := h.err x
  set a := |x| with ha
  have ha0 : 0 ≤ a := abs_nonneg x
  have hx2 : |x ^ 2| = a ^ 2 := by rw [abs_pow]
  set d := fl x with hd
  have h2 : |d * d - x ^ 2| ≤ (u * a + eta) * (2 * a + (u * a + eta)) := by
    have : d * d - x ^ 2 = (d - x) * (2 * x + (d - x)) := by ring
    rw [this, abs_mul]
    have h3 : |2 * x + (d - x)| ≤ 2 * a + (u * a + eta) := by
      refine (abs_add_le _ _).trans ?_
      rw [abs_mul, abs_of_pos (by norm_num : (0 : ℝ) < 2)]
      linarith
    exact mul_le_mul h1 h3 (abs_nonneg _) (by positivity)
  have h4 := h.err (d * d)
  have h5 : |d * d| ≤ a ^ 2 + (u * a + eta) * (2 * a + (u * a + eta)) := by
    have : d * d = x ^ 2 + (d * d - x ^ 2) := by ring
    rw [this]
    refine (abs_add_le _ _).trans ?_
    linarith
  have h6 : |fl (d * d) - x ^ 2| ≤ |fl (d * d) - d * d| + |d * d - x ^ 2| := by
    have : fl (d * d) - x ^ 2 = (fl (d * d) - d * d) + (d * d - x ^ 2) := by ring
    rw [this]
    exact abs_add_le _ _
  set D := (u * a + eta) * (2 * a + (u * a + eta)) with hD
  have h7 : D ≤ 201 / 100 * (u * a ^ 2) + 202 / 100 * (eta * a) + 1 / 100 * eta := by
    have q1 : u * (u * a ^ 2) ≤ 1 / 100 * (u * a ^ 2) := mul_le_mul_of_nonneg_right (by linarith) (by positivity)
    have q2 : u * (eta * a) ≤ 1 / 100 * (eta * a) := mul_le_mul_of_nonneg_right (by linarith) (by positivity)
    have q3 : eta * eta ≤ 1 / 100 * eta := mul_le_mul_of_nonneg_right (by linarith) he
    have q4 : D = 2 * (u * a ^ 2) + u * (u * a ^ 2) + 2 * (u * (eta * a)) + 2 * (eta * a) + eta * eta := by rw [hD]; ring
    linarith
  have h8 : u * |d * d| ≤ u * a ^ 2 + 1 / 100 * D := by
    have q1 := mul_le_mul_of_nonneg_left h5 hu
    have q2 : u * D ≤ 1 / 100 * D := mul_le_mul_of_nonneg_right (by linarith) (by positivity)
    nlinarith
  rw [hx2]
  have p1 : 0 ≤ u * a ^ 2 := by positivity
  have p2 : 0 ≤ eta * a := by positivity
  clear_value D
  have p3 : 16 / 5 * u * a ^ 2 = 16 / 5 * (u * a ^ 2) := by ring
  have p4 : 11 / 5 * eta * a = 11 / 5 * (eta * a) := by ring
  rw [p3, p4]
  linarith

/-- C95, mean squared error: the reported value differs from the mean of the squared errors by a relative error of at most `7 n u` (and underflow), for up to
`1 / (100 (u + eta))` examples. -/
theorem C95_mse_partial (h : Rounding fl u eta) (hu : 0 ≤ u) (t : Trans ℝ) (dbg : Bool) (pts : List (Features ℝ × SimpleLabel ℝ × (ℝ × ℝ))) (hne : pts ≠ [])
    (hn : pts.length ≤ 2 ^ 24) (hs : (pts.length : ℝ) * (u + eta) ≤ 1 / 100) (m0 : Metric ℝ) (hm : @getMetric ℝ (roundFlt fl t) "mse".toList = some m0) :
    ∃ m v, @Metric.feed ℝ (roundFlt fl t) (pts.map (fun x => (x.1, Label.simple x.2.1, Prediction.scalar x.2.2.1 x.2.2.2))) m0 = .ok m ∧
      @Metric.getValue ℝ (roundFlt fl t) dbg m = .ok (.float v) ∧
      |v - (pts.map (fun x => (x.2.1.value - x.2.2.1) ^ 2)).sum / pts.length| ≤
        7 * pts.length * u * ((pts.map (fun x => (x.2.1.value - x.2.2.1) ^ 2)).sum / pts.length) +
          3 * eta * ((pts.map (fun x => |x.2.1.value - x.2.2.1|)).sum / pts.length) + 6 * eta := by
  have he := h.eta_nonneg
  have hl1 : (1 : ℝ) ≤ pts.length := by exact_mod_cast List.length_pos_iff.2 hne
  have hue : u + eta ≤ 1 / 100 := by nlinarith
  have : m0 = .mse 0 0 := by
    simp only [getMetric] at hm
    have := hm.symm
    simp at this
    exact this
  subst this
  refine ⟨_, _, mse_feed_round fl t pts 0 0, rfl, ?_⟩
  have := mean_round h hu pts (fun x => fl (fl (x.2.1.value - x.2.2.1) * fl (x.2.1.value - x.2.2.1))) (fun x => (x.2.1.value - x.2.2.1) ^ 2)
    (fun x => |x.2.1.value - x.2.2.1|) (fun _ _ => abs_nonneg _) hne hn hs (fun x _ => square_err h hu hue _)
  rw [Nat.zero_add]
  refine this.trans (le_of_eq ?_)
  have e1 : (pts.map (fun x => |(x.2.1.value - x.2.2.1) ^ 2|)) = pts.map (fun x => (x.2.1.value - x.2.2.1) ^ 2) :=
    List.map_congr_left fun x _ => abs_of_nonneg (sq_nonneg _)
  rw [e1]
  congr 2
  field_simp

/-- The ips metric adds the rounded terms one after the other. -/
theorem ips_feed_round (h : Rounding fl u eta) (t : Trans ℝ) (pts : List (Features ℝ × CBLabel ℝ × List (Nat × ℝ) × ℝ))
    (hp : ∀ x ∈ pts, probOf x.2.2.1 x.2.1.action = some x.2.2.2) (hc : ∀ x ∈ pts, fl x.2.1.cost = x.2.1.cost) (v : ℝ) (c : Nat) :
    @Metric.feed ℝ (roundFlt fl t) (pts.map (fun x => (x.1, Label.cb x.2.1, Prediction.actionProbs x.2.2.1))) (.ips c v) =
      .ok (.ips (c + pts.length) ((pts.map (fun x => fl (-x.2.1.cost * fl (x.2.2.2 / x.2.1.probability)))).foldl (fun t x => fl (t + x)) v)) := by
  induction pts generalizing v c with
  | nil => rfl
  | cons x pts ih =>
    have hf := find_lookup _ _ _ (hp x (by simp))
    have q := ih (fun y hy => hp y (by simp [hy])) (fun y hy => hc y (by simp [hy])) (fl (v + fl (-x.2.1.cost * fl (x.2.2.2 / x.2.1.probability)))) (c + 1)
    simp only [Metric.feed, List.map_cons, List.foldlM_cons, List.foldl_cons, List.length_cons] at q ⊢
    have ha : @Metric.addPoint ℝ (roundFlt fl t) (.ips c v) x.1 (.cb x.2.1) (.actionProbs x.2.2.1) =
        .ok (.ips (c + 1) (fl (v + fl (-x.2.1.cost * fl (x.2.2.2 / x.2.1.probability))))) := by
      show (unwrapOpt (x.2.2.1.find? (fun y => y.1 == x.2.1.action)) >>= _) = _
      rw [hf]
      show Except.ok (Metric.ips (c + 1) (fl (v + fl (fl (fl (((-1 : Int) : ℝ) / ((1 : Nat) : ℝ)) * x.2.1.cost) * fl (x.2.2.2 / x.2.1.probability))))) = _
      have e1 : fl (((-1 : Int) : ℝ) / ((1 : Nat) : ℝ)) = -1 := by
        have : (((-1 : Int) : ℝ) / ((1 : Nat) : ℝ)) = -1 := by norm_num
        rw [this, h.neg, h.one]
      rw [e1, neg_one_mul, h.neg, hc x (by simp)]
    rw [ha]
    refine Eq.trans q ?_
    rw [Nat.add_assoc, Nat.add_comm 1]

theorem product_err (h : Rounding fl u eta) (hu : 0 ≤ u) (hue : u + eta ≤ 1 / 100) (c r : ℝ) :
    |fl (-c * fl r) - -c * r| ≤ 16 / 5 * u * |-c * r| + 11 / 5 * eta * |c| + 6 / 5 * eta := by
  have he := h.eta_nonneg
  have h1 := h.err r
  have h2 : |-c * fl r - -c * r| ≤ u * |-c * r| + eta * |c| := by
    have : -c * fl r - -c * r = -c * (fl r - r) := by ring
    rw [this, abs_mul, abs_mul, abs_neg]
    nlinarith [mul_le_mul_of_nonneg_left h1 (abs_nonneg c)]
  have h3 := h.err (-c * fl r)
  have h4 : |-c * fl r| ≤ |-c * r| + (u * |-c * r| + eta * |c|) := by
    have : -c * fl r = -c * r + (-c * fl r - -c * r) := by ring
    rw [this]
    exact (abs_add_le _ _).trans (by linarith)
  have h5 : |fl (-c * fl r) - -c * r| ≤ |fl (-c * fl r) - -c * fl r| + |-c * fl r - -c * r| := by
    have : fl (-c * fl r) - -c * r = (fl (-c * fl r) - -c * fl r) + (-c * fl r - -c * r) := by ring
    rw [this]
    exact abs_add_le _ _
  set z := |-c * r| with hz
  have hz0 : 0 ≤ z := abs_nonneg _
  have hc0 := abs_nonneg c
  have h6 := mul_le_mul_of_nonneg_left h4 hu
  have q1 : u * (u * z) ≤ 1 / 100 * (u * z) := mul_le_mul_of_nonneg_right (by linarith) (by positivity)
  have q2 : u * (eta * |c|) ≤ 1 / 100 * (eta * |c|) := mul_le_mul_of_nonneg_right (by linarith) (by positivity)
  have q3 : 0 ≤ u * z := by positivity
  have q4 : 0 ≤ eta * |c| := by positivity
  have q5 : u * (z + (u * z + eta * |c|)) = u * z + u * (u * z) + u * (eta * |c|) := by ring
  have q6 : 16 / 5 * u * z = 16 / 5 * (u * z) := by ring
  have q7 : 11 / 5 * eta * |c| = 11 / 5 * (eta * |c|) := by ring
  rw [q6, q7]
  linarith

/-- C95, ips: the reported value differs from the mean of `-cost * p / p_logged` by at most `7 n u` times the mean of their absolute values (and underflow), for up to
`1 / (100 (u + eta))` examples. -/
theorem C95_ips_partial (h : Rounding fl u eta) (hu : 0 ≤ u) (t : Trans ℝ) (dbg : Bool) (pts : List (Features ℝ × CBLabel ℝ × List (Nat × ℝ) × ℝ)) (hne : pts ≠ [])
    (hp : ∀ x ∈ pts, probOf x.2.2.1 x.2.1.action = some x.2.2.2) (hc : ∀ x ∈ pts, fl x.2.1.cost = x.2.1.cost)
    (hn : pts.length ≤ 2 ^ 24) (hs : (pts.length : ℝ) * (u + eta) ≤ 1 / 100) (m0 : Metric ℝ) (hm : @getMetric ℝ (roundFlt fl t) "ips".toList = some m0) :
    ∃ m v, @Metric.feed ℝ (roundFlt fl t) (pts.map (fun x => (x.1, Label.cb x.2.1, Prediction.actionProbs x.2.2.1))) m0 = .ok m ∧
      @Metric.getValue ℝ (roundFlt fl t) dbg m = .ok (.float v) ∧
      |v - (pts.map (fun x => -x.2.1.cost * (x.2.2.2 / x.2.1.probability))).sum / pts.length| ≤
        7 * pts.length * u * ((pts.map (fun x => |-x.2.1.cost * (x.2.2.2 / x.2.1.probability)|)).sum / pts.length) +
          3 * eta * ((pts.map (fun x => |x.2.1.cost|)).sum / pts.length) + 6 * eta := by
  have he := h.eta_nonneg
  have hl1 : (1 : ℝ) ≤ pts.length := by exact_mod_cast List.length_pos_iff.2 hne
  have hue : u + eta ≤ 1 / 100 := by nlinarith
  have : m0 = .ips 0 0 := by
    simp only [getMetric] at hm
    have := hm.symm
    simp at this
    exact this
  subst this
  refine ⟨_, _, ips_feed_round h t pts hp hc 0 0, rfl, ?_⟩
  have := mean_round h hu pts (fun x => fl (-x.2.1.cost * fl (x.2.2.2 / x.2.1.probability))) (fun x => -x.2.1.cost * (x.2.2.2 / x.2.1.probability))
    (fun x => |x.2.1.cost|) (fun _ _ => abs_nonneg _) hne hn hs (fun x _ => product_err h hu hue _ _)
  rw [Nat.zero_add]
  refine this.trans (le_of_eq ?_)
  congr 2
  field_simp

/-! ### Too many examples -/

theorem fl32_stuck : fl32 (2 ^ 24 + 1) = 2 ^ 24 := by
  have he : ulpExp (2 ^ 24 + 1) = 1 := by
    unfold ulpExp
    have h1 : Int.log 2 |(2 ^ 24 + 1 : ℝ)| = 24 := by
      rw [abs_of_pos (by norm_num)]
      have : (2 ^ 24 + 1 : ℝ) = ((2 ^ 24 + 1 : ℕ) : ℝ) := by norm_num
      rw [this, Int.log_natCast]
      have : Nat.log 2 (2 ^ 24 + 1) = 24 := by
        rw [Nat.log_eq_iff (by norm_num)]
        norm_num
      rw [this]
      rfl
    rw [h1]
    norm_num
  have hf : ⌊((2 ^ 24 + 1 : ℝ) / 2 ^ (1 : ℤ))⌋ = 2 ^ 23 := by
    rw [Int.floor_eq_iff]
    norm_num
  unfold fl32 rne
  rw [he, hf, if_neg (by norm_num), if_neg (by norm_num), if_pos (by decide)]
  norm_num

/-- Adding ones in `f32` stops at 2^24. -/
theorem ones_stuck (n : Nat) : (List.replicate n (1 : ℝ)).foldl (fun t x => fl32 (t + x)) 0 = ((min n (2 ^ 24) : Nat) : ℝ) := by
  induction n with
  | zero => simp
  | succ n ih =>
    rw [List.replicate_succ', List.foldl_append, ih]
    simp only [List.foldl_cons, List.foldl_nil]
    rcases lt_or_ge n (2 ^ 24) with hlt | hge
    · rw [min_eq_left (by omega), min_eq_left (by omega)]
      have := fl32_nat (n + 1) (by omega)
      push_cast at this ⊢
      exact this
    · rw [min_eq_right hge, min_eq_right (by omega)]
      have := fl32_stuck
      norm_num at this ⊢
      exact this

/-- C95 does not hold for every number of examples: the sum of squared errors is kept in `f32`, and adding 1 to it has no effect from 2^24 on. If every prediction
is off by 1, then the reported mean squared error after 2^25 examples is 1/2, and with more examples it goes to 0. -/
theorem C95_mse_false (t : Trans ℝ) :
    ¬ ∀ (dbg : Bool) (pts : List (Features ℝ × SimpleLabel ℝ × (ℝ × ℝ))) (m0 m : Metric ℝ) (v : ℝ), pts ≠ [] →
      @getMetric ℝ (roundFlt fl32 t) "mse".toList = some m0 →
      @Metric.feed ℝ (roundFlt fl32 t) (pts.map (fun x => (x.1, Label.simple x.2.1, Prediction.scalar x.2.2.1 x.2.2.2))) m0 = .ok m →
      @Metric.getValue ℝ (roundFlt fl32 t) dbg m = .ok (.float v) →
      |v - (pts.map (fun x => (x.2.1.value - x.2.2.1) ^ 2)).sum / pts.length| ≤ 1 / 4 * ((pts.map (fun x => (x.2.1.value - x.2.2.1) ^ 2)).sum / pts.length) := by
  intro hall
  have hone := rounding_fl32.one
  obtain ⟨ft⟩ : Nonempty (Features ℝ) := ⟨.cbAdf ⟨none, []⟩⟩
  set x0 : Features ℝ × SimpleLabel ℝ × (ℝ × ℝ) := (ft, ⟨1, 1⟩, (0, 0)) with hx0
  have hm0 : @getMetric ℝ (roundFlt fl32 t) "mse".toList = some (.mse 0 0) := by
    simp [getMetric]
    rfl
  have hne : List.replicate (2 ^ 25) x0 ≠ [] := by
    intro hc
    have := congrArg List.length hc
    simp only [List.length_replicate, List.length_nil] at this
    norm_num at this
  have key := hall false (List.replicate (2 ^ 25) x0) (.mse 0 0) _ _ hne hm0 (mse_feed_round fl32 t _ 0 0) rfl
  rw [List.map_replicate, List.map_replicate, List.length_replicate, List.sum_replicate] at key
  have e1 : fl32 (fl32 (x0.2.1.value - x0.2.2.1) * fl32 (x0.2.1.value - x0.2.2.1)) = 1 := by
    simp [hx0, hone]
  have e2 : (x0.2.1.value - x0.2.2.1) ^ 2 = 1 := by simp [hx0]
  rw [e1, e2, ones_stuck, min_eq_right (by norm_num), Nat.zero_add] at key
  have e3 : fl32 (((2 ^ 25 : ℕ) : ℝ)) = 2 ^ 25 := by
    have := fl32_exact 1 25 (by norm_num) (by norm_num)
    norm_num at this ⊢
    exact this
  have e4 : @Flt.div ℝ (roundFlt fl32 t) (((2 ^ 24 : ℕ) : ℝ)) (@Flt.ofNat ℝ (roundFlt fl32 t) (2 ^ 25)) = 1 / 2 := by
    show fl32 (((2 ^ 24 : ℕ) : ℝ) / fl32 (((2 ^ 25 : ℕ) : ℝ))) = _
    rw [e3]
    have := fl32_exact 1 (-1) (by norm_num) (by norm_num)
    norm_num at this ⊢
    exact this
  rw [e4] at key
  norm_num at key

/-- The hypotheses of C95 are met by `f32` and a hundred thousand examples. -/
example (t : Trans ℝ) (pts : List (Features ℝ × SimpleLabel ℝ × (ℝ × ℝ))) (hn : pts.length = 100000) (m0 : Metric ℝ)
    (hm : @getMetric ℝ (roundFlt fl32 t) "mse".toList = some m0) :
    ∃ m v, @Metric.feed ℝ (roundFlt fl32 t) (pts.map (fun x => (x.1, Label.simple x.2.1, Prediction.scalar x.2.2.1 x.2.2.2))) m0 = .ok m ∧
      @Metric.getValue ℝ (roundFlt fl32 t) false m = .ok (.float v) := by
  obtain ⟨m, v, h1, h2, _⟩ := C95_mse_partial rounding_fl32 (by norm_num) t false pts (by rintro rfl; simp at hn) (by rw [hn]; norm_num) (by rw [hn]; norm_num) m0 hm
  exact ⟨m, v, h1, h2⟩

example (t : Trans ℝ) (ft : Features ℝ) (m0 : Metric ℝ) (hm : @getMetric ℝ (roundFlt fl32 t) "ips".toList = some m0) :
    ∃ m v, @Metric.feed ℝ (roundFlt fl32 t) [(ft, .cb ⟨1, 2, 1 / 3⟩, .actionProbs [(0, 1 / 4), (1, 3 / 4)])] m0 = .ok m ∧
      @Metric.getValue ℝ (roundFlt fl32 t) false m = .ok (.float v) := by
  obtain ⟨m, v, h1, h2, _⟩ := C95_ips_partial rounding_fl32 (by norm_num) t false [(ft, ⟨1, 2, 1 / 3⟩, [(0, 1 / 4), (1, 3 / 4)], 3 / 4)] (by simp)
    (by simp [probOf, List.lookup]) (by
      intro x hx
      simp only [List.mem_singleton] at hx
      subst hx
      have := fl32_nat 2 (by norm_num)
      push_cast at this
      exact this) (by norm_num) (by norm_num) m0 hm
  exact ⟨m, v, h1, h2⟩

end Rml
