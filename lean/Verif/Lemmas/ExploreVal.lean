import Verif.Props.Progress
import Verif.Props.GreedyF32
import Verif.Lemmas.Explore32
import Verif.Lemmas.CoinBound

/-! `enforce_min_prob` on `f32` bit patterns computes what it computes on rounded real numbers, as nothing overflows. -/

namespace Rml

/-- One step of the loop. -/
theorem rhoLoop_next {F : Type} [Flt F] {support : Nat} {m p : F} {ps : List F} {s : RhoState F} {b : Bool} (hz : Flt.eq p Flt.zero = false) (hlt : ¬ support < s.idx + 1)
    (hb : Flt.lt (Flt.add (Flt.div (Flt.sub (Flt.add (Flt.mul (Flt.ofNat (support - s.idx - 1)) m) (Flt.add s.runningSum p)) Flt.one)
      (Flt.add (Flt.ofNat s.idx) Flt.one)) m) p = b) :
    rhoLoop false support m (p :: ps) s = rhoLoop false support m ps
      (if b = true then ⟨s.idx + 1, Flt.add s.runningSum p, s.idx, Flt.add s.runningSum p⟩ else ⟨s.idx + 1, Flt.add s.runningSum p, s.rhoIdx, s.rhoSum⟩) := by
  rw [rhoLoop.eq_2, hz]
  simp only [hb, Bool.not_false, Bool.and_false, Bool.false_eq_true, if_false, if_neg hlt]
  cases b <;> rfl

section
variable [t : F32Trans]

/-- Numbers are `f32`. -/
@[reducible] local instance valueNumbers : Flt (BitVec 32) := ieeeFlt t

theorem UpTo.subV {k : ℤ} {a b : BitVec 32} (ha : UpTo k a) (hb : UpTo k b) (h1 : k + 1 ≤ 127) (h2 : -149 ≤ k + 1) :
    UpTo (k + 1) (f32Sub a b) ∧ V (f32Sub a b) = fl32 (V a - V b) := by
  obtain ⟨n1, n2⟩ := hb.neg (t := t)
  obtain ⟨d1, d2⟩ := ha.add (t := t) n1 h1 h2
  rw [n2, ← sub_eq_add_neg] at d2
  exact ⟨d1, d2⟩

omit t in
theorem nat_valV {n : Nat} (hn : n ≤ 2 ^ 24) : UpTo 24 (f32OfNat n) ∧ V (f32OfNat n) = fl32 n := by
  obtain ⟨c1, c2⟩ := ofNat_exact hn
  have c3 : V (f32OfNat n) = n := c2
  refine ⟨⟨c1, ?_⟩, by rw [c3, fl32_nat n hn]⟩
  rw [c3, abs_of_nonneg (by positivity)]
  have : (n : ℝ) ≤ 2 ^ 24 := by exact_mod_cast hn
  exact this.trans (by norm_num)

omit t in
theorem one_valV : UpTo 0 one32 ∧ V one32 = 1 := ⟨⟨one_fin, by rw [V_one]; norm_num⟩, V_one⟩

theorem lt_valV (r : Trans ℝ) {a b : BitVec 32} (ha : IeeeFinite a) (hb : IeeeFinite b) : Flt.lt a b = @Flt.lt ℝ (roundFlt fl32 r) (V a) (V b) := by
  rw [Bool.eq_iff_iff]
  exact (lt_val (t := t) ha hb).trans decide_eq_true_iff.symm

theorem eq_valV (r : Trans ℝ) {a b : BitVec 32} (ha : IeeeFinite a) (hb : IeeeFinite b) : Flt.eq a b = @Flt.eq ℝ (roundFlt fl32 r) (V a) (V b) := by
  rw [Bool.eq_iff_iff]
  exact ((C97_compare t a b ha hb).2.2).trans decide_eq_true_iff.symm

theorem fmax_valV (r : Trans ℝ) {k : ℤ} {a b : BitVec 32} (ha : UpTo k a) (hb : UpTo k b) : V (Flt.fmax a b) = @Flt.fmax ℝ (roundFlt fl32 r) (V a) (V b) := by
  obtain ⟨_, h1, h2, h3⟩ := fmax_val (t := t) ha hb
  show _ = max (V a) (V b)
  refine le_antisymm ?_ (max_le h2 h3)
  rcases h1 with h1 | h1 <;> rw [h1]
  · exact le_max_left _ _
  · exact le_max_right _ _

theorem insertDesc_val (r : Trans ℝ) (x : BitVec 32) (hx : IeeeFinite x) (l : List (BitVec 32)) (hl : ∀ y ∈ l, IeeeFinite y) :
    (insertDesc x l).map V = @insertDesc ℝ (roundFlt fl32 r) (V x) (l.map V) := by
  induction l with
  | nil => rfl
  | cons y l ih =>
    unfold insertDesc
    rw [List.map_cons]
    simp only
    rw [lt_valV r hx (hl y (by simp))]
    split
    · rw [List.map_cons, ih (fun z hz => hl z (by simp [hz]))]
    · rfl

theorem insertDesc_mem (x : BitVec 32) (l : List (BitVec 32)) {z : BitVec 32} (h : z ∈ insertDesc x l) : z = x ∨ z ∈ l := by
  induction l with
  | nil =>
    unfold insertDesc at h
    simpa using h
  | cons y l ih =>
    unfold insertDesc at h
    split at h
    · rcases List.mem_cons.1 h with h | h
      · exact .inr (by simp [h])
      · rcases ih h with h | h
        · exact .inl h
        · exact .inr (by simp [h])
    · simpa using h

theorem sortDesc_mem (l : List (BitVec 32)) {z : BitVec 32} (h : z ∈ sortDesc l) : z ∈ l := by
  induction l with
  | nil => exact h
  | cons y l ih =>
    unfold sortDesc at h
    rcases insertDesc_mem _ _ h with h | h
    · simp [h]
    · simp [ih h]

theorem sortDesc_val (r : Trans ℝ) (l : List (BitVec 32)) (hl : ∀ y ∈ l, IeeeFinite y) : (sortDesc l).map V = @sortDesc ℝ (roundFlt fl32 r) (l.map V) := by
  induction l with
  | nil => rfl
  | cons y l ih =>
    unfold sortDesc
    rw [insertDesc_val r y (hl y (by simp)) _ (fun z hz => hl z (by simp [sortDesc_mem _ hz])), ih (fun z hz => hl z (by simp [hz]))]
    rfl

/-- The values of the state of the loop. -/
noncomputable def RhoState.val (s : RhoState (BitVec 32)) : RhoState ℝ := ⟨s.idx, V s.runningSum, s.rhoIdx, V s.rhoSum⟩

theorem rhoLoop_val (r : Trans ℝ) (support : Nat) (hsup : support ≤ 2 ^ 24) (m : BitVec 32) (hm : UpTo 0 m) (ps : List (BitVec 32)) (hps : ∀ p ∈ ps, UpTo 0 p) :
    ∀ s : RhoState (BitVec 32), UpTo 25 s.runningSum → UpTo 25 s.rhoSum → s.rhoIdx < 2 ^ 24 →
      @rhoLoop ℝ (roundFlt fl32 r) false support (V m) (ps.map V) s.val = (rhoLoop false support m ps s).map RhoState.val ∧
      ∀ s', rhoLoop false support m ps s = .ok s' → UpTo 25 s'.rhoSum ∧ s'.rhoIdx < 2 ^ 24 := by
  induction ps with
  | nil =>
    intro s _ h2 h3
    refine ⟨rfl, fun s' h => ?_⟩
    cases h
    exact ⟨h2, h3⟩
  | cons p ps ih =>
    intro s h1 h2 h3
    have hp := hps p (by simp)
    have e0 : Flt.eq p Flt.zero = @Flt.eq ℝ (roundFlt fl32 r) (V p) (@Flt.zero ℝ (roundFlt fl32 r)) := by
      have := eq_valV (t := t) r hp.fin zero_fin
      rw [V_zero] at this
      exact this
    rw [List.map_cons]
    by_cases hz : Flt.eq p Flt.zero = true
    · have k1 : rhoLoop false support m (p :: ps) s = .ok s := by
        rw [rhoLoop.eq_2, hz]
        rfl
      have k2 : @rhoLoop ℝ (roundFlt fl32 r) false support (V m) (V p :: ps.map V) s.val = .ok s.val := by
        rw [@rhoLoop.eq_2, ← e0, hz]
        rfl
      rw [k1, k2]
      refine ⟨rfl, fun s' h => ?_⟩
      cases h
      exact ⟨h2, h3⟩
    rw [Bool.not_eq_true] at hz
    by_cases hlt : support < s.idx + 1
    · have k1 : rhoLoop false support m (p :: ps) s = .error .overflow := by
        rw [rhoLoop.eq_2, hz]
        simp [hlt]
      have k2 : @rhoLoop ℝ (roundFlt fl32 r) false support (V m) (V p :: ps.map V) s.val = .error .overflow := by
        rw [@rhoLoop.eq_2, ← e0, hz]
        simp [RhoState.val, hlt]
      rw [k1, k2]
      exact ⟨rfl, fun s' h => by cases h⟩
    obtain ⟨a1, a2⟩ := h1.acc (t := t) (b := p) (by simpa using hp) (by norm_num) (by norm_num)
    obtain ⟨c1, c2⟩ := nat_valV (n := support - s.idx - 1) (by omega)
    obtain ⟨d1, d2⟩ := nat_valV (n := s.idx) (by omega)
    obtain ⟨o1, o2⟩ := one_valV
    obtain ⟨m1, m2⟩ := c1.mul (t := t) hm (by norm_num) (by norm_num)
    obtain ⟨b1, b2⟩ := (m1.mono (show (24 + 0 : ℤ) ≤ 25 by norm_num)).add (t := t) a1 (by norm_num) (by norm_num)
    obtain ⟨s1, s2⟩ := UpTo.subV (t := t) b1 (o1.mono (show (0 : ℤ) ≤ 25 + 1 by norm_num)) (by norm_num) (by norm_num)
    obtain ⟨q1, q2⟩ := d1.add (t := t) (o1.mono (show (0 : ℤ) ≤ 24 by norm_num)) (by norm_num) (by norm_num)
    have q3 : (2 : ℝ) ^ (0 : ℤ) ≤ |V (f32Add (f32OfNat s.idx) one32)| := by
      refine le_trans ?_ (le_abs_self _)
      rw [q2, o2, d2, fl32_nat _ (by omega)]
      exact fl_ge (by norm_num) (by rw [zpow_zero]; linarith [Nat.cast_nonneg (α := ℝ) s.idx])
    obtain ⟨v1, v2⟩ := s1.div (t := t) q1 q3 (by norm_num) (by norm_num)
    obtain ⟨w1, w2⟩ := v1.add (t := t) (hm.mono (show (0 : ℤ) ≤ 25 + 1 + 1 - 0 by norm_num)) (by norm_num) (by norm_num)
    rw [v2, s2, b2, m2, a2, q2, o2, c2, d2] at w2
    have e1 : Flt.lt (f32Add (f32Div (f32Sub (f32Add (f32Mul (f32OfNat (support - s.idx - 1)) m) (f32Add s.runningSum p)) one32) (f32Add (f32OfNat s.idx) one32)) m) p =
        @Flt.lt ℝ (roundFlt fl32 r) (V (f32Add (f32Div (f32Sub (f32Add (f32Mul (f32OfNat (support - s.idx - 1)) m) (f32Add s.runningSum p)) one32) (f32Add (f32OfNat s.idx) one32)) m)) (V p) :=
      lt_valV (t := t) r w1.fin hp.fin
    rw [w2] at e1
    have ih' := ih (fun q hq => hps q (by simp [hq]))
    generalize hb : Flt.lt (f32Add (f32Div (f32Sub (f32Add (f32Mul (f32OfNat (support - s.idx - 1)) m) (f32Add s.runningSum p)) one32) (f32Add (f32OfNat s.idx) one32)) m) p = b at e1
    have hb' : Flt.lt (Flt.add (Flt.div (Flt.sub (Flt.add (Flt.mul (Flt.ofNat (support - s.idx - 1)) m) (Flt.add s.runningSum p)) Flt.one)
        (Flt.add (Flt.ofNat s.idx) Flt.one)) m) p = b := by
      simp only [e32_add, e32_div, e32_sub, e32_mul, e32_ofNat, e32_one]
      exact hb
    have k1 := rhoLoop_next (m := m) (ps := ps) hz hlt hb'
    simp only [e32_add] at k1
    have k2 := @rhoLoop_next ℝ (roundFlt fl32 r) support (V m) (V p) (ps.map V) s.val b (e0.symm.trans hz) hlt e1.symm
    rw [k1, k2]
    cases b with
    | true =>
      have i1 := ih' ⟨s.idx + 1, f32Add s.runningSum p, s.idx, f32Add s.runningSum p⟩ a1 a1 (show s.idx < 2 ^ 24 by omega)
      unfold RhoState.val at i1 ⊢
      simp only [a2] at i1
      exact i1
    | false =>
      have i1 := ih' ⟨s.idx + 1, f32Add s.runningSum p, s.rhoIdx, s.rhoSum⟩ a1 h2 h3
      unfold RhoState.val at i1 ⊢
      simp only [a2] at i1
      exact i1

/-- The values of a list of probabilities. -/
noncomputable def valuesOf (l : List (Nat × BitVec 32)) : List (Nat × ℝ) := l.map (fun e => (e.1, V e.2))

omit t in
theorem lit_valV : IeeeFinite (f32Lit 999 1000) ∧ V (f32Lit 999 1000) = fl32 (999 / 1000) := by
  have h : f32Lit 999 1000 = f32Div (f32OfNat 999) (f32OfNat 1000) := by decide +kernel
  obtain ⟨a1, a2⟩ := ofNat_exact (n := 999) (by norm_num)
  obtain ⟨b1, b2⟩ := ofNat_exact (n := 1000) (by norm_num)
  have a3 : V (f32OfNat 999) = 999 := by rw [show V (f32OfNat 999) = _ from a2]; norm_num
  have b3 : V (f32OfNat 1000) = 1000 := by rw [show V (f32OfNat 1000) = _ from b2]; norm_num
  have := div_val (t := noTrans) a1 b1 (by rw [b3]; norm_num) (by rw [a3, b3, abs_of_pos (by norm_num)]; norm_num)
  rw [a3, b3] at this
  rw [h]
  exact this

/-- `enforce_min_prob` on bit patterns. -/
theorem enforce_val (r : Trans ℝ) {eps : BitVec 32} (he : BetweenZeroOne eps) {els : List (Nat × BitVec 32)} (hne : els ≠ []) (hels : ∀ e ∈ els, UpTo 0 e.2)
    (hpos : ∃ e ∈ els, 0 < V e.2) (hn : els.length ≤ 2 ^ 24) :
    @enforceUnwrap ℝ (roundFlt fl32 r) (V eps) (valuesOf els) = (enforceUnwrap eps els).map valuesOf ∧
    ∀ out, enforceUnwrap eps els = .ok out → ∀ o ∈ out, IeeeFinite o.2 := by
  have he' : 0 ≤ V eps ∧ V eps ≤ 1 := he.2
  have hlen : (valuesOf els).length = els.length := by simp [valuesOf]
  have hvals : (valuesOf els).map (·.2) = (els.map (·.2)).map V := by simp [valuesOf, Function.comp_def]
  have hfin : ∀ y ∈ els.map (·.2), IeeeFinite y := fun y hy => by obtain ⟨e, h, rfl⟩ := List.mem_map.1 hy; exact (hels e h).fin
  have hlen0 : ¬ els.length = 0 := by simpa using hne
  have epsUp : UpTo 0 eps := ⟨he.1, by rw [abs_of_nonneg he'.1, zpow_zero]; exact he'.2⟩
  have c0 : Flt.eq eps Flt.zero = @Flt.eq ℝ (roundFlt fl32 r) (V eps) (@Flt.zero ℝ (roundFlt fl32 r)) := by
    have := eq_valV (t := t) r he.1 zero_fin
    rw [V_zero] at this
    exact this
  have c1 : Flt.lt eps Flt.zero = @Flt.lt ℝ (roundFlt fl32 r) (V eps) (@Flt.zero ℝ (roundFlt fl32 r)) := by
    have := lt_valV (t := t) r he.1 zero_fin
    rw [V_zero] at this
    exact this
  have c2 : Flt.lt Flt.one eps = @Flt.lt ℝ (roundFlt fl32 r) (@Flt.one ℝ (roundFlt fl32 r)) (V eps) := by
    have := lt_valV (t := t) r one_fin he.1
    rw [V_one] at this
    exact this
  have c3 : Flt.lt (Flt.lit 999 1000) eps = @Flt.lt ℝ (roundFlt fl32 r) (@Flt.lit ℝ (roundFlt fl32 r) 999 1000) (V eps) := by
    have := lt_valV (t := t) r lit_valV.1 he.1
    rw [lit_valV.2] at this
    refine this.trans ?_
    show @Flt.lt ℝ (roundFlt fl32 r) _ _ = @Flt.lt ℝ (roundFlt fl32 r) (fl32 (((999 : Int) : ℝ) / ((1000 : Nat) : ℝ))) _
    norm_num
  have cz : ∀ e ∈ els, Flt.eq e.2 Flt.zero = @Flt.eq ℝ (roundFlt fl32 r) (V e.2) (@Flt.zero ℝ (roundFlt fl32 r)) := fun e h => by
    have := eq_valV (t := t) r (hels e h).fin zero_fin
    rw [V_zero] at this
    exact this
  have cp : ∀ e ∈ els, Flt.lt Flt.zero e.2 = @Flt.lt ℝ (roundFlt fl32 r) (@Flt.zero ℝ (roundFlt fl32 r)) (V e.2) := fun e h => by
    have := lt_valV (t := t) r zero_fin (hels e h).fin
    rw [V_zero] at this
    exact this
  have hfilter : ((valuesOf els).filter (fun e => @Flt.eq ℝ (roundFlt fl32 r) e.2 (@Flt.zero ℝ (roundFlt fl32 r)))).length = (els.filter (fun e => Flt.eq e.2 Flt.zero)).length := by
    unfold valuesOf
    rw [List.filter_map, List.length_map]
    congr 1
    exact List.filter_congr fun e h => (cz e h).symm
  have hsup1 : 1 ≤ els.length - (els.filter (fun e => Flt.eq e.2 Flt.zero)).length := by
    obtain ⟨e, h1, h2⟩ := hpos
    have : (els.filter (fun e => Flt.eq e.2 Flt.zero)).length < els.length := by
      refine List.length_filter_lt_length_iff_exists.2 ⟨e, h1, ?_⟩
      rw [cz e h1]
      intro h
      have : V e.2 = 0 := decide_eq_true_iff.1 h
      linarith
    omega
  set sup := els.length - (els.filter (fun e => Flt.eq e.2 Flt.zero)).length with hsup
  obtain ⟨n1, n2⟩ := nat_valV (n := sup) (by omega)
  have n3 : (2 : ℝ) ^ (0 : ℤ) ≤ |V (f32OfNat sup)| := by
    rw [n2, fl32_nat _ (by omega), abs_of_nonneg (by positivity), zpow_zero]
    exact_mod_cast hsup1
  obtain ⟨o1, o2⟩ := one_valV
  unfold enforceUnwrap enforceMinProb
  rw [hlen, if_neg hlen0, if_neg hlen0, ← c0]
  by_cases h0 : Flt.eq eps Flt.zero = true
  · rw [if_pos h0, if_pos h0]
    exact ⟨rfl, fun out h => by cases h; exact fun o ho => (hels o ho).fin⟩
  rw [if_neg h0, if_neg h0, ← c1, ← c2]
  by_cases h1 : (Flt.lt eps Flt.zero || Flt.lt Flt.one eps) = true
  · rw [if_pos h1, if_pos h1]
    exact ⟨rfl, fun out h => by cases h⟩
  rw [if_neg h1, if_neg h1, ← c3]
  simp only [Bool.false_eq_true, if_false, hfilter, ← hsup, Bool.false_or, e32_div, e32_one, e32_ofNat]
  by_cases h2 : Flt.lt (Flt.lit 999 1000) eps = true
  · rw [if_pos h2, if_pos h2]
    obtain ⟨d1, d2⟩ := o1.div (t := t) n1 n3 (by norm_num) (by norm_num)
    rw [o2, n2] at d2
    constructor
    · refine congrArg Except.ok ?_
      unfold valuesOf
      rw [List.map_map, List.map_map]
      refine List.map_congr_left fun e h => ?_
      simp only [Function.comp_def]
      rw [← cp e h]
      split
      · exact Prod.ext rfl d2.symm
      · rfl
    · intro out h
      cases h
      intro o ho
      obtain ⟨e, h, rfl⟩ := List.mem_map.1 ho
      split
      · exact d1.fin
      · exact (hels e h).fin
  rw [if_neg h2, if_neg h2]
  obtain ⟨m1, m2⟩ := epsUp.div (t := t) n1 n3 (by norm_num) (by norm_num)
  rw [n2] at m2
  have m3 : UpTo 0 (f32Div eps (f32OfNat sup)) := m1.mono (by norm_num)
  have m4 : @Flt.div ℝ (roundFlt fl32 r) (V eps) (@Flt.ofNat ℝ (roundFlt fl32 r) sup) = V (f32Div eps (f32OfNat sup)) := m2.symm
  have k1 : cmpCheck (els.map (·.2)) = .ok () := by
    unfold cmpCheck
    rw [if_neg]
    rintro ⟨_, h⟩
    rw [List.any_eq_true] at h
    obtain ⟨x, h3, h4⟩ := h
    have := fin_nan (hfin x h3)
    exact absurd h4 (by rw [show Flt.isNaN x = f32IsNaN x from rfl, this]; simp)
  have k2 : @cmpCheck ℝ (roundFlt fl32 r) ((valuesOf els).map (·.2)) = .ok () := by
    unfold cmpCheck
    rw [if_neg]
    rintro ⟨_, h⟩
    rw [List.any_eq_true] at h
    obtain ⟨x, h3, h4⟩ := h
    cases h4
  rw [k1, k2, hvals, m4, ← sortDesc_val r _ hfin]
  generalize f32Div eps (f32OfNat sup) = m at m3
  have hsort : ∀ p ∈ sortDesc (els.map (·.2)), UpTo 0 p := fun p hp => by
    obtain ⟨e, h, rfl⟩ := List.mem_map.1 (sortDesc_mem _ hp)
    exact hels e h
  generalize sortDesc (els.map (·.2)) = ps at hsort
  cases ps with
  | nil => exact ⟨rfl, fun out h => by cases h⟩
  | cons p0 ps =>
    obtain ⟨g1, g2⟩ := rhoLoop_val (t := t) r sup (by omega) m m3 (p0 :: ps) hsort ⟨0, 0#32, 0, p0⟩ upTo_zero ((hsort p0 (by simp)).mono (by norm_num)) (by norm_num)
    have g3 : (RhoState.mk 0 (0 : ℝ) 0 (V p0)) = RhoState.val ⟨0, 0#32, 0, p0⟩ := by
      unfold RhoState.val
      rw [V_zero]
    simp only [List.map_cons, ok_bind] at g1 ⊢
    rw [show (@RhoState.mk ℝ 0 (@Flt.zero ℝ (roundFlt fl32 r)) 0 (V p0)) = RhoState.val ⟨0, 0#32, 0, p0⟩ from g3, g1]
    rw [show (RhoState.mk 0 (Flt.zero : BitVec 32) 0 p0) = ⟨0, 0#32, 0, p0⟩ from rfl]
    generalize rhoLoop false sup m (p0 :: ps) ⟨0, 0#32, 0, p0⟩ = res at g2
    cases res with
    | error q => exact ⟨rfl, fun out h => by cases h⟩
    | ok s =>
      obtain ⟨s1, s2⟩ := g2 s rfl
      obtain ⟨x1, x2⟩ := nat_valV (n := s.rhoIdx) (by omega)
      obtain ⟨y1, y2⟩ := UpTo.subV (t := t) n1 x1 (by norm_num) (by norm_num)
      obtain ⟨z1, z2⟩ := UpTo.subV (t := t) y1 (o1.mono (show (0 : ℤ) ≤ 24 + 1 by norm_num)) (by norm_num) (by norm_num)
      obtain ⟨w1, w2⟩ := z1.mul (t := t) m3 (by norm_num) (by norm_num)
      obtain ⟨v1, v2⟩ := w1.add (t := t) (s1.mono (show (25 : ℤ) ≤ 24 + 1 + 1 + 0 by norm_num)) (by norm_num) (by norm_num)
      obtain ⟨u1, u2⟩ := UpTo.subV (t := t) v1 (o1.mono (show (0 : ℤ) ≤ 24 + 1 + 1 + 0 + 1 by norm_num)) (by norm_num) (by norm_num)
      obtain ⟨q1, q2⟩ := x1.add (t := t) (o1.mono (show (0 : ℤ) ≤ 24 by norm_num)) (by norm_num) (by norm_num)
      have q3 : (2 : ℝ) ^ (0 : ℤ) ≤ |V (f32Add (f32OfNat s.rhoIdx) one32)| := by
        refine le_trans ?_ (le_abs_self _)
        rw [q2, o2, x2, fl32_nat _ (by omega)]
        exact fl_ge (by norm_num) (by rw [zpow_zero]; linarith [Nat.cast_nonneg (α := ℝ) s.rhoIdx])
      obtain ⟨t1, t2⟩ := u1.div (t := t) q1 q3 (by norm_num) (by norm_num)
      rw [u2, v2, w2, z2, y2, q2, o2, x2, n2] at t2
      have key : ∀ e ∈ els, IeeeFinite (Flt.fmax (f32Sub e.2 (f32Div (f32Sub (f32Add (f32Mul (f32Sub (f32Sub (f32OfNat sup) (f32OfNat s.rhoIdx)) one32) m) s.rhoSum) one32)
          (f32Add (f32OfNat s.rhoIdx) one32))) m) ∧
          V (Flt.fmax (f32Sub e.2 (f32Div (f32Sub (f32Add (f32Mul (f32Sub (f32Sub (f32OfNat sup) (f32OfNat s.rhoIdx)) one32) m) s.rhoSum) one32)
          (f32Add (f32OfNat s.rhoIdx) one32))) m) = max (fl32 (V e.2 - V (f32Div (f32Sub (f32Add (f32Mul (f32Sub (f32Sub (f32OfNat sup) (f32OfNat s.rhoIdx)) one32) m) s.rhoSum) one32)
          (f32Add (f32OfNat s.rhoIdx) one32)))) (V m) := by
        intro e h
        obtain ⟨r1, r2⟩ := UpTo.subV (t := t) ((hels e h).mono (show (0 : ℤ) ≤ 24 + 1 + 1 + 0 + 1 + 1 - 0 by norm_num)) t1 (by norm_num) (by norm_num)
        have f1 := fmax_val (t := t) r1 (m3.mono (show (0 : ℤ) ≤ 24 + 1 + 1 + 0 + 1 + 1 - 0 + 1 by norm_num))
        have f2 := fmax_valV (t := t) r r1 (m3.mono (show (0 : ℤ) ≤ 24 + 1 + 1 + 0 + 1 + 1 - 0 + 1 by norm_num))
        rw [r2] at f2
        exact ⟨f1.1.fin, f2⟩
      simp only [ok_bind, unwrapOpt, Except.map, e32_add, e32_sub, e32_mul, e32_div, e32_ofNat, e32_one] at *
      constructor
      · refine congrArg Except.ok ?_
        unfold valuesOf
        rw [List.map_map, List.map_map]
        refine List.map_congr_left fun e h => ?_
        simp only [Function.comp_def]
        rw [← cp e h]
        split
        · refine Prod.ext rfl ?_
          rw [(key e h).2, t2]
          rfl
        · rfl
      · intro out h
        cases h
        intro o ho
        obtain ⟨e, h, rfl⟩ := List.mem_map.1 ho
        split
        · exact (key e h).1
        · exact (hels e h).fin

end

end Rml
