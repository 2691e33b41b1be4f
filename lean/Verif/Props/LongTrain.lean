import Verif.Props.Train

/-! C57 without a bound on the number of examples: what happens when the counters of the progress output no longer fit a `u32`. -/

namespace Rml

/-- Example `i` (counted from 0) is due for a report with period `p` when the counter starts again at 0 after `2^32` examples: the counter is a
multiple of `p` (one less than a multiple, after the first `2^32` examples), or no such value is left before the counter starts again. -/
def Due (p i : Nat) : Prop :=
  p ∣ i % 2 ^ 32 + (if i < 2 ^ 32 then 0 else 1) ∨ ∀ j, i % 2 ^ 32 < j → j < 2 ^ 32 → ¬ p ∣ j + (if i < 2 ^ 32 then 0 else 1)

/-- The counters after `i` examples. -/
def OnSchedule (p i : Nat) (m : TrainManager) : Prop :=
  m.period = .additive p ∧ m.iteration = i % 2 ^ 32 ∧
    ((m.iteration ≤ m.next ∧ m.next < m.iteration + p ∧ m.next < 2 ^ 32 ∧ p ∣ m.next + (if i < 2 ^ 32 then 0 else 1)) ∨
     (m.next ≤ m.iteration ∧ 0 < m.iteration ∧ m.next + 2 ^ 32 = m.iteration - 1 + p ∧
        ∀ j, m.iteration ≤ j → j < 2 ^ 32 → ¬ p ∣ j + (if i < 2 ^ 32 then 0 else 1)))

theorem not_dvd_between {p a b : Nat} (h : p ∣ a) (h1 : b < a) (h2 : a < b + p) : ¬ p ∣ b := by
  rintro hb
  have := (Nat.dvd_sub h hb)
  exact absurd (Nat.le_of_dvd (by omega) this) (by omega)

theorem add_release (a b : Nat) : u32AddNat false a b = .ok ((a + b) % 2 ^ 32) := by
  unfold u32AddNat
  split
  · rw [Nat.mod_eq_of_lt (by assumption)]
  · rfl

theorem onSchedule_step {p : Nat} (hp : 0 < p) (hp2 : p < 2 ^ 32) (i : Nat) (m : TrainManager) (h : OnSchedule p i m) :
    ∃ b m', m.inc false = .ok (b, m') ∧ OnSchedule p (i + 1) m' ∧ (b = true ↔ Due p i) := by
  obtain ⟨it, nx, pd⟩ := m
  obtain ⟨h1, h2, h3⟩ := h
  simp only at h1 h2 h3
  subst h1
  have hi : it < 2 ^ 32 := by rw [h2]; exact Nat.mod_lt _ (by norm_num)
  unfold Due
  rw [← h2]
  generalize hr : (if i < 2 ^ 32 then 0 else 1 : Nat) = r at h3 ⊢
  have hnext : (it + 1) % 2 ^ 32 = (i + 1) % 2 ^ 32 := by rw [h2]; omega
  have hr2 : it + 1 < 2 ^ 32 → (if i + 1 < 2 ^ 32 then 0 else 1 : Nat) = r := by
    intro hlt
    rw [← hr]
    split <;> split <;> omega
  have hr3 : it + 1 = 2 ^ 32 → (if i + 1 < 2 ^ 32 then 0 else 1 : Nat) = 1 := by
    intro he
    rw [if_neg]
    omega
  by_cases hle : nx ≤ it
  · refine ⟨true, ⟨(it + 1) % 2 ^ 32, (it + p) % 2 ^ 32, .additive p⟩, ?_, ⟨rfl, hnext, ?_⟩, ?_⟩
    · unfold TrainManager.inc
      simp only [if_pos hle, OutputPeriod.nextAfter, add_release]
      rfl
    · simp only
      by_cases hw : it + 1 = 2 ^ 32
      · rw [hr3 hw]
        left
        have e1 : (it + 1) % 2 ^ 32 = 0 := by rw [hw]; norm_num
        have e2 : (it + p) % 2 ^ 32 = p - 1 := by omega
        rw [e1, e2]
        refine ⟨by omega, by omega, by omega, ?_⟩
        rw [show p - 1 + 1 = p by omega]
      · rw [hr2 (by omega)]
        have e1 : (it + 1) % 2 ^ 32 = it + 1 := Nat.mod_eq_of_lt (by omega)
        rw [e1]
        have hnone : 2 ^ 32 ≤ it + p → ∀ j, it + 1 ≤ j → j < 2 ^ 32 → ¬ p ∣ j + r := by
          intro hge j hj1 hj2 hd
          rcases h3 with h3 | h3
          · have : nx = it := by omega
            subst this
            exact not_dvd_between hd (b := nx + r) (by omega) (by omega) h3.2.2.2
          · exact h3.2.2.2 j (by omega) hj2 hd
        by_cases hov : it + p < 2 ^ 32
        · left
          rw [Nat.mod_eq_of_lt hov]
          rcases h3 with h3 | h3
          · have : nx = it := by omega
            subst this
            refine ⟨by omega, by omega, hov, ?_⟩
            rw [show nx + p + r = nx + r + p by omega]
            exact Dvd.dvd.add h3.2.2.2 (dvd_refl p)
          · omega
        · right
          refine ⟨by omega, by omega, by omega, hnone (by omega)⟩
    · simp only [true_iff]
      rcases h3 with h3 | h3
      · have : nx = it := by omega
        subst this
        exact .inl h3.2.2.2
      · exact .inr fun j hj => h3.2.2.2 j (by omega)
  · refine ⟨false, ⟨(it + 1) % 2 ^ 32, nx, .additive p⟩, ?_, ⟨rfl, hnext, ?_⟩, ?_⟩
    · unfold TrainManager.inc
      simp only [if_neg hle, add_release]
      rfl
    · simp only
      rcases h3 with h3 | h3
      · rw [hr2 (by omega), Nat.mod_eq_of_lt (by omega : it + 1 < 2 ^ 32)]
        exact .inl ⟨by omega, by omega, h3.2.2.1, h3.2.2.2⟩
      · omega
    · simp only [Bool.false_eq_true, false_iff, not_or, not_forall]
      rcases h3 with h3 | h3
      · exact ⟨not_dvd_between h3.2.2.2 (by omega) (by omega), nx, by omega, by omega, fun hn => hn h3.2.2.2⟩
      · omega

theorem onSchedule_run {p : Nat} (hp : 0 < p) (hp2 : p < 2 ^ 32) (k i : Nat) (m : TrainManager) (h : OnSchedule p i m) :
    ∃ bs m', TrainManager.run false k m = .ok (bs, m') ∧ bs.length = k ∧ ∀ x, x < k → (bs[x]? = some true ↔ Due p (i + x)) := by
  induction k generalizing i m with
  | zero => exact ⟨[], m, rfl, rfl, fun x hx => by omega⟩
  | succ k ih =>
    obtain ⟨b, m1, h1, h2, h3⟩ := onSchedule_step hp hp2 i m h
    obtain ⟨bs, m2, h4, h5, h6⟩ := ih (i + 1) m1 h2
    refine ⟨b :: bs, m2, ?_, by simp [h5], fun x hx => ?_⟩
    · simp only [TrainManager.run, h1]
      show (TrainManager.run false k m1 >>= _) = _
      rw [h4]
      rfl
    · cases x with
      | zero => simpa using h3
      | succ x =>
        rw [List.getElem?_cons_succ, h6 x (by omega), show i + 1 + x = i + (x + 1) by omega]

/-- C57 for any number of examples, release profile: training does not stop, and an example is reported exactly if it is due. -/
theorem C57_any_number (p : Nat) (hp : 0 < p) (hp2 : p < 2 ^ 32) (k : Nat) :
    ∃ bs m, TrainManager.run false k (TrainManager.new (.additive p)) = .ok (bs, m) ∧ bs.length = k ∧ ∀ i, i < k → (bs[i]? = some true ↔ Due p i) := by
  have h : OnSchedule p 0 (TrainManager.new (.additive p)) :=
    ⟨rfl, rfl, .inl ⟨Nat.le_refl _, by simp only [TrainManager.new]; omega, by simp [TrainManager.new], by simp [TrainManager.new]⟩⟩
  obtain ⟨bs, m, h1, h2, h3⟩ := onSchedule_run hp hp2 k 0 _ h
  exact ⟨bs, m, h1, h2, fun i hi => by simpa using h3 i hi⟩

/-- With the default period of 1000, say, the examples 4294967000 to 4294967295 are all reported, and from then on the counter is one less than a
multiple of 1000 at a report. -/
example : Due 1000 4294966000 ∧ ¬ Due 1000 4294966001 ∧ Due 1000 4294967000 ∧ Due 1000 4294967001 ∧ Due 1000 4294967295 ∧ ¬ Due 1000 4294967296 ∧
    Due 1000 4294968295 := by
  refine ⟨.inl (by norm_num), ?_, .inl (by norm_num), .inr ?_, .inr ?_, ?_, .inl (by norm_num)⟩
  · rintro (h | h)
    · revert h; norm_num
    · exact h 4294967000 (by norm_num) (by norm_num) (by norm_num)
  · intro j h1 h2
    norm_num at h1 h2 ⊢
    omega
  · intro j h1 h2
    norm_num at h1 h2
    omega
  · rintro (h | h)
    · revert h; norm_num
    · exact h 999 (by norm_num) (by norm_num) (by norm_num)

theorem run_add (dbg : Bool) (a b : Nat) (m : TrainManager) : TrainManager.run dbg (a + b) m =
    (TrainManager.run dbg a m >>= fun r => TrainManager.run dbg b r.2 >>= fun s => .ok (r.1 ++ s.1, s.2)) := by
  induction a generalizing m with
  | zero =>
    rw [Nat.zero_add]
    show _ = TrainManager.run dbg b m >>= _
    cases TrainManager.run dbg b m <;> rfl
  | succ a ih =>
    rw [show a + 1 + b = a + b + 1 by omega]
    simp only [TrainManager.run]
    cases m.inc dbg with
    | error e => rfl
    | ok r =>
      show (TrainManager.run dbg (a + b) r.2 >>= _) = ((TrainManager.run dbg a r.2 >>= _) >>= _)
      rw [ih]
      cases TrainManager.run dbg a r.2 with
      | error e => rfl
      | ok s =>
        show ((TrainManager.run dbg b s.2 >>= _) >>= _) = (TrainManager.run dbg b s.2 >>= _)
        cases TrainManager.run dbg b s.2 <;> rfl

theorem debug_step {p L : Nat} (hp : 0 < p) (hL : p ∣ L) (hL2 : L < 2 ^ 32) (i nx : Nat) (hi : i < L) (h1 : i ≤ nx) (h2 : nx < i + p) (h3 : p ∣ nx) :
    ∃ b nx', TrainManager.inc true ⟨i, nx, .additive p⟩ = .ok (b, ⟨i + 1, nx', .additive p⟩) ∧ i + 1 ≤ nx' ∧ nx' < i + 1 + p ∧ p ∣ nx' := by
  unfold TrainManager.inc
  by_cases hle : nx ≤ i
  · have : nx = i := by omega
    subst this
    have hov : nx + p ≤ L := by
      by_contra hc
      exact not_dvd_between hL hi (by omega) h3
    refine ⟨true, nx + p, ?_, by omega, by omega, Dvd.dvd.add h3 (dvd_refl p)⟩
    simp only [Nat.le_refl, if_true, OutputPeriod.nextAfter]
    rw [u32AddNat_ok (by omega), u32AddNat_ok (by omega)]
    rfl
  · refine ⟨false, nx, ?_, by omega, by omega, h3⟩
    simp only [if_neg hle]
    rw [u32AddNat_ok (by omega)]
    rfl

theorem debug_run {p L : Nat} (hp : 0 < p) (hL : p ∣ L) (hL2 : L < 2 ^ 32) (k i nx : Nat) (hi : i + k ≤ L) (h1 : i ≤ nx) (h2 : nx < i + p) (h3 : p ∣ nx) :
    ∃ bs nx', TrainManager.run true k ⟨i, nx, .additive p⟩ = .ok (bs, ⟨i + k, nx', .additive p⟩) ∧ i + k ≤ nx' ∧ nx' < i + k + p ∧ p ∣ nx' := by
  induction k generalizing i nx with
  | zero => exact ⟨[], nx, rfl, h1, h2, h3⟩
  | succ k ih =>
    obtain ⟨b, n1, a1, a2, a3, a4⟩ := debug_step hp hL hL2 i nx (by omega) h1 h2 h3
    obtain ⟨bs, n2, b1, b2, b3, b4⟩ := ih (i + 1) n1 (by omega) a2 a3 a4
    rw [show i + (k + 1) = i + 1 + k by omega]
    refine ⟨b :: bs, n2, ?_, b2, b3, b4⟩
    simp only [TrainManager.run, a1]
    show (TrainManager.run true k _ >>= _) = _
    rw [b1]
    rfl

/-- C57, debug profile: training panics at the last report that fits, at the last multiple of `p` below `2^32`, and not before. -/
theorem C57_debug_overflow (p : Nat) (hp : 0 < p) (k : Nat) :
    (k ≤ p * ((2 ^ 32 - 1) / p) → ∃ r, TrainManager.run true k (TrainManager.new (.additive p)) = .ok r) ∧
    (p * ((2 ^ 32 - 1) / p) < k → TrainManager.run true k (TrainManager.new (.additive p)) = .error .overflow) := by
  have hd : p ∣ p * ((2 ^ 32 - 1) / p) := Nat.dvd_mul_right _ _
  have hlt : p * ((2 ^ 32 - 1) / p) < 2 ^ 32 := by
    have := Nat.mul_div_le (2 ^ 32 - 1) p
    omega
  have hov : 2 ^ 32 ≤ p * ((2 ^ 32 - 1) / p) + p := by
    have := Nat.lt_mul_div_succ (2 ^ 32 - 1) hp
    rw [Nat.mul_add] at this
    omega
  generalize p * ((2 ^ 32 - 1) / p) = L at hd hlt hov
  constructor
  · intro hk
    obtain ⟨bs, nx, h, _⟩ := debug_run hp hd hlt k 0 0 (by omega) (Nat.le_refl _) (by omega) (dvd_zero p)
    exact ⟨_, h⟩
  · intro hk
    obtain ⟨bs, nx, h, h1, h2, h3⟩ := debug_run hp hd hlt L 0 0 (by omega) (Nat.le_refl _) (by omega) (dvd_zero p)
    rw [Nat.zero_add] at h h1 h2
    obtain ⟨c, rfl⟩ := Nat.exists_eq_add_of_lt hk
    have hnx : nx = L := by
      by_contra hne
      exact not_dvd_between h3 (by omega) h2 hd
    subst hnx
    rw [show nx + c + 1 = nx + (c + 1) by omega, run_add]
    show (TrainManager.run true nx ⟨0, 0, .additive p⟩ >>= _) = _
    rw [h]
    show (TrainManager.run true (c + 1) ⟨nx, nx, .additive p⟩ >>= _) = _
    simp only [TrainManager.run, TrainManager.inc, Nat.le_refl, if_true, OutputPeriod.nextAfter]
    rw [show u32AddNat true nx p = .error .overflow from by unfold u32AddNat; rw [if_neg (by omega)]; rfl]
    rfl

/-- With period 1000 the debug build panics at example 4294967000. -/
example : (∃ r, TrainManager.run true 4294967000 (TrainManager.new (.additive 1000)) = .ok r) ∧
    TrainManager.run true 4294967001 (TrainManager.new (.additive 1000)) = .error .overflow :=
  ⟨(C57_debug_overflow 1000 (by norm_num) _).1 (by norm_num), (C57_debug_overflow 1000 (by norm_num) _).2 (by norm_num)⟩

end Rml
