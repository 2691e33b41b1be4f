import Verif.Model.Train
import Verif.Lemmas.Field
import Verif.Props.Pipeline
import Mathlib.Algebra.BigOperators.Group.List.Basic
import Mathlib.Algebra.Order.Field.Rat
import Mathlib.Tactic.Ring

/-!
# C56, C57: metrics and progress output

A metric is fed with `add_point` for each example of a stream; statements about averages are in exact arithmetic (`fieldFlt`).
-/

set_option linter.unusedSectionVars false

namespace Rml

/-- Feed a stream of examples to a metric. -/
def Metric.feed {F : Type} [Flt F] (pts : List (Features F × Label F × Prediction F)) (m : Metric F) : M (Metric F) :=
  pts.foldlM (fun m x => m.addPoint x.1 x.2.1 x.2.2) m

section exact

variable {K : Type} [Field K] [LinearOrder K] [Trans K]

attribute [local instance] fieldFlt

theorem mse_feed (pts : List (Features K × SimpleLabel K × (K × K))) (v : K) (c : Nat) :
    Metric.feed (pts.map (fun x => (x.1, Label.simple x.2.1, Prediction.scalar x.2.2.1 x.2.2.2))) (.mse v c) =
      .ok (.mse (v + (pts.map (fun x => (x.2.1.value - x.2.2.1) ^ 2)).sum) (c + pts.length)) := by
  induction pts generalizing v c with
  | nil => simp [Metric.feed]; rfl
  | cons x pts ih =>
    have q := ih (v + (x.2.1.value - x.2.2.1) * (x.2.1.value - x.2.2.1)) (c + 1)
    simp only [Metric.feed, List.map_cons, List.foldlM_cons, List.sum_cons, List.length_cons] at q ⊢
    refine Eq.trans q ?_
    congr 2
    · ring
    · omega

/-- `mse` is the mean of the squared differences between label and prediction, for every stream. -/
theorem C56_mse (dbg : Bool) (pts : List (Features K × SimpleLabel K × (K × K))) (_h : pts ≠ []) (m0 : Metric K)
    (hm : getMetric "mse".toList = some m0) :
    ∃ m, Metric.feed (pts.map (fun x => (x.1, Label.simple x.2.1, Prediction.scalar x.2.2.1 x.2.2.2))) m0 = .ok m ∧
      m.getValue dbg = .ok (.float ((pts.map (fun x => (x.2.1.value - x.2.2.1) ^ 2)).sum / (pts.length : K))) := by
  have : m0 = .mse 0 0 := by
    simp only [getMetric] at hm
    simpa using hm.symm
  subst this
  refine ⟨_, mse_feed pts 0 0, ?_⟩
  simp [Metric.getValue]

/-- The probability a prediction gives to an action: the first entry for it. -/
def probOf (probs : List (Nat × K)) (a : Nat) : Option K := probs.lookup a

theorem find_lookup (probs : List (Nat × K)) (a : Nat) (p : K) (h : probOf probs a = some p) :
    probs.find? (fun x => x.1 == a) = some (a, p) := by
  unfold probOf at h
  induction probs with
  | nil => simp at h
  | cons x l ih =>
    rw [List.lookup_cons] at h
    by_cases e : x.1 = a
    · subst e
      simp at h
      subst h
      simp [List.find?]
    · have e1 : (a == x.1) = false := by simpa using fun h => e h.symm
      have e2 : (x.1 == a) = false := by simpa using e
      rw [e1] at h
      simp only [List.find?, e2]
      exact ih h

theorem ips_feed (pts : List (Features K × CBLabel K × List (Nat × K) × K)) (h : ∀ x ∈ pts, probOf x.2.2.1 x.2.1.action = some x.2.2.2)
    (v : K) (c : Nat) :
    Metric.feed (pts.map (fun x => (x.1, Label.cb x.2.1, Prediction.actionProbs x.2.2.1))) (.ips c v) =
      .ok (.ips (c + pts.length) (v + (pts.map (fun x => -x.2.1.cost * (x.2.2.2 / x.2.1.probability))).sum)) := by
  induction pts generalizing v c with
  | nil => simp [Metric.feed]; rfl
  | cons x pts ih =>
    have hf := find_lookup _ _ _ (h x (by simp))
    have q := ih (fun y hy => h y (by simp [hy])) (v + (-1 * x.2.1.cost) * (x.2.2.2 / x.2.1.probability)) (c + 1)
    simp only [Metric.feed, List.map_cons, List.foldlM_cons, List.sum_cons, List.length_cons] at q ⊢
    have ha : Metric.addPoint (.ips c v) x.1 (.cb x.2.1) (.actionProbs x.2.2.1) =
        .ok (.ips (c + 1) (v + (-1 * x.2.1.cost) * (x.2.2.2 / x.2.1.probability))) := by
      show (unwrapOpt (x.2.2.1.find? (fun y => y.1 == x.2.1.action)) >>= _) = _
      rw [hf]
      show Except.ok _ = Except.ok _
      simp
    rw [ha]
    refine Eq.trans q ?_
    congr 2
    · omega
    · ring

/-- `ips` is the mean of `-cost * p(action) / p_logged`, for every stream of labels and predictions in which the logged action has a
predicted probability. -/
theorem C56_ips (dbg : Bool) (pts : List (Features K × CBLabel K × List (Nat × K) × K)) (_h : pts ≠ [])
    (hp : ∀ x ∈ pts, probOf x.2.2.1 x.2.1.action = some x.2.2.2) (m0 : Metric K) (hm : getMetric "ips".toList = some m0) :
    ∃ m, Metric.feed (pts.map (fun x => (x.1, Label.cb x.2.1, Prediction.actionProbs x.2.2.1))) m0 = .ok m ∧
      m.getValue dbg = .ok (.float ((pts.map (fun x => -x.2.1.cost * (x.2.2.2 / x.2.1.probability))).sum / (pts.length : K))) := by
  have : m0 = .ips 0 0 := by
    simp only [getMetric] at hm
    simpa using hm.symm
  subst this
  refine ⟨_, ips_feed pts hp 0 0, ?_⟩
  simp [Metric.getValue]

end exact

section any
variable {F : Type} [Flt F]

/-- The number of features a user put into an example. -/
def featureCount : Features F → Nat
  | .simple f => f.allFeatures.length
  | .cbAdf f => (f.shared.map (fun s => s.allFeatures.length)).getD 0 + (f.actions.map (fun a => a.allFeatures.length)).sum

theorem parsed_feed (pts : List (Features F × Label F × Prediction F)) (c : Nat) :
    Metric.feed pts (.parsedFeatures c) = .ok (.parsedFeatures (c + (pts.map (fun x => featureCount x.1)).sum)) := by
  induction pts generalizing c with
  | nil => simp [Metric.feed]; rfl
  | cons x pts ih =>
    have q := ih (c + x.1.countAll)
    simp only [Metric.feed, List.foldlM_cons, List.map_cons, List.sum_cons] at q ⊢
    refine Eq.trans q ?_
    have : x.1.countAll = featureCount x.1 := by
      cases x.1 with
      | simple f => rfl
      | cbAdf f => cases h : f.shared <;> simp [Features.countAll, featureCount, h]
    rw [this]
    congr 2
    omega

/-- `parsed_features` is the total number of features, as long as it fits an `i32`; beyond that reading the metric panics. -/
theorem C56_parsed_features (dbg : Bool) (pts : List (Features F × Label F × Prediction F)) (m0 : Metric F)
    (hm : getMetric "parsed_features".toList = some m0) :
    ∃ m, Metric.feed pts m0 = .ok m ∧
      m.getValue dbg = if (pts.map (fun x => featureCount x.1)).sum < 2 ^ 31
        then .ok (.int ((pts.map (fun x => featureCount x.1)).sum : Nat)) else .error .unwrap := by
  have : m0 = .parsedFeatures 0 := by
    simp only [getMetric] at hm
    simpa using hm.symm
  subst this
  exact ⟨_, parsed_feed pts 0, by simp [Metric.getValue]⟩

theorem number_feed (pts : List (Features F × Label F × Prediction F)) (c : Nat) :
    Metric.feed pts (.exampleNumber c) = .ok (.exampleNumber (c + pts.length)) := by
  induction pts generalizing c with
  | nil => simp [Metric.feed]; rfl
  | cons x pts ih =>
    have q := ih (c + 1)
    simp only [Metric.feed, List.foldlM_cons, List.length_cons] at q ⊢
    refine Eq.trans q ?_
    congr 2
    omega

/-- `example_number` is one less than the number of examples, for at least one and fewer than 2^31 examples. -/
theorem C56_example_number (dbg : Bool) (pts : List (Features F × Label F × Prediction F)) (h1 : pts ≠ []) (h2 : pts.length < 2 ^ 31)
    (m0 : Metric F) (hm : getMetric "example_number".toList = some m0) :
    ∃ m, Metric.feed pts m0 = .ok m ∧ m.getValue dbg = .ok (.int (pts.length - 1 : Int)) := by
  have : m0 = .exampleNumber 0 := by
    simp only [getMetric] at hm
    simpa using hm.symm
  subst this
  refine ⟨_, number_feed pts 0, ?_⟩
  have hpos : 0 < pts.length := List.length_pos_iff.mpr h1
  have e : asI32 pts.length = (pts.length : Int) := by
    unfold asI32
    rw [Int.bmod_eq_of_le] <;> omega
  simp only [Metric.getValue, Nat.zero_add, e, i32Pred]
  rw [if_neg (by omega), if_neg (by omega)]
  rfl

/-- Before the first example `example_number` panics, and after 2^31 examples it panics in the debug profile. -/
theorem C56_example_number_limits : (Metric.exampleNumber 0 : Metric F).getValue true = .error .explicit ∧
    (Metric.exampleNumber (2 ^ 31) : Metric F).getValue true = .error .overflow := ⟨rfl, rfl⟩

/-! ### The metrics and predictions of a training run -/

/-- The points of a run: predict and learn each example in order, keep (features, label, prediction). -/
def runPoints (dbg : Bool) : Workspace F → List (Features F × Label F) → M (List (Features F × Label F × Prediction F) × Workspace F)
  | ws, [] => .ok ([], ws)
  | ws, x :: xs => do
    let (p, ws, ft) ← ws.predictThenLearn dbg x.1 x.2
    let (pts, ws) ← runPoints dbg ws xs
    .ok ((ft, x.2, p) :: pts, ws)

theorem ok_bind' {α β : Type} {x : M α} {f : α → M β} {b : β} (h : x >>= f = .ok b) : ∃ a, x = .ok a ∧ f a = .ok b := by
  cases x with
  | ok a => exact ⟨a, rfl, h⟩
  | error e => cases h

theorem mapM_ok_map {α β : Type} {f : α → M β} (l : List α) {r : List β} (h : l.mapM f = .ok r) :
    l.length = r.length ∧ ∀ (i : Nat) a, l[i]? = some a → ∃ b, r[i]? = some b ∧ f a = .ok b := by
  induction l generalizing r with
  | nil =>
    have : r = [] := by
      have : (Except.ok [] : M (List β)) = .ok r := h
      injection this with h; exact h.symm
    subst this
    simp
  | cons a l ih =>
    rw [List.mapM_cons] at h
    obtain ⟨b, hb, h⟩ := ok_bind' h
    obtain ⟨bs, hbs, h⟩ := ok_bind' h
    have : r = b :: bs := by
      have : (Except.ok (b :: bs) : M (List β)) = .ok r := h
      injection this with h; exact h.symm
    subst this
    obtain ⟨i1, i2⟩ := ih hbs
    refine ⟨by simp [i1], fun i c hc => ?_⟩
    cases i with
    | zero => simp at hc; subst hc; exact ⟨b, by simp, hb⟩
    | succ i => simpa using i2 i c (by simpa using hc)

/-- Training in non-quiet mode: the workspace has learned from the examples in order, every metric has been fed the points of the run, and
the predictions written are those made before learning from each example. -/
theorem C56_training_feeds (dbg : Bool) (o : TrainOpts) (ho : o.quiet = false) (xs : List (Features F × Label F)) (w w' : TrainWorld F)
    (h : xs.foldlM (fun w x => processExample dbg o w x.1 (some x.2)) w = .ok w') :
    ∃ pts, runPoints dbg w.ws xs = .ok (pts, w'.ws) ∧ w.metrics.length = w'.metrics.length ∧
      (∀ (i : Nat) m, w.metrics[i]? = some m → ∃ m', w'.metrics[i]? = some m' ∧ Metric.feed pts m = .ok m') ∧
      w'.predictions = w.predictions ++ (if o.predictionsFile then pts.map (fun x => x.2.2) else []) := by
  induction xs generalizing w with
  | nil =>
    have : w = w' := by
      have : (Except.ok w : M (TrainWorld F)) = .ok w' := h
      injection this
    subst this
    exact ⟨[], rfl, rfl, fun i m hm => ⟨m, hm, rfl⟩, by simp⟩
  | cons x xs ih =>
    rw [List.foldlM_cons] at h
    obtain ⟨w1, h1, h⟩ := ok_bind' h
    obtain ⟨pts, i1, i2, i3, i4⟩ := ih w1 h
    unfold processExample at h1
    replace ⟨⟨w2, ft2⟩, h1, h0⟩ := ok_bind' h1
    have h0 : w2 = w1 := by injection h0
    subst h0
    simp only [processFeatures, unwrapOpt, ho, Bool.not_false, Bool.true_or, if_true] at h1
    obtain ⟨_, e0, h1⟩ := ok_bind' h1
    cases e0
    obtain ⟨⟨p, ws, ft⟩, e1, h1⟩ := ok_bind' h1
    obtain ⟨ms, e2, h1⟩ := ok_bind' h1
    obtain ⟨⟨out, mg⟩, e3, h1⟩ := ok_bind' h1
    obtain ⟨row, h1⟩ : ∃ row, (Except.ok ({ w with
        ws := ws, metrics := ms, manager := mg, rows := w.rows ++ row,
        predictions := if o.predictionsFile then w.predictions ++ [p] else w.predictions }, ft) : M (TrainWorld F × Features F)) = .ok (w2, ft2) := by
      cases out with
      | true => simp only [if_true] at h1; obtain ⟨row, _, h1⟩ := ok_bind' h1; exact ⟨row, h1⟩
      | false => exact ⟨[], h1⟩
    injection h1 with h1
    injection h1 with h1 h1'
    subst h1
    obtain ⟨l1, l2⟩ := mapM_ok_map _ e2
    refine ⟨(ft, x.2, p) :: pts, ?_, ?_, ?_, ?_⟩
    · simp only [runPoints, e1]
      show ((runPoints dbg ws xs) >>= _) = _
      rw [i1]; rfl
    · exact l1.trans i2
    · intro i m hm
      obtain ⟨m1, a1, a2⟩ := l2 i m hm
      obtain ⟨m2, b1, b2⟩ := i3 i m1 a1
      refine ⟨m2, b1, ?_⟩
      show (m.addPoint ft x.2 p >>= _) = _
      rw [a2]; exact b2
    · rw [i4]
      cases o.predictionsFile <;> simp

end any

/-! ## C53 for the real learner -/

theorem sequential_fold {C : Type} {F : Type} [Flt F] (dbg : Bool) (o : TrainOpts) (q : Nat) (parse : C → ParseOut (Features F × Option (Label F)))
    (cs : List C) (w w' : TrainWorld F) (h : (trainPipe dbg o q parse).sequential cs w = (w', true)) :
    ∃ rs : List (Features F × Option (Label F)), cs.map parse = rs.map ParseOut.ok ∧ rs.foldlM (fun w r => processExample dbg o w r.1 r.2) w = .ok w' := by
  induction cs generalizing w with
  | nil =>
    simp only [Pipe.sequential, Prod.mk.injEq, and_true] at h
    subst h
    exact ⟨[], rfl, rfl⟩
  | cons c cs ih =>
    simp only [Pipe.sequential, trainPipe] at h
    cases hp : parse c with
    | ok r =>
      rw [hp] at h
      simp only at h
      cases hw : processExample dbg o w r.1 r.2 with
      | ok w1 =>
        rw [hw] at h
        obtain ⟨rs, h1, h2⟩ := ih w1 h
        refine ⟨r :: rs, by simp [hp, h1], ?_⟩
        rw [List.foldlM_cons, hw]
        exact h2
      | error e => rw [hw] at h; simp at h
    | err => rw [hp] at h; simp at h
    | panic => rw [hp] at h; simp at h

/-- Multi-threaded training, for any number of parser threads, queue size and schedule: when the learner has finished, every chunk was parsed
successfully, and the workspace, metrics, progress rows and predictions are those of processing the parsed chunks one after the other in file
order. -/
theorem C53_training {C : Type} {F : Type} [Flt F] {n : Nat} (dbg : Bool) (o : TrainOpts) (q : Nat)
    (parse : C → ParseOut (Features F × Option (Label F))) (cs : List C) (w0 : TrainWorld F)
    (s : PState C (Features F × Option (Label F)) (TrainWorld F) n) (h : Reach (trainPipe dbg o q parse) cs w0 s)
    (hf : s.learner = .finished) :
    ∃ rs : List (Features F × Option (Label F)), cs.map parse = rs.map ParseOut.ok ∧ rs.foldlM (fun w r => processExample dbg o w r.1 r.2) w0 = .ok s.world :=
  sequential_fold dbg o q parse cs w0 s.world (C53_same_as_sequential _ cs w0 s h hf)

/-! ## C57 -/

/-- The calls of `inc_iteration` follow one rule: call `j` reports exactly if the last reporting call `i` before it scheduled the next report
at or before `j`. Additive periods schedule `i + p`, multiplicative ones `(i as f32 * p) as u32`. -/
def Follows (next : Nat → Nat) (bs : List Bool) : Prop :=
  ∀ j b, bs[j]? = some b → (b = true ↔ ∀ i, i < j → bs[i]? = some true → (∀ m, i < m → m < j → bs[m]? = some false) → next i ≤ j)

/-- The schedule of a period. -/
def OutputPeriod.schedule : OutputPeriod → Nat → Nat
  | .additive p, i => i + p
  | .multiplicative scale, i => scale i

theorem run_succ (dbg : Bool) (k : Nat) (m : TrainManager) (bs : List Bool) (m' : TrainManager)
    (h : TrainManager.run dbg (k + 1) m = .ok (bs, m')) :
    ∃ b m1 bs', m.inc dbg = .ok (b, m1) ∧ TrainManager.run dbg k m1 = .ok (bs', m') ∧ bs = b :: bs' := by
  simp only [TrainManager.run] at h
  obtain ⟨⟨b, m1⟩, h1, h⟩ := ok_bind' h
  obtain ⟨⟨bs', m2⟩, h2, h⟩ := ok_bind' h
  injection h with h
  injection h with ha hb
  subst ha hb
  exact ⟨b, m1, bs', h1, h2, rfl⟩

theorem u32AddNat_ok {dbg : Bool} {a b : Nat} (h : a + b < 2 ^ 32) : u32AddNat dbg a b = .ok (a + b) := by
  unfold u32AddNat; rw [if_pos h]

theorem nextAfter_ok {dbg : Bool} (p : OutputPeriod) (i : Nat) (h : ∀ q, p = .additive q → i + q < 2 ^ 32) :
    p.nextAfter dbg i = .ok (p.schedule i) := by
  cases p with
  | additive q => exact u32AddNat_ok (h q rfl)
  | multiplicative s => rfl

/-- One call. -/
theorem inc_ok {dbg : Bool} (m : TrainManager) (h1 : m.iteration + 1 < 2 ^ 32) (h2 : ∀ q, m.period = .additive q → m.iteration + q < 2 ^ 32) :
    m.inc dbg = .ok (decide (m.next ≤ m.iteration),
      ⟨m.iteration + 1, if m.next ≤ m.iteration then m.period.schedule m.iteration else m.next, m.period⟩) := by
  unfold TrainManager.inc
  rw [nextAfter_ok m.period m.iteration h2, u32AddNat_ok h1]
  split
  · rename_i h; simp [h]; rfl
  · rename_i h; simp [h]; rfl

/-- The results of `k` calls starting at iteration `i` with the next report due at `n`. -/
def expected (next : Nat → Nat) : Nat → Nat → Nat → List Bool
  | 0, _, _ => []
  | k + 1, i, n => decide (n ≤ i) :: expected next k (i + 1) (if n ≤ i then next i else n)

theorem run_expected (dbg : Bool) (k : Nat) (m : TrainManager) (h1 : m.iteration + k < 2 ^ 32)
    (h2 : ∀ q, m.period = .additive q → m.iteration + k + q ≤ 2 ^ 32) :
    ∃ m', TrainManager.run dbg k m = .ok (expected m.period.schedule k m.iteration m.next, m') := by
  induction k generalizing m with
  | zero => exact ⟨m, rfl⟩
  | succ k ih =>
    have hi := inc_ok (dbg := dbg) m (by omega) (fun q hq => by have := h2 q hq; omega)
    obtain ⟨m', h'⟩ := ih ⟨m.iteration + 1, if m.next ≤ m.iteration then m.period.schedule m.iteration else m.next, m.period⟩
      (by simp only; omega) (fun q hq => by have := h2 q hq; simp only; omega)
    refine ⟨m', ?_⟩
    simp only [TrainManager.run, hi]
    show (TrainManager.run dbg k _ >>= _) = _
    rw [h']; rfl

theorem expected_length (next : Nat → Nat) (k i n : Nat) : (expected next k i n).length = k := by
  induction k generalizing i n with
  | zero => rfl
  | succ k ih => simp [expected, ih]

/-- Additive periods. -/
theorem expected_additive (p : Nat) (hp : 0 < p) (k i j : Nat) (h1 : i ≤ p * j) (h2 : p * j < i + p) (x : Nat) (hx : x < k) :
    (expected (fun i => i + p) k i (p * j))[x]? = some (decide (p ∣ i + x)) := by
  induction k generalizing i j x with
  | zero => omega
  | succ k ih =>
    have hdiv : decide (p * j ≤ i) = decide (p ∣ i) := by
      apply decide_eq_decide.mpr
      constructor
      · intro h
        have : i = p * j := by omega
        rw [this]; exact Nat.dvd_mul_right p j
      · rintro ⟨c, hc⟩
        subst hc
        have : j < c + 1 := by
          have : p * j < p * (c + 1) := by rw [Nat.mul_add]; omega
          exact Nat.lt_of_mul_lt_mul_left this
        exact Nat.mul_le_mul_left p (by omega)
    cases x with
    | zero => simp [expected, hdiv]
    | succ x =>
      simp only [expected, List.getElem?_cons_succ]
      have e : i + (x + 1) = i + 1 + x := by omega
      rw [e]
      by_cases h : p * j ≤ i
      · rw [if_pos h]
        have : i + p = p * (j + 1) := by rw [Nat.mul_add]; omega
        rw [this]
        exact ih (i + 1) (j + 1) (by rw [Nat.mul_add]; omega) (by rw [Nat.mul_add]; omega) x (by omega)
      · rw [if_neg h]
        exact ih (i + 1) j (by omega) (by omega) x (by omega)

/-- With an additive period `p ≥ 1`, the results are reported exactly at the iterations that are multiples of `p`, as long as the iteration
counter and the next report fit a `u32`. -/
theorem C57_additive (dbg : Bool) (p : Nat) (hp : 0 < p) (k : Nat) (hk : k + p ≤ 2 ^ 32) :
    ∃ m, TrainManager.run dbg k (TrainManager.new (.additive p)) = .ok ((List.range k).map (fun i => decide (p ∣ i)), m) := by
  obtain ⟨m, hm⟩ := run_expected dbg k (TrainManager.new (.additive p)) (by simp only [TrainManager.new]; omega)
    (fun q hq => by simp only [TrainManager.new] at hq ⊢; injection hq with hq; omega)
  refine ⟨m, ?_⟩
  rw [hm]
  congr 2
  apply List.ext_getElem?
  intro x
  simp only [TrainManager.new]
  by_cases hx : x < k
  · have := expected_additive p hp k 0 0 (by simp) (by simpa using hp) x hx
    simp only [Nat.mul_zero, Nat.zero_add] at this
    have e : OutputPeriod.schedule (.additive p) = fun i => i + p := rfl
    rw [e, this]
    simp [hx]
  · rw [List.getElem?_eq_none (by rw [expected_length]; omega), List.getElem?_eq_none (by simp; omega)]

/-- For every period, the reports follow the rule: they are determined by the schedule, starting with a report at the first example. -/
theorem expected_follows (next : Nat → Nat) (k : Nat) (i n : Nat) (x : Nat) (b : Bool) (h : (expected next k i n)[x]? = some b) :
    b = true ↔ ((∀ m, m < x → (expected next k i n)[m]? = some false) → n ≤ i + x) ∧
      ∀ y, y < x → (expected next k i n)[y]? = some true → (∀ m, y < m → m < x → (expected next k i n)[m]? = some false) →
        next (i + y) ≤ i + x := by
  induction k generalizing i n x with
  | zero => simp [expected] at h
  | succ k ih =>
    cases x with
    | zero =>
      simp only [expected, List.getElem?_cons_zero, Option.some.injEq] at h
      subst h
      simp
    | succ x =>
      simp only [expected, List.getElem?_cons_succ] at h
      rw [ih _ _ _ h]
      have e : ∀ z, i + 1 + z = i + (z + 1) := fun z => by omega
      simp only [e]
      by_cases hn : n ≤ i
      · rw [if_pos hn]
        constructor
        · rintro ⟨a1, a2⟩
          refine ⟨fun _ => by omega, fun y hy hy2 hy3 => ?_⟩
          cases y with
          | zero =>
            apply a1
            intro m hm
            have := hy3 (m + 1) (by omega) (by omega)
            simpa [expected, hn] using this
          | succ y =>
            apply a2 y (by omega)
            · simpa [expected, hn] using hy2
            · intro m hm hm2
              have := hy3 (m + 1) (by omega) (by omega)
              simpa [expected, hn] using this
        · rintro ⟨a1, a2⟩
          refine ⟨fun hall => ?_, fun y hy hy2 hy3 => ?_⟩
          · apply a2 0 (by omega)
            · simp [expected, hn]
            · intro m hm hm2
              obtain ⟨m, rfl⟩ := Nat.exists_eq_succ_of_ne_zero (by omega : m ≠ 0)
              simpa [expected, hn] using hall m (by omega)
          · apply a2 (y + 1) (by omega)
            · simpa [expected, hn] using hy2
            · intro m hm hm2
              obtain ⟨m, rfl⟩ := Nat.exists_eq_succ_of_ne_zero (by omega : m ≠ 0)
              simpa [expected, hn] using hy3 m (by omega) (by omega)
      · rw [if_neg hn]
        constructor
        · rintro ⟨a1, a2⟩
          refine ⟨fun hall => ?_, fun y hy hy2 hy3 => ?_⟩
          · apply a1
            intro m hm
            have := hall (m + 1) (by omega)
            simpa [expected, hn] using this
          · cases y with
            | zero => simp [expected, hn] at hy2
            | succ y =>
              apply a2 y (by omega)
              · simpa [expected, hn] using hy2
              · intro m hm hm2
                have := hy3 (m + 1) (by omega) (by omega)
                simpa [expected, hn] using this
        · rintro ⟨a1, a2⟩
          refine ⟨fun hall => ?_, fun y hy hy2 hy3 => ?_⟩
          · apply a1
            intro m hm
            cases m with
            | zero => simp [expected, hn]
            | succ m => simpa [expected, hn] using hall m (by omega)
          · apply a2 (y + 1) (by omega)
            · simpa [expected, hn] using hy2
            · intro m hm hm2
              obtain ⟨m, rfl⟩ := Nat.exists_eq_succ_of_ne_zero (by omega : m ≠ 0)
              simpa [expected, hn] using hy3 m (by omega) (by omega)

/-- For every period (any float), call `j` reports exactly if the last report `i` before it scheduled a time at or before `j`; in particular
the first example is reported. -/
theorem C57_rule (dbg : Bool) (p : OutputPeriod) (k : Nat) (hk : k < 2 ^ 32) (hp : ∀ q, p = .additive q → k + q ≤ 2 ^ 32) :
    ∃ bs m, TrainManager.run dbg k (TrainManager.new p) = .ok (bs, m) ∧ bs.length = k ∧ Follows p.schedule bs := by
  obtain ⟨m, hm⟩ := run_expected dbg k (TrainManager.new p) (by simp only [TrainManager.new]; omega)
    (fun q hq => by simp only [TrainManager.new] at hq ⊢; have := hp q hq; omega)
  refine ⟨_, m, hm, expected_length _ _ _ _, ?_⟩
  intro j b hb
  have := expected_follows _ k _ _ j b hb
  simp only [TrainManager.new, Nat.zero_add] at this ⊢
  rw [this]
  simp

/-- Multiplication by a whole number `b ≥ 2` (exact): the reports are at 0 and at the powers of `b`. -/
theorem expected_powers (b : Nat) (hb : 2 ≤ b) (k i e : Nat) (h0 : 0 < i) (h1 : i ≤ b ^ e) (h2 : ∀ e', e' < e → b ^ e' < i) (x : Nat)
    (hx : x < k) : ∃ v, (expected (fun i => b * i) k i (b ^ e))[x]? = some v ∧ (v = true ↔ ∃ c, i + x = b ^ c) := by
  induction k generalizing i e x with
  | zero => omega
  | succ k ih =>
    have hpow : b ^ e ≤ i ↔ ∃ c, i = b ^ c := by
      constructor
      · intro h; exact ⟨e, by omega⟩
      · rintro ⟨c, hc⟩
        have : ¬ c < e := fun h => by have := h2 c h; omega
        rw [hc]
        exact Nat.pow_le_pow_right (by omega) (by omega)
    cases x with
    | zero => exact ⟨_, rfl, by simp [hpow]⟩
    | succ x =>
      simp only [expected, List.getElem?_cons_succ]
      have e1 : i + (x + 1) = i + 1 + x := by omega
      rw [e1]
      by_cases h : b ^ e ≤ i
      · rw [if_pos h]
        have hi : i = b ^ e := by omega
        have e2 : b * i = b ^ (e + 1) := by rw [hi, Nat.pow_succ, Nat.mul_comm]
        rw [e2]
        apply ih (i + 1) (e + 1) (by omega)
        · rw [← e2]
          have : 2 * i ≤ b * i := Nat.mul_le_mul_right i hb
          omega
        · intro e' he
          have : b ^ e' ≤ b ^ e := Nat.pow_le_pow_right (by omega) (by omega)
          omega
        · omega
      · rw [if_neg h]
        apply ih (i + 1) e (by omega) (by omega)
        · intro e' he
          have := h2 e' he
          omega
        · omega

theorem C57_multiplicative (dbg : Bool) (b : Nat) (hb : 2 ≤ b) (k : Nat) (hk : k < 2 ^ 32) :
    ∃ bs m, TrainManager.run dbg k (TrainManager.new (.multiplicative (fun i => b * i))) = .ok (bs, m) ∧ bs.length = k ∧
      ∀ x, x < k → (bs[x]? = some true ↔ x = 0 ∨ ∃ c, x = b ^ c) := by
  obtain ⟨m, hm⟩ := run_expected dbg k (TrainManager.new (.multiplicative (fun i => b * i))) (by simp only [TrainManager.new]; omega)
    (fun q hq => by simp only [TrainManager.new] at hq; cases hq)
  refine ⟨_, m, hm, expected_length _ _ _ _, ?_⟩
  intro x hx
  have es : OutputPeriod.schedule (.multiplicative (fun i => b * i)) = fun i => b * i := rfl
  simp only [TrainManager.new, es]
  cases k with
  | zero => omega
  | succ k =>
    cases x with
    | zero => simp [expected]
    | succ x =>
      simp only [expected, List.getElem?_cons_succ, Nat.le_refl, if_true, Nat.mul_zero]
      cases k with
      | zero => omega
      | succ k =>
        cases x with
        | zero =>
          simp only [expected, List.getElem?_cons_zero, Nat.zero_le, decide_true, Nat.zero_add, true_iff]
          exact Or.inr ⟨0, by simp⟩
        | succ x =>
          simp only [expected, List.getElem?_cons_succ, Nat.zero_le, if_true, Nat.zero_add, Nat.mul_one]
          obtain ⟨v, hv, hv'⟩ := expected_powers b hb k 2 1 (by omega) (by simpa using hb)
            (fun e' he => by have : e' = 0 := by omega
                             subst this; simp) x (by omega)
          rw [Nat.pow_one] at hv
          rw [hv]
          have e2 : 2 + x = x + 1 + 1 := by omega
          rw [e2] at hv'
          simp only [Option.some.injEq, hv']
          constructor
          · intro h; exact Or.inr h
          · rintro (h | h)
            · omega
            · exact h

section examples
attribute [local instance] intFlt

/-- Two examples with errors 1 and 2. -/
example : Metric.feed [((.simple SparseFeatures.new : Features Int), .simple ⟨3, 1⟩, .scalar 2 2), (.simple SparseFeatures.new, .simple ⟨5, 1⟩, .scalar 3 3)]
    (.mse 0 0) = .ok (.mse 5 2) := rfl

/-- Period 2: reports at 0, 2, 4; doubling: reports at 0, 1, 2, 4. -/
example : ∃ m, TrainManager.run true 5 (.new (.additive 2)) = .ok ([true, false, true, false, true], m) := ⟨_, rfl⟩
example : ∃ m, TrainManager.run true 6 (.new (.multiplicative (fun i => 2 * i))) = .ok ([true, true, true, false, true, false], m) := ⟨_, rfl⟩

end examples

end Rml
