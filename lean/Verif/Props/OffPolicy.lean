import Verif.SpecLogged
import Verif.Lemmas.Play
import Verif.Props.Train
import Verif.Props.CbAdf
import Verif.Props.TrainSafe
import Verif.Props.Units
import Mathlib.Tactic.FieldSimp
import Mathlib.Tactic.Linarith
import Mathlib.Algebra.BigOperators.Ring.Finset

/-!
C90: off-policy estimates are unbiased.
-/

set_option linter.unusedSectionVars false

namespace Rml
open Cli
variable {K : Type} [Field K] [LinearOrder K] [Trans K]

attribute [local instance] fieldFlt

theorem LogEnv.expect_add (env : LogEnv K) (n : Nat) (h : List Nat) (x y : List Nat → K) :
    env.expect n h (fun h => x h + y h) = env.expect n h x + env.expect n h y := by
  induction n generalizing h with
  | zero => rfl
  | succ n ih =>
    simp only [LogEnv.expect, ih, mul_add, Finset.sum_add_distrib]

theorem LogEnv.possible_prefix {env : LogEnv K} {h : List Nat} {a : Nat} (hp : env.Possible (h ++ [a])) : env.Possible h ∧ a < (env h).actions := by
  refine ⟨fun i b hb => ?_, ?_⟩
  · have hi : i < h.length := (List.getElem?_eq_some_iff.1 hb).1
    have := hp i b (by rw [List.getElem?_append_left hi]; exact hb)
    rwa [List.take_append_of_le_length (by omega)] at this
  · have := hp h.length a (by simp)
    simpa using this

theorem LogEnv.possible_snoc {env : LogEnv K} {h : List Nat} {a : Nat} (hp : env.Possible h) (ha : a < (env h).actions) : env.Possible (h ++ [a]) := by
  intro i b hb
  by_cases hi : i < h.length
  · rw [List.getElem?_append_left hi] at hb
    rw [List.take_append_of_le_length (by omega)]
    exact hp i b hb
  · rw [List.getElem?_append_right (by omega)] at hb
    have : i - h.length = 0 := by
      have := (List.getElem?_eq_some_iff.1 hb).1
      simpa using this
    have e : i = h.length := by omega
    subst e
    simp at hb
    subst hb
    simpa using ha

/-- A quantity that is a martingale has its present value as expected value. -/
theorem LogEnv.expect_martingale (env : LogEnv K) (x : List Nat → K) (n : Nat) (h : List Nat) (hp : env.Possible h)
    (hm : ∀ g, env.Possible g → h.length ≤ g.length → g.length < h.length + n →
      ∑ a ∈ Finset.range (env g).actions, (env g).prob a * x (g ++ [a]) = x g) : env.expect n h x = x h := by
  induction n generalizing h with
  | zero => rfl
  | succ n ih =>
    rw [LogEnv.expect, ← hm h hp le_rfl (by omega)]
    refine Finset.sum_congr rfl fun a ha => ?_
    rw [ih (h ++ [a]) (LogEnv.possible_snoc hp (Finset.mem_range.1 ha))]
    intro g hg h1 h2
    simp only [List.length_append, List.length_singleton] at h1 h2
    exact hm g hg (by omega) (by omega)

theorem LogEnv.expect_congr (env : LogEnv K) (x y : List Nat → K) (n : Nat) (h : List Nat) (hp : env.Possible h)
    (he : ∀ g, env.Possible g → g.length = h.length + n → x g = y g) : env.expect n h x = env.expect n h y := by
  induction n generalizing h with
  | zero => exact he h hp rfl
  | succ n ih =>
    simp only [LogEnv.expect]
    refine Finset.sum_congr rfl fun a ha => ?_
    rw [ih (h ++ [a]) (LogEnv.possible_snoc hp (Finset.mem_range.1 ha))]
    intro g hg hl
    simp only [List.length_append, List.length_singleton] at hl
    exact he g hg (by omega)

theorem LogEnv.logged_snoc (env : LogEnv K) (h : List Nat) (a : Nat) :
    env.logged (h ++ [a]) = env.logged h ++ [((env h).feats, .cb ((env h).label a))] := by
  unfold LogEnv.logged
  rw [List.mapIdx_append]
  congr 1
  · refine List.mapIdx_eq_mapIdx_iff.2 fun i hi => ?_
    rw [List.take_append_of_le_length (by omega)]
  · simp

/-- Predictions do not depend on what comes later. -/
theorem plays_snoc {F : Type} [Flt F] {dbg : Bool} {w : Workspace F} {xs : List (Features F × Label F)} {ft : Features F} {l : Label F} {ps : List (Prediction F)}
    (h : Plays dbg w (xs ++ [(ft, l)]) ps) :
    ∃ ps' w' p ft', ps = ps' ++ [p] ∧ Plays dbg w xs ps' ∧ Learns dbg w xs w' ∧ w'.predict dbg ft = .ok (p, ft') := by
  induction xs generalizing w ps with
  | nil =>
    cases h with
    | cons h1 h2 h3 =>
      cases h3
      exact ⟨[], w, _, _, rfl, .nil, .nil, h1⟩
  | cons x xs ih =>
    cases h with
    | cons h1 h2 h3 =>
      obtain ⟨ps', w', p, ft', rfl, g1, g2, g3⟩ := ih h3
      exact ⟨_, w', p, ft', rfl, .cons h1 h2 g1, .cons h2 g2, g3⟩

theorem learns_unique {F : Type} [Flt F] {dbg : Bool} {w w1 w2 : Workspace F} {xs : List (Features F × Label F)} (h1 : Learns dbg w xs w1)
    (h2 : Learns dbg w xs w2) : w1 = w2 := by
  induction h1 with
  | nil => cases h2; rfl
  | cons a _ ih =>
    cases h2 with
    | cons b c =>
      rw [a] at b
      simp only [Except.ok.injEq, Prod.mk.injEq] at b
      obtain ⟨rfl, rfl⟩ := b
      exact ih c

theorem plays_unique {F : Type} [Flt F] {dbg : Bool} {w : Workspace F} {xs : List (Features F × Label F)} {ps ps' : List (Prediction F)} (h1 : Plays dbg w xs ps)
    (h2 : Plays dbg w xs ps') : ps = ps' := by
  induction h1 generalizing ps' with
  | nil => cases h2; rfl
  | cons a b _ ih =>
    cases h2 with
    | cons a' b' c =>
      rw [a] at a'
      rw [b] at b'
      simp only [Except.ok.injEq, Prod.mk.injEq] at a' b'
      obtain ⟨rfl, rfl⟩ := a'
      obtain ⟨rfl, rfl⟩ := b'
      rw [ih c]

theorem lookup_find (probs : List (Nat × K)) (a : Nat) (q : Nat × K) (h : probs.find? (fun x => x.1 == a) = some q) : probs.lookup a = some q.2 := by
  induction probs with
  | nil => simp at h
  | cons x l ih =>
    rw [List.lookup_cons]
    by_cases e : x.1 = a
    · subst e
      simp at h
      subst h
      simp
    · have e1 : (a == x.1) = false := by simpa using fun h => e h.symm
      have e2 : (x.1 == a) = false := by simpa using e
      simp only [List.find?, e2] at h
      rw [e1]
      exact ih h

/-- One more point of the ips metric. -/
theorem ips_point {m : Metric K} {c : Nat} {v : K} {ft : Features K} {l : CBLabel K} {p : Prediction K}
    (h : Metric.addPoint (.ips c v) ft (.cb l) p = .ok m) :
    ∃ probs q, p = .actionProbs probs ∧ probs.lookup l.action = some q ∧ m = .ips (c + 1) (v + (-l.cost) * (q / l.probability)) := by
  cases p with
  | actionProbs probs =>
    unfold Metric.addPoint at h
    simp only [Label.asCb, Prediction.asProbs, bind, Except.bind] at h
    cases hf : probs.find? (fun x => x.1 == l.action) with
    | none => rw [hf] at h; simp [unwrapOpt] at h
    | some q =>
      rw [hf] at h
      simp only [unwrapOpt, Except.ok.injEq] at h
      refine ⟨probs, q.2, rfl, lookup_find probs _ _ hf, ?_⟩
      rw [← h]
      simp
  | _ => simp [Metric.addPoint, Label.asCb, Prediction.asProbs, bind, Except.bind] at h

/-- The points of a run: each logged example with the prediction that was made for it. -/
def LogEnv.points (env : LogEnv K) (h : List Nat) (ps : List (Prediction K)) : List (Features K × Label K × Prediction K) :=
  List.zipWith (fun x p => (x.1, x.2, p)) (env.logged h) ps

/-- C90. A model is evaluated while it is trained (each example is first predicted, then learned) on data that was logged by a policy that explores, with
the logged probabilities being those of that policy. Then the expected value of the ips metric is the expected value of the average reward of the model's
own policies. -/
theorem C90_metric (dbg : Bool) (w : Workspace K) (env : LogEnv K) (T : Nat) (hexp : ∀ h, env.Possible h → (env h).Explores)
    (ps : List Nat → List (Prediction K)) (hps : ∀ h, env.Possible h → h.length ≤ T → Plays dbg w (env.logged h) (ps h))
    (m0 : Metric K) (hm0 : getMetric "ips".toList = some m0) (m : List Nat → Metric K)
    (hm : ∀ h, env.Possible h → h.length ≤ T → Metric.feed (env.points h (ps h)) m0 = .ok (m h))
    (value : List Nat → K) (hv : ∀ h, env.Possible h → h.length = T → (m h).getValue dbg = .ok (.float (value h))) :
    env.expect T [] value = env.expect T [] (fun h => env.averageReward h (ps h)) := by
  have e0 : m0 = .ips 0 0 := by
    simp only [getMetric] at hm0
    simpa using hm0.symm
  subst e0
  -- the sums
  let S : List Nat → K := fun h => match m h with | .ips _ v => v | _ => 0
  let U : List Nat → K := fun h => ((ps h).mapIdx fun i p => (env (h.take i)).reward p).sum
  have hlen : ∀ h, env.Possible h → h.length ≤ T → (ps h).length = h.length := by
    intro h hp hl
    have := (hps h hp hl).length
    simp [LogEnv.logged] at this
    omega
  have hstep : ∀ h a c v, env.Possible (h ++ [a]) → (h ++ [a]).length ≤ T → m h = .ips c v → ∃ probs q w' ft',
      ps (h ++ [a]) = ps h ++ [.actionProbs probs] ∧
      Learns dbg w (env.logged h) w' ∧ w'.predict dbg (env h).feats = .ok (.actionProbs probs, ft') ∧ probs.lookup a = some q ∧
      m (h ++ [a]) = .ips (c + 1) (v + (-(env h).cost a) * (q / (env h).prob a)) := by
    intro h a c v hp hl hc
    obtain ⟨hph, _⟩ := LogEnv.possible_prefix hp
    have hl' : h.length ≤ T := by simp at hl; omega
    have h1 := hps _ hp hl
    rw [LogEnv.logged_snoc] at h1
    obtain ⟨ps', w', p, ft', e1, g1, g2, g3⟩ := plays_snoc h1
    obtain rfl := plays_unique g1 (hps h hph hl')
    have h2 := hm _ hp hl
    have e2 : env.points (h ++ [a]) (ps h ++ [p]) = env.points h (ps h) ++ [((env h).feats, .cb ((env h).label a), p)] := by
      unfold LogEnv.points
      rw [LogEnv.logged_snoc, List.zipWith_append (by simp [LogEnv.logged, hlen h hph hl'])]
      rfl
    rw [e1, e2] at h2
    unfold Metric.feed at h2
    rw [List.foldlM_append] at h2
    have h3 := hm h hph hl'
    unfold Metric.feed at h3
    rw [h3] at h2
    have h4 : Metric.addPoint (m h) (env h).feats (.cb ((env h).label a)) p = .ok (m (h ++ [a])) := by
      simp only [List.foldlM_cons, List.foldlM_nil, bind, Except.bind] at h2
      cases hq : Metric.addPoint (m h) (env h).feats (.cb ((env h).label a)) p with
      | error e => rw [hq] at h2; cases h2
      | ok x => rw [hq] at h2; exact h2
    rw [hc] at h4
    obtain ⟨probs, q, rfl, h5, h6⟩ := ips_point h4
    exact ⟨probs, q, w', ft', e1, g2, g3, h5, h6⟩
  have hform : ∀ h, env.Possible h → h.length ≤ T → m h = .ips h.length (S h) := by
    intro h
    induction h using List.reverseRecOn with
    | nil =>
      intro hp hl
      have h1 := hm [] hp hl
      have h2 : env.points [] (ps []) = [] := rfl
      rw [h2] at h1
      have h3 : m [] = .ips 0 0 := by
        have : (Except.ok (.ips 0 0) : M (Metric K)) = .ok (m []) := h1
        injection this with h; exact h.symm
      show m [] = .ips 0 (match m [] with | .ips _ v => v | _ => 0)
      rw [h3]
    | append_singleton h a ih =>
      intro hp hl
      obtain ⟨hph, _⟩ := LogEnv.possible_prefix hp
      have hl' : h.length ≤ T := by simp at hl; omega
      obtain ⟨probs, q, w', ft', _, _, _, _, h6⟩ := hstep h a _ _ hp hl (ih hph hl')
      show m (h ++ [a]) = .ips (h ++ [a]).length (match m (h ++ [a]) with | .ips _ v => v | _ => 0)
      rw [h6]
      simp
  have hS : ∀ h c v, m h = .ips c v → S h = v := by
    intro h c v e
    show (match m h with | .ips _ v => v | _ => 0) = v
    rw [e]
  have hp0 : env.Possible [] := fun i a ha => by simp at ha
  have hmart : env.expect T [] (fun h => S h - U h) = S [] - U [] := by
    refine LogEnv.expect_martingale env _ T [] hp0 fun g hg _ hlt => ?_
    have hlt : g.length < T := by simpa using hlt
    obtain ⟨hpos, hsum⟩ := hexp g hg
    have hn : 0 < (env g).actions := by
      rcases Nat.eq_zero_or_pos (env g).actions with h | h
      · rw [h] at hsum; simp at hsum
      · exact h
    have hmg := hform g hg (by omega)
    obtain ⟨probs, _, w0, ft0, _, l0, pr0, _, _⟩ := hstep g 0 _ _ (LogEnv.possible_snoc hg hn) (by simp; omega) hmg
    have hx : ∀ a ∈ Finset.range (env g).actions, (env g).prob a * (S (g ++ [a]) - U (g ++ [a])) =
        (env g).prob a * (S g - U g - (env g).reward (.actionProbs probs)) + (probs.lookup a).getD 0 * -((env g).cost a) := by
      intro a ha
      have ha := Finset.mem_range.1 ha
      obtain ⟨probs', q, w', ft', e1, l1, pr1, e2, e3⟩ := hstep g a _ _ (LogEnv.possible_snoc hg ha) (by simp; omega) hmg
      obtain rfl := learns_unique l0 l1
      rw [pr0] at pr1
      simp only [Except.ok.injEq, Prod.mk.injEq, Prediction.actionProbs.injEq] at pr1
      obtain ⟨rfl, _⟩ := pr1
      have hU : U (g ++ [a]) = U g + (env g).reward (.actionProbs probs) := by
        show ((ps (g ++ [a])).mapIdx fun i p => (env ((g ++ [a]).take i)).reward p).sum = ((ps g).mapIdx fun i p => (env (g.take i)).reward p).sum + _
        rw [e1, List.mapIdx_append, List.sum_append]
        have hl := hlen g hg (by omega)
        congr 1
        · congr 1
          refine List.mapIdx_eq_mapIdx_iff.2 fun i hi => ?_
          rw [List.take_append_of_le_length (by omega)]
        · simp [hl]
      rw [hS _ _ _ e3, hU, e2]
      have := (hpos a ha).ne'
      simp only [Option.getD_some]
      field_simp
      ring
    rw [Finset.sum_congr rfl hx, Finset.sum_add_distrib, ← Finset.sum_mul, hsum]
    show 1 * (S g - U g - ∑ a ∈ Finset.range (env g).actions, (probs.lookup a).getD 0 * -((env g).cost a)) + _ = _
    ring
  have h00 : S [] - U [] = 0 := by
    have h1 := hm [] hp0 (by simp)
    have h3 : m [] = .ips 0 0 := by
      have : (Except.ok (.ips 0 0) : M (Metric K)) = .ok (m []) := h1
      injection this with h; exact h.symm
    have h4 : ps [] = [] := List.length_eq_zero_iff.1 (by simpa using hlen [] hp0 (by simp))
    rw [hS _ _ _ h3]
    show (0 : K) - ((ps []).mapIdx fun i p => (env (([] : List Nat).take i)).reward p).sum = 0
    rw [h4]
    simp
  rw [h00] at hmart
  have hlin : ∀ (x : List Nat → K) (k : K) (n : Nat) (h : List Nat), env.expect n h (fun h => k * x h) = k * env.expect n h x := by
    intro x k n
    induction n with
    | zero => intro h; rfl
    | succ n ih =>
      intro h
      simp only [LogEnv.expect, ih, Finset.mul_sum]
      exact Finset.sum_congr rfl fun a _ => by ring
  have hvS : env.expect T [] value = env.expect T [] (fun h => (T : K)⁻¹ * S h) := by
    refine LogEnv.expect_congr env _ _ T [] hp0 fun g hg hl => ?_
    have hl : g.length = T := by simpa using hl
    have h1 := hv g hg hl
    rw [hform g hg (by omega)] at h1
    simp only [Metric.getValue, Except.ok.injEq, MetricValue.float.injEq] at h1
    rw [← h1, hl]
    show S g / (T : K) = _
    rw [div_eq_inv_mul]
  have hvU : env.expect T [] (fun h => env.averageReward h (ps h)) = env.expect T [] (fun h => (T : K)⁻¹ * U h) := by
    refine LogEnv.expect_congr env _ _ T [] hp0 fun g hg hl => ?_
    have hl : g.length = T := by simpa using hl
    show U g / ((ps g).length : K) = _
    rw [hlen g hg (by omega), hl, div_eq_inv_mul]
  have hSU : env.expect T [] S = env.expect T [] U := by
    have h1 := LogEnv.expect_add env T [] (fun h => S h - U h) U
    simp only [sub_add_cancel] at h1
    rw [h1, hmart, zero_add]
  rw [hvS, hvU, hlin, hlin, hSU]

theorem signedZero_field (K : Type) [Field K] [LinearOrder K] [IsStrictOrderedRing K] [Trans K] : @SignedZero K (fieldFlt K) := by
  let _ : Flt K := fieldFlt K
  refine ⟨by simp, by simp [Flt.isNaN], ?_, ?_, ?_, ?_, ?_, ?_⟩
  all_goals (intros; simp_all [Flt.Plain, Flt.isNaN])

theorem plays_append {F : Type} [Flt F] {dbg : Bool} {w w' w1 : Workspace F} {xs : List (Features F × Label F)} {ft ft0 ft1 : Features F} {l : Label F}
    {ps : List (Prediction F)} {p : Prediction F} (h : Plays dbg w xs ps) (hl : Learns dbg w xs w') (h1 : w'.predict dbg ft = .ok (p, ft0))
    (h2 : w'.learn dbg ft l = .ok (w1, ft1)) : Plays dbg w (xs ++ [(ft, l)]) (ps ++ [p]) ∧ Learns dbg w (xs ++ [(ft, l)]) w1 := by
  induction h with
  | nil => cases hl; exact ⟨.cons h1 h2 .nil, .cons h2 .nil⟩
  | cons a b _ ih =>
    cases hl with
    | cons b' hl =>
      rw [b] at b'
      simp only [Except.ok.injEq, Prod.mk.injEq] at b'
      obtain ⟨rfl, rfl⟩ := b'
      obtain ⟨i1, i2⟩ := ih hl
      exact ⟨.cons a b i1, .cons b i2⟩

theorem Built.probsTypes {F : Type} [Flt F] {hash : HashFn} {g : GlobalConfig} {nma : Nat} {c : RedConfig F} {x : (r : Red F) × r.State}
    (hb : Built hash g nma c x) (h : x.1.meta.types.outPrediction = .actionProbs) (he : x.1.NoElementwise) :
    x.1.meta.types.inFeatures = .sparseCBAdf := by
  induction hb with
  | coin _ => exact absurd h (by simp [Red.meta, coinTypes])
  | binary _ _ _ => exact absurd h (by simp [Red.meta, binaryTypes])
  | cbAdf _ _ _ => rfl
  | greedy _ _ _ => rfl
  | softmax _ _ _ => rfl
  | squareCb _ _ _ _ => rfl
  | debug _ _ ih => exact ih h he
  | elementwise _ _ _ => exact he.elim

/-- The event of a round suits the model: it has the actions of the round, is well-formed, its indices are small, and every outcome can be learned. -/
structure LogRound.Suits (dbg : Bool) (bits : Nat) (mode : Option CBType) (r : LogRound K) : Prop where
  event : ∃ f : CBAdfFeatures K, r.feats = .cbAdf f ∧ f.actions.length = r.actions
  formed : r.feats.Formed
  fit : ∀ f ∈ r.feats.objects, ∀ e ∈ f.entries, ∀ i ∈ e.2.idx.data, i.toNat < 2 ^ bits
  trainable : ∀ a < r.actions, Trainable dbg mode (r.feats, .cb (r.label a))

/-- C90 for a model that was just made, without ElementwiseInteraction and without uniform epsilon in Softmax or SquareCB: training succeeds for every
choice of the logging policy, and the expected value of the ips metric is the expected average reward of the model's policies. -/
theorem C90_total [IsStrictOrderedRing K] (dbg : Bool) (hash : HashFn) (g : GlobalConfig) (c : RedConfig K) (w : Workspace K)
    (hw : Workspace.new hash g c = .ok w) (he : w.red.NoElementwise) (hu : w.red.NoUniform) (hout : w.red.meta.types.outPrediction = .actionProbs)
    (env : LogEnv K) (T : Nat) (hexp : ∀ h, env.Possible h → (env h).Explores)
    (hfit : ∀ h, env.Possible h → (env h).Suits dbg g.numBits w.red.cbMode) (m0 : Metric K) (hm0 : getMetric "ips".toList = some m0) :
    ∃ (ps : List Nat → List (Prediction K)) (m : List Nat → Metric K) (value : List Nat → K),
      (∀ h, env.Possible h → Plays dbg w (env.logged h) (ps h) ∧ Metric.feed (env.points h (ps h)) m0 = .ok (m h) ∧
        (m h).getValue dbg = .ok (.float (value h))) ∧
      env.expect T [] value = env.expect T [] (fun h => env.averageReward h (ps h)) := by
  have e0 : m0 = .ips 0 0 := by
    simp only [getMetric] at hm0
    simpa using hm0.symm
  subst e0
  have _ : LawfulCmp K := lawfulCmp_field K
  have _ : SignedZero K := signedZero_field K
  have hb := built_of_new hw
  have hin := hb.probsTypes hout he
  have hlab := hb.cbTypes.1 hin
  have key : ∀ h, env.Possible h → ∃ ps w' c v, Plays dbg w (env.logged h) ps ∧ Learns dbg w (env.logged h) w' ∧ Alive g w' ∧ w'.red = w.red ∧
      Metric.feed (env.points h ps) (.ips 0 0) = .ok (.ips c v) := by
    intro h
    induction h using List.reverseRecOn with
    | nil => intro _; exact ⟨[], w, 0, 0, .nil, .nil, alive_new hw, rfl, rfl⟩
    | append_singleton h a ih =>
      intro hp
      obtain ⟨hph, ha⟩ := LogEnv.possible_prefix hp
      obtain ⟨ps, w', c, v, h1, h2, h3, h4, h5⟩ := ih hph
      obtain ⟨f, hf, hn⟩ := (hfit h hph).event
      have hft : Fitting g.numBits w'.red.meta.types.inFeatures w'.red.meta.types.inLabel ((env h).feats, some (.cb ((env h).label a))) := by
        refine ⟨(hfit h hph).fit, ?_, ?_⟩
        · rw [h4]
          show (env h).feats.ty = _
          rw [hf]
          exact hin.symm
        · rintro l hl
          simp only [Option.some.injEq] at hl
          subst hl
          rw [h4]
          exact hlab.symm
      obtain ⟨p, w1, ft1, g1, g2, g3, _, g5, g6⟩ := alive_plays (dbg := dbg) (fun _ => by simp) h3 (by rw [h4]; exact he) (by rw [h4]; exact hu)
        (ex := ((env h).feats, .cb ((env h).label a))) (hfit h hph).formed hft (by rw [h4]; exact (hfit h hph).trainable a ha)
        (fun _ => by
          intro hnil
          simp only [hf, Features.actionList] at hnil
          rw [← hn, hnil] at ha
          exact absurd ha (by simp))
      have hpairs : w'.red.PairsOk := by rw [h4]; exact hb.pairsOk
      have hok : Ready dbg (env h).feats := ready_of (hfit h hph).formed ((hfit h hph).trainable a ha).valid
      obtain ⟨ft2, k1⟩ := ptl_predicts hpairs hok.plain g1
      obtain ⟨ft3, k2⟩ := ptl_learns hpairs hok.plain g1
      rw [h4, hout] at g5
      cases p with
      | actionProbs probs =>
        obtain ⟨j1, j2⟩ := plays_append h1 h2 k1 k2
        have hmem : ∃ q, probOf probs a = some q := by
          have : a ∈ probs.map (·.1) := by rw [g6 f probs hf rfl, List.mem_range, hn]; exact ha
          cases hq : probOf probs a with
          | some q => exact ⟨q, rfl⟩
          | none =>
            unfold probOf at hq
            rw [List.lookup_eq_none_iff] at hq
            obtain ⟨y, hy, rfl⟩ := List.mem_map.1 this
            exact absurd (hq y hy) (by simp)
        obtain ⟨q, hq⟩ := hmem
        have hadd : Metric.addPoint (.ips c v) (env h).feats (.cb ((env h).label a)) (.actionProbs probs) =
            .ok (.ips (c + 1) (v + (-1 * (env h).cost a) * (q / (env h).prob a))) := by
          show (unwrapOpt (probs.find? (fun y => y.1 == a)) >>= _) = _
          rw [find_lookup _ _ _ hq]
          show Except.ok _ = Except.ok _
          simp [LogRound.label]
        refine ⟨ps ++ [.actionProbs probs], w1, c + 1, v + (-1 * (env h).cost a) * (q / (env h).prob a), ?_, ?_, g3, g2.trans h4, ?_⟩
        · rw [LogEnv.logged_snoc]; exact j1
        · rw [LogEnv.logged_snoc]; exact j2
        · unfold LogEnv.points
          rw [LogEnv.logged_snoc, List.zipWith_append h1.length.symm]
          unfold Metric.feed
          rw [List.foldlM_append]
          unfold Metric.feed LogEnv.points at h5
          rw [h5]
          show (Metric.addPoint (.ips c v) (env h).feats (.cb ((env h).label a)) (.actionProbs probs) >>= fun m => pure m) = _
          rw [hadd]
          rfl
      | _ => simp [Prediction.ty] at g5
  classical
  let ps : List Nat → List (Prediction K) := fun h => if hp : env.Possible h then (key h hp).choose else []
  have hps : ∀ h, env.Possible h → ∃ c v, Plays dbg w (env.logged h) (ps h) ∧ Metric.feed (env.points h (ps h)) (.ips 0 0) = .ok (.ips c v) := by
    intro h hp
    have : ps h = (key h hp).choose := by simp [ps, hp]
    rw [this]
    obtain ⟨w', c, v, h1, _, _, _, h5⟩ := (key h hp).choose_spec
    exact ⟨c, v, h1, h5⟩
  choose! cc vv h1 h2 using hps
  have hval : ∀ h, env.Possible h → (Metric.ips (cc h) (vv h) : Metric K).getValue dbg = .ok (.float (vv h / (cc h : K))) := by
    intro h _
    simp [Metric.getValue]
  refine ⟨ps, fun h => .ips (cc h) (vv h), fun h => vv h / (cc h : K), fun h hp => ⟨h1 h hp, h2 h hp, hval h hp⟩, ?_⟩
  exact C90_metric dbg w env T hexp ps (fun h hp _ => h1 h hp) (.ips 0 0) hm0 _ (fun h hp _ => h2 h hp) _ (fun h hp _ => hval h hp)

/-- C90 for ips mode: the regressor learns, for each action, a target whose expected value is the cost of that action. Here `target a i` is what it
learns for action `i` if the logging policy chooses action `a`. -/
theorem C90_ips (dbg : Bool) {m : Meta} {r : Red K} (mt : MtrState) (s : r.State) (hw : Workspace.FromConfig ⟨.cbAdf m .ips r, (mt, s)⟩)
    (f : CBAdfFeatures K) (hf : (Features.cbAdf f).Valid) (n : Nat) (cost prob : Nat → K)
    (hexp : LogRound.Explores ⟨.cbAdf f, n, cost, prob⟩) :
    ∃ target : Nat → Nat → K,
      (∀ a < n, ∀ w' ft', Workspace.learn dbg ⟨.cbAdf m .ips r, (mt, s)⟩ (.cbAdf f) (.cb ⟨a, cost a, prob a⟩) = .ok (w', ft') →
        ∃ s', w' = ⟨.cbAdf m .ips r, (mt, s')⟩ ∧
          ∀ xs : List (SparseFeatures K), List.Forall₂ (fun x a => x.MergeOf a f.shared) xs f.actions →
            learnAll dbg ⟨r, s⟩ (xs.mapIdx (fun i x => (.simple x, .simple ⟨target a i, 1⟩))) = .ok ⟨r, s'⟩) ∧
      ∀ i < n, ∑ a ∈ Finset.range n, prob a * target a i = cost i := by
  refine ⟨fun a i => if i = a then cost a / prob a else 0, fun a _ w' ft' h => ?_, fun i hi => ?_⟩
  · obtain ⟨s', h1, _, h3⟩ := C31_ips dbg mt s hw f hf ⟨a, cost a, prob a⟩ h
    exact ⟨s', h1, h3⟩
  · rw [Finset.sum_eq_single i]
    · have := (hexp.1 i hi).ne'
      simp only [if_true] at *
      field_simp
    · intro a _ ha
      simp [Ne.symm ha]
    · intro h
      exact absurd (Finset.mem_range.2 hi) h

/-- C90 for mtr mode: the importance weights make up for the logging policy. If `loss a` is any quantity that depends on the action, then the expected
value of the weighted quantity is the same multiple of the sum over all actions, whatever the logging policy is; the multiple is the number of events
divided by the number of actions of all events. Here `weight a` is the weight with which the regressor learns the cost of action `a`, if that is chosen. -/
theorem C90_mtr (dbg : Bool) {m : Meta} {r : Red K} (mt : MtrState) (s : r.State) (hw : Workspace.FromConfig ⟨.cbAdf m .mtr r, (mt, s)⟩)
    (f : CBAdfFeatures K) (hf : (Features.cbAdf f).Valid) (n : Nat) (cost prob : Nat → K)
    (hexp : LogRound.Explores ⟨.cbAdf f, n, cost, prob⟩) :
    ∃ weight : Nat → K,
      (∀ a < n, ∀ w' ft', Workspace.learn dbg ⟨.cbAdf m .mtr r, (mt, s)⟩ (.cbAdf f) (.cb ⟨a, cost a, prob a⟩) = .ok (w', ft') →
        ∃ sh x s', f.shared = some sh ∧ f.actions[a]? = some x ∧
          w' = ⟨.cbAdf m .mtr r, (⟨mt.actionSum + f.actions.length, mt.eventSum + 1⟩, s')⟩ ∧
          ∀ y : SparseFeatures K, y.MergeOf sh (some x) → ∃ z, Workspace.learn dbg ⟨r, s⟩ (.simple y) (.simple ⟨cost a, weight a⟩) = .ok (⟨r, s'⟩, z)) ∧
      ∀ loss : Nat → K, ∑ a ∈ Finset.range n, prob a * (weight a * loss a) =
        ((mt.eventSum + 1 : Nat) : K) / ((mt.actionSum + f.actions.length : Nat) : K) * ∑ a ∈ Finset.range n, loss a := by
  refine ⟨fun a => 1 / prob a * (((mt.eventSum + 1 : Nat) : K) / ((mt.actionSum + f.actions.length : Nat) : K)), fun a _ w' ft' h => ?_, fun loss => ?_⟩
  · obtain ⟨sh, x, s', h1, h2, h3, _, h5⟩ := C31_mtr dbg mt s hw f hf ⟨a, cost a, prob a⟩ h
    exact ⟨sh, x, s', h1, h2, h3, h5⟩
  · rw [Finset.mul_sum]
    refine Finset.sum_congr rfl fun a ha => ?_
    have := (hexp.1 a (Finset.mem_range.1 ha)).ne'
    simp only at this
    rw [← mul_assoc, ← mul_assoc, mul_one_div_cancel this, one_mul]

section examples

/-- Exact arithmetic on the rationals, for the examples. -/
local instance transRatLogged : Trans ℚ where
  exp := id
  ln := id
  powf := fun a _ => a
  sqrt := id

/-- Two actions; the first is chosen with probability 1/4. Costs change after the first action was chosen twice. -/
def coinTossEnv : LogEnv ℚ := fun h =>
  ⟨.cbAdf ⟨some (ratFeat 1#32 1), [ratFeat 0#32 1, ratFeat 3#32 2]⟩, 2, fun a => if h.count 0 < 2 then (a : ℚ) else 5 - a, fun a => if a = 0 then 1 / 4 else 3 / 4⟩

open SparseFeatures in
theorem ratFeat_wf (i : U32) (v : ℚ) : (ratFeat i v).WF ∧ (ratFeat i v).NoComposite := by
  refine ⟨⟨⟨by simp [ratFeat, modifyOrCreate, setNamespace, SparseFeatures.insert, SparseFeatures.new, Sorted], ?_, ?_⟩, ?_⟩, ?_⟩
  · simp [ratFeat, modifyOrCreate, setNamespace, SparseFeatures.insert, SparseFeatures.new, getOrCreate, lookup, NsFeats.addFeature, RVec.push, NsFeats.new,
      RVec.new]
  · simp [ratFeat, modifyOrCreate, setNamespace, SparseFeatures.insert, SparseFeatures.new, getOrCreate, lookup, NsFeats.addFeature, NsFeats.new]
  · intro ns
    by_cases h : Namespace.default = ns <;>
      simp [ratFeat, modifyOrCreate, setNamespace, SparseFeatures.insert, SparseFeatures.new, getOrCreate, lookup, NsFeats.addFeature, vw, h]
  · intro h; rfl

theorem coinToss_explores (h : List Nat) : (coinTossEnv h).Explores := by
  refine ⟨fun a _ => ?_, ?_⟩
  · show (0 : ℚ) < if a = 0 then 1 / 4 else 3 / 4
    split <;> norm_num
  · show ∑ a ∈ Finset.range 2, (if a = 0 then (1 : ℚ) / 4 else 3 / 4) = 1
    norm_num [Finset.sum_range_succ]

theorem coinToss_suits (h : List Nat) : (coinTossEnv h).Suits false 2 (some .ips) := by
  refine ⟨⟨_, rfl, rfl⟩, ?_, ?_, fun a _ => ⟨(fun h => nomatch h), (fun h => nomatch h), (fun h => nomatch h), (fun h => nomatch h)⟩⟩
  · refine ⟨fun s hs => ?_, fun s hs => ?_⟩
    · cases hs; exact ratFeat_wf _ _
    · simp only [List.mem_cons, List.not_mem_nil, or_false] at hs
      rcases hs with rfl | rfl <;> exact ratFeat_wf _ _
  · intro f hf e he i hi
    have hf : f ∈ [ratFeat 1#32 1, ratFeat 0#32 1, ratFeat 3#32 2] := hf
    simp only [List.mem_cons, List.not_mem_nil, or_false] at hf
    rcases hf with rfl | rfl | rfl
    all_goals
      simp [ratFeat, SparseFeatures.modifyOrCreate, SparseFeatures.setNamespace, SparseFeatures.insert, SparseFeatures.new, SparseFeatures.getOrCreate,
        SparseFeatures.lookup, NsFeats.addFeature, RVec.push, NsFeats.new, RVec.new] at he
      subst he
      simp at hi
      subst hi
      decide

/-- Epsilon-greedy over CbAdf (ips) over Coin, ten rounds. -/
example : ∃ w, Workspace.new tinyHash tinyGlobal (.greedy (1 / 5) (.cbAdf .ips (.coin CoinConfig.dflt)) : RedConfig ℚ) = .ok w ∧
    ∃ (ps : List Nat → List (Prediction ℚ)) (value : List Nat → ℚ), coinTossEnv.expect 10 [] value =
      coinTossEnv.expect 10 [] (fun h => coinTossEnv.averageReward h (ps h)) := by
  refine ⟨_, rfl, ?_⟩
  obtain ⟨ps, m, value, _, h⟩ := C90_total false tinyHash tinyGlobal (.greedy (1 / 5) (.cbAdf .ips (.coin CoinConfig.dflt)) : RedConfig ℚ) _ rfl
    trivial trivial rfl coinTossEnv 10 (fun h _ => coinToss_explores h) (fun h _ => coinToss_suits h) _ rfl
  exact ⟨ps, value, h⟩

end examples

end Rml
