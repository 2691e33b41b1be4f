import Verif.Lemmas.Play
import Verif.Props.Train

/-! Lemmas for C78: the progress table. -/

namespace Rml
open Text SparseFeatures
set_option linter.unusedSectionVars false
variable {F : Type} [Flt F]

theorem contents_le {act : Namespace → Bool} {f g : SparseFeatures F} (h : LeAt act g f) : g.contents = f.contents := by
  apply eq_of_sorted_mem (fun e => e.1.rank) (contents_sorted h.left) (contents_sorted h.right)
  intro e
  rw [mem_contents h.left, mem_contents h.right]
  rcases h.view e.1 with e1 | ⟨_, e1, e2⟩
  · rw [e1]
  · rw [e1, e2]; simp [noView]

theorem allFeatures_le {act : Namespace → Bool} {f g : SparseFeatures F} (h : LeAt act g f) : g.allFeatures = f.allFeatures := by
  rw [allFeatures_contents, allFeatures_contents, contents_le h]

theorem countAll_le {f g : CBAdfFeatures F} (h : CbLe g f) : (Features.cbAdf g).countAll = (Features.cbAdf f).countAll := by
  have h1 : (match g.shared with | some s => s.allFeatures.length | none => 0) = match f.shared with | some s => s.allFeatures.length | none => 0 := by
    have := h.shared
    generalize f.shared = a at this ⊢
    generalize g.shared = b at this ⊢
    cases this with
    | none => rfl
    | some h => exact congrArg List.length (allFeatures_le h)
  have h2 : g.actions.map (fun a => a.allFeatures.length) = f.actions.map (fun a => a.allFeatures.length) := by
    have := h.actions
    generalize f.actions = a at this ⊢
    generalize g.actions = b at this ⊢
    induction this with
    | nil => rfl
    | cons h _ ih => rw [List.map_cons, List.map_cons, ih, allFeatures_le h]
  exact congrArg₂ (· + ·) h1 (congrArg List.sum h2)

/-- `predict_then_learn` leaves the number of features as it is. -/
theorem ptl_count {dbg : Bool} {w w' : Workspace F} (hp : w.red.PairsOk) {ft ft' : Features F} (hok : PlainEx ft) {l : Label F} {p : Prediction F}
    (h : w.predictThenLearn dbg ft l = .ok (p, w', ft')) : ft'.countAll = ft.countAll := by
  unfold Workspace.predictThenLearn at h
  obtain ⟨⟨⟨p0, s0⟩, ft1, d1⟩, h1, h⟩ := bind_ok.1 h
  simp only [Except.ok.injEq, Prod.mk.injEq] at h
  obtain ⟨rfl, rfl, rfl⟩ := h
  cases ft with
  | simple f =>
    obtain ⟨_, f', rfl, h3, h4⟩ := ((ptlImpl_nice dbg w.red hp w.st l 0).wrap dbg w.red.meta 0).simple f 0 _ _ _ hok.1 (by decide) h1
    refine congrArg List.length (allFeatures_congr h3 hok.1 fun ns => ?_)
    rcases h4 ns with e | ⟨e1, e2⟩
    · exact e
    · rw [e2, hok.2 ns e1]
  | cbAdf f =>
    have h2 : wrapCall dbg w.red.meta (.cbAdf f) 0 0 (fun ft d => w.red.predictThenLearnImpl dbg w.st ft l d 0) = .ok ((p0, s0), ft1, d1) := h1
    obtain ⟨_, _, _, _, _, hc⟩ := wrapCall_ok h2
    obtain ⟨_, ⟨f', rfl, hle⟩, _⟩ := (ptl_predictsToo dbg w.red hp w.st l).wrap w.red.meta f 0 p0 s0 ft1 d1 hok (by decide) h2 hc
    exact countAll_le hle

theorem addPoint_count {ft gt : Features F} (h : ft.countAll = gt.countAll) (m : Metric F) (l : Label F) (p : Prediction F) :
    m.addPoint ft l p = m.addPoint gt l p := by
  cases m <;> simp only [Metric.addPoint, h]

theorem mapM_forall₂ {α β : Type} {f : α → M β} : ∀ {l : List α} {r : List β}, l.mapM f = .ok r → List.Forall₂ (fun a b => f a = .ok b) l r := by
  intro l
  induction l with
  | nil =>
    intro r h
    have : (Except.ok [] : M (List β)) = .ok r := h
    injection this with h
    subst h
    exact .nil
  | cons a l ih =>
    intro r h
    rw [List.mapM_cons] at h
    obtain ⟨b, h1, h⟩ := bind_ok.1 h
    obtain ⟨bs, h2, h⟩ := bind_ok.1 h
    have h : (Except.ok (b :: bs) : M (List β)) = .ok r := h
    injection h with h
    subst h
    exact .cons h1 (ih h2)

theorem forall₂_comp {α β γ : Type} {R : α → β → Prop} {S : β → γ → Prop} {T : α → γ → Prop} (hT : ∀ a b c, R a b → S b c → T a c) :
    ∀ {l : List α} {m : List β} {n : List γ}, List.Forall₂ R l m → List.Forall₂ S m n → List.Forall₂ T l n := by
  intro l m n h
  induction h generalizing n with
  | nil => intro h; cases h; exact .nil
  | cons h1 _ ih =>
    intro h
    cases h with
    | cons h2 h3 => exact .cons (hT _ _ _ h1 h2) (ih h3)

namespace Cli

/-- The points in the form that `Metric.feed` takes. -/
def pts3 (pts : List (Point F)) : List (Features F × Label F × Prediction F) := pts.map (fun pt => (pt.1.1, pt.1.2, pt.2))

theorem rowsAfter_cons (b : Bool) (bs : List Bool) : rowsAfter (b :: bs) = (if b then [1] else []) ++ (rowsAfter bs).map (· + 1) := by
  unfold rowsAfter
  rw [List.length_cons, List.range_succ_eq_map, List.filter_cons, List.filter_map]
  have e : ((fun i => (b :: bs)[i]? == some true) ∘ Nat.succ) = fun i => bs[i]? == some true := by
    funext i; simp
  rw [e]
  cases b <;> simp [Function.comp_def]

theorem feed_cons (pt : Point F) (pts : List (Point F)) (m : Metric F) :
    Metric.feed (pts3 (pt :: pts)) m = m.addPoint pt.1.1 pt.1.2 pt.2 >>= Metric.feed (pts3 pts) := rfl

/-- The rows of a run. -/
def RowFrom (dbg : Bool) (ms : List (Metric F)) (pts : List (Point F)) (row : List (MetricValue F)) : Prop :=
  List.Forall₂ (fun m v => ∃ m', Metric.feed (pts3 pts) m = .ok m' ∧ m'.getValue dbg = .ok v) ms row

theorem process_noisy {dbg : Bool} {o : TrainOpts} (ho : o.quiet = false) {w0 w1 : TrainWorld F} {ft ft1 : Features F} {lo : Option (Label F)}
    (h : processFeatures dbg o w0 ft lo = .ok (w1, ft1)) : ∃ l p ft2 out row, lo = some l ∧ w0.ws.predictThenLearn dbg ft l = .ok (p, w1.ws, ft2) ∧
      w0.metrics.mapM (fun m => m.addPoint ft2 l p) = .ok w1.metrics ∧ w0.manager.inc dbg = .ok (out, w1.manager) ∧ w1.rows = w0.rows ++ row ∧
      (if out = true then ∃ r, row = [r] ∧ w1.metrics.mapM (fun m => m.getValue dbg) = .ok r else row = []) ∧
      w1.predictions = if o.predictionsFile then w0.predictions ++ [p] else w0.predictions := by
  unfold processFeatures at h
  obtain ⟨l, hl, h0⟩ := bind_ok.1 h
  clear h
  have hlo : lo = some l := by
    cases lo with
    | none => cases hl
    | some l' => simp only [unwrapOpt, Except.ok.injEq] at hl; rw [hl]
  rw [if_pos (by simp [ho])] at h0
  obtain ⟨⟨p, ws, ft2⟩, h1, h0⟩ := bind_ok.1 h0
  obtain ⟨ms, h2, h0⟩ := bind_ok.1 h0
  obtain ⟨⟨out, mg⟩, h3, h0⟩ := bind_ok.1 h0
  cases out with
  | true =>
    simp only [if_true] at h0
    obtain ⟨row, h4, h0⟩ := bind_ok.1 h0
    obtain ⟨r, h5, h4⟩ := bind_ok.1 h4
    simp only [Except.ok.injEq] at h4
    subst h4
    simp only [Except.ok.injEq, Prod.mk.injEq] at h0
    rw [← h0.1]
    exact ⟨l, p, ft2, true, [r], hlo, h1, h2, h3, rfl, by simpa using h5, rfl⟩
  | false =>
    simp only [Bool.false_eq_true, if_false] at h0
    obtain ⟨row, h4, h0⟩ := bind_ok.1 h0
    simp only [Except.ok.injEq] at h4
    subst h4
    simp only [Except.ok.injEq, Prod.mk.injEq] at h0
    rw [← h0.1]
    exact ⟨l, p, ft2, false, [], hlo, h1, h2, h3, rfl, by simp, rfl⟩

section
variable {P : Str → Prop} {parse : Parse F}

theorem rowFrom_cons {dbg : Bool} {pt : Point F} {pts : List (Point F)} {ms ms' : List (Metric F)} {row : List (MetricValue F)}
    (h : List.Forall₂ (fun m m' => m.addPoint pt.1.1 pt.1.2 pt.2 = .ok m') ms ms') (hr : RowFrom dbg ms' pts row) : RowFrom dbg ms (pt :: pts) row := by
  refine forall₂_comp ?_ h hr
  rintro m m' v h1 ⟨m2, h2, h3⟩
  exact ⟨m2, by rw [feed_cons, h1, ok_bind, h2], h3⟩

/-- The points, rows and predictions of a run with output. -/
theorem sequential_table (hp : ParserOk P parse) (dbg : Bool) (o : TrainOpts) (ho : o.quiet = false) (q : Nat) {Q : Str → Features F × Label F → Prop}
    (hQ : ∀ c ex, Q c ex ↔ ∃ pool, parse ⟨[]⟩ c = .ok ((ex.1, some ex.2), pool)) (cs : List Str) : ∀ (w0 w : TrainWorld F),
    (∀ c ∈ cs, P c) → w0.ws.red.PairsOk → ((trainPoolPipe dbg o q parse).withObjects ⟨[]⟩).sequential cs w0 = (w, true) →
    ∃ exs ps bs rows, List.Forall₂ Q cs exs ∧ Plays dbg w0.ws exs ps ∧ TrainManager.run dbg cs.length w0.manager = .ok (bs, w.manager) ∧
      List.Forall₂ (fun m m' => Metric.feed (pts3 (exs.zip ps)) m = .ok m') w0.metrics w.metrics ∧ w.rows = w0.rows ++ rows ∧
      List.Forall₂ (fun k row => RowFrom dbg w0.metrics ((exs.zip ps).take k) row) (rowsAfter bs) rows ∧
      w.predictions = w0.predictions ++ (if o.predictionsFile then ps else []) := by
  induction cs with
  | nil =>
    intro w0 w _ _ h
    simp only [Pipe.sequential, Prod.mk.injEq, and_true] at h
    subst h
    refine ⟨[], [], [], [], .nil, .nil, rfl, ?_, by simp, .nil, by simp⟩
    generalize w0.metrics = ms
    induction ms with
    | nil => exact .nil
    | cons m ms ih => exact .cons rfl ih
  | cons c cs ih =>
    intro w0 w hcs hw h
    simp only [Pipe.sequential, PoolPipe.withObjects, trainPoolPipe] at h
    cases hpc : parse ⟨[]⟩ c with
    | err => rw [hpc] at h; cases h
    | panic => rw [hpc] at h; cases h
    | ok r =>
      obtain ⟨⟨ft, lo⟩, pl⟩ := r
      rw [hpc] at h
      simp only at h
      have hok : PlainEx ft := fresh_plainEx hp (hcs c (by simp)) hpc
      cases hpf : processFeatures dbg o w0 ft lo with
      | error e => rw [hpf] at h; cases h
      | ok r =>
        obtain ⟨w1, ft1⟩ := r
        rw [hpf] at h
        simp only [Option.map_some] at h
        obtain ⟨l, p, ft2, out, row, rfl, h1, h2, h3, h4, h5, h6⟩ := process_noisy ho hpf
        obtain ⟨ft0, g1⟩ := ptl_predicts hw hok h1
        obtain ⟨ftl, g2⟩ := ptl_learns hw hok h1
        obtain ⟨exs, ps, bs, rows, i1, i2, i3, i4, i5, i6, i7⟩ := ih w1 w (fun c hc => hcs c (by simp [hc])) (by rw [learn_red g2]; exact hw) h
        have hadd : List.Forall₂ (fun m m' => m.addPoint ft l p = .ok m') w0.metrics w1.metrics :=
          (mapM_forall₂ h2).imp fun m m' hm => by rw [← hm]; exact (addPoint_count (ptl_count hw hok h1) m l p).symm
        refine ⟨(ft, l) :: exs, p :: ps, out :: bs, row ++ rows, .cons ((hQ c (ft, l)).2 ⟨pl, hpc⟩) i1, .cons g1 g2 i2, ?_, ?_, ?_, ?_, ?_⟩
        · simp only [List.length_cons, TrainManager.run]
          rw [h3, ok_bind]
          simp only
          rw [i3, ok_bind]
        · refine forall₂_comp ?_ hadd i4
          intro m m' m2 e1 e2
          rw [List.zip_cons_cons, feed_cons, e1, ok_bind, e2]
        · rw [i5, h4, List.append_assoc]
        · rw [rowsAfter_cons]
          refine List.rel_append ?_ ?_
          · cases out with
            | true =>
              simp only [if_true] at h5 ⊢
              obtain ⟨r, rfl, h5⟩ := h5
              refine .cons ?_ .nil
              rw [List.zip_cons_cons]
              refine rowFrom_cons (pts := []) hadd ((mapM_forall₂ h5).imp fun m v hv => ⟨m, rfl, hv⟩)
            | false =>
              simp only [Bool.false_eq_true, if_false] at h5 ⊢
              rw [h5]
              exact .nil
          · rw [List.forall₂_map_left_iff]
            refine i6.imp fun k row hr => ?_
            rw [List.zip_cons_cons, List.take_succ_cons]
            exact rowFrom_cons hadd hr
        · rw [i7, h6]
          cases o.predictionsFile <;> simp

end

/-! ### The values of the metrics -/

theorem numFeatures_eq (ft : Features F) : ft.countAll = numFeatures ft := by
  have h : ∀ f : SparseFeatures F, f.allFeatures.length = (f.namespaces.map (fun e => e.2.length)).sum := by
    intro f
    simp [SparseFeatures.allFeatures, SparseFeatures.namespaces, List.length_flatMap, Function.comp_def]
  cases ft with
  | simple f => exact h f
  | cbAdf f =>
    simp only [Features.countAll, numFeatures, List.map_append, List.sum_append, h]
    cases f.shared <;> simp

theorem number_feed' (pts : List (Point F)) {c : Nat} {m : Metric F} (h : Metric.feed (pts3 pts) (.exampleNumber c) = .ok m) :
    m = .exampleNumber (c + pts.length) := by
  induction pts generalizing c with
  | nil => cases h; rfl
  | cons pt pts ih =>
    rw [feed_cons] at h
    simp only [Metric.addPoint] at h
    rw [ok_bind] at h
    rw [ih h, List.length_cons]
    congr 1; omega

theorem parsed_feed' (pts : List (Point F)) {c : Nat} {m : Metric F} (h : Metric.feed (pts3 pts) (.parsedFeatures c) = .ok m) :
    m = .parsedFeatures (c + (pts.map (fun pt => numFeatures pt.1.1)).sum) := by
  induction pts generalizing c with
  | nil => cases h; rfl
  | cons pt pts ih =>
    rw [feed_cons] at h
    simp only [Metric.addPoint] at h
    rw [ok_bind] at h
    rw [ih h, List.map_cons, List.sum_cons, numFeatures_eq]
    congr 1; omega

theorem mse_feed' (pts : List (Point F)) {v : F} {c : Nat} {m : Metric F} (h : Metric.feed (pts3 pts) (.mse v c) = .ok m) :
    ∃ yz : List (F × F),
      List.Forall₂ (fun pt yz => (∃ weight, pt.1.2 = .simple ⟨yz.1, weight⟩) ∧ ∃ raw, pt.2 = .scalar yz.2 raw) pts yz ∧
      m = .mse ((yz.map (fun e => Flt.mul (Flt.sub e.1 e.2) (Flt.sub e.1 e.2))).foldl Flt.add v) (c + pts.length) := by
  induction pts generalizing v c with
  | nil => cases h; exact ⟨[], .nil, rfl⟩
  | cons pt pts ih =>
    rw [feed_cons] at h
    obtain ⟨⟨ft, l⟩, p⟩ := pt
    simp only [Metric.addPoint] at h
    obtain ⟨m1, h1, h⟩ := bind_ok.1 h
    obtain ⟨l', h2, h1⟩ := bind_ok.1 h1
    obtain ⟨p', h3, h1⟩ := bind_ok.1 h1
    simp only [Except.ok.injEq] at h1
    subst h1
    obtain ⟨yz, g1, g2⟩ := ih h
    cases l with
    | simple l =>
      cases p with
      | scalar a b =>
        simp only [Label.asSimple, Prediction.asScalar, Except.ok.injEq] at h2 h3
        subst h2 h3
        refine ⟨(l.value, a) :: yz, .cons ⟨⟨l.weight, rfl⟩, b, rfl⟩ g1, ?_⟩
        rw [g2, List.length_cons, List.map_cons, List.foldl_cons]
        congr 1; omega
      | _ => cases h3
    | _ => cases h2

theorem lookup_of_find {k : Nat} {q : Nat × F} : ∀ {a : List (Nat × F)}, a.find? (fun x => x.1 == k) = some q → a.lookup k = some q.2 := by
  intro a
  induction a with
  | nil => intro h; cases h
  | cons x a ih =>
    intro h
    rw [List.find?_cons] at h
    rw [List.lookup_cons]
    by_cases hx : x.1 = k
    · subst hx
      simp only [beq_self_eq_true, Option.some.injEq] at h ⊢
      rw [h]
    · rw [beq_eq_false_iff_ne.2 hx] at h
      rw [beq_eq_false_iff_ne.2 (Ne.symm hx)]
      exact ih h

theorem ips_feed' (pts : List (Point F)) {v : F} {c : Nat} {m : Metric F} (h : Metric.feed (pts3 pts) (.ips c v) = .ok m) :
    ∃ lq : List (CBLabel F × F),
      List.Forall₂ (fun pt lq => pt.1.2 = .cb lq.1 ∧ ∃ probs, pt.2 = .actionProbs probs ∧ probs.lookup lq.1.action = some lq.2) pts lq ∧
      m = .ips (c + pts.length) ((lq.map (fun e => Flt.mul (Flt.mul (fl (-1)) e.1.cost) (Flt.div e.2 e.1.probability))).foldl Flt.add v) := by
  induction pts generalizing v c with
  | nil => cases h; exact ⟨[], .nil, rfl⟩
  | cons pt pts ih =>
    rw [feed_cons] at h
    obtain ⟨⟨ft, l⟩, p⟩ := pt
    simp only [Metric.addPoint] at h
    obtain ⟨m1, h1, h⟩ := bind_ok.1 h
    obtain ⟨l', h2, h1⟩ := bind_ok.1 h1
    obtain ⟨p', h3, h1⟩ := bind_ok.1 h1
    obtain ⟨q', h4, h1⟩ := bind_ok.1 h1
    simp only [Except.ok.injEq] at h1
    subst h1
    obtain ⟨lq, g1, g2⟩ := ih h
    cases l with
    | cb l =>
      cases p with
      | actionProbs a =>
        simp only [Label.asCb, Prediction.asProbs, Except.ok.injEq] at h2 h3
        subst h2 h3
        refine ⟨(l, q'.2) :: lq, .cons ⟨rfl, a, rfl, ?_⟩ g1, ?_⟩
        · refine lookup_of_find ?_
          generalize a.find? (fun x => x.1 == l.action) = r at h4
          cases r with
          | none => cases h4
          | some x => simp only [unwrapOpt, Except.ok.injEq] at h4; rw [h4]
        · rw [g2, List.length_cons, List.map_cons, List.foldl_cons]
          congr 1; omega
      | _ => cases h3
    | _ => cases h2

theorem metric_is {dbg : Bool} {name : Str} {m0 m : Metric F} {pts : List (Point F)} {v : MetricValue F} (h0 : getMetric name = some m0)
    (h : Metric.feed (pts3 pts) m0 = .ok m) (hv : m.getValue dbg = .ok v) (hl : pts.length < 2 ^ 31) : MetricIs name pts v := by
  unfold getMetric at h0
  split at h0
  · rename_i hn
    cases h0
    obtain ⟨yz, h1, rfl⟩ := mse_feed' pts h
    simp only [Metric.getValue, Except.ok.injEq] at hv
    rw [hn, ← hv, Nat.zero_add]
    exact .mse pts yz h1
  · split at h0
    · rename_i hn
      cases h0
      obtain ⟨lq, h1, rfl⟩ := ips_feed' pts h
      simp only [Metric.getValue, Except.ok.injEq] at hv
      rw [hn, ← hv, Nat.zero_add]
      exact .ips pts lq h1
    · split at h0
      · rename_i hn
        cases h0
        obtain rfl := parsed_feed' pts h
        simp only [Metric.getValue] at hv
        split at hv
        · simp only [Except.ok.injEq] at hv
          rw [hn, ← hv, Nat.zero_add]
          exact .parsedFeatures pts
        · cases hv
      · split at h0
        · rename_i hn
          cases h0
          obtain rfl := number_feed' pts h
          have e : asI32 (0 + pts.length) = (pts.length : Int) := by
            unfold asI32
            rw [Nat.zero_add, Int.bmod_eq_of_le] <;> omega
          simp only [Metric.getValue, e, i32Pred] at hv
          split at hv
          · cases hv
          · rw [if_neg (by omega)] at hv
            simp only [bind, Except.bind, Except.ok.injEq] at hv
            rw [hn, ← hv]
            exact .exampleNumber pts
        · cases h0

end Cli
end Rml
