import Verif.Lemmas.Table
import Verif.Lemmas.Safe2

/-! Lemmas for C82: training with output succeeds. -/

set_option linter.unusedSectionVars false

namespace Rml
open Text SparseFeatures
variable {F : Type} [Flt F] {N : Type}

/-! ### The actions of a prediction -/

theorem keys_map {f : Nat × F → Nat × F} (h : ∀ e, (f e).1 = e.1) (l : List (Nat × F)) : (l.map f).map (·.1) = l.map (·.1) := by
  rw [List.map_map]
  exact List.map_congr_left fun e _ => h e

theorem keys_set {l : List (Nat × F)} {i : Nat} {e : Nat × F} {v : F} (h : l[i]? = some e) : (l.set i (e.1, v)).map (·.1) = l.map (·.1) := by
  apply List.ext_getElem?
  intro j
  simp only [List.getElem?_map, List.getElem?_set]
  split
  · rename_i hij
    subst hij
    split
    · rw [h]; rfl
    · rename_i h2; rw [List.getElem?_eq_none (by omega)]
  · rfl

theorem enforce_keys {eps : F} {els out : List (Nat × F)} (h : enforceUnwrap eps els = .ok out) : out.map (·.1) = els.map (·.1) := by
  unfold enforceUnwrap at h
  obtain ⟨r, h1, h2⟩ := bind_ok.1 h
  have hr : r = some out := by
    cases r with
    | none => cases h2
    | some y => simp only [unwrapOpt, Except.ok.injEq] at h2; rw [h2]
  subst hr
  unfold enforceMinProb at h1
  split at h1
  · simp at h1
  · split at h1
    · simp only [Except.ok.injEq, Option.some.injEq] at h1; rw [h1]
    · split at h1
      · simp at h1
      · simp only at h1
        split at h1
        · simp only [Except.ok.injEq, Option.some.injEq] at h1
          rw [← h1]
          exact keys_map (fun e => by split <;> rfl) els
        · obtain ⟨_, _, h1⟩ := bind_ok.1 h1
          split at h1
          · cases h1
          · obtain ⟨s, _, h1⟩ := bind_ok.1 h1
            simp only [Except.ok.injEq, Option.some.injEq] at h1
            rw [← h1]
            exact keys_map (fun e => by split <;> rfl) els

theorem greedy_keys {eps : F} {sc out : List (Nat × F)} (h : greedyProbs eps sc = .ok out) : out.map (·.1) = sc.map (·.1) := by
  unfold greedyProbs at h
  obtain ⟨b, _, h⟩ := bind_ok.1 h
  simp only at h
  split at h
  · rename_i e he
    simp only [Except.ok.injEq] at h
    rw [← h, keys_set he]
    simp [Function.comp_def]
  · cases h

theorem softmax_keys {lm eps : F} {sc out : List (Nat × F)} (h : softmaxProbs lm eps sc = .ok out) : out.map (·.1) = sc.map (·.1) := by
  unfold softmaxProbs at h
  obtain ⟨_, _, h⟩ := bind_ok.1 h
  obtain ⟨b, _, h⟩ := bind_ok.1 h
  split at h
  · cases h
  · simp only at h
    rw [enforce_keys h]
    simp [Function.comp_def]

theorem squareCb_keys {gm eps : F} {sc out : List (Nat × F)} (h : squareCbProbs gm eps sc = .ok out) : out.map (·.1) = sc.map (·.1) := by
  unfold squareCbProbs at h
  obtain ⟨_, _, h⟩ := bind_ok.1 h
  obtain ⟨b, _, h⟩ := bind_ok.1 h
  split at h
  · cases h
  · simp only at h
    split at h
    · cases h
    · rename_i e he
      rw [enforce_keys h, keys_set he]
      exact keys_map (fun e => by split <;> rfl) sc

/-- The actions of scores and probabilities. -/
def Prediction.ids : Prediction F → Option (List Nat)
  | .actionScores sc => some (sc.map (·.1))
  | .actionProbs ps => some (ps.map (·.1))
  | _ => none

/-- A prediction for a bandit example lists its actions. -/
theorem predict_ids (dbg : Bool) (r : Red F) (f : CBAdfFeatures F) : ∀ (s : r.State) (d : Depth) {p : Prediction F} {ft' : Features F} {d' : Depth},
    r.predictImpl dbg s (.cbAdf f) d = .ok (p, ft', d') → ∀ ks, p.ids = some ks → ks = List.range f.actions.length := by
  have hexp : ∀ {p : Prediction F} {sc : List (Nat × F)}, p.asScores = .ok sc → p.ids = some (sc.map (·.1)) := by
    intro p sc h
    cases p <;> simp [Prediction.asScores] at h
    subst h
    rfl
  induction r with
  | coin m =>
    intro s d p ft' d' h
    unfold Red.predictImpl at h
    simp [Features.asSimple, bind, Except.bind] at h
  | binary m r ih =>
    intro s d p ft' d' h ks hk
    unfold Red.predictImpl at h
    obtain ⟨⟨p, ft1, d1⟩, _, h⟩ := bind_ok.1 h
    obtain ⟨_, _, h⟩ := bind_ok.1 h
    simp only [Except.ok.injEq, Prod.mk.injEq] at h
    rw [← h.1] at hk
    cases hk
  | cbAdf m ty r ih =>
    intro s d p ft' d' h ks hk
    unfold Red.predictImpl at h
    simp only [Features.asCb, ok_bind] at h
    obtain ⟨⟨sc, as, d1⟩, hl, h⟩ := bind_ok.1 h
    simp only [Except.ok.injEq, Prod.mk.injEq] at h
    rw [← h.1] at hk
    simp only [Prediction.ids, Option.some.injEq] at hk
    have := (cbPredictLoop_ids _ _ _ hl).1
    simp only at this
    rw [← hk, this, List.range_eq_range']
  | greedy m e r ih =>
    intro s d p ft' d' h ks hk
    unfold Red.predictImpl at h
    obtain ⟨⟨q, ft1, d1⟩, h1, h⟩ := bind_ok.1 h
    obtain ⟨sc, h2, h⟩ := bind_ok.1 h
    obtain ⟨out, h3, h⟩ := bind_ok.1 h
    simp only [Except.ok.injEq, Prod.mk.injEq] at h
    rw [← h.1] at hk
    simp only [Prediction.ids, Option.some.injEq] at hk
    obtain ⟨d1, d2, _, h4, _⟩ := wrapCall_ok h1
    rw [← hk, greedy_keys h3]
    exact ih s d1 h4 _ (hexp h2)
  | softmax m e l r ih =>
    intro s d p ft' d' h ks hk
    unfold Red.predictImpl at h
    obtain ⟨⟨q, ft1, d1⟩, h1, h⟩ := bind_ok.1 h
    obtain ⟨sc, h2, h⟩ := bind_ok.1 h
    obtain ⟨out, h3, h⟩ := bind_ok.1 h
    simp only [Except.ok.injEq, Prod.mk.injEq] at h
    rw [← h.1] at hk
    simp only [Prediction.ids, Option.some.injEq] at hk
    obtain ⟨d1, d2, _, h4, _⟩ := wrapCall_ok h1
    rw [← hk, softmax_keys h3]
    exact ih s.2 d1 h4 _ (hexp h2)
  | squareCb m e gs ge r ih =>
    intro s d p ft' d' h ks hk
    unfold Red.predictImpl at h
    obtain ⟨⟨q, ft1, d1⟩, h1, h⟩ := bind_ok.1 h
    obtain ⟨sc, h2, h⟩ := bind_ok.1 h
    obtain ⟨out, h3, h⟩ := bind_ok.1 h
    simp only [Except.ok.injEq, Prod.mk.injEq] at h
    rw [← h.1] at hk
    simp only [Prediction.ids, Option.some.injEq] at hk
    obtain ⟨d1, d2, _, h4, _⟩ := wrapCall_ok h1
    rw [← hk, squareCb_keys h3]
    exact ih s.2 d1 h4 _ (hexp h2)
  | debug m r ih =>
    intro s d p ft' d' h ks hk
    unfold Red.predictImpl at h
    obtain ⟨d1, d2, _, h4, _⟩ := wrapCall_ok h
    exact ih s d1 h4 ks hk
  | elementwise m pr keep nb r ih =>
    intro s d p ft' d' h
    unfold Red.predictImpl at h
    simp [elementwiseWith, Features.asSimple, bind, Except.bind] at h

/-! ### The metrics -/

/-- The metric can be given this point. -/
def Accepts (l : Label F) (p : Prediction F) : Metric F → Prop
  | .mse _ _ => l.ty = .simple ∧ p.ty = .scalar
  | .ips _ _ => ∃ cl ps, l = .cb cl ∧ p = .actionProbs ps ∧ cl.action ∈ ps.map (·.1)
  | .parsedFeatures _ | .exampleNumber _ => True

/-- The counters do not overflow during the rest of the run: `n` further features and `k` further examples. -/
def Room (n k : Nat) : Metric F → Prop
  | .mse _ _ | .ips _ _ => True
  | .parsedFeatures c => c + n < 2 ^ 31
  | .exampleNumber c => c + k < 2 ^ 31

/-- The metric has a value. -/
def Shown : Metric F → Prop
  | .mse _ _ | .ips _ _ => True
  | .parsedFeatures c => c < 2 ^ 31
  | .exampleNumber c => 0 < c ∧ c < 2 ^ 31

theorem shown_value (dbg : Bool) {m : Metric F} (h : Shown m) : ∃ v, m.getValue dbg = .ok v := by
  cases m with
  | mse v c => exact ⟨_, rfl⟩
  | ips c v => exact ⟨_, rfl⟩
  | parsedFeatures c => exact ⟨_, if_pos h⟩
  | exampleNumber c =>
    obtain ⟨h1, h2⟩ := h
    have e : asI32 c = c := by
      unfold asI32
      exact Int.bmod_eq_of_le (by omega) (by omega)
    unfold Metric.getValue
    simp only
    rw [if_neg (by omega)]
    unfold i32Pred
    rw [e, if_neg (by omega)]
    exact ⟨_, rfl⟩

theorem add_ok {ft : Features F} {l : Label F} {p : Prediction F} {m : Metric F} {n k : Nat} (h : Accepts l p m) (hr : Room (ft.countAll + n) (k + 1) m) :
    ∃ m', m.addPoint ft l p = .ok m' ∧ Room n k m' ∧ Shown m' ∧ ∀ l' p', Accepts l' p' m → Accepts l' p' m' := by
  cases m with
  | mse v c =>
    obtain ⟨h1, h2⟩ := h
    cases l <;> simp [Label.ty] at h1
    cases p <;> simp [Prediction.ty] at h2
    exact ⟨_, rfl, trivial, trivial, fun _ _ h => h⟩
  | ips c v =>
    obtain ⟨cl, ps, rfl, rfl, h1⟩ := h
    obtain ⟨q, hq, h2⟩ := List.mem_map.1 h1
    cases hf : ps.find? (fun x => x.1 == cl.action) with
    | none =>
      have := List.find?_eq_none.1 hf q hq
      simp [h2] at this
    | some e =>
      refine ⟨.ips (c + 1) (Flt.add v (Flt.mul (Flt.mul (fl (-1)) cl.cost) (Flt.div e.2 cl.probability))), by
        simp only [Metric.addPoint, Label.asCb, Prediction.asProbs, ok_bind, hf, unwrapOpt], trivial, trivial, fun _ _ h => h⟩
  | parsedFeatures c =>
    simp only [Room] at hr
    exact ⟨_, rfl, by simp only [Room]; omega, by simp only [Shown]; omega, fun _ _ h => h⟩
  | exampleNumber c =>
    simp only [Room] at hr
    exact ⟨_, rfl, by simp only [Room]; omega, by simp only [Shown]; omega, fun _ _ h => h⟩

theorem mapM_ok {α β : Type} {f : α → M β} {Q : β → Prop} : ∀ {l : List α}, (∀ a ∈ l, ∃ b, f a = .ok b ∧ Q b) → ∃ r, l.mapM f = .ok r ∧ ∀ b ∈ r, Q b := by
  intro l
  induction l with
  | nil => exact fun _ => ⟨[], rfl, by simp⟩
  | cons a l ih =>
    intro h
    obtain ⟨b, h1, h2⟩ := h a (by simp)
    obtain ⟨r, h3, h4⟩ := ih fun c hc => h c (by simp [hc])
    refine ⟨b :: r, ?_, fun c hc => ?_⟩
    · rw [List.mapM_cons, h1, ok_bind, h3, ok_bind]
      rfl
    · rcases List.mem_cons.1 hc with rfl | hc
      · exact h2
      · exact h4 c hc

/-- One example of a run with output. -/
theorem process_ok {dbg : Bool} {o : TrainOpts} (ho : o.quiet = false ∨ o.predictionsFile = true) {w : TrainWorld F} {ft ft' : Features F} {l : Label F}
    {p : Prediction F} {ws : Workspace F} (h : w.ws.predictThenLearn dbg ft l = .ok (p, ws, ft')) (hc : ft'.countAll = ft.countAll) {n k : Nat}
    (hm : ∀ m ∈ w.metrics, Accepts l p m ∧ Room (ft.countAll + n) (k + 1) m) {bs : List Bool} {mg : TrainManager}
    (hr : TrainManager.run dbg (k + 1) w.manager = .ok (bs, mg)) {As : Label F → Prediction F → Prop} (hA : ∀ m ∈ w.metrics, ∀ l' p', As l' p' → Accepts l' p' m) :
    ∃ w' ft'', processFeatures dbg o w ft (some l) = .ok (w', ft'') ∧ w'.ws = ws ∧ (∀ m ∈ w'.metrics, Room n k m ∧ Shown m) ∧
      (∀ m ∈ w'.metrics, ∀ l' p', As l' p' → Accepts l' p' m) ∧ ∃ bs', TrainManager.run dbg k w'.manager = .ok (bs', mg) := by
  obtain ⟨ms, h1, h2⟩ := mapM_ok (f := fun m : Metric F => m.addPoint ft' l p)
    (Q := fun m' => (Room n k m' ∧ Shown m') ∧ ∀ l' p', As l' p' → Accepts l' p' m') (l := w.metrics) (by
      intro m hmm
      obtain ⟨m', g1, g2, g3, g4⟩ := add_ok (ft := ft') (n := n) (k := k) (hm m hmm).1 (by rw [hc]; exact (hm m hmm).2)
      exact ⟨m', g1, ⟨g2, g3⟩, fun l' p' ha => g4 l' p' (hA m hmm l' p' ha)⟩)
  obtain ⟨rows, h3, _⟩ := mapM_ok (f := fun m : Metric F => m.getValue dbg) (Q := fun _ => True) (l := ms) (fun m hmm => by
    obtain ⟨v, hv⟩ := shown_value dbg (h2 m hmm).1.2
    exact ⟨v, hv, trivial⟩)
  unfold TrainManager.run at hr
  obtain ⟨⟨b, m1⟩, h4, hr⟩ := bind_ok.1 hr
  obtain ⟨⟨bs', m2⟩, h5, hr⟩ := bind_ok.1 hr
  simp only [Except.ok.injEq, Prod.mk.injEq] at hr
  obtain ⟨rfl, rfl⟩ := hr
  refine ⟨⟨ws, ms, m1, w.rows ++ (if b = true then [rows] else []), if o.predictionsFile then w.predictions ++ [p] else w.predictions⟩, ft', ?_, rfl,
      fun m hm => (h2 m hm).1, fun m hm => (h2 m hm).2, bs', h5⟩
  unfold processFeatures
  simp only [unwrapOpt, ok_bind]
  rw [if_pos (by rcases ho with h | h <;> simp [h]), h, ok_bind]
  simp only
  rw [h1, ok_bind, h4, ok_bind]
  cases b with
  | true =>
    simp only [if_true]
    rw [h3, ok_bind, ok_bind]
  | false => simp

end Rml
