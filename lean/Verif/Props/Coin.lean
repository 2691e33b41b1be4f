import Verif.Lemmas.CoinStack
import Verif.Lemmas.F32
import Verif.Props.Stack
import Verif.Props.Hash

/-!
C36, C37, C40: the Coin regressor under any float semantics. C36 assumes only the IEEE 754 laws of comparison, minimum and maximum
(`LawfulCmp`), C40 those of zero (`LawfulZero`), C37 nothing.
-/

set_option linter.unusedSectionVars false

namespace Rml
variable {F : Type} [Flt F]

/-! ### C36 -/

/-- The range of labels: ordered numbers. -/
structure Coin.RangeOk (c : Coin F) : Prop where
  min_num : Flt.isNaN c.minLabel = false
  max_num : Flt.isNaN c.maxLabel = false
  le : Flt.le c.minLabel c.maxLabel = true

theorem fmin_props [LawfulCmp F] (l m : F) (hm : Flt.isNaN m = false) :
    Flt.isNaN (Flt.fmin l m) = false ∧ Flt.le (Flt.fmin l m) m = true ∧ (Flt.fmin l m = l ∨ Flt.fmin l m = m) := by
  cases hl : Flt.isNaN l with
  | true => rw [LawfulCmp.fmin_nan l m hl hm]; exact ⟨hm, LawfulCmp.le_refl m hm, .inr rfl⟩
  | false =>
    obtain ⟨h1, h2, h3⟩ := LawfulCmp.fmin_num l m hl hm
    exact ⟨(LawfulCmp.le_num _ _ h2).1, h3, h1⟩

theorem fmax_props [LawfulCmp F] (l m : F) (hm : Flt.isNaN m = false) :
    Flt.isNaN (Flt.fmax l m) = false ∧ Flt.le m (Flt.fmax l m) = true ∧ (Flt.fmax l m = l ∨ Flt.fmax l m = m) := by
  cases hl : Flt.isNaN l with
  | true => rw [LawfulCmp.fmax_nan l m hl hm]; exact ⟨hm, LawfulCmp.le_refl m hm, .inr rfl⟩
  | false =>
    obtain ⟨h1, h2, h3⟩ := LawfulCmp.fmax_num l m hl hm
    exact ⟨(LawfulCmp.le_num _ _ h2).2, h3, h1⟩

theorem rangeOk_seen [LawfulCmp F] {c : Coin F} (h : c.RangeOk) (l : F) :
    Flt.le (Flt.fmin l c.minLabel) (Flt.fmax l c.maxLabel) = true := by
  have h1 := fmin_props l c.minLabel h.min_num
  have h2 := fmax_props l c.maxLabel h.max_num
  exact LawfulCmp.le_trans _ _ _ (LawfulCmp.le_trans _ _ _ h1.2.1 h.le) h2.2.1

/-- What is known about the label range after seeing labels. -/
structure Coin.RangeInv (ls : List F) (c : Coin F) : Prop where
  ok : c.RangeOk
  min_mem : c.minLabel ∈ ls
  max_mem : c.maxLabel ∈ ls

theorem rangeInv_step [LawfulCmp F] {dbg : Bool} {nb : Nat} {ls : List F} {c c' : Coin F} (e : TrainEx F) (hc : c.Ok nb)
    (h : Coin.RangeInv ls c) (hl : c.learn dbg e.feats e.label e.weight = .ok c') : Coin.RangeInv (ls ++ [e.label]) c' := by
  obtain ⟨p, c1, _, _, _, _, hmin, hmax, _⟩ := Coin.learn_inv hc hl
  have h1 := fmin_props e.label c.minLabel h.ok.min_num
  have h2 := fmax_props e.label c.maxLabel h.ok.max_num
  refine ⟨⟨by rw [hmin]; exact h1.1, by rw [hmax]; exact h2.1, by rw [hmin, hmax]; exact rangeOk_seen h.ok _⟩, ?_, ?_⟩
  · rw [hmin]
    rcases h1.2.2 with q | q <;> rw [q]
    · simp
    · simp [h.min_mem]
  · rw [hmax]
    rcases h2.2.2 with q | q <;> rw [q]
    · simp
    · simp [h.max_mem]

theorem new_rangeOk [LawfulCmp F] {hash : HashFn} {cfg : CoinConfig F} {g : GlobalConfig} {nma : Nat} {c : Coin F} (hn : 0 < nma)
    (h : Coin.new hash cfg g nma = .ok c) : c.RangeOk := by
  obtain ⟨_, _, _, hr, _⟩ := Coin.new_ok hn h
  cases hl : cfg.lossFunction with
  | squared =>
    rw [hl] at hr
    simp only [Prod.mk.injEq] at hr
    have := LawfulCmp.zero_num (F := F)
    exact ⟨by rw [hr.1]; exact this, by rw [hr.2]; exact this, by rw [hr.1, hr.2]; exact LawfulCmp.le_refl _ this⟩
  | logistic a b =>
    rw [hl] at hr
    simp only [Prod.mk.injEq] at hr
    have := LawfulCmp.lit_mono (F := F) (-50) 50 (by decide)
    exact ⟨by rw [hr.1]; exact (LawfulCmp.le_num _ _ this).1, by rw [hr.2]; exact (LawfulCmp.le_num _ _ this).2,
      by rw [hr.1, hr.2]; exact this⟩

theorem reached_inv [LawfulCmp F] {dbg : Bool} {hash : HashFn} {cfg : CoinConfig F} {g : GlobalConfig} {es : List (TrainEx F)} {c : Coin F}
    (h : Coin.Reached dbg hash cfg g es c) : c.Ok g.numBits ∧ c.config = cfg ∧ c.RangeOk ∧
      (cfg.lossFunction = .squared → Coin.RangeInv (Flt.zero :: es.map (·.label)) c) := by
  obtain ⟨nma, c0, hn, h0, h⟩ := h
  obtain ⟨hok, hcfg, _, hr, _⟩ := Coin.new_ok hn h0
  have hrange := new_rangeOk hn h0
  have key := Coin.trainAll_induct (dbg := dbg) (nb := g.numBits)
    (fun es c => c.config = cfg ∧ c.RangeOk ∧ (cfg.lossFunction = .squared → Coin.RangeInv (Flt.zero :: es.map (·.label)) c)) (by
      intro es c c' e hc ⟨h1, h2, h3⟩ hl
      refine ⟨?_, ?_, ?_⟩
      · obtain ⟨_, _, _, _, _, q, _⟩ := Coin.learn_inv hc hl
        rw [q, h1]
      · exact (rangeInv_step (ls := [c.minLabel, c.maxLabel]) e hc ⟨h2, by simp, by simp⟩ hl).ok
      · intro hs
        have := rangeInv_step e hc (h3 hs) hl
        simpa using this) es [] c0 c hok ⟨hcfg, hrange, by
      intro hs
      rw [hs] at hr
      simp only [Prod.mk.injEq] at hr
      exact ⟨hrange, by rw [hr.1]; simp, by rw [hr.2]; simp⟩⟩ h
  simpa using key

theorem clamp_props [LawfulCmp F] {x lo hi y : F} (hx : Flt.isNaN x = false) (h : Flt.clamp x lo hi = .ok y) :
    Flt.le lo y = true ∧ Flt.le y hi = true := by
  unfold Flt.clamp at h
  split at h
  · rename_i hle
    obtain ⟨h1, h2⟩ := LawfulCmp.le_num _ _ hle
    simp only [Except.ok.injEq] at h
    subst h
    split
    · exact ⟨LawfulCmp.le_refl _ h1, hle⟩
    · rename_i hlt
      split
      · exact ⟨hle, LawfulCmp.le_refl _ h2⟩
      · rename_i hlt'
        rw [LawfulCmp.lt_eq, hx, h1] at hlt
        rw [LawfulCmp.lt_eq, hx, h2] at hlt'
        simp at hlt hlt'
        exact ⟨hlt, hlt'⟩
  · simp at h

/-- C36: the prediction of a trained regressor lies between the smallest and the largest of 0 and the labels it was trained with. In
particular it is a number. Labels, weights, feature values and arithmetic are arbitrary. -/
theorem C36_in_label_range [LawfulCmp F] (dbg : Bool) (hash : HashFn) (cfg : CoinConfig F) (g : GlobalConfig)
    (hl : cfg.lossFunction = .squared) (hk : cfg.linkFunction = .identity) (es : List (TrainEx F)) (c : Coin F)
    (hc : Coin.Reached dbg hash cfg g es c) (f : SparseFeatures F) (p raw : F) (hp : c.predict dbg f = .ok (p, raw)) :
    (∃ lo ∈ Flt.zero :: es.map (·.label), Flt.le lo p = true) ∧ (∃ hi ∈ Flt.zero :: es.map (·.label), Flt.le p hi = true) := by
  obtain ⟨_, hcfg, _, hinv⟩ := reached_inv hc
  have hinv := hinv hl
  unfold Coin.predict at hp
  obtain ⟨x, _, hp⟩ := bind_ok.1 hp
  obtain ⟨y, h2, hp⟩ := bind_ok.1 hp
  simp only [Except.ok.injEq, Prod.mk.injEq] at hp
  have hy : p = y := by rw [← hp.1, hcfg, hk]; rfl
  subst hy
  have hnum : Flt.isNaN (if Flt.isNaN x then Flt.zero else x : F) = false := by
    split
    · exact LawfulCmp.zero_num
    · rename_i h; simpa using h
  have := clamp_props hnum h2
  exact ⟨⟨_, hinv.min_mem, this.1⟩, ⟨_, hinv.max_mem, this.2⟩⟩

/-- C36: a trained regressor predicts for every example of its index size; no panic, whatever it was trained with and however configured. -/
theorem C36_predict_never_panics [LawfulCmp F] (dbg : Bool) (hash : HashFn) (cfg : CoinConfig F) (g : GlobalConfig)
    (es : List (TrainEx F)) (c : Coin F) (hc : Coin.Reached dbg hash cfg g es c) (f : SparseFeatures F) (hf : f.Fits g.numBits) :
    ∃ p raw : F, c.predict dbg f = .ok (p, raw) := by
  obtain ⟨hok, _, hr, _⟩ := reached_inv hc
  have hv := C01_index_in_range c.pass f (by rw [hok.bits]; exact hok.le31) (by rw [hok.bits]; exact hf)
  rw [hok.bits] at hv
  unfold Coin.predict
  rw [Coin.rawSum_eq hok hv]
  simp only [bind, Except.bind, Flt.clamp, hr.le, if_true]
  exact ⟨_, _, rfl⟩

/-- C36: training never panics either: every list of examples of the right index size can be learned. -/
theorem C36_learn_never_panics [LawfulCmp F] (dbg : Bool) (hash : HashFn) (cfg : CoinConfig F) (g : GlobalConfig) (c0 : Coin F)
    (h0 : Coin.new hash cfg g 1 = .ok c0) (es : List (TrainEx F)) (hf : ∀ e ∈ es, e.feats.Fits g.numBits) :
    ∃ c, c0.trainAll dbg es = .ok c := by
  have key : ∀ (es : List (TrainEx F)) (c : Coin F), c.Ok g.numBits → c.RangeOk → (∀ e ∈ es, e.feats.Fits g.numBits) →
      ∃ c', c.trainAll dbg es = .ok c' := by
    intro es
    induction es with
    | nil => intro c _ _ _; exact ⟨c, rfl⟩
    | cons e es ih =>
      intro c hok hr hf
      have hv := C01_index_in_range c.pass e.feats (by rw [hok.bits]; exact hok.le31) (by rw [hok.bits]; exact hf e (by simp))
      rw [hok.bits] at hv
      obtain ⟨c1, h1⟩ := Coin.learn_succeeds (dbg := dbg) (w := e.weight) hok hv (rangeOk_seen hr e.label)
      obtain ⟨_, _, _, _, hok1, _⟩ := Coin.learn_inv hok h1
      have hr1 := (rangeInv_step (ls := [c.minLabel, c.maxLabel]) e hok ⟨hr, by simp, by simp⟩ h1).ok
      obtain ⟨c', h2⟩ := ih c1 hok1 hr1 (fun x hx => hf x (by simp [hx]))
      exact ⟨c', by unfold Coin.trainAll; rw [h1]; exact h2⟩
  exact key es c0 (Coin.new_ok (by omega) h0).1 (new_rangeOk (by omega) h0) hf

/-- The label values a call trains with. -/
def Call.labels : Call F → List F
  | .learn _ (.simple l) => [l.value]
  | .predictThenLearn _ (.simple l) => [l.value]
  | _ => []

theorem coin_learnImpl {dbg : Bool} {m : Meta} {c : Coin F} {ft : Features F} {l : Label F} {d : Depth} {x}
    (h : (Red.coin m).learnImpl dbg c ft l d = .ok x) : ∃ f y, ft = .simple f ∧ l = .simple y ∧
      c.learn dbg f y.value y.weight = .ok x.1 := by
  unfold Red.learnImpl at h
  obtain ⟨f, h1, h⟩ := bind_ok.1 h
  obtain ⟨y, h2, h⟩ := bind_ok.1 h
  obtain ⟨c', h3, h⟩ := bind_ok.1 h
  simp only [Except.ok.injEq] at h
  subst h
  refine ⟨f, y, asSimple_ok h1, ?_, h3⟩
  cases l <;> simp [Label.asSimple] at h2
  rw [h2]

theorem coin_step {dbg : Bool} {m : Meta} {c : Coin F} {ex : Nat → Features F} {call : Call F} {r}
    (h : Session.step dbg ⟨⟨.coin m, c⟩, ex⟩ call = .ok r) : ∃ (c' : Coin F) (es : List (TrainEx F)), r.1.w = ⟨.coin m, c'⟩ ∧
      c.trainAll dbg es = .ok c' ∧ es.map (·.label) = call.labels := by
  cases call with
  | predict i =>
    unfold Session.step at h
    obtain ⟨⟨p, ft⟩, _, h⟩ := bind_ok.1 h
    simp only [Except.ok.injEq] at h
    subst h
    exact ⟨c, [], rfl, rfl, rfl⟩
  | learn i l =>
    unfold Session.step at h
    obtain ⟨⟨w, ft⟩, h1, h⟩ := bind_ok.1 h
    simp only [Except.ok.injEq] at h
    subst h
    unfold Workspace.learn Red.learn at h1
    obtain ⟨⟨s, ft', d⟩, h2, h1⟩ := bind_ok.1 h1
    simp only [Except.ok.injEq, Prod.mk.injEq] at h1
    obtain ⟨rfl, _⟩ := h1
    obtain ⟨d1, d2, _, h2, _⟩ := wrapCall_ok h2
    obtain ⟨f, y, _, hl, h3⟩ := coin_learnImpl h2
    subst hl
    refine ⟨s, [⟨f, y.value, y.weight⟩], rfl, ?_, rfl⟩
    simp only [Coin.trainAll]
    rw [h3]
    rfl
  | predictThenLearn i l =>
    unfold Session.step at h
    obtain ⟨⟨p, w, ft⟩, h1, h⟩ := bind_ok.1 h
    simp only [Except.ok.injEq] at h
    subst h
    unfold Workspace.predictThenLearn Red.predictThenLearn at h1
    obtain ⟨⟨⟨q, s⟩, ft', d⟩, h2, h1⟩ := bind_ok.1 h1
    simp only [Except.ok.injEq, Prod.mk.injEq] at h1
    obtain ⟨_, rfl, _⟩ := h1
    obtain ⟨d1, d2, _, h2, _⟩ := wrapCall_ok h2
    unfold Red.predictThenLearnImpl defaultPredictThenLearn at h2
    obtain ⟨⟨p', ft1, d1'⟩, _, h2⟩ := bind_ok.1 h2
    obtain ⟨⟨s', ft2, d2'⟩, h3, h2⟩ := bind_ok.1 h2
    obtain ⟨_, _, h2⟩ := bind_ok.1 h2
    simp only [Except.ok.injEq, Prod.mk.injEq] at h2
    obtain ⟨⟨_, rfl⟩, _, _⟩ := h2
    obtain ⟨f, y, _, hl, h4⟩ := coin_learnImpl h3
    clear h3
    subst hl
    refine ⟨s', [⟨f, y.value, y.weight⟩], rfl, ?_, rfl⟩
    simp only [Coin.trainAll]
    rw [h4]
    rfl

theorem coin_run {dbg : Bool} {m : Meta} (calls : List (Call F)) : ∀ {c : Coin F} {ex : Nat → Features F} {r},
    Session.run dbg ⟨⟨.coin m, c⟩, ex⟩ calls = .ok r → ∃ (c' : Coin F) (es : List (TrainEx F)), r.1.w = ⟨.coin m, c'⟩ ∧
      c.trainAll dbg es = .ok c' ∧ es.map (·.label) = calls.flatMap Call.labels := by
  induction calls with
  | nil =>
    intro c ex r h
    simp only [Session.run, Except.ok.injEq] at h
    subst h
    exact ⟨c, [], rfl, rfl, rfl⟩
  | cons call cs ih =>
    intro c ex r h
    unfold Session.run at h
    obtain ⟨⟨S1, o⟩, h1, h⟩ := bind_ok.1 h
    obtain ⟨⟨S2, os⟩, h2, h⟩ := bind_ok.1 h
    simp only [Except.ok.injEq] at h
    subst h
    obtain ⟨c1, e1, hw, ht, hl⟩ := coin_step h1
    obtain ⟨w1, ex1⟩ := S1
    simp only at hw h2
    subst hw
    obtain ⟨c2, e2, hw2, ht2, hl2⟩ := ih h2
    exact ⟨c2, e1 ++ e2, hw2, by rw [Coin.trainAll_append, ht]; exact ht2, by simp [hl, hl2]⟩

/-- C36 for the API: after any history of calls, a Coin workspace predicts within the range of 0 and the labels it was given. -/
theorem C36_history [LawfulCmp F] (dbg : Bool) (hash : HashFn) (cfg : CoinConfig F) (g : GlobalConfig)
    (hl : cfg.lossFunction = .squared) (hk : cfg.linkFunction = .identity) (w : Workspace F)
    (hw : Workspace.new hash g (.coin cfg) = .ok w) (ex : Nat → Features F) (calls : List (Call F))
    (r : Session F × List (Call F × Option (Prediction F))) (hr : Session.run dbg ⟨w, ex⟩ calls = .ok r)
    (ft ft' : Features F) (p raw : F) (hp : r.1.w.predict dbg ft = .ok (.scalar p raw, ft')) :
    (∃ lo ∈ Flt.zero :: calls.flatMap Call.labels, Flt.le lo p = true) ∧
      (∃ hi ∈ Flt.zero :: calls.flatMap Call.labels, Flt.le p hi = true) := by
  have hb := built_of_new hw
  obtain ⟨red, st⟩ := w
  cases hb with
  | coin hnew =>
    obtain ⟨c', es, h1, h2, h3⟩ := coin_run calls hr
    rw [h1] at hp
    unfold Workspace.predict Red.predict at hp
    obtain ⟨⟨q, ft1, d⟩, h4, hp⟩ := bind_ok.1 hp
    simp only [Except.ok.injEq, Prod.mk.injEq] at hp
    obtain ⟨rfl, _⟩ := hp
    obtain ⟨d1, d2, _, h4, _⟩ := wrapCall_ok h4
    unfold Red.predictImpl at h4
    obtain ⟨f, _, h4⟩ := bind_ok.1 h4
    obtain ⟨⟨p1, raw1⟩, h5, h4⟩ := bind_ok.1 h4
    simp only [Except.ok.injEq, Prod.mk.injEq, Prediction.scalar.injEq] at h4
    obtain ⟨⟨rfl, rfl⟩, _⟩ := h4
    have := C36_in_label_range dbg hash cfg g hl hk es c' ⟨1, _, by omega, hnew, h2⟩ f p1 raw1 h5
    rw [h3] at this
    exact this

/-- C36 for single precision bit patterns with arbitrary arithmetic: comparisons are as in IEEE 754, nothing else is assumed. -/
theorem C36_f32 (o : F32Ops) (ho : ∀ m n : Int, m ≤ n → f32Le (o.lit m 1) (o.lit n 1) = true) (dbg : Bool) (hash : HashFn)
    (cfg : CoinConfig (BitVec 32)) (g : GlobalConfig) (hl : cfg.lossFunction = .squared) (hk : cfg.linkFunction = .identity)
    (es : List (TrainEx (BitVec 32))) (c : Coin (BitVec 32)) (hc : @Coin.Reached _ (f32Flt o) dbg hash cfg g es c)
    (f : SparseFeatures (BitVec 32)) (hf : f.Fits g.numBits) :
    ∃ p raw, @Coin.predict _ (f32Flt o) dbg c f = .ok (p, raw) ∧ f32IsNaN p = false ∧
      (∃ lo ∈ 0#32 :: es.map (·.label), f32Le lo p = true) ∧ (∃ hi ∈ 0#32 :: es.map (·.label), f32Le p hi = true) := by
  let _ : Flt (BitVec 32) := f32Flt o
  have _ : LawfulCmp (BitVec 32) := lawfulCmp_f32 o ho
  obtain ⟨p, raw, h⟩ := C36_predict_never_panics dbg hash cfg g es c hc f hf
  have h2 := C36_in_label_range dbg hash cfg g hl hk es c hc f p raw h
  refine ⟨p, raw, h, ?_, h2⟩
  obtain ⟨lo, _, h3⟩ := h2.1
  exact (LawfulCmp.le_num lo p h3).2

/-! ### C37 -/

theorem reached_ok {dbg : Bool} {hash : HashFn} {cfg : CoinConfig F} {g : GlobalConfig} {es : List (TrainEx F)} {c : Coin F}
    (h : Coin.Reached dbg hash cfg g es c) : c.Ok g.numBits ∧ c.config = cfg ∧ c.lossFunction = .squared := by
  obtain ⟨nma, c0, hn, h0, h⟩ := h
  obtain ⟨hok, hcfg, hsq, _⟩ := Coin.new_ok hn h0
  have key := Coin.trainAll_induct (dbg := dbg) (nb := g.numBits) (fun _ c => c.config = cfg ∧ c.lossFunction = .squared) (by
      intro es c c' e hc ⟨h1, h2⟩ hl
      obtain ⟨_, _, _, _, _, q, _, _, q2, _⟩ := Coin.learn_inv hc hl
      exact ⟨by rw [q, h1], by rw [q2, h2]⟩) es [] c0 c hok ⟨hcfg, hsq⟩ h
  exact key

/-- C37: a learn call leaves every weight alone that is not touched by the example, its interactions or the constant. -/
theorem C37_only_own_weights (dbg : Bool) (hash : HashFn) (cfg : CoinConfig F) (g : GlobalConfig) (es : List (TrainEx F))
    (c c' : Coin F) (hc : Coin.Reached dbg hash cfg g es c) (f : SparseFeatures F) (l w : F) (h : c.learn dbg f l w = .ok c')
    (i : U32) (hi : ¬ c.Touches f i) (s : Coin.WState F) (hs : c.Holds i s) : c'.Holds i s := by
  obtain ⟨hok, _, _⟩ := reached_ok hc
  obtain ⟨p, c1, _, _, hok', _, _, _, _, _, _, hw⟩ := Coin.learn_inv hok h
  rw [Coin.holds_iff hok] at hs
  rw [Coin.holds_iff hok']
  refine ⟨hs.1, ?_⟩
  rw [hw i.toNat hs.1]
  have : c.visitsAt f i.toNat = [] := by
    unfold Coin.visitsAt
    rw [List.filter_eq_nil_iff]
    rintro ⟨j, v⟩ hj
    simp only [decide_eq_true_eq]
    intro he
    have : j = i := BitVec.eq_of_toNat_eq he
    subst this
    exact hi ⟨v, hj⟩
  rw [this]
  exact hs.2

/-- C37: the raw prediction for an example that shares no weight with what was learned is unchanged. -/
theorem C37_prediction_unchanged (dbg : Bool) (hash : HashFn) (cfg : CoinConfig F) (g : GlobalConfig) (es : List (TrainEx F))
    (c c' : Coin F) (hc : Coin.Reached dbg hash cfg g es c) (f : SparseFeatures F) (l w : F) (h : c.learn dbg f l w = .ok c')
    (f' : SparseFeatures F) (hd : ∀ i, c.Touches f i → ¬ c.Touches f' i) (p raw p' raw' : F)
    (hp : c.predict dbg f' = .ok (p, raw)) (hp' : c'.predict dbg f' = .ok (p', raw')) : raw' = raw := by
  obtain ⟨hok, _, _⟩ := reached_ok hc
  obtain ⟨_, c1, _, _, hok', _, _, _, _, hpass, _, _⟩ := Coin.learn_inv hok h
  unfold Coin.predict at hp hp'
  obtain ⟨x, h1, hp⟩ := bind_ok.1 hp
  obtain ⟨_, _, hp⟩ := bind_ok.1 hp
  obtain ⟨x', h1', hp'⟩ := bind_ok.1 hp'
  obtain ⟨_, _, hp'⟩ := bind_ok.1 hp'
  simp only [Except.ok.injEq, Prod.mk.injEq] at hp hp'
  rw [← hp.2, ← hp'.2]
  obtain ⟨hr, e⟩ := Coin.rawSum_inv hok h1
  obtain ⟨_, e'⟩ := Coin.rawSum_inv hok' h1'
  have hx : x' = x := by
    rw [e, e', hpass]
    apply List.foldl_ext
    rintro acc ⟨i, v⟩ hiv
    have hni : ¬ c.Touches f i := fun ht => hd i ht ⟨v, hiv⟩
    have := C37_only_own_weights dbg hash cfg g es c c' hc f l w h i hni (c.weights.wst i.toNat)
      ((Coin.holds_iff hok).2 ⟨hr _ hiv, rfl⟩)
    rw [((Coin.holds_iff hok').1 this).2]
  rw [hx]

/-! ### C40 -/

theorem zeroOrNaN_sum [LawfulZero F] (vs : List (U32 × F)) (wt : U32 × F → F) (h : ∀ iv ∈ vs, Flt.eq (wt iv) Flt.zero = true) :
    ∀ a : F, Flt.zeroOrNaN a → Flt.zeroOrNaN (vs.foldl (fun acc iv => Flt.add acc (Flt.mul iv.2 (wt iv))) a) := by
  induction vs with
  | nil => intro a ha; exact ha
  | cons iv vs ih =>
    intro a ha
    exact ih (fun x hx => h x (by simp [hx])) _ (LawfulZero.add_zero _ _ ha (LawfulZero.mul_zero _ _ (h iv (by simp))))

/-- C40: an example that shares no weight with any training example has raw prediction 0 (a zero of either sign). With an empty history:
a fresh model predicts 0 for everything. -/
theorem C40_zero_until_trained [LawfulZero F] (dbg : Bool) (hash : HashFn) (cfg : CoinConfig F) (g : GlobalConfig)
    (es : List (TrainEx F)) (c : Coin F) (hc : Coin.Reached dbg hash cfg g es c) (f : SparseFeatures F)
    (hd : ∀ e ∈ es, ∀ i, c.Touches e.feats i → ¬ c.Touches f i) (p raw : F) (hp : c.predict dbg f = .ok (p, raw)) :
    Flt.eq raw Flt.zero = true := by
  obtain ⟨hok, _, _⟩ := reached_ok hc
  have hzero : ∀ i : U32, i.toNat < 2 ^ g.numBits → (∀ e ∈ es, ¬ c.Touches e.feats i) → (c.weights.wst i.toNat).xt = Flt.zero := by
    obtain ⟨nma, c0, hn, h0, h⟩ := hc
    obtain ⟨hok0, _, _, _, hz⟩ := Coin.new_ok hn h0
    have key := Coin.trainAll_induct (dbg := dbg) (nb := g.numBits) (fun es c => ∀ i : U32, i.toNat < 2 ^ g.numBits →
        (∀ e ∈ es, ¬ c.Touches e.feats i) → (c.weights.wst i.toNat).xt = Flt.zero) (by
      intro es c c' e hc hz hl i hi hn
      obtain ⟨_, _, _, _, _, _, _, _, _, hpass, _, hw⟩ := Coin.learn_inv hc hl
      have ht : ∀ f j, c'.Touches f j ↔ c.Touches f j := by intro f j; unfold Coin.Touches; rw [hpass]
      rw [hw _ hi]
      have : c.visitsAt e.feats i.toNat = [] := by
        unfold Coin.visitsAt
        rw [List.filter_eq_nil_iff]
        rintro ⟨j, v⟩ hj
        simp only [decide_eq_true_eq]
        intro he
        have : j = i := BitVec.eq_of_toNat_eq he
        subst this
        exact hn e (by simp) ((ht _ _).2 ⟨v, hj⟩)
      rw [this]
      exact hz i hi (fun x hx hxi => hn x (by simp [hx]) ((ht _ _).2 hxi))) es [] c0 c hok0 (by
        intro i hi _
        rw [hz _ hi]) h
    simpa using key.2
  unfold Coin.predict at hp
  obtain ⟨x, h1, hp⟩ := bind_ok.1 hp
  obtain ⟨_, _, hp⟩ := bind_ok.1 hp
  simp only [Except.ok.injEq, Prod.mk.injEq] at hp
  obtain ⟨hr, e⟩ := Coin.rawSum_inv hok h1
  have hx : Flt.zeroOrNaN x := by
    rw [e]
    refine zeroOrNaN_sum (visited c.pass f) (fun iv => (c.weights.wst iv.1.toNat).xt) ?_ _ (.inr LawfulZero.zero_eq)
    rintro ⟨i, v⟩ hiv
    rw [hzero i (hr _ hiv) (fun e he ht => hd e he i ht ⟨v, hiv⟩)]
    exact LawfulZero.zero_eq
  rw [← hp.2]
  split
  · exact LawfulZero.zero_eq
  · rename_i hn
    rcases hx with q | q
    · exact absurd q hn
    · exact q

section examples
attribute [local instance] intFlt

/-- A training history with two examples reaches a regressor that predicts. -/
example : ∃ c : Coin Int, ∃ p : Int × Int, Coin.Reached true tinyHash CoinConfig.dflt tinyGlobal [⟨tinyFeat 1#32 1, 3, 1⟩, ⟨tinyFeat 2#32 2, -4, 1⟩] c ∧
    c.predict true (tinyFeat 3#32 1) = .ok p ∧ (tinyFeat 3#32 (1 : Int)).Fits tinyGlobal.numBits :=
  ⟨_, _, ⟨1, _, by decide, rfl, rfl⟩, rfl, by unfold SparseFeatures.Fits; decide⟩

end examples

end Rml
