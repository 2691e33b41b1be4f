import Verif.Lemmas.Command2
import Verif.SpecPlay

/-! Lemmas for C77: `predict_then_learn` on parsed examples predicts what `predict` predicts, and `train` plays the examples. -/

namespace Rml
open Text Serde
set_option linter.unusedSectionVars false
variable {F : Type} [Flt F]

/-- If `ptl` succeeds and passes the check of its wrapper, so does `pred`, with the same prediction. -/
def PredictsToo {S : Type} (dbg : Bool) (pred : Features F → Depth → M (Prediction F × Features F × Depth))
    (ptl : Features F → Depth → M ((Prediction F × S) × Features F × Depth)) : Prop :=
  ∀ f d p s ft' d', CbPlain f → d < 256 → ptl (.cbAdf f) d = .ok ((p, s), ft', d') → debugAssert dbg (ft'.absDiffEq (.cbAdf f) Flt.epsilon) = .ok () →
    d' = d ∧ (∃ f', ft' = .cbAdf f' ∧ CbLe f' f) ∧
      ∃ ftp, pred (.cbAdf f) d = .ok (p, ftp, d) ∧ debugAssert dbg (ftp.absDiffEq (.cbAdf f) Flt.epsilon) = .ok ()

theorem CbPlain.le_refl {f : CBAdfFeatures F} (h : CbPlain f) : CbLe f f := by
  refine ⟨?_, forall₂_le_refl h.actions⟩
  have hs := h.shared
  revert hs
  generalize f.shared = s
  intro hs
  cases s with
  | none => exact .none
  | some s => exact .some (.refl (hs s rfl).inv)

theorem PredictsToo.default {S : Type} {dbg : Bool} {pred : Features F → Depth → M (Prediction F × Features F × Depth)}
    {lrn : Features F → Depth → M (S × Features F × Depth)} (hp : CallLoose pred) (hl : CallLe lrn) :
    PredictsToo dbg pred (defaultPredictThenLearn pred lrn) := by
  intro f d p s ft' d' hf hd h hc
  obtain ⟨rfl, ft1, d1, h1, h2⟩ := defaultPtl_ok h
  obtain ⟨rfl, f1, rfl, e1⟩ := hp f _ p ft1 d1 hf hd h1
  have hf1 := hf.of_le e1.le
  obtain ⟨_, f2, rfl, e2⟩ := hl f1 _ s ft' _ hf1 hd h2
  refine ⟨rfl, ⟨f2, rfl, e2.trans e1.le⟩, .cbAdf f1, h1, ?_⟩
  cases dbg with
  | false => rfl
  | true =>
    have hc' : (Features.cbAdf f2).absDiffEq (.cbAdf f) Flt.epsilon = true := by
      cases hx : (Features.cbAdf f2).absDiffEq (.cbAdf f) Flt.epsilon with
      | true => rfl
      | false => rw [hx] at hc; cases hc
    have e := cbLe_le_eqv e2 e1.le hc'
    have e' := cbLe_le_eqv ((hf1.of_le e2).le_refl) (e2.trans e1.le) hc'
    rw [ftAbsDiffEq_congr (FtEqv.cb (e.trans e'.symm)) (FtEqv.cb (e.symm.trans e)), hc']
    rfl

theorem PredictsToo.wrap {S : Type} {dbg : Bool} {pred : Features F → Depth → M (Prediction F × Features F × Depth)}
    {ptl : Features F → Depth → M ((Prediction F × S) × Features F × Depth)} (h : PredictsToo dbg pred ptl) (m : Meta) :
    PredictsToo dbg (fun ft d => wrapCall dbg m ft d 0 pred) (fun ft d => wrapCall dbg m ft d 0 ptl) := by
  intro f d p s ft' d' hf hd hr hc
  obtain ⟨d1, d2, h1, h2, h3, h4⟩ := wrapCall_ok hr
  obtain ⟨rfl, hle, ftl, g1, g2⟩ := h f d1 p s ft' d2 hf (increment_lt h1) h2 h4
  simp only at h3
  have hdd := (increment_decrement hd h1 h3).2
  refine ⟨hdd, hle, ftl, ?_, g2⟩
  simp only [wrapCall]
  rw [h1, ok_bind, g1, ok_bind]
  simp only
  rw [h3, ok_bind, g2, ok_bind, hdd]

theorem ptl_predictsToo (dbg : Bool) (r : Red F) (hp : r.PairsOk) : ∀ (s : r.State) (l : Label F),
    PredictsToo dbg (r.predictImpl dbg s) (fun ft d => r.predictThenLearnImpl dbg s ft l d 0) := by
  have hdef : ∀ (r : Red F) (_ : r.PairsOk) (s : r.State) (l : Label F),
      PredictsToo dbg (r.predictImpl dbg s) (defaultPredictThenLearn (r.predictImpl dbg s) fun ft d => r.learnImpl dbg s ft l d) :=
    fun r hp s l => PredictsToo.default (predict_loose dbg r hp s) (learn_le dbg r hp s l)
  induction r with
  | coin m => intro s l; exact hdef _ hp s l
  | cbAdf m ty r ih => intro s l; exact hdef _ hp s l
  | greedy m e r ih => intro s l; exact hdef _ hp s l
  | softmax m e lm r ih => intro s l; exact hdef _ hp s l
  | squareCb m e gs ge r ih => intro s l; exact hdef _ hp s l
  | debug m r ih => intro s l; exact (ih hp s l).wrap r.meta
  | elementwise m pair keep bits r ih =>
    intro s l f d p s' ft' d' _ _ h
    simp only [Red.predictThenLearnImpl, elementwise_cb] at h
    cases h
  | binary m r ih =>
    intro s l f d p s' ft' d' hf hd h hc
    simp only [Red.predictThenLearnImpl, Red.predictImpl] at h ⊢
    obtain ⟨b, hb, h⟩ := bind_ok.1 h
    obtain ⟨⟨⟨p0, s0⟩, ft1, d1⟩, h1, h⟩ := bind_ok.1 h
    obtain ⟨⟨pr, _⟩, h2, h⟩ := bind_ok.1 h
    simp only [Except.ok.injEq, Prod.mk.injEq] at h
    obtain ⟨⟨rfl, rfl⟩, rfl, rfl⟩ := h
    obtain ⟨g1, g2, ftp, g3, g4⟩ := (ih hp s (.simple (binaryToSimple b))).wrap r.meta f d p0 s0 _ _ hf hd h1 hc
    refine ⟨g1, g2, ftp, ?_, g4⟩
    simp only at g3
    rw [g3, ok_bind]
    simp only
    rw [h2, ok_bind]

/-- `predict_then_learn` predicts what `predict` predicts. -/
theorem ptl_predicts {dbg : Bool} {w w' : Workspace F} (hp : w.red.PairsOk) {ft ft' : Features F} (hok : PlainEx ft) {l : Label F} {p : Prediction F}
    (h : w.predictThenLearn dbg ft l = .ok (p, w', ft')) : ∃ ft2, w.predict dbg ft = .ok (p, ft2) := by
  unfold Workspace.predictThenLearn at h
  obtain ⟨⟨⟨p0, s0⟩, ft1, d1⟩, h1, h⟩ := bind_ok.1 h
  simp only [Except.ok.injEq, Prod.mk.injEq] at h
  obtain ⟨rfl, rfl, rfl⟩ := h
  unfold Workspace.predict Red.predict
  cases ft with
  | simple f =>
    have ha := (ptl_agree dbg w.red hp w.st l).wrap (predictImpl_nice dbg w.red hp w.st) (learnImpl_nice dbg w.red hp w.st l)
      (ptlImpl_nice dbg w.red hp w.st l 0) dbg w.red.meta 0
    obtain ⟨⟨ftl, dl, g2⟩, _⟩ := (ha (.simple f) 0 p0 s0 ⟨hok.1, fun ns hns => by rw [hok.2 ns hns]; rfl⟩ (by decide)).1 ⟨_, _, h1⟩
    simp only at g2
    exact ⟨ftl, by rw [g2, ok_bind]⟩
  | cbAdf f =>
    have h2 : wrapCall dbg w.red.meta (.cbAdf f) 0 0 (fun ft d => w.red.predictThenLearnImpl dbg w.st ft l d 0) = .ok ((p0, s0), ft1, d1) := h1
    obtain ⟨_, _, _, _, _, hc⟩ := wrapCall_ok h2
    obtain ⟨_, _, ftl, g, _⟩ := (ptl_predictsToo dbg w.red hp w.st l).wrap w.red.meta f 0 p0 s0 ft1 d1 hok (by decide) h2 hc
    simp only at g
    exact ⟨ftl, by rw [g, ok_bind]⟩

namespace Cli
variable {N : Type}

theorem parsed_iff {x : Externals F N} {fmt : DataFormat} {m : Serde.Model F} {p : TextParser F} (hp : parserFor x fmt m = .ok p) (c : Str)
    (ex : Features F × Label F) : Parsed x fmt m c ex ↔ ∃ pool, p.parse ⟨[]⟩ c = .ok ((ex.1, some ex.2), pool) := by
  unfold parserFor at hp
  cases fmt with
  | vwText =>
    simp only [DataFormat.getParser, Except.ok.injEq] at hp
    subst hp
    simp only [Parsed, Vw.parseOut, Externals.vw]
    refine exists_congr fun pool => ?_
    constructor
    · intro h; rw [h]
    · intro h; split at h <;> cases h; assumption
  | dsjson =>
    simp only [DataFormat.getParser] at hp
    split at hp
    · cases hp
    · split at hp
      · cases hp
      · simp only [Except.ok.injEq] at hp
        subst hp
        simp only [Parsed, Ds.parseOut, Externals.js]
        refine exists_congr fun pool => ?_
        constructor
        · intro h; rw [h]
        · intro h; split at h <;> cases h; assumption
  | json =>
    simp only [DataFormat.getParser, Except.ok.injEq] at hp
    subst hp
    simp only [Parsed, Js.parseOut, Externals.js]
    refine exists_congr fun pool => ?_
    constructor
    · intro h; rw [h]
    · intro h; split at h <;> cases h; assumption

theorem parser_fits {x : Externals F N} {fmt : DataFormat} {m : Serde.Model F} {p : TextParser F} (hp : parserFor x fmt m = .ok p) : FormatFits fmt m := by
  rintro rfl
  unfold parserFor at hp
  simp only [DataFormat.getParser] at hp
  split at hp
  · cases hp
  · rename_i h1
    split at hp
    · cases hp
    · rename_i h2
      exact ⟨not_not.1 h1, not_not.1 h2⟩

theorem examples_of {x : Externals F N} {fmt : DataFormat} {m : Serde.Model F} {p : TextParser F} {data : Str} (hp : parserFor x fmt m = .ok p) :
    Examples x fmt m data (chunksOf p.next data) := by
  have hf := parser_fits hp
  unfold parserFor at hp
  cases fmt with
  | vwText =>
    simp only [DataFormat.getParser, Except.ok.injEq] at hp
    subst hp
    exact Vw.reads_chunksOf _ _
  | dsjson =>
    simp only [DataFormat.getParser, (hf rfl).1, (hf rfl).2, ne_eq, not_true_eq_false, if_false, Except.ok.injEq] at hp
    subst hp
    exact Js.reads_chunksOf _
  | json =>
    simp only [DataFormat.getParser, Except.ok.injEq] at hp
    subst hp
    exact Js.reads_chunksOf _

theorem Plays.length {dbg : Bool} {w : Workspace F} {exs : List (Features F × Label F)} {ps : List (Prediction F)} (h : Plays dbg w exs ps) :
    ps.length = exs.length := by
  induction h with
  | nil => rfl
  | cons _ _ _ ih => simp [ih]

section
variable {P : Str → Prop} {parse : Parse F}

/-- `learnSeq` learns the parsed examples. -/
theorem learnSeq_learns {dbg : Bool} {Q : Str → Features F × Label F → Prop} (hQ : ∀ c ex, Q c ex ↔ ∃ pool, parse ⟨[]⟩ c = .ok ((ex.1, some ex.2), pool))
    {w' : Workspace F} : ∀ (cs : List Str) (w : Workspace F), learnSeq dbg parse cs w = some w' ↔
      ∃ exs, List.Forall₂ Q cs exs ∧ Learns dbg w exs w' := by
  intro cs
  induction cs with
  | nil =>
    intro w
    simp only [learnSeq, Option.some.injEq]
    constructor
    · rintro rfl; exact ⟨[], .nil, .nil⟩
    · rintro ⟨exs, h1, h2⟩; cases h1; cases h2; rfl
  | cons c cs ih =>
    intro w
    constructor
    · intro h
      simp only [learnSeq] at h
      split at h
      · rename_i ft l pl hpc
        split at h
        · rename_i w1 ft1 hle
          obtain ⟨exs, h1, h2⟩ := (ih w1).1 h
          exact ⟨(ft, l) :: exs, .cons ((hQ c (ft, l)).2 ⟨pl, hpc⟩) h1, .cons hle h2⟩
        · cases h
      · cases h
    · rintro ⟨exs, h1, h2⟩
      cases h1 with
      | @cons _ ex _ exs hq h1 =>
        obtain ⟨ft, l⟩ := ex
        obtain ⟨pl, hpc⟩ := (hQ c (ft, l)).1 hq
        cases h2 with
        | cons hle h2 =>
          simp only [learnSeq, hpc, hle]
          exact (ih _).2 ⟨exs, h1, h2⟩

theorem playSeq_plays (hp : ParserOk P parse) {dbg : Bool} {Q : Str → Features F × Label F → Prop}
    (hQ : ∀ c ex, Q c ex ↔ ∃ pool, parse ⟨[]⟩ c = .ok ((ex.1, some ex.2), pool)) {w' : Workspace F} : ∀ (cs : List Str) (w : Workspace F) (ps),
      (∀ c ∈ cs, P c) → w.red.PairsOk → playSeq dbg parse cs w = some (w', ps) → ∀ exs, List.Forall₂ Q cs exs → Plays dbg w exs ps := by
  intro cs
  induction cs with
  | nil =>
    intro w ps _ _ h exs hf
    simp only [playSeq, Option.some.injEq, Prod.mk.injEq] at h
    cases hf
    rw [← h.2]
    exact .nil
  | cons c cs ih =>
    intro w ps hcs hw h exs hf
    cases hf with
    | @cons _ ex _ exs hq hf =>
      obtain ⟨ft, l⟩ := ex
      obtain ⟨pl, hpc⟩ := (hQ c (ft, l)).1 hq
      simp only [playSeq, hpc] at h
      split at h
      · rename_i p w1 ft1 hpt
        have hok : PlainEx ft := fresh_plainEx hp (hcs c (by simp)) hpc
        obtain ⟨⟨w2, ps'⟩, h1, h2⟩ := Option.map_eq_some_iff.1 h
        simp only [Prod.mk.injEq] at h2
        obtain ⟨rfl, rfl⟩ := h2
        obtain ⟨ft0, g1⟩ := ptl_predicts hw hok hpt
        obtain ⟨ft2, g2⟩ := ptl_learns hw hok hpt
        exact .cons g1 g2 (ih w1 ps' (fun c hc => hcs c (by simp [hc])) (by rw [learn_red g2]; exact hw) h1 exs hf)
      · cases h

end
end Cli
end Rml
