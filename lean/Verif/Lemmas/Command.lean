import Verif.SpecCommand
import Verif.Lemmas.PoolTrain
import Verif.Lemmas.SerdeDoc
import Verif.Props.Read
import Verif.Props.JsonParser
import Verif.Props.EndToEnd

/-! Lemmas for the theorems about the commands. -/

set_option linter.unusedSectionVars false

namespace Rml
open Text SparseFeatures
variable {F : Type} [Flt F] {N : Type}

/-! ### Chunks -/

namespace Vw

theorem next_lt {pr : Parser F} {input c rest : Str} (h : getNextChunk pr input = (some c, rest)) : rest.length < input.length := by
  unfold getNextChunk at h
  split at h
  · rcases readMulti_start (input.length + 2) input (by omega) with ⟨h1, _⟩ | ⟨l, g, r, h1, _, h2, _⟩
    · rw [h1] at h; cases h
    · rw [h1] at h; cases h; exact h2
  · rcases readSingle_spec (input.length + 1) input (by omega) with ⟨h1, _⟩ | ⟨l, r, h1, h2, _⟩
    · rw [h1] at h; cases h
    · rw [h1] at h; cases h; exact h2

theorem Reads.chunks {pr : Parser F} {input : Str} {cs : List Str} (h : Reads pr input cs) :
    ∀ fuel, input.length < fuel → Cli.chunksFrom (getNextChunk pr) fuel input = cs := by
  induction h with
  | stop h =>
    intro fuel hf
    cases fuel with
    | zero => omega
    | succ n => simp only [Cli.chunksFrom, h]
  | chunk h _ ih =>
    intro fuel hf
    have hl := next_lt h
    cases fuel with
    | zero => omega
    | succ n =>
      simp only [Cli.chunksFrom, h]
      rw [ih n (by omega)]

theorem reads_exists (pr : Parser F) (input : Str) : ∃ cs, Reads pr input cs := by
  cases hp : pr.isMultiline with
  | true => obtain ⟨cs, h, _⟩ := reads_multi_line pr hp input; exact ⟨cs, h⟩
  | false => obtain ⟨cs, h, _⟩ := reads_single_line pr hp input; exact ⟨cs, h⟩

theorem reads_chunksOf (pr : Parser F) (input : Str) : Reads pr input (Cli.chunksOf (getNextChunk pr) input) := by
  obtain ⟨cs, h⟩ := reads_exists pr input
  unfold Cli.chunksOf
  rw [h.chunks _ (by omega)]
  exact h

theorem Reads.unique {pr : Parser F} {input : Str} {cs cs' : List Str} (h : Reads pr input cs) (h' : Reads pr input cs') : cs = cs' := by
  rw [← h.chunks (input.length + 1) (by omega), ← h'.chunks (input.length + 1) (by omega)]

theorem forall₂_fun {α β : Type} {R : α → β → Prop} (hR : ∀ a b b', R a b → R a b' → b = b') {l : List α} {m m' : List β} (h : List.Forall₂ R l m)
    (h' : List.Forall₂ R l m') : m = m' := by
  induction h generalizing m' with
  | nil => cases h'; rfl
  | cons h _ ih =>
    cases h' with
    | cons h1 h2 => rw [hR _ _ _ h h1, ih h2]

theorem stripped_fun (l c c' : Str) (h : Stripped l c) (h' : Stripped l c') : c = c' := by
  rw [← trimEnd_eq h, ← trimEnd_eq h']

theorem chunkOf_fun (g : List Str) (c c' : Str) (h : ChunkOf g c) (h' : ChunkOf g c') : c = c' := by
  obtain ⟨ts, h1, rfl, _⟩ := h
  obtain ⟨ts', h2, rfl, _⟩ := h'
  rw [forall₂_fun stripped_fun h1 h2]

theorem splitOn_line {l : Str} (hl : '\n' ∉ l) (r : Str) : (l ++ '\n' :: r).splitOn '\n' = l :: r.splitOn '\n' := by
  rcases readLine_cases (l ++ '\n' :: r) with ⟨h, _⟩ | ⟨l', r', h1, h2, hx, h3⟩
  · simp at h
  · have e : l = l' ∧ r = r' := by
      clear h3 hx
      induction l generalizing l' with
      | nil =>
        cases l' with
        | nil => simpa using h1
        | cons a t => simp at h1 h2; exact absurd h1.1 h2.1
      | cons b s ih =>
        cases l' with
        | nil => simp at h1 hl; exact absurd h1.1.symm hl.1
        | cons a t =>
          simp only [List.cons_append, List.cons.injEq] at h1
          simp only [List.mem_cons, not_or] at hl h2
          obtain ⟨e1, e2⟩ := ih hl.2 t h1.2 h2.2
          exact ⟨by rw [h1.1, e1], e2⟩
    rw [h3, e.1, e.2]

theorem splitOn_lines : ∀ (ls : List Str) (B : Str), (∀ l ∈ ls, '\n' ∉ l) → (ls.flatMap (· ++ ['\n']) ++ B).splitOn '\n' = ls ++ B.splitOn '\n'
  | [], B, _ => rfl
  | l :: ls, B, h => by
    have e : (l :: ls).flatMap (· ++ ['\n']) ++ B = l ++ '\n' :: (ls.flatMap (· ++ ['\n']) ++ B) := by simp
    rw [e, splitOn_line (h l (by simp)), splitOn_lines ls B (fun x hx => h x (by simp [hx]))]
    rfl

theorem groups_append (as : List Str) (l : Str) (bs : List Str) (h : blank l = true) : groups (as ++ l :: bs) = groups as ++ groups bs := by
  unfold groups
  rw [List.splitOnP_append_cons as bs h]
  simp

theorem reads_append {pr : Parser F} {A B : Str} {cs ds : List Str} (hA : Cli.WholeExamples pr.isMultiline A) (h1 : Reads pr A cs) (h2 : Reads pr B ds) :
    Reads pr (A ++ B) (cs ++ ds) := by
  obtain ⟨ls, hl, rfl, hm⟩ := hA
  have eAB := splitOn_lines ls B hl
  have eA := splitOn_lines ls [] hl
  rw [List.append_nil, List.splitOn_nil] at eA
  cases hp : pr.isMultiline with
  | false =>
    obtain ⟨es, g1, g2⟩ := reads_single_line pr hp (ls.flatMap (· ++ ['\n']) ++ B)
    obtain ⟨cs', f1, f2⟩ := reads_single_line pr hp (ls.flatMap (· ++ ['\n']))
    obtain ⟨ds', k1, k2⟩ := reads_single_line pr hp B
    rw [h1.unique f1, h2.unique k1]
    rw [eAB, List.filter_append] at g2
    rw [eA, List.filter_append, show List.filter (fun l => !blank l) [([] : Str)] = [] from rfl, List.append_nil] at f2
    have e := forall₂_fun stripped_fun (List.rel_append f2 k2) g2
    simp only at e
    rw [e]
    exact g1
  | true =>
    obtain ⟨es, g1, g2⟩ := reads_multi_line pr hp (ls.flatMap (· ++ ['\n']) ++ B)
    obtain ⟨cs', f1, f2⟩ := reads_multi_line pr hp (ls.flatMap (· ++ ['\n']))
    obtain ⟨ds', k1, k2⟩ := reads_multi_line pr hp B
    rw [h1.unique f1, h2.unique k1]
    rw [eAB] at g2
    rw [eA] at f2
    have hg : groups (ls ++ B.splitOn '\n') = groups (ls ++ [[]]) ++ groups (B.splitOn '\n') := by
      rcases List.eq_nil_or_concat ls with rfl | ⟨as, l, rfl⟩
      · simp [groups_nil]
      · have hb := hm hp l (by simp)
        rw [List.concat_eq_append, List.append_assoc, List.append_assoc, List.singleton_append, List.singleton_append, groups_append _ _ _ hb, groups_append _ _ _ hb, groups_nil,
          List.append_nil]
    rw [hg] at g2
    have e := forall₂_fun chunkOf_fun (List.rel_append f2 k2) g2
    simp only at e
    rw [e]
    exact g1

end Vw

namespace Js

theorem next_lt {input c rest : Str} (h : getNextChunk input = (some c, rest)) : rest.length < input.length := by
  unfold getNextChunk at h
  simp only at h
  split at h
  · cases h
  · rename_i hne
    simp only [Prod.mk.injEq, Option.some.injEq] at h
    have hi : input ≠ [] := by
      rintro rfl
      exact hne rfl
    have h2 := congrArg List.length (readLine_spec input hi).2
    rw [List.length_append] at h2
    rw [← h.2]
    have : (readLine input).1.length ≠ 0 := by simpa using hne
    omega

theorem Reads.chunks {input : Str} {cs : List Str} (h : Reads input cs) : ∀ fuel, input.length < fuel → Cli.chunksFrom getNextChunk fuel input = cs := by
  induction h with
  | stop h =>
    intro fuel hf
    cases fuel with
    | zero => omega
    | succ n => simp only [Cli.chunksFrom, h]
  | chunk h _ ih =>
    intro fuel hf
    have hl := next_lt h
    cases fuel with
    | zero => omega
    | succ n =>
      simp only [Cli.chunksFrom, h]
      rw [ih n (by omega)]

theorem reads_chunksOf (input : Str) : Reads input (Cli.chunksOf getNextChunk input) := by
  obtain ⟨cs, h, _⟩ := C62_lines input
  unfold Cli.chunksOf
  rw [h.chunks _ (by omega)]
  exact h

theorem Reads.unique {input : Str} {cs cs' : List Str} (h : Reads input cs) (h' : Reads input cs') : cs = cs' := by
  rw [← h.chunks (input.length + 1) (by omega), ← h'.chunks (input.length + 1) (by omega)]

theorem readLine_line : ∀ {l : Str}, '\n' ∉ l → ∀ r : Str, readLine (l ++ '\n' :: r) = (l ++ ['\n'], r)
  | [], _, r => by simp [readLine]
  | a :: l, h, r => by
    simp only [List.mem_cons, not_or] at h
    have := readLine_line h.2 r
    have ha : a ≠ '\n' := fun e => h.1 e.symm
    simp [readLine, ha, this]

theorem reads_lines : ∀ (ls : List Str) (B : Str) (ds : List Str), (∀ l ∈ ls, '\n' ∉ l) → Reads B ds →
    Reads (ls.flatMap (· ++ ['\n']) ++ B) (ls.map (· ++ ['\n']) ++ ds)
  | [], _, _, _, h => h
  | l :: ls, B, ds, hl, h => by
    have e : (l :: ls).flatMap (· ++ ['\n']) ++ B = l ++ '\n' :: (ls.flatMap (· ++ ['\n']) ++ B) := by simp
    rw [e]
    refine .chunk ?_ (reads_lines ls B ds (fun x hx => hl x (by simp [hx])) h)
    unfold getNextChunk
    rw [readLine_line (hl l (by simp))]
    simp

theorem reads_append {A B : Str} {cs ds : List Str} (hA : Cli.WholeExamples false A) (h1 : Reads A cs) (h2 : Reads B ds) : Reads (A ++ B) (cs ++ ds) := by
  obtain ⟨ls, hl, rfl, _⟩ := hA
  have e := reads_lines ls [] [] hl (.stop rfl)
  rw [List.append_nil, List.append_nil] at e
  rw [h1.unique e]
  exact reads_lines ls B ds hl h2

end Js

/-! ### Training -/

/-- `predict_then_learn` leaves the model that `learn` leaves. -/
theorem ptl_learns {dbg : Bool} {w w' : Workspace F} (hp : w.red.PairsOk) {ft ft' : Features F} (hok : PlainEx ft) {l : Label F} {p : Prediction F}
    (h : w.predictThenLearn dbg ft l = .ok (p, w', ft')) : ∃ ft2, w.learn dbg ft l = .ok (w', ft2) := by
  unfold Workspace.predictThenLearn at h
  obtain ⟨⟨⟨p0, s0⟩, ft1, d1⟩, h1, h⟩ := bind_ok.1 h
  simp only [Except.ok.injEq, Prod.mk.injEq] at h
  obtain ⟨rfl, rfl, rfl⟩ := h
  unfold Workspace.learn Red.learn
  cases ft with
  | simple f =>
    have ha := (ptl_agree dbg w.red hp w.st l).wrap (predictImpl_nice dbg w.red hp w.st) (learnImpl_nice dbg w.red hp w.st l)
      (ptlImpl_nice dbg w.red hp w.st l 0) dbg w.red.meta 0
    obtain ⟨_, ftl, dl, g2⟩ := (ha (.simple f) 0 p0 s0 ⟨hok.1, fun ns hns => by rw [hok.2 ns hns]; rfl⟩ (by decide)).1 ⟨_, _, h1⟩
    simp only at g2
    exact ⟨ftl, by rw [g2, ok_bind]⟩
  | cbAdf f =>
    have h2 : wrapCall dbg w.red.meta (.cbAdf f) 0 0 (fun ft d => w.red.predictThenLearnImpl dbg w.st ft l d 0) = .ok ((p0, s0), ft1, d1) := h1
    obtain ⟨_, _, _, _, _, hc⟩ := wrapCall_ok h2
    obtain ⟨_, ftl, g, _⟩ := (ptl_learnsToo dbg w.red hp w.st l).wrap w.red.meta f 0 p0 s0 ft1 d1 hok (by decide) h2 hc
    simp only at g
    exact ⟨ftl, by rw [g, ok_bind]⟩

namespace Cli

abbrev Parse (F : Type) := Pool (SparseFeatures F) → Str → ParseOut ((Features F × Option (Label F)) × Pool (SparseFeatures F))

/-- Learn the chunks one after the other, each parsed with new objects. -/
def learnSeq (dbg : Bool) (parse : Parse F) : List Str → Workspace F → Option (Workspace F)
  | [], w => some w
  | c :: cs, w =>
    match parse ⟨[]⟩ c with
    | .ok ((ft, some l), _) =>
      match w.learn dbg ft l with
      | .ok (w', _) => learnSeq dbg parse cs w'
      | .error _ => none
    | _ => none

/-- The same with predictions. -/
def playSeq (dbg : Bool) (parse : Parse F) : List Str → Workspace F → Option (Workspace F × List (Prediction F))
  | [], w => some (w, [])
  | c :: cs, w =>
    match parse ⟨[]⟩ c with
    | .ok ((ft, some l), _) =>
      match w.predictThenLearn dbg ft l with
      | .ok (p, w', _) => (playSeq dbg parse cs w').map (fun r => (r.1, p :: r.2))
      | .error _ => none
    | _ => none

theorem learnSeq_append (dbg : Bool) (parse : Parse F) (cs ds : List Str) : ∀ w : Workspace F,
    learnSeq dbg parse (cs ++ ds) w = (learnSeq dbg parse cs w).bind (learnSeq dbg parse ds) := by
  induction cs with
  | nil => intro w; rfl
  | cons c cs ih =>
    intro w
    simp only [List.cons_append, learnSeq]
    split
    · split
      · exact ih _
      · rfl
    · rfl

theorem playSeq_append (dbg : Bool) (parse : Parse F) (cs ds : List Str) : ∀ w : Workspace F,
    playSeq dbg parse (cs ++ ds) w =
      (playSeq dbg parse cs w).bind (fun r => (playSeq dbg parse ds r.1).map (fun q => (q.1, r.2 ++ q.2))) := by
  induction cs with
  | nil => intro w; simp [playSeq]
  | cons c cs ih =>
    intro w
    simp only [List.cons_append, playSeq]
    split
    · split
      · rw [ih]
        simp [Option.map_bind, Option.bind_map, Function.comp_def]
      · rfl
    · rfl

section
variable {P : Str → Prop} {parse : Parse F}

theorem fresh_plainEx (hp : ParserOk P parse) {c : Str} (hc : P c) {r} (h : parse ⟨[]⟩ c = .ok r) : PlainEx r.1.1 := by
  have h1 := hp ⟨[]⟩ poolOk_nil c hc
  rw [h] at h1
  cases h1 with
  | ok h => exact h.2.2.1

theorem learn_red {dbg : Bool} {w w' : Workspace F} {ft ft' : Features F} {l : Label F} (h : w.learn dbg ft l = .ok (w', ft')) : w'.red = w.red := by
  unfold Workspace.learn at h
  obtain ⟨⟨s0, ft1, d1⟩, h1, h⟩ := bind_ok.1 h
  simp only [Except.ok.injEq, Prod.mk.injEq] at h
  rw [← h.1]

theorem process_cases {dbg : Bool} {o : TrainOpts} {w0 w1 : TrainWorld F} {ft ft1 : Features F} {lo : Option (Label F)}
    (h : processFeatures dbg o w0 ft lo = .ok (w1, ft1)) : ∃ l, lo = some l ∧
      ((∃ p ft2, w0.ws.predictThenLearn dbg ft l = .ok (p, w1.ws, ft2) ∧
        w1.predictions = if o.predictionsFile then w0.predictions ++ [p] else w0.predictions) ∨
       (o.predictionsFile = false ∧ ∃ ft2, w0.ws.learn dbg ft l = .ok (w1.ws, ft2) ∧ w1.predictions = w0.predictions)) := by
  unfold processFeatures at h
  obtain ⟨l, hl, h0⟩ := bind_ok.1 h
  clear h
  have hlo : lo = some l := by
    cases lo with
    | none => cases hl
    | some l' => simp only [unwrapOpt, Except.ok.injEq] at hl; rw [hl]
  refine ⟨l, hlo, ?_⟩
  by_cases hq : (!o.quiet || o.predictionsFile) = true
  · rw [if_pos hq] at h0
    obtain ⟨⟨p, ws, ft2⟩, h1, h0⟩ := bind_ok.1 h0
    obtain ⟨ms, h2, h0⟩ := bind_ok.1 h0
    obtain ⟨⟨out, mg⟩, h3, h0⟩ := bind_ok.1 h0
    have h4 : w1.ws = ws ∧ w1.predictions = if o.predictionsFile then w0.predictions ++ [p] else w0.predictions := by
      cases out with
      | true =>
        simp only [if_true] at h0
        obtain ⟨row, h4, h0⟩ := bind_ok.1 h0
        simp only [Except.ok.injEq, Prod.mk.injEq] at h0
        rw [← h0.1]
        exact ⟨rfl, rfl⟩
      | false =>
        simp only [Bool.false_eq_true, if_false] at h0
        obtain ⟨row, h4, h0⟩ := bind_ok.1 h0
        simp only [Except.ok.injEq, Prod.mk.injEq] at h0
        rw [← h0.1]
        exact ⟨rfl, rfl⟩
    exact .inl ⟨p, ft2, by rw [h4.1]; exact h1, h4.2⟩
  · rw [if_neg hq] at h0
    obtain ⟨⟨ws, ft2⟩, h1, h0⟩ := bind_ok.1 h0
    simp only [Except.ok.injEq, Prod.mk.injEq] at h0
    rw [← h0.1]
    refine .inr ⟨?_, ft2, h1, rfl⟩
    cases hx : o.predictionsFile with
    | true => rw [hx] at hq; simp at hq
    | false => rfl

/-- What the sequential run leaves. -/
theorem sequential_learns (hp : ParserOk P parse) (dbg : Bool) (o : TrainOpts) (q : Nat) (cs : List Str) : ∀ (w0 w : TrainWorld F),
    (∀ c ∈ cs, P c) → w0.ws.red.PairsOk → ((trainPoolPipe dbg o q parse).withObjects ⟨[]⟩).sequential cs w0 = (w, true) →
    learnSeq dbg parse cs w0.ws = some w.ws ∧
      if o.predictionsFile then ∃ ps, playSeq dbg parse cs w0.ws = some (w.ws, ps) ∧ w.predictions = w0.predictions ++ ps
      else w.predictions = w0.predictions := by
  induction cs with
  | nil =>
    intro w0 w _ _ h
    simp only [Pipe.sequential, Prod.mk.injEq, and_true] at h
    subst h
    refine ⟨rfl, ?_⟩
    split
    · exact ⟨[], rfl, by simp⟩
    · rfl
  | cons c cs ih =>
    intro w0 w hcs hw h
    simp only [Pipe.sequential, PoolPipe.withObjects, trainPoolPipe] at h
    cases hpc : parse ⟨[]⟩ c with
    | err => rw [hpc] at h; cases h
    | panic => rw [hpc] at h; cases h
    | ok r =>
      obtain ⟨⟨ft, lo⟩, pl⟩ := r
      rw [hpc] at h
      simp only at h
      have hok : PlainEx ft := fresh_plainEx hp (hcs c (by simp)) hpc
      cases hpf : processFeatures dbg o w0 ft lo with
      | error e => rw [hpf] at h; cases h
      | ok r =>
        obtain ⟨w1, ft1⟩ := r
        rw [hpf] at h
        simp only [Option.map_some] at h
        obtain ⟨l, rfl, hcase⟩ := process_cases hpf
        have hred : ∀ {w' : Workspace F} {ft'}, w0.ws.learn dbg ft l = .ok (w', ft') → w'.red.PairsOk := fun h => by rw [learn_red h]; exact hw
        rcases hcase with ⟨p, ft2, h1, hpr⟩ | ⟨hpo, ft2, h1, hpr⟩
        · obtain ⟨ftl, h5⟩ := ptl_learns hw hok h1
          obtain ⟨g1, g2⟩ := ih _ w (fun c hc => hcs c (by simp [hc])) (hred h5) h
          refine ⟨by simp only [learnSeq, hpc, h5, g1], ?_⟩
          cases hpo : o.predictionsFile with
          | true =>
            rw [hpo] at g2 hpr
            simp only [if_true] at g2 hpr ⊢
            obtain ⟨ps, g3, g4⟩ := g2
            refine ⟨p :: ps, ?_, by rw [g4, hpr]; simp⟩
            simp only [playSeq, hpc, h1, g3, Option.map_some]
          | false =>
            rw [hpo] at g2 hpr
            simp only [Bool.false_eq_true, if_false] at g2 hpr ⊢
            rw [g2, hpr]
        · obtain ⟨g1, g2⟩ := ih _ w (fun c hc => hcs c (by simp [hc])) (hred h1) h
          refine ⟨by simp only [learnSeq, hpc, h1, g1], ?_⟩
          rw [hpo] at g2 ⊢
          simp only [Bool.false_eq_true, if_false] at g2 ⊢
          rw [g2, hpr]

/-- The quiet run succeeds if learning does. -/
theorem quiet_sequential (dbg : Bool) (q : Nat) (cs : List Str) : ∀ (w0 : TrainWorld F) (w : Workspace F), learnSeq dbg parse cs w0.ws = some w →
    ((trainPoolPipe dbg ⟨true, false⟩ q parse).withObjects ⟨[]⟩).sequential cs w0 = ({ w0 with ws := w }, true) := by
  induction cs with
  | nil =>
    intro w0 w h
    simp only [learnSeq, Option.some.injEq] at h
    subst h
    rfl
  | cons c cs ih =>
    intro w0 w h
    simp only [learnSeq] at h
    split at h
    · rename_i ft l pl hpc
      split at h
      · rename_i w' ft' hle
        simp only [Pipe.sequential, PoolPipe.withObjects, trainPoolPipe, hpc]
        have e : processFeatures dbg ⟨true, false⟩ w0 ft (some l) = .ok ({ w0 with ws := w' }, ft') := by
          unfold processFeatures
          simp only [unwrapOpt]
          rw [ok_bind]
          simp only [Bool.not_true, Bool.or_self, Bool.false_eq_true, if_false]
          rw [hle, ok_bind]
        rw [e]
        simp only [Option.map_some]
        exact ih { w0 with ws := w' } w h
      · cases h
    · cases h

end

end Cli
end Rml
