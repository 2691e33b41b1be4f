import Verif.Lemmas.Command2
import Verif.Lemmas.VwText
import Verif.Props.Serde

/-! Lemmas for the theorems about the commands: completion of runs, the example counter, numbers in options, the JSON round trip. -/

set_option linter.unusedSectionVars false

namespace Rml
open Text Serde
variable {F : Type} [Flt F] {N : Type}

theorem SimS.symm {s s' : Coin.WState F} (h : SimS s s') : SimS s' s :=
  ⟨h.xt.elim (fun e => .inl e.symm) (fun e => .inr ⟨e.2, e.1⟩), h.zt.symm, h.g2.symm, h.mx.symm, h.we.symm, h.mg.symm⟩

theorem SimT.symm {nb : Nat} {w w' : DenseWeights F} (h : SimT nb w w') : SimT nb w' w :=
  ⟨h.tbl', h.tbl, by rw [h.dims], fun i hi => (h.states i hi).symm⟩

theorem SimC.symm {nb : Nat} {c c' : Coin F} (h : SimC nb c c') : SimC nb c' c := ⟨h.tables.symm, by rw [h.same]⟩

theorem simSt_symm {nb : Nat} (r : Red F) : ∀ {s s' : r.State}, SimSt (Twin nb) r s s' → SimSt (Twin nb) r s' s := by
  induction r with
  | coin m => exact fun h => ⟨h.1.symm, h.2.2, h.2.1⟩
  | binary m r ih => exact fun h => ih h
  | cbAdf m t r ih => exact fun h => ⟨h.1.symm, ih h.2⟩
  | greedy m e r ih => exact fun h => ih h
  | softmax m a b r ih => exact fun h => ⟨h.1.symm, ih h.2⟩
  | squareCb m a b c r ih => exact fun h => ⟨h.1.symm, ih h.2⟩
  | debug m r ih => exact fun h => ih h
  | elementwise m a b c r ih => exact fun h => ih h

theorem simWs_symm {nb : Nat} {w w' : Workspace F} (h : SimWs (Twin nb) w w') : SimWs (Twin nb) w' w := by
  obtain ⟨st', rfl, hs⟩ := h
  exact ⟨w.st, rfl, simSt_symm _ hs⟩

/-! ### Runs with threads complete -/

theorem PoolPipe.exec_append {O C R W : Type} {n : Nat} (p : PoolPipe O C R W) (ts us : List (PoolTid n)) : ∀ s : PoolState O C R W n,
    p.exec (ts ++ us) s = (p.exec ts s).bind (p.exec us) := by
  induction ts with
  | nil => intro s; rfl
  | cons t ts ih =>
    intro s
    simp only [List.cons_append, PoolPipe.exec]
    cases p.step t s with
    | next s' => exact ih s'
    | blocked => rfl
    | fault => rfl

theorem run_completes {P : Str → Prop} {parse : Cli.Parse F} (hp : ParserOk P parse) (dbg : Bool) (o : TrainOpts) (q n : Nat) (hn : 0 < n) (hq : 0 < q)
    (cs : List Str) (hcs : ∀ c ∈ cs, P c) (w0 : TrainWorld F) (hw : w0.ws.FromConfig) (hseq : (trainLoop dbg o parse cs w0 ⟨[]⟩).2 = true) :
    ∃ s : PoolState (SparseFeatures F) Str (Features F × Option (Label F)) (TrainWorld F) n,
      PoolRun (trainPoolPipe dbg o q parse) cs w0 ⟨[]⟩ s ∧ s.st.learner = .finished := by
  by_contra hno
  have key : ∀ k : Nat, ∃ (ts : List (Tid n)) (s : PoolState (SparseFeatures F) Str (Features F × Option (Label F)) (TrainWorld F) n),
      ts.length = k ∧ (∀ t ∈ ts, t ≠ .spurious) ∧ (trainPoolPipe dbg o q parse).exec (ts.map .thread) (PoolState.init cs w0 ⟨[]⟩) = some s := by
    intro k
    induction k with
    | zero => exact ⟨[], _, rfl, by simp, rfl⟩
    | succ k ih =>
      obtain ⟨ts, s, h1, h2, h3⟩ := ih
      have hr := PoolRun.exec _ (PoolRun.start (p := trainPoolPipe dbg o q parse)) h3
      have ht := trainsLike hp dbg o q cs hcs w0 hw ⟨[]⟩ ⟨[]⟩ .empty .empty s hr
      by_cases hst : ∀ t s', t ≠ Tid.spurious → (trainPoolPipe dbg o q parse).step (.thread t) s ≠ .next s'
      · exact absurd ⟨s, hr, (ht.progress hn hq hseq hst).2.1⟩ hno
      · push Not at hst
        obtain ⟨t, s', h4, h5⟩ := hst
        refine ⟨ts ++ [t], s', by simp [h1], ?_, ?_⟩
        · intro u hu
          rcases List.mem_append.1 hu with hu | hu
          · exact h2 u hu
          · rw [List.mem_singleton.1 hu]; exact h4
        · rw [List.map_append, PoolPipe.exec_append, h3]
          simp only [Option.bind_some, List.map_cons, List.map_nil, PoolPipe.exec, h5]
  obtain ⟨ts, s, h1, h2, h3⟩ := key (20 * cs.length + n + 5)
  have hb := trains_bounded hp dbg o q cs hcs w0 hw ⟨[]⟩ .empty (ts.map .thread) s h3
  have e : (ts.map PoolTid.thread).filterMap PoolTid.thread? = ts := by
    rw [List.filterMap_map]
    exact List.filterMap_some
  rw [e] at hb
  have e1 : ts.countP (· != .spurious) = ts.length := List.countP_eq_length.2 (by intro t ht; simpa using h2 t ht)
  have e2 : ts.countP (· == .spurious) = 0 := List.countP_eq_zero.2 (by intro t ht; simpa using h2 t ht)
  rw [e1, e2, h1] at hb
  omega

/-! ### The example counter -/

namespace Cli

theorem process_count {dbg : Bool} {o : TrainOpts} (ho : o.quiet = false) {w0 w1 : TrainWorld F} {ft ft1 : Features F} {lo : Option (Label F)} {k : Nat}
    (h : processFeatures dbg o w0 ft lo = .ok (w1, ft1)) (hk : w0.metrics.head? = some (.exampleNumber k)) :
    w1.metrics.head? = some (.exampleNumber (k + 1)) := by
  unfold processFeatures at h
  obtain ⟨l, hl, h0⟩ := bind_ok.1 h
  clear h
  rw [if_pos (by simp [ho])] at h0
  obtain ⟨⟨p, ws, ft2⟩, h1, h0⟩ := bind_ok.1 h0
  obtain ⟨ms, h2, h0⟩ := bind_ok.1 h0
  obtain ⟨⟨out, mg⟩, h3, h0⟩ := bind_ok.1 h0
  have h4 : w1.metrics = ms := by
    cases out with
    | true =>
      simp only [if_true] at h0
      obtain ⟨row, h4, h0⟩ := bind_ok.1 h0
      simp only [Except.ok.injEq, Prod.mk.injEq] at h0
      rw [← h0.1]
    | false =>
      simp only [Bool.false_eq_true, if_false] at h0
      obtain ⟨row, h4, h0⟩ := bind_ok.1 h0
      simp only [Except.ok.injEq, Prod.mk.injEq] at h0
      rw [← h0.1]
  rw [h4]
  cases hm : w0.metrics with
  | nil => rw [hm] at hk; cases hk
  | cons m0 rest =>
    rw [hm] at hk h2
    simp only [List.head?_cons, Option.some.injEq] at hk
    subst hk
    rw [List.mapM_cons] at h2
    obtain ⟨m1, g1, h2⟩ := bind_ok.1 h2
    obtain ⟨ms1, g2, h2⟩ := bind_ok.1 h2
    simp only [Metric.addPoint, Except.ok.injEq] at g1
    have : ms = m1 :: ms1 := by
      have h2 : (Except.ok (m1 :: ms1) : M _) = .ok ms := h2
      injection h2 with h2
      exact h2.symm
    rw [this, ← g1]
    rfl

theorem sequential_count {parse : Parse F} {dbg : Bool} {o : TrainOpts} (ho : o.quiet = false) (q : Nat) (cs : List Str) : ∀ {w0 w : TrainWorld F} {k : Nat},
    w0.metrics.head? = some (.exampleNumber k) → ((trainPoolPipe dbg o q parse).withObjects ⟨[]⟩).sequential cs w0 = (w, true) →
    w.metrics.head? = some (.exampleNumber (k + cs.length)) := by
  induction cs with
  | nil =>
    intro w0 w k hk h
    simp only [Pipe.sequential, Prod.mk.injEq, and_true] at h
    subst h
    exact hk
  | cons c cs ih =>
    intro w0 w k hk h
    simp only [Pipe.sequential] at h
    split at h
    · split at h
      · rename_i w1 hw1
        obtain ⟨r1, e1, e2⟩ := Option.map_eq_some_iff.1 hw1
        simp only [trainPoolPipe] at e1
        split at e1
        · rename_i w2 ft2 hpf
          simp only [Option.some.injEq] at e1
          subst e1
          simp only at e2
          subst e2
          have := ih (process_count ho hpf hk) h
          rw [this, List.length_cons]
          congr 2
          omega
        · cases e1
      · simp at h
    · simp at h
    · simp at h

theorem makeMetrics_head {a : TrainArgs} {ms : List (Metric F)} (h : a.makeMetrics = .ok ms) : ms.head? = some (.exampleNumber 0) := by
  unfold TrainArgs.makeMetrics at h
  obtain ⟨m0, h0, h⟩ := bind_ok.1 h
  have e : m0 = .exampleNumber 0 := by
    have h0 : unwrapOpt (some (.exampleNumber 0 : Metric F)) = .ok m0 := h0
    simp only [unwrapOpt, Except.ok.injEq] at h0
    exact h0.symm
  subst e
  cases hm : a.metrics with
  | none =>
    rw [hm] at h
    simp only [Except.ok.injEq] at h
    rw [← h]; rfl
  | some ns =>
    rw [hm] at h
    obtain ⟨rest, _, h⟩ := bind_ok.1 h
    simp only [Except.ok.injEq] at h
    rw [← h]; rfl

end Cli

/-! ### Numbers in options -/

namespace Vw

theorem digitsFold (ds : List (Fin 10)) : (ds.map digitChar).foldl digitStep (some 0) = some (decimal ds) := by
  rw [digits_fold]
  rfl

theorem parseU32_digits {ds : List (Fin 10)} (h1 : ds ≠ []) (h2 : decimal ds < 2 ^ 32) : parseU32 (ds.map digitChar) = some (decimal ds) := by
  have e : parseU32 (ds.map digitChar) = let d := if startsWith '+' (ds.map digitChar) then (ds.map digitChar).tail else ds.map digitChar
      if d.isEmpty then none else match d.foldl digitStep (some 0) with | some n => if n < 2 ^ 32 then some n else none | none => none := rfl
  rw [e]
  cases ds with
  | nil => exact absurd rfl h1
  | cons d ds =>
    have : startsWith '+' ((d :: ds).map digitChar) = false := by simp [startsWith, digitChar_ne_plus]
    simp only [this, Bool.false_eq_true, if_false]
    rw [digitsFold, if_neg (by simp)]
    exact if_pos h2

theorem parseU32_plus {ds : List (Fin 10)} (h1 : ds ≠ []) (h2 : decimal ds < 2 ^ 32) : parseU32 ('+' :: ds.map digitChar) = some (decimal ds) := by
  have e : parseU32 ('+' :: ds.map digitChar) = let d := if startsWith '+' ('+' :: ds.map digitChar) then ('+' :: ds.map digitChar).tail else '+' :: ds.map digitChar
      if d.isEmpty then none else match d.foldl digitStep (some 0) with | some n => if n < 2 ^ 32 then some n else none | none => none := rfl
  rw [e]
  simp only [startsWith, List.head?_cons, decide_true, if_true, List.tail_cons]
  rw [digitsFold, if_neg (by simpa using h1)]
  exact if_pos h2

theorem parseU32_value {s : Str} {n : Nat} : parseU32 s = some n ↔
    ∃ ds : List (Fin 10), ds ≠ [] ∧ decimal ds < 2 ^ 32 ∧ (s = ds.map digitChar ∨ s = '+' :: ds.map digitChar) ∧ n = decimal ds := by
  constructor
  · intro h
    obtain ⟨ds, h1, h2, h3⟩ := (parseU32_iff s).1 (by rw [h]; rfl)
    refine ⟨ds, h1, h2, h3, ?_⟩
    rcases h3 with rfl | rfl
    · rw [parseU32_digits h1 h2] at h
      exact (Option.some.inj h).symm
    · rw [parseU32_plus h1 h2] at h
      exact (Option.some.inj h).symm
  · rintro ⟨ds, h1, h2, rfl | rfl, rfl⟩
    · exact parseU32_digits h1 h2
    · exact parseU32_plus h1 h2

end Vw

/-! ### JSON -/

namespace Cli

theorem json_roundtrip [LawfulCmp F] [SignedZero F] {fin : F → Bool} (hf0 : fin Flt.zero = true)
    {order : List (Nat × List (List F)) → List (Nat × List (List F))} (horder : ∀ l, (order l).Perm l)
    {g : GlobalConfig} {w : Workspace F} (hw : Alive g w) (hfin : FinRed fin w.red w.st) :
    ∃ j, serializeToJson fin order ⟨g, w⟩ = .ok j ∧ deserializeFromJson fin j = .ok (Serde.Model.canon ⟨g, w⟩) := by
  have hinv := hw.inv
  have hta : TablesAre (SavedTable fin) (encModel fin ⟨g, w⟩) := by
    refine ta_encModel (P := SavedTable fin) ?_
    exact ⟨_, hinv.good, by rw [hinv.models]; omega, (finRed_coin _ _ hfin).weights, rfl⟩
  obtain ⟨j, h1, h2⟩ := rewrite_inverse (SavedTable fin) (tableToND fin order) (tableToSparse fin) (by
    rintro l hl ⟨w, a1, a2, a3, a4⟩
    rw [a4]
    obtain ⟨l', q1, q2, q3⟩ := table_roundtrip SignedZero.zero_eq hf0 order horder a1 a2 a3
    exact ⟨l', q1, q2, q3⟩) _ hta
  have hdec : decModel (encModel fin ⟨g, w⟩) = some (Serde.Model.canon ⟨g, w⟩) := decModel_encModel hfin
  refine ⟨j, ?_, ?_⟩
  · unfold serializeToJson rewriteToND
    rw [h1]
    rfl
  · unfold deserializeFromJson rewriteToSparse
    rw [h2]
    show (match decModel (encModel fin ⟨g, w⟩) with
      | some m => Except.ok m
      | none => Except.error CreateError.invalid) = _
    rw [hdec]

theorem saved_doc [LawfulCmp F] [SignedZero F] {x : Externals F N} {input : Input F} (hs : Saved x input) : match input with
    | .config _ => True
    | .inputModel d => ∃ g w, d = serializeModel ⟨g, w⟩ := by
  cases hs with
  | config j => trivial
  | trained h1 h2 h3 =>
    obtain ⟨p, g, w0, w, e1, e2, e3⟩ := h2
    exact ⟨g, w.ws, (finish_ok e3).1⟩

theorem serialize_canon [SignedZero F] (g : GlobalConfig) (w : Workspace F) : serializeModel (Serde.Model.canon ⟨g, w⟩) = serializeModel ⟨g, w⟩ := by
  unfold serializeModel Serde.Model.canon encModel
  simp only [encRed_canon SignedZero.zero_eq]

end Cli
end Rml
