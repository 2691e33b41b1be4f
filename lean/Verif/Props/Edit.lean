import Verif.Lemmas.Edit
import Verif.Props.Serde
set_option linter.unusedSectionVars false

/-!
C108. An exported JSON model can be edited: the imported model has exactly the weights that were written into the document.
C109. Documents that are not models.
-/

namespace Rml
variable {F : Type} [Flt F]
open Serde DenseWeights

theorem withWeights_coin (w : DenseWeights F) (r : Red F) : ∀ s : r.State, r.coinOf (r.withWeights w s) = { r.coinOf s with weights := w } := by
  induction r with
  | coin m => intro s; rfl
  | binary m r ih => intro s; exact ih s
  | cbAdf m ty r ih => intro s; exact ih s.2
  | greedy m e r ih => intro s; exact ih s
  | softmax m e la r ih => intro s; exact ih s.2
  | squareCb m e a b r ih => intro s; exact ih s.2
  | debug m r ih => intro s; exact ih s
  | elementwise m p k n r ih => intro s; exact ih s

theorem withWeights_canon (w : DenseWeights F) (r : Red F) : ∀ s : r.State, canonRed r (r.withWeights w s) = r.withWeights w.canon s := by
  induction r with
  | coin m => intro s; rfl
  | binary m r ih => intro s; exact ih s
  | cbAdf m ty r ih => intro s; simp only [canonRed, Red.withWeights, ih]
  | greedy m e r ih => intro s; exact ih s
  | softmax m e la r ih => intro s; simp only [canonRed, Red.withWeights, ih]
  | squareCb m e a b r ih => intro s; simp only [canonRed, Red.withWeights, ih]
  | debug m r ih => intro s; exact ih s
  | elementwise m p k n r ih => intro s; exact ih s

theorem withWeights_fin {fin : F → Bool} (w : DenseWeights F) (hw : FinW fin w) (r : Red F) : ∀ s : r.State, FinRed fin r s →
    FinRed fin r (r.withWeights w s) := by
  induction r with
  | coin m => intro s h; exact ⟨hw, h.config, h.states, h.avg, h.minL, h.maxL, h.loss⟩
  | binary m r ih => intro s h; exact ih s h
  | cbAdf m ty r ih => intro s h; exact ih s.2 h
  | greedy m e r ih => intro s h; exact ⟨h.1, ih s h.2⟩
  | softmax m e la r ih => intro s h; exact ⟨h.1, h.2.1, ih s.2 h.2.2⟩
  | squareCb m e a b r ih => intro s h; exact ⟨h.1, h.2.1, h.2.2.1, ih s.2 h.2.2.2⟩
  | debug m r ih => intro s h; exact ih s h
  | elementwise m p k n r ih => intro s h; exact ih s h

theorem sameValues_read (w : DenseWeights F) (f m : Nat) : SameValues (w.read f m) (w.canon.read f m) := by
  have e : w.canon.read f m = (w.read f m).map canonZ := by
    show (List.drop (w.slot f m) (w.weights.map canonZ)).take w.featureStateSize = _
    rw [← List.map_drop, ← List.map_take]
    rfl
  rw [e]
  exact sameValues_canon _

/-- All numbers of a table of rows can be written to JSON if the listed ones and zero can. -/
theorem fin_of_rows {fin : F → Bool} (hf0 : fin Flt.zero = true) {w : DenseWeights F} (hg : w.Good) {rows : List (List Char × List (List F))}
    (hfin : ∀ row ∈ rows, ∀ s ∈ row.2, ∀ x ∈ s, fin x = true)
    (hsay : ∀ f m, f < w.featureIndexSize → m < w.modelIndexSize → RowsSay w.featureStateSize rows f m (w.read f m)) : FinW fin w := by
  intro x hx _
  obtain ⟨k, hk, rfl⟩ := List.mem_iff_getElem.1 hx
  by_cases hin : ∃ f m, f < w.featureIndexSize ∧ m < w.modelIndexSize ∧ w.slot f m ≤ k ∧ k < w.slot f m + w.featureStateSize
  · obtain ⟨f, m, hf, hm, h1, h2⟩ := hin
    have hmem : w.weights[k] ∈ w.read f m := by
      rw [List.mem_iff_getElem?]
      refine ⟨k - w.slot f m, ?_⟩
      simp only [DenseWeights.read, List.getElem?_take, List.getElem?_drop]
      rw [if_pos (by omega), show w.slot f m + (k - w.slot f m) = k by omega, List.getElem?_eq_getElem hk]
    rcases hsay f m hf hm with ⟨row, hr, _, h⟩ | ⟨_, h⟩
    · exact hfin row hr _ (List.mem_of_getElem? h) _ hmem
    · rw [h] at hmem
      rw [(List.mem_replicate.1 hmem).2]
      exact hf0
  · have := hg.pad k hk (fun f m hf hm hh => hin ⟨f, m, hf, hm, hh⟩)
    rw [List.getElem?_eq_getElem hk] at this
    injection this with this
    rw [this]
    exact hf0

/-- C108. Export the model reached by any history of calls as JSON and replace its weights by rows that fit. Importing the document succeeds and
gives the same model except for the weights. They have the same dimensions, and the numbers of every feature and model are the listed
ones, or zeros if the feature is not listed (a zero may lose its sign). -/
theorem C108_edited [LawfulCmp F] [SignedZero F] (fin : F → Bool) (hf0 : fin Flt.zero = true)
    (order : List (Nat × List (List F)) → List (Nat × List (List F))) (horder : ∀ l, (order l).Perm l) (dbg : Bool) (hash : HashFn)
    (g : GlobalConfig) (c : RedConfig F) (w : Workspace F) (hw : Workspace.new hash g c = .ok w) (ex : Nat → Features F)
    (before : List (Call F)) (S : Session F) (os) (h : Session.run dbg ⟨w, ex⟩ before = .ok (S, os)) (hfin : FinRed fin S.w.red S.w.st)
    (rows : List (List Char × List (List F))) (hrows : RowsFit S.w.coin.weights.featureIndexSize S.w.coin.weights.modelIndexSize S.w.coin.weights.featureStateSize rows)
    (hx : ∀ row ∈ rows, ∀ state ∈ row.2, ∀ x ∈ state, fin x = true) :
    ∃ j w', serializeToJson fin order ⟨g, S.w⟩ = .ok j ∧
      deserializeFromJson fin (replaceWeights (weightsObject rows) j) = .ok ⟨g, S.w.red, S.w.red.withWeights w' S.w.st⟩ ∧
      w'.weights.length = S.w.coin.weights.weights.length ∧
      w' = { S.w.coin.weights with weights := w'.weights } ∧
      ∀ feature model, feature < w'.featureIndexSize → model < w'.modelIndexSize →
        ∃ numbers state, RowsSay w'.featureStateSize rows feature model numbers ∧ w'.stateAt dbg feature model = .ok state ∧
          SameValues numbers state := by
  have hinv := session_inv hw h
  have hgood : S.w.coin.weights.Good := hinv.good
  have hmod : S.w.coin.weights.modelIndexSize ≤ 255 := by
    have : S.w.coin.weights.modelIndexSize = 1 := hinv.models
    omega
  have hfinW : FinW fin S.w.coin.weights := (finRed_coin _ _ hfin).weights
  obtain ⟨t, t1, t2, e1, e2, e3, e4, e5, tsay⟩ := toDense_rows (F := F) (a := S.w.coin.weights.modelIndexSizeShift) (b := S.w.coin.weights.featureStateSizeShift)
    hrows (Nat.pos_of_ne_zero hgood.nf) hmod hgood.wf.model_le hgood.wf.state_le
  -- the export
  obtain ⟨l₁, a1, a2, _⟩ := table_roundtrip SignedZero.zero_eq hf0 order horder hgood (by omega) hfinW
  have hta : TablesAre (SavedTable fin) (encModel fin ⟨g, S.w⟩) := ta_encModel (P := SavedTable fin) ⟨_, hgood, by omega, hfinW, rfl⟩
  obtain ⟨j, h1, _⟩ := rewrite_inverse (SavedTable fin) (tableToND fin order) (tableToSparse fin) (by
    rintro l hl ⟨w, b1, b2, b3, b4⟩
    rw [b4]
    obtain ⟨l', q1, q2, q3⟩ := table_roundtrip SignedZero.zero_eq hf0 order horder b1 b2 b3
    exact ⟨l', q1, q2, q3⟩) _ hta
  -- the table of the edited document
  have hnd : ∃ d, tableToND fin order (encW fin S.w.coin.weights) = some (.obj (tableDoc S.w.coin.weights.featureIndexSize S.w.coin.weights.modelIndexSize
      S.w.coin.weights.featureStateSize S.w.coin.weights.modelIndexSizeShift S.w.coin.weights.featureStateSizeShift d)) := by
    unfold tableToND
    rw [decW_encW hfinW]
    simp only [Option.bind_eq_bind, Option.bind_some, ofDense_eq order (canon_good hgood).wf]
    exact ⟨_, rfl⟩
  obtain ⟨d, hd⟩ := hnd
  have hG : ((tableToND fin order (encW fin S.w.coin.weights)).bind fun t => tableToSparse fin (editTable (weightsObject rows) t)) = some (encW fin t) := by
    rw [hd, Option.bind_some]
    show tableToSparse fin (.obj (tableDoc S.w.coin.weights.featureIndexSize S.w.coin.weights.modelIndexSize
      S.w.coin.weights.featureStateSize S.w.coin.weights.modelIndexSizeShift S.w.coin.weights.featureStateSizeShift (weightsObject rows))) = _
    unfold tableToSparse
    rw [decND_tableDoc (fun row hr => (hrows.numeral row hr).1)]
    simp only [Option.bind_eq_bind, Option.bind_some, t1]
  have hre : rewriteToSparse fin (replaceWeights (weightsObject rows) j) =
      some (encModel fin ⟨g, S.w.red, S.w.red.withWeights t S.w.st⟩) := by
    unfold rewriteToSparse
    rw [rewrite_replace, rewrite_comp _ (tableToND fin order) (by
      intro l j _ hj
      unfold tableToND at hj
      simp only [Option.bind_eq_bind, Option.bind_eq_some_iff] at hj
      obtain ⟨w, _, a, _, h3⟩ := hj
      injection h3 with h3
      subst h3
      exact ⟨_, rfl, rfl⟩) _ _ h1]
    exact rw_encModel (m := ⟨g, S.w⟩) hG
  have hft : FinW fin t := fin_of_rows hf0 t2 hx (by rw [e1, e2, e3]; exact tsay)
  have hdec : decModel (encModel fin ⟨g, S.w.red, S.w.red.withWeights t S.w.st⟩) = some ⟨g, S.w.red, S.w.red.withWeights t.canon S.w.st⟩ := by
    rw [decModel_encModel (withWeights_fin t hft _ _ hfin)]
    unfold Serde.Model.canon
    dsimp only
    rw [withWeights_canon]
  have hcg : t.canon.Good := canon_good t2
  refine ⟨j, t.canon, ?_, ?_, ?_, ?_, ?_⟩
  · unfold serializeToJson rewriteToND
    rw [h1]
    rfl
  · unfold deserializeFromJson
    rw [hre]
    show (match decModel (encModel fin ⟨g, S.w.red, S.w.red.withWeights t S.w.st⟩) with
      | some m => Except.ok m
      | none => Except.error CreateError.invalid) = _
    rw [hdec]
  · rw [hcg.len, hgood.len]
    show 2 ^ numBitsToRepresent (t.featureIndexSize - 1) * 2 ^ t.modelIndexSizeShift * 2 ^ t.featureStateSizeShift = _
    rw [e1, e4, e5]
  · show DenseWeights.mk (t.weights.map canonZ) t.featureIndexSize t.modelIndexSize t.featureStateSize t.modelIndexSizeShift t.featureStateSizeShift = _
    rw [e1, e2, e3, e4, e5]
    rfl
  · intro f m hf hm
    refine ⟨t.read f m, t.canon.read f m, ?_, ?_, sameValues_read t f m⟩
    · show RowsSay t.featureStateSize rows f m _
      rw [e3]
      exact tsay f m (by rw [← e1]; exact hf) (by rw [← e2]; exact hm)
    · exact stateAt_eq dbg t.canon hcg.wf hf hm

/-- C109, part. A JSON document without an entry `weights` at any depth, for example a configuration, is rejected with an error. -/
theorem C109_no_weights_partial (fin : F → Bool) (j : Doc F) (h : NoKey "weights".toList j) : deserializeFromJson fin j = .error .invalid := by
  unfold deserializeFromJson rewriteToSparse
  rw [rewrite_none _ _ (noKey_tables j h)]
  show (match decModel j with
    | some m => Except.ok m
    | none => Except.error CreateError.invalid) = _
  rw [decModel_noKey h]

/-- C109 fails for JSON documents with a malformed weight table: loading panics. In an exported model it is enough to list one number too
few for a feature, whatever the model. -/
theorem C109_malformed_false [LawfulCmp F] [SignedZero F] (fin : F → Bool) (hf0 : fin Flt.zero = true)
    (order : List (Nat × List (List F)) → List (Nat × List (List F))) (horder : ∀ l, (order l).Perm l) (dbg : Bool) (hash : HashFn)
    (g : GlobalConfig) (c : RedConfig F) (w : Workspace F) (hw : Workspace.new hash g c = .ok w) (ex : Nat → Features F)
    (before : List (Call F)) (S : Session F) (os) (h : Session.run dbg ⟨w, ex⟩ before = .ok (S, os)) (hfin : FinRed fin S.w.red S.w.st)
    (state : List F) (hs : state.length ≠ S.w.coin.weights.featureStateSize) :
    ∃ j p, serializeToJson fin order ⟨g, S.w⟩ = .ok j ∧
      deserializeFromJson fin (replaceWeights (weightsObject [(['0'], [state])]) j) = .error (.panic p) := by
  have hinv := session_inv hw h
  have hgood : S.w.coin.weights.Good := hinv.good
  have hmod : S.w.coin.weights.modelIndexSize = 1 := hinv.models
  have hfinW : FinW fin S.w.coin.weights := (finRed_coin _ _ hfin).weights
  have hta : TablesAre (SavedTable fin) (encModel fin ⟨g, S.w⟩) := ta_encModel (P := SavedTable fin) ⟨_, hgood, by omega, hfinW, rfl⟩
  obtain ⟨j, h1, _⟩ := rewrite_inverse (SavedTable fin) (tableToND fin order) (tableToSparse fin) (by
    rintro l hl ⟨w, b1, b2, b3, b4⟩
    rw [b4]
    obtain ⟨l', q1, q2, q3⟩ := table_roundtrip SignedZero.zero_eq hf0 order horder b1 b2 b3
    exact ⟨l', q1, q2, q3⟩) _ hta
  refine ⟨j, .unwrap, ?_, ?_⟩
  · unfold serializeToJson rewriteToND
    rw [h1]
    rfl
  · have hG : ((tableToND fin order (encW fin S.w.coin.weights)).bind fun t =>
        tableToSparse fin (editTable (weightsObject [(['0'], [state])]) t)) = none := by
      unfold tableToND
      rw [decW_encW hfinW]
      simp only [Option.bind_eq_bind, Option.bind_some, ofDense_eq order (canon_good hgood).wf]
      show tableToSparse fin (.obj (tableDoc S.w.coin.weights.featureIndexSize S.w.coin.weights.modelIndexSize
        S.w.coin.weights.featureStateSize S.w.coin.weights.modelIndexSizeShift S.w.coin.weights.featureStateSizeShift
        (weightsObject [(['0'], [state])]))) = _
      unfold tableToSparse
      rw [decND_tableDoc (by simp [IsNumeral])]
      simp only [Option.bind_eq_bind, Option.bind_some, NDArray.toDense, if_neg hgood.nf]
      have hv : numeralValue ['0'] = 0 := rfl
      simp only [List.map_cons, List.map_nil, hv, List.foldlM_cons, List.foldlM_nil]
      have hg := good_zero (F := F) S.w.coin.weights.featureIndexSize S.w.coin.weights.modelIndexSize S.w.coin.weights.featureStateSize
        S.w.coin.weights.modelIndexSizeShift S.w.coin.weights.featureStateSizeShift hgood.wf.model_le hgood.wf.state_le hgood.nf
      have hfail : putStates (DenseWeights.mk (List.replicate (2 ^ numBitsToRepresent (S.w.coin.weights.featureIndexSize - 1) *
          2 ^ S.w.coin.weights.modelIndexSizeShift * 2 ^ S.w.coin.weights.featureStateSizeShift) (Flt.zero : F)) S.w.coin.weights.featureIndexSize
          S.w.coin.weights.modelIndexSize S.w.coin.weights.featureStateSize S.w.coin.weights.modelIndexSizeShift
          S.w.coin.weights.featureStateSizeShift) 0 0 [state] = none := by
        rw [putStates]
        unfold DenseWeights.setStateAt
        cases DenseWeights.convertIndex true _ 0 (0 % 256) with
        | error e => rfl
        | ok i =>
          show (match (if _ then (if state.length = S.w.coin.weights.featureStateSize then _ else .error .assert) else .error .index : M (DenseWeights F)) with
            | .ok w' => putStates w' 0 (0 + 1) []
            | .error _ => none) = none
          rw [if_neg hs]
          split <;> rename_i hq
          · split at hq <;> cases hq
          · rfl
      rw [hfail]
      rfl
    have hre : rewriteToSparse fin (replaceWeights (weightsObject [(['0'], [state])]) j) = none := by
      unfold rewriteToSparse
      rw [rewrite_replace, rewrite_comp _ (tableToND fin order) (by
        intro l j _ hj
        unfold tableToND at hj
        simp only [Option.bind_eq_bind, Option.bind_eq_some_iff] at hj
        obtain ⟨w, _, a, _, h3⟩ := hj
        injection h3 with h3
        subst h3
        exact ⟨_, rfl, rfl⟩) _ _ h1]
      exact rewrite_fails (k := "entry_reduction".toList) (v := encRed fin S.w.red S.w.st) rfl (by simp) (rewrite_red_fails _ _ hG)
    unfold deserializeFromJson
    rw [hre]
    rfl

/-- C109 fails for binary models: a document without weights is not reported as an error, loading it panics. -/
theorem C109_binary_false (j : Doc F) (h : NoKey "weights".toList j) : createFromModel j = .error .unwrap := by
  unfold createFromModel
  rw [decModel_noKey h]
  rfl

section examples
attribute [local instance] sintFlt

/-- Hand-written rows: features 2 and 0, in this order. -/
def editRows : List (List Char × List (List SInt)) :=
  [(['2'], [[.num 7, .num 1, .num 2, .num 3, .num 4, .num 5]]), (['0'], [[.num 1, .num 1, .num 1, .num 1, .num 1, .negZero]])]

/-- C108: a history that changes the model, and rows that fit its table. -/
example : ∃ (w : Workspace SInt) (S : Session SInt) (os : _), Workspace.new (fun s _ => BitVec.ofNat 32 s.length) serdeGlobal serdeConfig = .ok w ∧
    Session.run true ⟨w, fun _ => serdeEx⟩ serdeCalls = .ok (S, os) ∧ FinRed (fun _ => true) S.w.red S.w.st ∧
    RowsFit S.w.coin.weights.featureIndexSize S.w.coin.weights.modelIndexSize S.w.coin.weights.featureStateSize editRows := by
  refine ⟨_, _, _, rfl, rfl, finRed_true _ _, ⟨?_, ?_, ?_, ?_⟩⟩
  · unfold IsNumeral; decide +kernel
  · decide +kernel
  · decide +kernel
  · decide +kernel

/-- C108: what the rows say. -/
example : RowsSay 6 editRows 2 0 [.num 7, .num 1, .num 2, .num 3, .num 4, .num 5] ∧ RowsSay 6 editRows 1 0 (List.replicate 6 (.num 0)) :=
  ⟨.inl ⟨(['2'], [[.num 7, .num 1, .num 2, .num 3, .num 4, .num 5]]), by simp [editRows], rfl, rfl⟩, .inr ⟨by decide, rfl⟩⟩

/-- C109: a configuration is a document without weights, and one number is not enough for a feature of that model. -/
example : NoKey "weights".toList (.obj [("entryReduction".toList, .obj [("typename".toList, .str "Coin".toList)])] : Doc SInt) ∧
    ∃ (w : Workspace SInt) (S : Session SInt) (os : _), Workspace.new (fun s _ => BitVec.ofNat 32 s.length) serdeGlobal serdeConfig = .ok w ∧
      Session.run true ⟨w, fun _ => serdeEx⟩ serdeCalls = .ok (S, os) ∧ [SInt.num 7].length ≠ S.w.coin.weights.featureStateSize := by
  refine ⟨?_, _, _, _, rfl, rfl, by decide +kernel⟩
  simp [NoKey, NoKeyE]

end examples

end Rml
