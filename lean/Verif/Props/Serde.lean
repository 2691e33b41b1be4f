import Verif.Lemmas.SerdeDoc
import Verif.Props.Weights

/-! C06, C07, C08, C59: saving and loading. -/

set_option linter.unusedSectionVars false

namespace Rml
open Serde
variable {F : Type} [Flt F]

theorem sameValues_canon (v : List F) : SameValues v (v.map canonZ) := by
  refine ⟨by simp, ?_⟩
  intro k x y hx hy
  rw [List.getElem?_map, hx] at hy
  simp only [Option.map_some, Option.some.injEq] at hy
  subst hy
  unfold canonZ SameUpToZeroSign
  split
  · rename_i h; exact .inr ⟨h, rfl⟩
  · exact .inl rfl

theorem canon_plain {v : List F} (h : ∀ x ∈ v, Flt.Plain x) : v.map canonZ = v := by
  rw [List.map_congr_left (g := id)]
  · simp
  · intro x hx; exact canonZ_plain (h x hx)

/-- C06. Every vector comes back from its sparse form with the same length and the same values; only a zero may change its sign. -/
theorem C06_sparse_vector_roundtrip (v : List F) :
    ∃ v', (SparseF32Vec.fromDense v).toDense = some v' ∧ SameValues v v' :=
  ⟨_, toDense_fromDense v, sameValues_canon v⟩

/-- C06. A vector without negative zeros comes back exactly. -/
theorem C06_sparse_vector_exact (v : List F) (h : ∀ x ∈ v, Flt.Plain x) : (SparseF32Vec.fromDense v).toDense = some v := by
  rw [toDense_fromDense, canon_plain h]

/-- C06. The same for a whole weight table saved to a document of a format that can represent all of its values (`fin`), as the binary
format can: it is read back with the same dimensions and the same values up to signs of zeros. -/
theorem C06_table_roundtrip (fin : F → Bool) (w : DenseWeights F) (hf : ∀ x ∈ w.weights, Flt.eq x Flt.zero = false → fin x = true) :
    ∃ v, decW (encW fin w) = some { w with weights := v } ∧ SameValues w.weights v :=
  ⟨_, decW_encW hf, sameValues_canon _⟩

/-- A table made by `DenseWeights::new` (`u8` number of models) and then written to. -/
def MadeTable (w : DenseWeights F) : Prop :=
  ∃ dbg nf nm ns w₀, ∃ ws : List (Write F), DenseWeights.new nf nm ns = .ok w₀ ∧ nm ≤ 255 ∧ (∀ x ∈ ws, x.Valid nf nm ns) ∧
    ws.foldlM (fun w x => x.apply dbg w) w₀ = .ok w

theorem writes_good (dbg : Bool) (ws : List (Write F)) : ∀ (w w' : DenseWeights F), w.Good → 0 < w.featureStateSize →
    (∀ x ∈ ws, x.Valid w.featureIndexSize w.modelIndexSize w.featureStateSize) → ws.foldlM (fun w x => x.apply dbg w) w = .ok w' →
    w'.Good ∧ w'.modelIndexSize = w.modelIndexSize := by
  induction ws with
  | nil =>
    intro w w' h _ _ hr
    simp only [List.foldlM_nil, pure, Except.pure, Except.ok.injEq] at hr
    subst hr
    exact ⟨h, rfl⟩
  | cons x ws ih =>
    intro w w' h hp hv hr
    have hx := hv x (by simp)
    have step : ∃ f₀ m₀ s₀, f₀ < w.featureIndexSize ∧ m₀ < w.modelIndexSize ∧ s₀.length = w.featureStateSize ∧
        x.apply dbg w = .ok (w.putState f₀ m₀ s₀) := by
      cases x with
      | weight f₀ m₀ v =>
        refine ⟨f₀, m₀, _, hx.1, hx.2, ?_, setWeightAt_as_state dbg w h.wf hp hx.1 hx.2 v⟩
        have := DenseWeights.slot_add_le w h.wf hx.1 hx.2
        simp; omega
      | state f₀ m₀ s => exact ⟨f₀, m₀, s, hx.1, hx.2.1, hx.2.2, DenseWeights.setStateAt_eq dbg w h.wf hx.1 hx.2.1 hx.2.2⟩
    obtain ⟨f₀, m₀, s₀, h1, h2, h3, happ⟩ := step
    rw [List.foldlM_cons, happ] at hr
    exact ih (w.putState f₀ m₀ s₀) w' (DenseWeights.putState_good h h1 h2 h3) hp (fun y hy => hv y (by simp [hy])) hr

theorem MadeTable.good {w : DenseWeights F} (h : MadeTable w) : w.Good ∧ w.modelIndexSize ≤ 256 := by
  obtain ⟨dbg, nf, nm, ns, w₀, ws, h1, h2, h3, h4⟩ := h
  have hg := DenseWeights.new_good h1
  obtain ⟨_, e1, e2, e3, e4, _⟩ := DenseWeights.new_wf h1
  have := writes_good dbg ws w₀ w hg (by omega) (by rw [e1, e2, e3]; exact h3) h4
  exact ⟨this.1, by omega⟩

/-- C07. Every table made by `DenseWeights::new` and any history of writes comes back from the nested form with the same dimensions and the
same values (up to signs of zeros), whatever the order of the hash map. -/
theorem C07_nested_roundtrip (order : List (Nat × List (List F)) → List (Nat × List (List F))) (horder : ∀ l, (order l).Perm l)
    (w : DenseWeights F) (hw : MadeTable w) :
    ∃ a v, NDArray.ofDense order w = some a ∧ a.toDense = some { w with weights := v } ∧ SameValues w.weights v := by
  obtain ⟨hg, h256⟩ := hw.good
  obtain ⟨a, w', h1, h2, h3, e1, e2, e3, e4, e5, h4⟩ := nd_roundtrip order horder hg h256
  have hlen : w'.weights.length = w.weights.length := by rw [h3.len, hg.len, e1, e4, e5]
  refine ⟨a, w'.weights, h1, ?_, hlen, ?_⟩
  · rw [h2]
    obtain ⟨v, _, _, _, _, _⟩ := w'
    simp only at e1 e2 e3 e4 e5
    subst e1 e2 e3 e4 e5
    rfl
  · intro k x y hx hy
    have hslot : ∀ f m, w'.slot f m = w.slot f m := by intro f m; simp [DenseWeights.slot, e4, e5]
    have hk : k < w.weights.length := (List.getElem?_eq_some_iff.1 hx).1
    by_cases hin : ∃ f m, f < w.featureIndexSize ∧ m < w.modelIndexSize ∧ w.slot f m ≤ k ∧ k < w.slot f m + w.featureStateSize
    · obtain ⟨f, m, hf, hm, k1, k2⟩ := hin
      have hr := h4 f m hf hm
      have q1 : (w.read f m)[k - w.slot f m]? = some x := by
        simp only [DenseWeights.read, List.getElem?_take, List.getElem?_drop]
        rw [if_pos (by omega), show w.slot f m + (k - w.slot f m) = k by omega]
        exact hx
      have q2 : (w'.read f m)[k - w.slot f m]? = some y := by
        simp only [DenseWeights.read, List.getElem?_take, List.getElem?_drop, hslot, e3]
        rw [if_pos (by omega), show w.slot f m + (k - w.slot f m) = k by omega]
        exact hy
      rw [hr] at q2
      split at q2
      · rw [q1] at q2
        exact .inl (Option.some.inj q2).symm
      · rename_i hz
        refine .inr ⟨?_, ?_⟩
        · cases hc : Flt.eq x Flt.zero
          · exfalso; apply hz
            simp only [rowNonzero, List.any_eq_true]
            exact ⟨w.read f m, by simp only [rowOf, List.mem_map, List.mem_range]; exact ⟨m, hm, rfl⟩, x,
              List.mem_of_getElem? q1, by simp [hc]⟩
          · rfl
        · exact (List.mem_replicate.1 (List.mem_of_getElem? q2)).2
    · have hn : ∀ f m, f < w.featureIndexSize → m < w.modelIndexSize →
          ¬(w.slot f m ≤ k ∧ k < w.slot f m + w.featureStateSize) := fun f m hf hm hh => hin ⟨f, m, hf, hm, hh⟩
      have p1 := hg.pad k hk hn
      have p2 := h3.pad k (by omega) (by
        intro f m hf hm; rw [hslot, e3]; exact hn f m (by omega) (by omega))
      rw [p1] at hx
      rw [p2] at hy
      exact .inl ((Option.some.inj hy).symm.trans (Option.some.inj hx))

/-- C07. Without negative zeros the table itself comes back. -/
theorem C07_nested_exact (order : List (Nat × List (List F)) → List (Nat × List (List F))) (horder : ∀ l, (order l).Perm l)
    (w : DenseWeights F) (hw : MadeTable w) (hz : ∀ x ∈ w.weights, Flt.Plain x) :
    ∃ a, NDArray.ofDense order w = some a ∧ a.toDense = some w :=
  nd_exact order horder hw.good.1 hw.good.2 hz

mutual
theorem rewrite_agrees (g : Doc F → Option (Doc F)) : ∀ (j j' : Doc F), rewrite g j = some j' → OnlyTablesDiffer j j'
  | .obj l, j', h => by
    rw [rewrite] at h
    split at h
    · rename_i ht; exact .table l j' ((isTable_iff l).1 ht)
    · simp only [Option.bind_eq_bind, Option.bind_eq_some_iff] at h
      obtain ⟨l', h1, h2⟩ := h
      injection h2 with h2
      subst h2
      exact .obj l l' (rewriteEntries_keys g l l' h1).symm (rewriteEntries_agrees g l l' h1)
  | .arr l, j', h => by
    rw [rewrite] at h
    simp only [Option.bind_eq_bind, Option.bind_eq_some_iff] at h
    obtain ⟨l', h1, h2⟩ := h
    injection h2 with h2
    subst h2
    have := rewriteList_agrees g l l' h1
    exact .arr l l' this.1 this.2
  | .null, j', h => by simp [rewrite] at h; subst h; exact .null
  | .bool b, j', h => by simp [rewrite] at h; subst h; exact .bool b
  | .num n, j', h => by simp [rewrite] at h; subst h; exact .num n
  | .str s, j', h => by simp [rewrite] at h; subst h; exact .str s
theorem rewriteEntries_agrees (g : Doc F → Option (Doc F)) : ∀ (l l' : List (List Char × Doc F)), rewriteEntries g l = some l' →
    ∀ (k : Nat) e e', l[k]? = some e → l'[k]? = some e' → OnlyTablesDiffer e.2 e'.2
  | [], l', h, k, e, e', he, _ => by simp at he
  | (key, v) :: l, l', h, k, e, e', he, he' => by
    simp only [rewriteEntries, Option.bind_eq_bind, Option.bind_eq_some_iff] at h
    obtain ⟨v', h1, l'', h2, h3⟩ := h
    injection h3 with h3
    subst h3
    cases k with
    | zero =>
      simp only [List.getElem?_cons_zero, Option.some.injEq] at he he'
      subst he he'
      exact rewrite_agrees g v v' h1
    | succ k =>
      simp only [List.getElem?_cons_succ] at he he'
      exact rewriteEntries_agrees g l l'' h2 k e e' he he'
theorem rewriteList_agrees (g : Doc F → Option (Doc F)) : ∀ (l l' : List (Doc F)), rewriteList g l = some l' →
    l.length = l'.length ∧ ∀ (k : Nat) d d', l[k]? = some d → l'[k]? = some d' → OnlyTablesDiffer d d'
  | [], l', h => by simp [rewriteList] at h; subst h; simp
  | v :: l, l', h => by
    simp only [rewriteList, Option.bind_eq_bind, Option.bind_eq_some_iff] at h
    obtain ⟨v', h1, l'', h2, h3⟩ := h
    injection h3 with h3
    subst h3
    have ih := rewriteList_agrees g l l'' h2
    refine ⟨by simp [ih.1], ?_⟩
    intro k d d' hd hd'
    cases k with
    | zero =>
      simp only [List.getElem?_cons_zero, Option.some.injEq] at hd hd'
      subst hd hd'
      exact rewrite_agrees g v v' h1
    | succ k =>
      simp only [List.getElem?_cons_succ] at hd hd'
      exact ih.2 k d d' hd hd'
end

/-- C08. Neither direction of rewriting changes anything outside weight tables, in any document of any depth. -/
theorem C08_untouched (fin : F → Bool) (order : List (Nat × List (List F)) → List (Nat × List (List F))) (j j' : Doc F) :
    (rewriteToND fin order j = some j' → OnlyTablesDiffer j j') ∧ (rewriteToSparse fin j = some j' → OnlyTablesDiffer j j') :=
  ⟨rewrite_agrees _ j j', rewrite_agrees _ j j'⟩

mutual
theorem TablesAre.mono {P Q : Doc F → Prop} (h : ∀ j, P j → Q j) : ∀ j : Doc F, TablesAre P j → TablesAre Q j
  | .obj l, hj => by
    rw [TablesAre] at hj ⊢
    split
    · rename_i ht; rw [if_pos ht] at hj; exact h _ hj
    · rename_i ht; rw [if_neg ht] at hj; exact TablesAreE.mono h l hj
  | .arr l, hj => by rw [TablesAre] at hj ⊢; exact TablesAreL.mono h l hj
  | .null, _ => by simp [TablesAre]
  | .bool _, _ => by simp [TablesAre]
  | .num _, _ => by simp [TablesAre]
  | .str _, _ => by simp [TablesAre]
theorem TablesAreE.mono {P Q : Doc F → Prop} (h : ∀ j, P j → Q j) : ∀ l : List (List Char × Doc F), TablesAreE P l → TablesAreE Q l
  | [], _ => by simp [TablesAreE]
  | (k, v) :: l, hj => by rw [TablesAreE] at hj ⊢; exact ⟨TablesAre.mono h v hj.1, TablesAreE.mono h l hj.2⟩
theorem TablesAreL.mono {P Q : Doc F → Prop} (h : ∀ j, P j → Q j) : ∀ l : List (Doc F), TablesAreL P l → TablesAreL Q l
  | [], _ => by simp [TablesAreL]
  | v :: l, hj => by rw [TablesAreL] at hj ⊢; exact ⟨TablesAre.mono h v hj.1, TablesAreL.mono h l hj.2⟩
end

/-- C08. Every document, of any depth, whose weight tables are saved forms of tables made by the program, is restored exactly by rewriting it
to the nested form and back, whatever the order of the hash maps. -/
theorem C08_rewrite_inverse (hz0 : Flt.eq (Flt.zero : F) Flt.zero = true) (fin : F → Bool) (hf0 : fin Flt.zero = true)
    (order : List (Nat × List (List F)) → List (Nat × List (List F))) (horder : ∀ l, (order l).Perm l) (j : Doc F)
    (hj : TablesAre (fun t => ∃ w : DenseWeights F, MadeTable w ∧ FinW fin w ∧ t = encW fin w) j) :
    ∃ j', rewriteToND fin order j = some j' ∧ rewriteToSparse fin j' = some j := by
  refine rewrite_inverse _ _ _ ?_ j hj
  rintro l hl ⟨w, h1, h2, h3⟩
  rw [h3]
  obtain ⟨l', q1, q2, q3⟩ := table_roundtrip hz0 hf0 order horder h1.good.1 h1.good.2 h2
  exact ⟨l', q1, q2, q3⟩

/-- C08, C59. A model reached by any history whose numbers can all be written to JSON is written by `serialize_to_json`, the rewriting is
undone exactly, and `deserialize_from_json` gives a model with the same global configuration and the same behaviour from then on: the same
predictions and panics for every continuation. -/
theorem C08_json_same_behaviour [LawfulCmp F] [SignedZero F] (fin : F → Bool) (hf0 : fin Flt.zero = true)
    (order : List (Nat × List (List F)) → List (Nat × List (List F))) (horder : ∀ l, (order l).Perm l) (dbg : Bool) (hash : HashFn)
    (g : GlobalConfig) (c : RedConfig F) (w : Workspace F) (hw : Workspace.new hash g c = .ok w) (ex : Nat → Features F)
    (before : List (Call F)) (S : Session F) (os) (h : Session.run dbg ⟨w, ex⟩ before = .ok (S, os)) (hfin : FinRed fin S.w.red S.w.st) :
    ∃ j m', serializeToJson fin order ⟨g, S.w⟩ = .ok j ∧ rewriteToSparse fin j = some (encModel fin ⟨g, S.w⟩) ∧
      deserializeFromJson fin j = .ok m' ∧ m'.global = g ∧
      ∀ ex' after, SameOutcome g (Session.run dbg ⟨S.w, ex'⟩ after) (Session.run dbg ⟨m'.ws, ex'⟩ after) := by
  have hinv := session_inv hw h
  have hpl := session_plain hw h
  have hta : TablesAre (SavedTable fin) (encModel fin ⟨g, S.w⟩) := by
    refine ta_encModel (P := SavedTable fin) ?_
    exact ⟨_, hinv.good, by rw [hinv.models]; omega, (finRed_coin _ _ hfin).weights, rfl⟩
  obtain ⟨j, h1, h2⟩ := rewrite_inverse (SavedTable fin) (tableToND fin order) (tableToSparse fin) (by
    rintro l hl ⟨w, a1, a2, a3, a4⟩
    rw [a4]
    obtain ⟨l', q1, q2, q3⟩ := table_roundtrip SignedZero.zero_eq hf0 order horder a1 a2 a3
    exact ⟨l', q1, q2, q3⟩) _ hta
  have hdec : decModel (encModel fin ⟨g, S.w⟩) = some (Serde.Model.canon ⟨g, S.w⟩) := decModel_encModel hfin
  refine ⟨j, Serde.Model.canon ⟨g, S.w⟩, ?_, h2, ?_, rfl, ?_⟩
  · unfold serializeToJson rewriteToND
    rw [h1]
    rfl
  · unfold deserializeFromJson rewriteToSparse
    rw [h2]
    show (match decModel (encModel fin ⟨g, S.w⟩) with
      | some m => Except.ok m
      | none => Except.error CreateError.invalid) = _
    rw [hdec]
  · intro ex' after
    have hs : SimWs (Twin g.numBits) S.w (Serde.Model.canon ⟨g, S.w⟩).ws := by
      refine ⟨canonRed S.w.red S.w.st, rfl, canonRed_sim _ _ ?_⟩
      exact ⟨canon_sim hinv.ok hpl, hinv, canon_inv hinv⟩
    have := run_sim (R := Twin g.numBits) (dbg := dbg) (fun c c' f hR => predict_sim dbg hR.1 f) (fun c c' f l w hR => twin_learn dbg hR f l w)
      after _ _ ex' hs
    generalize Session.run dbg ⟨S.w, ex'⟩ after = x at this
    generalize Session.run dbg ⟨(Serde.Model.canon ⟨g, S.w⟩).ws, ex'⟩ after = y at this
    cases x <;> cases y
    · exact this
    · exact this.elim
    · exact this.elim
    · exact ⟨this.2.2, this.2.1, encModel_eq SignedZero.zero_eq _ g this.1⟩

/-- C08 fails for models with non-finite weights: JSON cannot represent NaN and infinities, and `serialize_to_json` panics if a weight of any
stack is one. -/
theorem C08_nonfinite_panics (fin : F → Bool) (order : List (Nat × List (List F)) → List (Nat × List (List F))) (m : Serde.Model F)
    (x : F) (hx : x ∈ m.ws.coin.weights.weights) (hz : Flt.eq x Flt.zero = false) (hf : fin x = false) :
    ∃ e, serializeToJson fin order m = .error e := by
  have h1 : rewriteToND fin order (encModel fin m) = none := by
    refine rewrite_fails (k := "entry_reduction".toList) (v := encRed fin m.ws.red m.ws.st) rfl (by simp) (rewrite_red_fails _ _ ?_)
    unfold tableToND
    have : decW (encW fin m.ws.coin.weights) = none := decW_fails hx hz hf
    unfold Workspace.coin at this
    rw [this]
    rfl
  unfold serializeToJson
  rw [h1]
  exact ⟨_, rfl⟩

/-- C59. A workspace saved in binary form after any history and loaded again has the same global configuration and behaves the same from then
on: for every continuation the same predictions, the same panics, the same examples, and the same document when saved again. -/
theorem C59_save_load_same_behaviour [LawfulCmp F] [SignedZero F] (dbg : Bool) (hash : HashFn) (g : GlobalConfig) (c : RedConfig F)
    (w : Workspace F) (hw : Workspace.new hash g c = .ok w) (ex : Nat → Features F) (before : List (Call F)) (S : Session F) (os)
    (h : Session.run dbg ⟨w, ex⟩ before = .ok (S, os)) :
    ∃ m', createFromModel (serializeModel ⟨g, S.w⟩) = .ok m' ∧ m'.global = g ∧
      ∀ ex' after, SameOutcome g (Session.run dbg ⟨S.w, ex'⟩ after) (Session.run dbg ⟨m'.ws, ex'⟩ after) := by
  have hinv := session_inv hw h
  have hpl := session_plain hw h
  have hdec : decModel (encModel (fun _ => true) ⟨g, S.w⟩) = some (Serde.Model.canon ⟨g, S.w⟩) := decModel_encModel (finRed_true _ _)
  refine ⟨Serde.Model.canon ⟨g, S.w⟩, ?_, rfl, ?_⟩
  · unfold createFromModel serializeModel
    rw [hdec]
    rfl
  · intro ex' after
    have hs : SimWs (Twin g.numBits) S.w (Serde.Model.canon ⟨g, S.w⟩).ws := by
      refine ⟨canonRed S.w.red S.w.st, rfl, canonRed_sim _ _ ?_⟩
      exact ⟨canon_sim hinv.ok hpl, hinv, canon_inv hinv⟩
    have := run_sim (R := Twin g.numBits) (dbg := dbg) (fun c c' f hR => predict_sim dbg hR.1 f) (fun c c' f l w hR => twin_learn dbg hR f l w)
      after _ _ ex' hs
    generalize Session.run dbg ⟨S.w, ex'⟩ after = x at this
    generalize Session.run dbg ⟨(Serde.Model.canon ⟨g, S.w⟩).ws, ex'⟩ after = y at this
    cases x <;> cases y
    · exact this
    · exact this.elim
    · exact this.elim
    · exact ⟨this.2.2, this.2.1, encModel_eq SignedZero.zero_eq _ g this.1⟩

/-- C59. A model none of whose weights is a negative zero is restored exactly, whatever its state. -/
theorem C59_exact (m : Serde.Model F) (h : ∀ x ∈ m.ws.coin.weights.weights, Flt.Plain x) : createFromModel (serializeModel m) = .ok m := by
  have hdec : decModel (encModel (fun _ => true) m) = some (Serde.Model.canon m) := decModel_encModel (finRed_true _ _)
  have : canonRed m.ws.red m.ws.st = m.ws.st := by
    refine canonRed_id _ _ ?_
    have h' := canon_plain h
    unfold Workspace.coin at h'
    unfold Coin.canon DenseWeights.canon
    rw [h']
  unfold createFromModel serializeModel
  rw [hdec]
  unfold Serde.Model.canon
  rw [this]
  rfl

section examples

/-- Integers with a second zero, as a small number type with negative zeros. -/
inductive SInt where
  | num (i : Int)
  | negZero
  deriving DecidableEq, Repr

namespace SInt
/-- The value. -/
def val : SInt → Int
  | .num i => i
  | .negZero => 0
/-- The sign bit. -/
def neg? : SInt → Bool
  | .num i => decide (i < 0)
  | .negZero => true
/-- A value with a sign for zero. -/
def mk (i : Int) (n : Bool) : SInt := if i = 0 ∧ n = true then .negZero else .num i
end SInt

/-- Arithmetic with signed zeros. -/
@[reducible] def sintFlt : Flt SInt where
  zero := .num 0
  one := .num 1
  add := fun a b => if a = .negZero ∧ b = .negZero then .negZero else .num (a.val + b.val)
  sub := fun a b => .num (a.val - b.val)
  mul := fun a b => SInt.mk (a.val * b.val) (a.neg? != b.neg?)
  div := fun a b => SInt.mk (a.val / b.val) (a.neg? != b.neg?)
  neg := fun a => SInt.mk (-a.val) (!a.neg?)
  abs := fun a => .num (if a.val < 0 then -a.val else a.val)
  fmin := fun a b => if a.val < b.val then a else b
  fmax := fun a b => if a.val < b.val then b else a
  lt := fun a b => decide (a.val < b.val)
  le := fun a b => decide (a.val ≤ b.val)
  eq := fun a b => decide (a.val = b.val)
  isNaN := fun _ => false
  ofNat := fun n => .num n
  lit := fun n d => .num (n / d)
  exp := id
  ln := id
  powf := fun a _ => a
  sqrt := id
  signum := fun a => if a.neg? then .num (-1) else .num 1

attribute [local instance] sintFlt

/-- The laws are satisfiable by a type that has a negative zero. -/
theorem sint_cmp : LawfulCmp SInt where
  zero_num := rfl
  le_num := fun _ _ _ => ⟨rfl, rfl⟩
  lt_eq := fun a b => by
    show decide (a.val < b.val) = (!false && !false && !decide (b.val ≤ a.val))
    by_cases h : a.val < b.val
    · simp [h]
    · simp [h]; omega
  le_refl := fun a _ => by show decide (a.val ≤ a.val) = true; simp
  le_trans := fun a b c h1 h2 => by
    have h1 : decide (a.val ≤ b.val) = true := h1
    have h2 : decide (b.val ≤ c.val) = true := h2
    show decide (a.val ≤ c.val) = true
    simp only [decide_eq_true_eq] at *
    omega
  le_total := fun a b _ _ => by
    show decide (a.val ≤ b.val) = true ∨ decide (b.val ≤ a.val) = true
    simp only [decide_eq_true_eq]
    omega
  fmin_nan := fun a b h => by cases h
  fmax_nan := fun a b h => by cases h
  fmin_num := fun a b _ _ => by
    show ((if a.val < b.val then a else b) = a ∨ (if a.val < b.val then a else b) = b) ∧
      decide ((if a.val < b.val then a else b).val ≤ a.val) = true ∧ decide ((if a.val < b.val then a else b).val ≤ b.val) = true
    split <;> simp <;> omega
  fmax_num := fun a b _ _ => by
    show ((if a.val < b.val then b else a) = a ∨ (if a.val < b.val then b else a) = b) ∧
      decide (a.val ≤ (if a.val < b.val then b else a).val) = true ∧ decide (b.val ≤ (if a.val < b.val then b else a).val) = true
    split <;> simp <;> omega
  lit_mono := fun m n h => by
    show decide (m / 1 ≤ n / 1) = true
    simp [h]

/-- The laws of signed zeros hold there. -/
theorem sint_zero : SignedZero SInt where
  zero_eq := rfl
  zero_num := rfl
  add_plain := fun a b h he => by
    have he : decide ((if a = .negZero ∧ b = .negZero then SInt.negZero else .num (a.val + b.val)).val = 0) = true := he
    show (if a = .negZero ∧ b = .negZero then SInt.negZero else .num (a.val + b.val)) = .num 0
    split
    · rename_i h'
      rw [h'.1] at h
      exact absurd (h rfl) (by intro hc; cases hc)
    · rename_i h'
      rw [if_neg h'] at he
      have he : decide (a.val + b.val = 0) = true := he
      rw [of_decide_eq_true he]
  add_mul_zero := fun a v w h he => by
    have he : decide (w.val = 0) = true := he
    simp only [decide_eq_true_eq] at he
    left
    have ha : a ≠ .negZero := fun hc => by
      rw [hc] at h
      exact absurd (h rfl) (by intro hc; cases hc)
    show (if a = .negZero ∧ SInt.mk (v.val * w.val) (v.neg? != w.neg?) = .negZero then SInt.negZero
        else .num (a.val + (SInt.mk (v.val * w.val) (v.neg? != w.neg?)).val)) =
      (if a = .negZero ∧ SInt.mk (v.val * 0) (v.neg? != false) = .negZero then SInt.negZero
        else .num (a.val + (SInt.mk (v.val * 0) (v.neg? != false)).val))
    rw [if_neg (fun hc => ha hc.1), if_neg (fun hc => ha hc.1), he]
    have hv : ∀ b, (SInt.mk (v.val * 0) b).val = 0 := by
      intro b
      unfold SInt.mk
      split <;> simp [SInt.val]
    rw [hv, hv]
  add_nan := fun a b h => by cases h
  abs_plain := fun a he => by
    have he : decide ((if a.val < 0 then -a.val else a.val) = 0) = true := he
    simp only [decide_eq_true_eq] at he
    show SInt.num (if a.val < 0 then -a.val else a.val) = .num 0
    rw [he]
  abs_nonneg := fun a => by
    show decide ((if a.val < 0 then -a.val else a.val) < 0) = false
    simp only [decide_eq_false_iff_not]
    split <;> omega
  eq_le := fun a b h => by
    have h : decide (a.val = b.val) = true := h
    show decide (a.val ≤ b.val) = true
    simp only [decide_eq_true_eq] at *
    omega

/-- A negative zero is lost: the vector that comes back differs from the saved one, in the sign only. -/
example : (SparseF32Vec.fromDense [SInt.negZero, .num 3, .num 0]).toDense = some [.num 0, .num 3, .num 0] := by decide

/-- A written table with padding between its slots (state size 3), and a hash map that lists its entries backwards. -/
example : ∃ w : DenseWeights SInt, MadeTable w ∧ w.weights = [.num 0, .num 0, .num 0, .num 0, .num 7, .num 2, .negZero, .num 0] ∧
    (∀ l : List (Nat × List (List SInt)), l.reverse.Perm l) ∧
    (NDArray.ofDense List.reverse w).map (·.weights) = some [(1, [[.num 7, .num 2, .negZero]])] := by
  refine ⟨⟨[.num 0, .num 0, .num 0, .num 0, .num 7, .num 2, .negZero, .num 0], 2, 1, 3, 0, 2⟩, ?_, rfl, List.reverse_perm, by decide⟩
  exact ⟨true, 2, 1, 3, ⟨[.num 0, .num 0, .num 0, .num 0, .num 0, .num 0, .num 0, .num 0], 2, 1, 3, 0, 2⟩,
    [.state 1 0 [.num 7, .num 2, .negZero]], rfl, by decide, by simp [Write.Valid], rfl⟩

/-- A global configuration with four weights. -/
def serdeGlobal : GlobalConfig := ⟨2, 0#32, true, []⟩
/-- An example with one feature. -/
def serdeEx : Features SInt := .simple ((SparseFeatures.new : SparseFeatures SInt).modifyOrCreate .default (fun n => n.addFeature 1#32 (.num (-2))))
/-- A Coin configuration. -/
def serdeConfig : RedConfig SInt := .coin CoinConfig.dflt
/-- A history with a learning step. -/
def serdeCalls : List (Call SInt) := [.learn 0 (.simple ⟨.num 3, .num 1⟩), .predictThenLearn 0 (.simple ⟨.num 5, .num 1⟩), .predict 0]

/-- C59 and C08: a history that changes the model, and numbers that can all be written. -/
example : ∃ (w : Workspace SInt) (S : Session SInt) (os : _), Workspace.new (fun s _ => BitVec.ofNat 32 s.length) serdeGlobal serdeConfig = .ok w ∧
    Session.run true ⟨w, fun _ => serdeEx⟩ serdeCalls = .ok (S, os) ∧ FinRed (fun _ => true) S.w.red S.w.st ∧
    S.w.coin.weights.weights ≠ w.coin.weights.weights := by
  refine ⟨_, _, _, rfl, rfl, finRed_true _ _, ?_⟩
  decide +kernel

/-- C08: a trained workspace with a weight that cannot be written; here the value plays the role of an infinity. -/
example : ∃ (w : Workspace SInt) (S : Session SInt) (os : _) (fin : SInt → Bool) (x : SInt),
    Workspace.new (fun s _ => BitVec.ofNat 32 s.length) serdeGlobal serdeConfig = .ok w ∧
    Session.run true ⟨w, fun _ => serdeEx⟩ serdeCalls = .ok (S, os) ∧
    x ∈ S.w.coin.weights.weights ∧ Flt.eq x Flt.zero = false ∧ fin x = false := by
  refine ⟨_, _, _, fun x => decide (x.val = 0), (SInt.num 2), rfl, rfl, ?_, rfl, rfl⟩
  decide +kernel

end examples

end Rml
