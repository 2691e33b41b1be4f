import Verif.Lemmas.SerdeDoc
import Verif.SpecEdit
set_option linter.unusedSectionVars false
set_option linter.unusedSimpArgs false

/-! Helper lemmas about edited JSON models. -/

namespace Rml
variable {F : Type} [Flt F]
open Serde DenseWeights

theorem readNat_numeral {k : List Char} (h : IsNumeral k) : readNat k = some (numeralValue k) := by
  obtain ⟨h1, h2, h3⟩ := h
  unfold readNat numeralValue
  rw [if_neg (by simpa using h1)]
  clear h1 h3
  generalize 0 = n
  induction k generalizing n with
  | nil => rfl
  | cons c k ih =>
    rw [List.foldl_cons, List.foldl_cons]
    have hc := h2 c (by simp)
    have : digitVal? c = some (c.toNat - 48) := by rw [digitVal?, if_pos hc]
    have step : (do let a ← some n; let d ← digitVal? c; some (10 * a + d)) = some (10 * n + (c.toNat - 48)) := by rw [this]; rfl
    rw [step]
    exact ih (fun c hc => h2 c (by simp [hc])) _

theorem decMap_weightsObject {rows : List (List Char × List (List F))} (h : ∀ row ∈ rows, IsNumeral row.1) :
    decMap (weightsObject rows) = some (rows.map fun row => (numeralValue row.1, row.2)) := by
  unfold weightsObject
  simp only [decMap]
  induction rows with
  | nil => rfl
  | cons row rows ih =>
    rw [List.map_cons, List.mapM_cons, ih (fun r hr => h r (by simp [hr]))]
    have e : ∀ ss : List (List F), decL (decL decF) (.arr (ss.map fun state => (.arr (state.map fun x => .num (.flt x)) : Doc F))) = some ss := by
      intro ss
      refine decL_encL (e := fun state : List F => (.arr (state.map fun x => .num (.flt x)) : Doc F)) ?_
      intro s _
      exact decL_encL (e := fun x => (.num (.flt x) : Doc F)) (fun x _ => rfl)
    have : decEntry (row.1, (.arr (row.2.map fun state => .arr (state.map fun x => .num (.flt x))) : Doc F)) =
        some (numeralValue row.1, row.2) := by
      simp only [decEntry, readNat_numeral (h row (by simp)), e, Option.bind_eq_bind, Option.bind_some]
    rw [this]
    rfl

/-! ### Tables written by hand -/

/-- The table document with given sizes and weights. -/
def tableDoc (nf nm ns a b : Nat) (d : Doc F) : List (List Char × Doc F) :=
  [("feature_index_size".toList, .num (.nat nf)), ("feature_state_size".toList, .num (.nat ns)),
    ("feature_state_size_shift".toList, .num (.nat b)), ("model_index_size".toList, .num (.nat nm)),
    ("model_index_size_shift".toList, .num (.nat a)), ("weights".toList, d)]

theorem tableDoc_isTable (nf nm ns a b : Nat) (d : Doc F) : isTable (tableDoc nf nm ns a b d) = true := rfl

theorem decND_tableDoc {nf nm ns a b : Nat} {rows : List (List Char × List (List F))} (h : ∀ row ∈ rows, IsNumeral row.1) :
    decND (.obj (tableDoc nf nm ns a b (weightsObject rows))) = some ⟨rows.map fun row => (numeralValue row.1, row.2), nf, nm, ns, a, b⟩ := by
  have h1 : field (.obj (tableDoc nf nm ns a b (weightsObject rows))) "weights" decMap = some (rows.map fun row => (numeralValue row.1, row.2)) :=
    decMap_weightsObject h
  unfold decND
  rw [h1]
  rfl

/-- What `to_dense_weights` makes of rows that fit. -/
theorem toDense_rows {nf nm ns a b : Nat} {rows : List (List Char × List (List F))} (h : RowsFit nf nm ns rows) (h0 : 0 < nf) (hm : nm ≤ 255)
    (ha : nm ≤ 2 ^ a) (hb : ns ≤ 2 ^ b) :
    ∃ w : DenseWeights F, NDArray.toDense ⟨rows.map fun row => (numeralValue row.1, row.2), nf, nm, ns, a, b⟩ = some w ∧ w.Good ∧
      w.featureIndexSize = nf ∧ w.modelIndexSize = nm ∧ w.featureStateSize = ns ∧ w.modelIndexSizeShift = a ∧ w.featureStateSizeShift = b ∧
      ∀ f m, f < nf → m < nm → RowsSay ns rows f m (w.read f m) := by
  have hg := good_zero (F := F) nf nm ns a b ha hb (by omega)
  obtain ⟨w, b1, b2, b3, b4, b5, b6, b7, b8, b9⟩ := putRows_spec (rows.map fun row => (numeralValue row.1, row.2)) _ hg (by show nm ≤ 256; omega)
    (by rw [List.map_map]; exact h.distinct) (by
      intro e he
      obtain ⟨row, hr, rfl⟩ := List.mem_map.1 he
      exact ⟨(h.numeral row hr).2, h.models row hr, h.numbers row hr⟩)
  refine ⟨w, ?_, b2, b3, b4, b5, b6, b7, ?_⟩
  · simp only [NDArray.toDense]
    rw [if_neg (by omega)]
    exact b1
  · intro f m hf hm'
    by_cases hin : ∃ row ∈ rows, numeralValue row.1 = f
    · obtain ⟨row, hr, rfl⟩ := hin
      refine Or.inl ⟨row, hr, rfl, ?_⟩
      have := b9 (numeralValue row.1, row.2) (List.mem_map.2 ⟨row, hr, rfl⟩) m hm'
      rw [this]
      have hl := h.models row hr
      simp [hl, hm']
    · have hin : ∀ row ∈ rows, numeralValue row.1 ≠ f := fun row hr he => hin ⟨row, hr, he⟩
      refine Or.inr ⟨hin, ?_⟩
      rw [b8 f m hf hm' (by
        intro e he
        obtain ⟨row, hr, rfl⟩ := List.mem_map.1 he
        exact hin row hr)]
      have hb := slot_add_le _ hg.wf (f := f) (m := m) hf hm'
      simp only [List.length_replicate] at hb
      simp only [DenseWeights.read, List.drop_replicate, List.take_replicate]
      congr 1
      simp only [slot] at hb ⊢
      omega

/-! ### Rewriting after editing -/

/-- The edit of one table. -/
def editTable (d : Doc F) : Doc F → Doc F
  | .obj l => .obj (l.map fun e => if e.1 = "weights".toList then (e.1, d) else e)
  | j => j

theorem edit_keys (d : Doc F) (l : List (List Char × Doc F)) :
    (l.map fun e => if e.1 = "weights".toList then (e.1, d) else e).map Prod.fst = l.map Prod.fst := by
  rw [List.map_map]
  refine List.map_congr_left ?_
  intro e _
  simp only [Function.comp]
  split <;> rfl

theorem replaceE_keys (d : Doc F) (l : List (List Char × Doc F)) : (replaceWeightsE d l).map Prod.fst = l.map Prod.fst := by
  induction l with
  | nil => rw [replaceWeightsE]
  | cons e l ih => obtain ⟨k, v⟩ := e; rw [replaceWeightsE, List.map_cons, ih]; rfl

mutual
theorem rewrite_replace (d : Doc F) (g : Doc F → Option (Doc F)) : ∀ j : Doc F, rewrite g (replaceWeights d j) = rewrite (fun t => g (editTable d t)) j
  | .obj l => by
    rw [replaceWeights]
    by_cases ht : isTable l = true
    · rw [if_pos ((isTable_iff l).1 ht), rewrite, rewrite, if_pos ht, if_pos (by rw [isTable_keys (edit_keys d l)]; exact ht)]
      rfl
    · rw [if_neg (fun x => ht ((isTable_iff l).2 x)), rewrite, rewrite, if_neg ht, if_neg (by rw [isTable_keys (replaceE_keys d l)]; exact ht),
        rewrite_replaceE d g l]
  | .arr l => by rw [replaceWeights, rewrite, rewrite, rewrite_replaceL d g l]
  | .null => by simp [replaceWeights, rewrite]
  | .bool _ => by simp [replaceWeights, rewrite]
  | .num _ => by simp [replaceWeights, rewrite]
  | .str _ => by simp [replaceWeights, rewrite]
theorem rewrite_replaceE (d : Doc F) (g : Doc F → Option (Doc F)) : ∀ l : List (List Char × Doc F),
    rewriteEntries g (replaceWeightsE d l) = rewriteEntries (fun t => g (editTable d t)) l
  | [] => by simp [replaceWeightsE, rewriteEntries]
  | (k, v) :: l => by rw [replaceWeightsE, rewriteEntries, rewriteEntries, rewrite_replace d g v, rewrite_replaceE d g l]
theorem rewrite_replaceL (d : Doc F) (g : Doc F → Option (Doc F)) : ∀ l : List (Doc F),
    rewriteList g (replaceWeightsL d l) = rewriteList (fun t => g (editTable d t)) l
  | [] => by simp [replaceWeightsL, rewriteList]
  | v :: l => by rw [replaceWeightsL, rewriteList, rewriteList, rewrite_replace d g v, rewrite_replaceL d g l]
end

mutual
/-- Rewriting twice is rewriting once, if tables stay tables. -/
theorem rewrite_comp (g h : Doc F → Option (Doc F)) (hh : ∀ l j, isTable l = true → h (.obj l) = some j → ∃ l', j = .obj l' ∧ isTable l' = true) :
    ∀ j j' : Doc F, rewrite h j = some j' → rewrite g j' = rewrite (fun t => (h t).bind g) j
  | .obj l, j', hj => by
    rw [rewrite] at hj
    rw [rewrite]
    split at hj
    · rename_i ht
      rw [if_pos ht]
      obtain ⟨l', rfl, ht'⟩ := hh l j' ht hj
      rw [rewrite, if_pos ht', hj]
      rfl
    · rename_i ht
      rw [if_neg ht]
      simp only [Option.bind_eq_bind, Option.bind_eq_some_iff] at hj
      obtain ⟨l', h1, h2⟩ := hj
      injection h2 with h2
      subst h2
      rw [rewrite, if_neg (by rw [isTable_keys (rewriteEntries_keys h l l' h1)]; exact ht), rewrite_compE g h hh l l' h1]
  | .arr l, j', hj => by
    rw [rewrite] at hj
    simp only [Option.bind_eq_bind, Option.bind_eq_some_iff] at hj
    obtain ⟨l', h1, h2⟩ := hj
    injection h2 with h2
    subst h2
    rw [rewrite, rewrite, rewrite_compL g h hh l l' h1]
  | .null, j', hj => by simp [rewrite] at hj; subst hj; simp [rewrite]
  | .bool _, j', hj => by simp [rewrite] at hj; subst hj; simp [rewrite]
  | .num _, j', hj => by simp [rewrite] at hj; subst hj; simp [rewrite]
  | .str _, j', hj => by simp [rewrite] at hj; subst hj; simp [rewrite]
theorem rewrite_compE (g h : Doc F → Option (Doc F)) (hh : ∀ l j, isTable l = true → h (.obj l) = some j → ∃ l', j = .obj l' ∧ isTable l' = true) :
    ∀ l l' : List (List Char × Doc F), rewriteEntries h l = some l' → rewriteEntries g l' = rewriteEntries (fun t => (h t).bind g) l
  | [], l', hl => by simp [rewriteEntries] at hl; subst hl; simp [rewriteEntries]
  | (k, v) :: l, l', hl => by
    simp only [rewriteEntries, Option.bind_eq_bind, Option.bind_eq_some_iff] at hl
    obtain ⟨v', h1, l'', h2, h3⟩ := hl
    injection h3 with h3
    subst h3
    rw [rewriteEntries, rewriteEntries, rewrite_comp g h hh v v' h1, rewrite_compE g h hh l l'' h2]
theorem rewrite_compL (g h : Doc F → Option (Doc F)) (hh : ∀ l j, isTable l = true → h (.obj l) = some j → ∃ l', j = .obj l' ∧ isTable l' = true) :
    ∀ l l' : List (Doc F), rewriteList h l = some l' → rewriteList g l' = rewriteList (fun t => (h t).bind g) l
  | [], l', hl => by simp [rewriteList] at hl; subst hl; simp [rewriteList]
  | v :: l, l', hl => by
    simp only [rewriteList, Option.bind_eq_bind, Option.bind_eq_some_iff] at hl
    obtain ⟨v', h1, l'', h2, h3⟩ := hl
    injection h3 with h3
    subst h3
    rw [rewriteList, rewriteList, rewrite_comp g h hh v v' h1, rewrite_compL g h hh l l'' h2]
end

mutual
/-- Rewriting succeeds if every table can be rewritten. -/
theorem rewrite_total (g : Doc F → Option (Doc F)) : ∀ j : Doc F, TablesAre (fun t => ∃ t', g t = some t') j → ∃ j', rewrite g j = some j'
  | .obj l, h => by
    rw [tablesAre_obj] at h
    rw [rewrite]
    split at h
    · rename_i ht; rw [if_pos ht]; exact h
    · rename_i ht
      rw [if_neg ht]
      obtain ⟨l', h1⟩ := rewrite_totalE g l h
      exact ⟨.obj l', by rw [h1]; rfl⟩
  | .arr l, h => by
    rw [TablesAre] at h
    obtain ⟨l', h1⟩ := rewrite_totalL g l h
    exact ⟨.arr l', by rw [rewrite, h1]; rfl⟩
  | .null, _ => ⟨.null, by simp [rewrite]⟩
  | .bool b, _ => ⟨.bool b, by simp [rewrite]⟩
  | .num n, _ => ⟨.num n, by simp [rewrite]⟩
  | .str s, _ => ⟨.str s, by simp [rewrite]⟩
theorem rewrite_totalE (g : Doc F → Option (Doc F)) : ∀ l : List (List Char × Doc F), TablesAreE (fun t => ∃ t', g t = some t') l →
    ∃ l', rewriteEntries g l = some l'
  | [], _ => ⟨[], rfl⟩
  | (k, v) :: l, h => by
    rw [TablesAreE] at h
    obtain ⟨v', h1⟩ := rewrite_total g v h.1
    obtain ⟨l', h2⟩ := rewrite_totalE g l h.2
    exact ⟨(k, v') :: l', by simp [rewriteEntries, h1, h2]⟩
theorem rewrite_totalL (g : Doc F → Option (Doc F)) : ∀ l : List (Doc F), TablesAreL (fun t => ∃ t', g t = some t') l →
    ∃ l', rewriteList g l = some l'
  | [], _ => ⟨[], rfl⟩
  | v :: l, h => by
    rw [TablesAreL] at h
    obtain ⟨v', h1⟩ := rewrite_total g v h.1
    obtain ⟨l', h2⟩ := rewrite_totalL g l h.2
    exact ⟨v' :: l', by simp [rewriteList, h1, h2]⟩
end

mutual
/-- Without tables nothing is rewritten. -/
theorem rewrite_none (g : Doc F → Option (Doc F)) : ∀ j : Doc F, TablesAre (fun _ => False) j → rewrite g j = some j
  | .obj l, h => by
    rw [tablesAre_obj] at h
    rw [rewrite]
    split at h
    · exact h.elim
    · rename_i ht
      rw [if_neg ht, rewrite_noneE g l h]
      rfl
  | .arr l, h => by
    rw [TablesAre] at h
    rw [rewrite, rewrite_noneL g l h]
    rfl
  | .null, _ => by simp [rewrite]
  | .bool b, _ => by simp [rewrite]
  | .num n, _ => by simp [rewrite]
  | .str s, _ => by simp [rewrite]
theorem rewrite_noneE (g : Doc F → Option (Doc F)) : ∀ l : List (List Char × Doc F), TablesAreE (fun _ => False) l → rewriteEntries g l = some l
  | [], _ => rfl
  | (k, v) :: l, h => by
    rw [TablesAreE] at h
    simp [rewriteEntries, rewrite_none g v h.1, rewrite_noneE g l h.2]
theorem rewrite_noneL (g : Doc F → Option (Doc F)) : ∀ l : List (Doc F), TablesAreL (fun _ => False) l → rewriteList g l = some l
  | [], _ => rfl
  | v :: l, h => by
    rw [TablesAreL] at h
    simp [rewriteList, rewrite_none g v h.1, rewrite_noneL g l h.2]
end

/-! ### A saved stack has one table -/

theorem rw_obj {g : Doc F → Option (Doc F)} {l l' : List (List Char × Doc F)} (h : isTable l = false) (he : rewriteEntries g l = some l') :
    rewrite g (.obj l) = some (.obj l') := by
  rw [rewrite, if_neg (by simp [h]), he]
  rfl

theorem rw_e {g : Doc F → Option (Doc F)} {k : List Char} {v v' : Doc F} {l l' : List (List Char × Doc F)} (h : rewrite g v = some v')
    (hl : rewriteEntries g l = some l') : rewriteEntries g ((k, v) :: l) = some ((k, v') :: l') := by simp [rewriteEntries, h, hl]

/-- An entry without tables. -/
theorem rw_s {g : Doc F → Option (Doc F)} {k : List Char} {v : Doc F} {l l' : List (List Char × Doc F)} (h : TablesAre (fun _ => False) v)
    (hl : rewriteEntries g l = some l') : rewriteEntries g ((k, v) :: l) = some ((k, v) :: l') := rw_e (rewrite_none g v h) hl

theorem rw_nil {g : Doc F → Option (Doc F)} : rewriteEntries g ([] : List (List Char × Doc F)) = some [] := rfl

theorem rw_wrap {g : Doc F → Option (Doc F)} (m : Meta) {d d' : Doc F} (h : rewrite g d = some d') : rewrite g (encWrap m d) = some (encWrap m d') :=
  rw_obj rfl (rw_s (ta_encN _) (rw_e h (rw_s (ta_encTypes _) (rw_s (ta_leaf_str _) rw_nil))))

theorem rw_encW {fin : F → Bool} {g : Doc F → Option (Doc F)} {w w' : DenseWeights F} (h : g (encW fin w) = some (encW fin w')) :
    rewrite g (encW fin w) = some (encW fin w') := by
  unfold encW at h ⊢
  rw [rewrite]
  split
  · exact h
  · rename_i hn
    exact absurd rfl hn

theorem rw_encRed {fin : F → Bool} {g : Doc F → Option (Doc F)} {w' : DenseWeights F} (r : Red F) : ∀ s : r.State,
    g (encW fin (r.coinOf s).weights) = some (encW fin w') → rewrite g (encRed fin r s) = some (encRed fin r (r.withWeights w' s)) := by
  induction r with
  | coin m =>
    intro s h
    exact rw_wrap m (rw_obj rfl (rw_s (ta_encF _ _) (rw_s (ta_encCoinConfig _ _) (rw_s (ta_leaf_bool _) (rw_s (ta_encLoss _ _) (rw_s (ta_encF _ _)
      (rw_s (ta_encF _ _) (rw_s (ta_encL (ta_encMState _) _) (rw_s (ta_encN _) (rw_s (ta_encL ta_encNs2 _) (rw_s (ta_encL ta_encNs3 _)
      (rw_s (ta_leaf_str _) (rw_e (rw_encW h) rw_nil)))))))))))))
  | binary m r ih => intro s h; exact rw_wrap m (rw_obj rfl (rw_e (ih s h) (rw_s (ta_leaf_str _) rw_nil)))
  | cbAdf m ty r ih =>
    intro s h
    refine rw_wrap m (rw_obj rfl (rw_s ?_ (rw_s (ta_obj rfl (ta_e1 (ta_encN _) (ta_e1 (ta_encN _) ta_e0)))
      (rw_e (ih s.2 h) (rw_s (ta_leaf_str _) rw_nil)))))
    cases ty <;> exact ta_leaf_str _
  | greedy m e r ih =>
    intro s h; exact rw_wrap m (rw_obj rfl (rw_e (ih s h) (rw_s (ta_encF _ _) (rw_s (ta_leaf_str _) rw_nil))))
  | softmax m e la r ih =>
    intro s h
    exact rw_wrap m (rw_obj rfl (rw_e (ih s.2 h) (rw_s (ta_obj rfl (ta_e1 (ta_encF _ _) (ta_e1 (ta_encF _ _) ta_e0)))
      (rw_s (ta_encN _) (rw_s (ta_leaf_str _) rw_nil)))))
  | squareCb m e a b r ih =>
    intro s h
    exact rw_wrap m (rw_obj rfl (rw_e (ih s.2 h) (rw_s (ta_obj rfl (ta_e1 (ta_encF _ _) (ta_e1 (ta_encF _ _) (ta_e1 (ta_encF _ _) ta_e0))))
      (rw_s (ta_encN _) (rw_s (ta_leaf_str _) rw_nil)))))
  | debug m r ih => intro s h; exact rw_wrap m (rw_obj rfl (rw_e (ih s h) (rw_s (ta_leaf_str _) rw_nil)))
  | elementwise m p k n r ih =>
    intro s h
    exact rw_wrap m (rw_obj rfl (rw_s (ta_leaf_bool _) (rw_s (ta_encN _) (rw_s (ta_encNs2 _) (rw_e (ih s h)
      (rw_s (ta_leaf_str _) rw_nil))))))

theorem rw_encModel {fin : F → Bool} {g : Doc F → Option (Doc F)} {w' : DenseWeights F} {m : Model F}
    (h : g (encW fin m.ws.coin.weights) = some (encW fin w')) :
    rewrite g (encModel fin m) = some (encModel fin ⟨m.global, m.ws.red, m.ws.red.withWeights w' m.ws.st⟩) :=
  rw_obj rfl (rw_e (rw_encRed _ _ h) (rw_s (ta_encGlobal _) rw_nil))

/-! ### Documents without weights -/

theorem noKeyE_get {key : List Char} {l : List (List Char × Doc F)} (h : NoKeyE key l) {k : String} {v : Doc F} (hv : l.lookup k.toList = some v) :
    NoKey key v ∧ k.toList ≠ key := by
  induction l with
  | nil => simp at hv
  | cons e l ih =>
    obtain ⟨k', v'⟩ := e
    rw [NoKeyE] at h
    rw [List.lookup_cons] at hv
    cases hk : k.toList == k'
    · rw [hk] at hv; exact ih h.2.2 hv
    · rw [hk] at hv
      injection hv with hv
      subst hv
      have : k.toList = k' := by simpa using hk
      exact ⟨h.2.1, by rw [this]; exact h.1⟩

theorem noKey_get {key : List Char} {j : Doc F} (h : NoKey key j) {k : String} {v : Doc F} (hv : j.get? k = some v) : NoKey key v ∧ k.toList ≠ key := by
  cases j with
  | obj l => rw [NoKey] at h; exact noKeyE_get h hv
  | _ => simp [Json.get?] at hv

theorem noKey_field {α : Type} {key : List Char} {j : Doc F} (h : NoKey key j) {k : String} {d : Doc F → Option α} {a : α}
    (hf : field j k d = some a) : ∃ v, NoKey key v ∧ k.toList ≠ key ∧ d v = some a := by
  unfold field at hf
  rw [Option.bind_eq_some_iff] at hf
  obtain ⟨v, h1, h2⟩ := hf
  exact ⟨v, (noKey_get h h1).1, (noKey_get h h1).2, h2⟩

theorem decCoin_noKey {j : Doc F} (h : NoKey "weights".toList j) : decCoin j = none := by
  cases hd : decCoin j with
  | none => rfl
  | some c =>
    exfalso
    unfold decCoin at hd
    simp only [Option.bind_eq_bind, Option.bind_eq_some_iff] at hd
    obtain ⟨w, hw, _⟩ := hd
    exact (noKey_field h hw).choose_spec.2.1 rfl

theorem ite_none {α : Type} {c : Prop} [Decidable c] {a b : Option α} (ha : a = none) (hb : b = none) : (if c then a else b) = none := by
  split
  · exact ha
  · exact hb

theorem skip_none {α β : Type} {o : Option α} {f : α → Option β} (h : ∀ x, f x = none) : (o >>= f) = none := by
  cases o with
  | none => rfl
  | some x => exact h x

theorem stop_none {α β : Type} {o : Option α} {f : α → Option β} (h : o = none) : (o >>= f) = none := by rw [h]; rfl

theorem decRed_noKey : ∀ (fuel : Nat) (j : Doc F), NoKey "weights".toList j → decRed fuel j = none := by
  intro fuel
  induction fuel with
  | zero => intro j _; rfl
  | succ fuel ih =>
    intro j h
    rw [decRed]
    refine skip_none fun m => ?_
    cases hj : j.get? "reduction" with
    | none => rfl
    | some b =>
      have hb := (noKey_get h hj).1
      have hsub : ∀ k : String, field b k (decRed fuel) = none := by
        intro k
        cases hf : field b k (decRed fuel) with
        | none => rfl
        | some r =>
          obtain ⟨v, h1, _, h2⟩ := noKey_field hb hf
          rw [ih v h1] at h2
          cases h2
      refine skip_none (o := field b "type" decS) fun t => ?_
      refine ite_none (stop_none (decCoin_noKey hb)) ?_
      refine ite_none (stop_none (hsub _)) ?_
      refine ite_none (skip_none fun _ => stop_none (hsub _)) ?_
      refine ite_none (skip_none fun _ => stop_none (hsub _)) ?_
      refine ite_none (skip_none fun _ => skip_none fun _ => skip_none fun _ => skip_none fun _ => stop_none (hsub _)) ?_
      refine ite_none (skip_none fun _ => skip_none fun _ => skip_none fun _ => skip_none fun _ => skip_none fun _ => stop_none (hsub _)) ?_
      refine ite_none (stop_none (hsub _)) ?_
      exact ite_none (stop_none (hsub _)) rfl

theorem decModel_noKey {j : Doc F} (h : NoKey "weights".toList j) : decModel j = none := by
  cases hd : decModel j with
  | none => rfl
  | some x =>
    exfalso
    unfold decModel at hd
    simp only [Option.bind_eq_bind, Option.bind_eq_some_iff] at hd
    obtain ⟨_, _, _, hf, _⟩ := hd
    obtain ⟨v, h1, _, h2⟩ := noKey_field h hf
    rw [decRed_noKey _ v h1] at h2
    cases h2

theorem noKeyE_not_mem {key : List Char} {l : List (List Char × Doc F)} (h : NoKeyE key l) : key ∉ l.map Prod.fst := by
  induction l with
  | nil => simp
  | cons e l ih =>
    obtain ⟨k, v⟩ := e
    rw [NoKeyE] at h
    simp only [List.map_cons, List.mem_cons, not_or]
    exact ⟨fun he => h.1 he.symm, ih h.2.2⟩

mutual
theorem noKey_tables : ∀ j : Doc F, NoKey "weights".toList j → TablesAre (fun _ => False) j
  | .obj l, h => by
    rw [NoKey] at h
    rw [TablesAre, if_neg (fun x => noKeyE_not_mem h (x "weights" (by simp)))]
    exact noKey_tablesE l h
  | .arr l, h => by
    rw [NoKey] at h
    rw [TablesAre]
    exact noKey_tablesL l h
  | .null, _ => by simp [TablesAre]
  | .bool b, _ => by simp [TablesAre]
  | .num n, _ => by simp [TablesAre]
  | .str s, _ => by simp [TablesAre]
theorem noKey_tablesE : ∀ l : List (List Char × Doc F), NoKeyE "weights".toList l → TablesAreE (fun _ => False) l
  | [], _ => by simp [TablesAreE]
  | (k, v) :: l, h => by
    rw [NoKeyE] at h
    rw [TablesAreE]
    exact ⟨noKey_tables v h.2.1, noKey_tablesE l h.2.2⟩
theorem noKey_tablesL : ∀ l : List (Doc F), NoKeyL "weights".toList l → TablesAreL (fun _ => False) l
  | [], _ => by simp [TablesAreL]
  | v :: l, h => by
    rw [NoKeyL] at h
    rw [TablesAreL]
    exact ⟨noKey_tables v h.1, noKey_tablesL l h.2⟩
end

end Rml
