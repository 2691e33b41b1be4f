import Verif.Lemmas.SerdeW
import Verif.SpecSerde
set_option linter.unusedSectionVars false
set_option linter.unusedSimpArgs false

/-! Helper lemmas: reading back what was written. -/

namespace Rml
variable {F : Type} [Flt F]
open Serde DenseWeights

theorem digitVal_ofNat {d : Nat} (h : d < 10) : digitVal? (Char.ofNat (48 + d)) = some d := by
  match d, h with
  | 0, _ | 1, _ | 2, _ | 3, _ | 4, _ | 5, _ | 6, _ | 7, _ | 8, _ | 9, _ => decide

theorem digitsRev_ne_nil (fuel n : Nat) : digitsRev (fuel + 1) n ≠ [] := by
  rw [digitsRev]; split <;> simp

theorem readDigits (fuel : Nat) : ∀ n, n < fuel → ∃ l : List Nat, digitsRev fuel n = l ∧
    ((l.reverse).map fun d => Char.ofNat (48 + d)).foldl
      (fun acc c => do let a ← acc; let d ← digitVal? c; some (10 * a + d)) (some 0) = some n := by
  induction fuel with
  | zero => intro n h; omega
  | succ fuel ih =>
    intro n h
    refine ⟨_, rfl, ?_⟩
    rw [digitsRev]
    split
    · rename_i h10
      simp [digitVal_ofNat h10]
    · obtain ⟨l, h1, h2⟩ := ih (n / 10) (by omega)
      rw [h1, List.reverse_cons, List.map_append, List.foldl_append, h2]
      simp only [List.map_cons, List.map_nil, List.foldl_cons, List.foldl_nil]
      rw [digitVal_ofNat (Nat.mod_lt _ (by omega))]
      simp only [Option.bind_eq_bind, Option.bind_some]
      congr 1; omega

theorem readNat_showNat (n : Nat) : readNat (showNat n) = some n := by
  obtain ⟨l, h1, h2⟩ := readDigits (n + 1) n (by omega)
  unfold readNat showNat
  rw [h1]
  rw [if_neg, h2]
  have := digitsRev_ne_nil n n
  rw [h1] at this
  simpa using this

@[simp] theorem decF_encF {fin : F → Bool} {x : F} (h : fin x = true) : decF (encF fin x) = some x := by simp [encF, h, decF]
@[simp] theorem decN_encN (n : Nat) : decN (encN n : Doc F) = some n := rfl

theorem decL_encL {α : Type} {e : α → Doc F} {d : Doc F → Option α} {l : List α} (h : ∀ x ∈ l, d (e x) = some x) :
    decL d (encL e l) = some l := by
  simp only [decL, encL]
  induction l with
  | nil => rfl
  | cons x l ih =>
    rw [List.map_cons, List.mapM_cons, h x (by simp), ih (fun y hy => h y (by simp [hy]))]
    rfl

theorem decPair_encPair {fin : F → Bool} {p : Nat × F} (h : fin p.2 = true) : decPair (encPair fin p) = some p := by
  simp [encPair, decPair, h]

theorem lookup_here {α : Type} (k : List Char) (v : α) (l : List (List Char × α)) : ((k, v) :: l).lookup k = some v := by simp
theorem lookup_next {α : Type} {k k' : List Char} (v : α) (l : List (List Char × α)) (h : (k == k') = false) :
    ((k', v) :: l).lookup k = l.lookup k := by simp only [List.lookup_cons, h]

theorem decVec_encVec {fin : F → Bool} {v : List F} (h : ∀ x ∈ v, Flt.eq x Flt.zero = false → fin x = true) :
    decVec (encVec fin v) = some (v.map canonZ) := by
  have h1 : field (encVec fin v) "len" decN = some v.length := rfl
  have h2 : field (encVec fin v) "non_zero_value_and_index_pairs" (decL decPair) = some (SparseF32Vec.fromDense v).pairs := by
    show decL decPair (encL (encPair fin) (SparseF32Vec.fromDense v).pairs) = _
    apply decL_encL
    intro p hp
    apply decPair_encPair
    simp only [SparseF32Vec.fromDense, List.mem_map, List.mem_filter] at hp
    obtain ⟨q, ⟨hq, hz⟩, rfl⟩ := hp
    exact h q.1 (List.fst_mem_of_mem_zipIdx hq) (by simpa using hz)
  unfold decVec
  rw [h1, h2]
  exact toDense_fromDense v

namespace DenseWeights
/-- The table with every zero made plain. -/
def canon (w : DenseWeights F) : DenseWeights F := { w with weights := w.weights.map canonZ }
end DenseWeights

theorem canonZ_idem (x : F) : canonZ (canonZ x) = canonZ x := by
  unfold canonZ
  split
  · split <;> rfl
  · rfl

theorem canonZ_zero {x : F} (h : Flt.eq (canonZ x) Flt.zero = true) : canonZ x = Flt.zero := by
  unfold canonZ at h ⊢
  split
  · rfl
  · rename_i h'; rw [if_neg h'] at h; exact absurd h h'

theorem decW_encW {fin : F → Bool} {w : DenseWeights F} (h : FinW fin w) : decW (encW fin w) = some w.canon := by
  have h1 : field (encW fin w) "weights" decVec = some (w.weights.map canonZ) := by
    show decVec (encVec fin w.weights) = _
    exact decVec_encVec h
  unfold decW
  rw [h1]
  rfl

/-- If some value cannot be written, the table cannot be read back. -/
theorem decW_fails {fin : F → Bool} {w : DenseWeights F} {x : F} (hx : x ∈ w.weights) (hz : Flt.eq x Flt.zero = false)
    (hf : fin x = false) : decW (encW fin w) = none := by
  have h1 : field (encW fin w) "weights" decVec = none := by
    show decVec (encVec fin w.weights) = _
    have h2 : field (encVec fin w.weights) "non_zero_value_and_index_pairs" (decL decPair) = none := by
      show decL decPair (encL (encPair fin) (SparseF32Vec.fromDense w.weights).pairs) = _
      obtain ⟨i, hi, hxi⟩ := List.mem_iff_getElem.1 hx
      have hm : (i, x) ∈ (SparseF32Vec.fromDense w.weights).pairs := by
        simp only [SparseF32Vec.fromDense, List.mem_map, List.mem_filter]
        refine ⟨(x, i), ⟨?_, by simp [hz]⟩, rfl⟩
        rw [List.mem_zipIdx_iff_getElem?, List.getElem?_eq_getElem hi, hxi]
      generalize (SparseF32Vec.fromDense w.weights).pairs = l at hm
      simp only [decL, encL]
      induction l with
      | nil => simp at hm
      | cons p l ih =>
        rw [List.map_cons, List.mapM_cons]
        rcases List.mem_cons.1 hm with rfl | hm
        · simp [encPair, decPair, encF, hf, decF]
        · rw [ih hm]
          cases decPair (encPair fin p) <;> rfl
    unfold decVec
    rw [h2]
    cases field (encVec fin w.weights) "len" decN <;> rfl
  unfold decW
  rw [h1]; rfl

theorem decND_encND {fin : F → Bool} {a : NDArray F} (h : ∀ e ∈ a.weights, ∀ s ∈ e.2, ∀ x ∈ s, fin x = true) :
    decND (encND fin a) = some a := by
  have h1 : field (encND fin a) "weights" decMap = some a.weights := by
    show decMap (.obj (a.weights.map fun e => (showNat e.1, encL (encL (encF fin)) e.2))) = _
    simp only [decMap]
    revert h
    generalize a.weights = l
    intro h
    induction l with
    | nil => rfl
    | cons e l ih =>
      rw [List.map_cons, List.mapM_cons, ih (fun y hy => h y (by simp [hy]))]
      have : decEntry (showNat e.1, encL (encL (encF fin)) e.2) = some e := by
        simp only [decEntry, readNat_showNat]
        rw [decL_encL (fun s hs => decL_encL (fun x hx => decF_encF (h e (by simp) s hs x hx)))]
        rfl
      rw [this]; rfl
  unfold decND
  rw [h1]
  rfl

theorem canon_good {w : DenseWeights F} (h : w.Good) : w.canon.Good := by
  refine ⟨⟨h.wf.model_le, h.wf.state_le, ?_⟩, h.nf, ?_, ?_⟩
  · show _ ≤ (w.weights.map canonZ).length
    rw [List.length_map]; exact h.wf.len
  · show (w.weights.map canonZ).length = _
    rw [List.length_map]; exact h.len
  · intro k hk hn
    show (w.weights.map canonZ)[k]? = _
    rw [List.getElem?_map, h.pad k (by simpa [canon] using hk) hn]
    simp [canonZ]

theorem encW_canon (hz0 : Flt.eq (Flt.zero : F) Flt.zero = true) (fin : F → Bool) (w : DenseWeights F) :
    encW fin w.canon = encW fin w := by
  have : SparseF32Vec.fromDense (w.weights.map canonZ) = SparseF32Vec.fromDense w.weights := by
    simp only [SparseF32Vec.fromDense, List.length_map]
    congr 1
    generalize w.weights = l
    have : ∀ n, (((l.map canonZ).zipIdx n).filter (fun p => !Flt.eq p.1 Flt.zero)).map (fun p => (p.2, p.1)) =
        ((l.zipIdx n).filter (fun p => !Flt.eq p.1 Flt.zero)).map (fun p => (p.2, p.1)) := by
      induction l with
      | nil => intro n; rfl
      | cons x l ih =>
        intro n
        simp only [List.map_cons, List.zipIdx_cons, List.filter_cons]
        cases hz : Flt.eq x Flt.zero
        · have : canonZ x = x := by simp [canonZ, hz]
          simp only [this, hz, Bool.not_false, if_true, List.map_cons, ih]
        · have e : canonZ x = Flt.zero := by simp [canonZ, hz]
          simp only [e, hz0, Bool.not_true, Bool.false_eq_true, if_false, ih]
    exact this 0
  simp only [encW, encVec, canon, this]

/-! ### Rewriting -/

theorem lookup_isSome_keys {α : Type} (k : List Char) (l : List (List Char × α)) : (l.lookup k).isSome = (l.map Prod.fst).contains k := by
  induction l with
  | nil => rfl
  | cons e l ih =>
    obtain ⟨a, b⟩ := e
    rw [List.lookup_cons]
    cases h : k == a <;> simp_all

theorem isTable_iff (l : List (List Char × Doc F)) : isTable l = true ↔ HasTableKeys l := by
  simp only [isTable, Json.hasKey, lookup_isSome_keys, HasTableKeys, Bool.and_eq_true, List.forall_mem_cons, List.not_mem_nil,
    false_implies, implies_true, and_true, List.contains_iff_mem, and_assoc]

theorem tablesAre_obj {P : Doc F → Prop} (l : List (List Char × Doc F)) :
    TablesAre P (.obj l) = if isTable l = true then P (.obj l) else TablesAreE P l := by
  rw [TablesAre]
  by_cases h : isTable l = true
  · rw [if_pos h, if_pos ((isTable_iff l).1 h)]
  · rw [if_neg h, if_neg (fun x => h ((isTable_iff l).2 x))]

theorem isTable_keys {l l' : List (List Char × Doc F)} (h : l.map Prod.fst = l'.map Prod.fst) : isTable l = isTable l' := by
  simp only [isTable, Json.hasKey, lookup_isSome_keys, h]

theorem rewriteEntries_keys (g : Doc F → Option (Doc F)) : ∀ (l l' : List (List Char × Doc F)),
    rewriteEntries g l = some l' → l'.map Prod.fst = l.map Prod.fst := by
  intro l
  induction l with
  | nil => intro l' h; simp [rewriteEntries] at h; simp [← h]
  | cons e l ih =>
    intro l' h
    obtain ⟨k, v⟩ := e
    simp only [rewriteEntries, Option.bind_eq_bind, Option.bind_eq_some_iff] at h
    obtain ⟨v', _, l'', h2, h3⟩ := h
    injection h3 with h3
    subst h3
    simp [ih l'' h2]

mutual
theorem rewrite_inverse (P : Doc F → Prop) (g h : Doc F → Option (Doc F))
    (hg : ∀ l, isTable l = true → P (.obj l) → ∃ l', g (.obj l) = some (.obj l') ∧ isTable l' = true ∧ h (.obj l') = some (.obj l)) :
    ∀ j : Doc F, TablesAre P j → ∃ j', rewrite g j = some j' ∧ rewrite h j' = some j
  | .obj l, hj => by
    rw [tablesAre_obj] at hj
    rw [rewrite]
    split at hj
    · rename_i ht
      obtain ⟨l', h1, h2, h3⟩ := hg l ht hj
      refine ⟨.obj l', by rw [if_pos ht]; exact h1, ?_⟩
      rw [rewrite, if_pos h2]; exact h3
    · rename_i ht
      obtain ⟨l', h1, h2⟩ := rewrite_inverseE P g h hg l hj
      refine ⟨.obj l', by rw [if_neg ht, h1]; rfl, ?_⟩
      rw [rewrite, if_neg (by rw [isTable_keys (rewriteEntries_keys g l l' h1)]; exact ht), h2]; rfl
  | .arr l, hj => by
    rw [TablesAre] at hj
    obtain ⟨l', h1, h2⟩ := rewrite_inverseL P g h hg l hj
    refine ⟨.arr l', by rw [rewrite, h1]; rfl, by rw [rewrite, h2]; rfl⟩
  | .null, _ => ⟨.null, by simp [rewrite], by simp [rewrite]⟩
  | .bool b, _ => ⟨.bool b, by simp [rewrite], by simp [rewrite]⟩
  | .num n, _ => ⟨.num n, by simp [rewrite], by simp [rewrite]⟩
  | .str s, _ => ⟨.str s, by simp [rewrite], by simp [rewrite]⟩
theorem rewrite_inverseE (P : Doc F → Prop) (g h : Doc F → Option (Doc F))
    (hg : ∀ l, isTable l = true → P (.obj l) → ∃ l', g (.obj l) = some (.obj l') ∧ isTable l' = true ∧ h (.obj l') = some (.obj l)) :
    ∀ l : List (List Char × Doc F), TablesAreE P l → ∃ l', rewriteEntries g l = some l' ∧ rewriteEntries h l' = some l
  | [], _ => ⟨[], rfl, rfl⟩
  | (k, v) :: l, hj => by
    rw [TablesAreE] at hj
    obtain ⟨v', h1, h2⟩ := rewrite_inverse P g h hg v hj.1
    obtain ⟨l', h3, h4⟩ := rewrite_inverseE P g h hg l hj.2
    exact ⟨(k, v') :: l', by simp [rewriteEntries, h1, h3], by simp [rewriteEntries, h2, h4]⟩
theorem rewrite_inverseL (P : Doc F → Prop) (g h : Doc F → Option (Doc F))
    (hg : ∀ l, isTable l = true → P (.obj l) → ∃ l', g (.obj l) = some (.obj l') ∧ isTable l' = true ∧ h (.obj l') = some (.obj l)) :
    ∀ l : List (Doc F), TablesAreL P l → ∃ l', rewriteList g l = some l' ∧ rewriteList h l' = some l
  | [], _ => ⟨[], rfl, rfl⟩
  | v :: l, hj => by
    rw [TablesAreL] at hj
    obtain ⟨v', h1, h2⟩ := rewrite_inverse P g h hg v hj.1
    obtain ⟨l', h3, h4⟩ := rewrite_inverseL P g h hg l hj.2
    exact ⟨v' :: l', by simp [rewriteList, h1, h3], by simp [rewriteList, h2, h4]⟩
end

/-- A document that is the saved form of a table made by the program. -/
def SavedTable (fin : F → Bool) (j : Doc F) : Prop :=
  ∃ w : DenseWeights F, w.Good ∧ w.modelIndexSize ≤ 256 ∧ FinW fin w ∧ j = encW fin w

theorem mem_read {w : DenseWeights F} {f m : Nat} {x : F} (h : x ∈ w.read f m) : x ∈ w.weights :=
  List.mem_of_mem_drop (List.mem_of_mem_take h)

theorem table_roundtrip (hz0 : Flt.eq (Flt.zero : F) Flt.zero = true) {fin : F → Bool} (hf0 : fin Flt.zero = true)
    (order : List (Nat × List (List F)) → List (Nat × List (List F))) (horder : ∀ l, (order l).Perm l)
    {w : DenseWeights F} (hw : w.Good) (h256 : w.modelIndexSize ≤ 256) (hf : FinW fin w) :
    ∃ l', tableToND fin order (encW fin w) = some (.obj l') ∧ isTable l' = true ∧ tableToSparse fin (.obj l') = some (encW fin w) := by
  obtain ⟨a, h1, h2⟩ := nd_exact order horder (canon_good hw) h256 (by
    intro x hx
    simp only [canon, List.mem_map] at hx
    obtain ⟨y, _, rfl⟩ := hx
    exact canonZ_zero)
  refine ⟨encSizes a.featureIndexSize a.modelIndexSize a.featureStateSize a.modelIndexSizeShift a.featureStateSizeShift ++
    [("weights".toList, .obj (a.weights.map fun e => (showNat e.1, encL (encL (encF fin)) e.2)))], ?_, ?_, ?_⟩
  · show tableToND fin order (encW fin w) = some (encND fin a)
    unfold tableToND
    rw [decW_encW hf]
    simp only [Option.bind_eq_bind, Option.bind_some, h1]
  · rfl
  · show tableToSparse fin (encND fin a) = _
    unfold tableToSparse
    rw [decND_encND]
    · simp only [Option.bind_eq_bind, Option.bind_some, h2]
      rw [encW_canon hz0]
    · rw [ofDense_eq order (canon_good hw).wf] at h1
      injection h1 with h1
      subst h1
      intro e he s hs x hx
      simp only [(horder _).mem_iff, List.mem_filter, List.mem_map, List.mem_range] at he
      obtain ⟨⟨i, hi, rfl⟩, _⟩ := he
      simp only [rowOf, List.mem_map, List.mem_range] at hs
      obtain ⟨j, hj, rfl⟩ := hs
      have hx' := mem_read hx
      simp only [canon, List.mem_map] at hx'
      obtain ⟨y, hy, rfl⟩ := hx'
      unfold canonZ
      split
      · exact hf0
      · rename_i hne; exact hf y hy (by simpa using hne)

/-! ### The other structs -/

section structs

@[simp] theorem decNs_encNs (n : Namespace) : decNs (encNs n : Doc F) = some n := by
  cases n with
  | named h => show (some (Namespace.named (BitVec.ofNat 32 h.toNat)) : Option Namespace) = _; simp
  | rawHash h => show (some (Namespace.rawHash (BitVec.ofNat 32 h.toNat)) : Option Namespace) = _; simp
  | default => rfl

@[simp] theorem decNs2_encNs2 (p : Namespace × Namespace) : decNs2 (encNs2 p : Doc F) = some p := by simp [decNs2, encNs2]
@[simp] theorem decNs3_encNs3 (p : Namespace × Namespace × Namespace) : decNs3 (encNs3 p : Doc F) = some p := by simp [decNs3, encNs3]

@[simp] theorem decNsDef_encNsDef (n : NamespaceDef) : decNsDef (encNsDef n : Doc F) = some n := by cases n <;> rfl

theorem decGlobal_encGlobal (g : GlobalConfig) : decGlobal (encGlobal g : Doc F) = some g := by
  have h1 : denyUnknown (encGlobal g : Doc F) ["numBits", "hashSeed", "constantFeatureEnabled", "interactions"] = some () := rfl
  have h2 : fieldOr (encGlobal g : Doc F) "interactions" [] (decL (decL decNsDef)) = some g.interactions := by
    show decL (decL decNsDef) (encL (encL encNsDef) g.interactions) = _
    exact decL_encL (fun l _ => decL_encL (fun x _ => decNsDef_encNsDef x))
  unfold decGlobal
  rw [h1, h2]
  show some (GlobalConfig.mk g.numBits (BitVec.ofNat 32 g.hashSeed.toNat) g.constantFeatureEnabled g.interactions) = _
  simp

theorem decLoss_encLoss {fin : F → Bool} {l : LossFunction F} (h : FinLoss fin l) : decLoss (encLoss fin l) = some l := by
  cases l with
  | squared => rfl
  | logistic lo hi =>
    show (do
      let lo ← decF (encF fin lo)
      let hi ← decF (encF fin hi)
      some (LossFunction.logistic lo hi)) = _
    simp [h.1, h.2]

@[simp] theorem decLink_encLink (l : LinkFunction) : decLink (encLink l : Doc F) = some l := by cases l <;> rfl

theorem decCoinConfig_enc {fin : F → Bool} {c : CoinConfig F} (h : FinConfig fin c) :
    decCoinConfig (encCoinConfig fin c) = some c := by
  obtain ⟨h1, h2, h3, h4, h5⟩ := h
  show (do
    let a ← decF (encF fin c.alpha)
    let b ← decF (encF fin c.beta)
    let l1 ← decF (encF fin c.l1Lambda)
    let l2 ← decF (encF fin c.l2Lambda)
    let lo ← decLoss (encLoss fin c.lossFunction)
    let li ← decLink (encLink c.linkFunction)
    some (CoinConfig.mk a b l1 l2 lo li)) = _
  simp [h1, h2, h3, h4, decLoss_encLoss h5]

theorem decMState_enc {fin : F → Bool} {s : CoinModelState F} (h : fin s.normalizedSumNormX = true ∧ fin s.totalWeight = true) :
    decMState (encMState fin s) = some s := by
  show (do
    let a ← decF (encF fin s.normalizedSumNormX)
    let b ← decF (encF fin s.totalWeight)
    some (CoinModelState.mk a b)) = _
  simp [h.1, h.2]

/-- The regressor with plain zeros. -/
def Coin.canon (c : Coin F) : Coin F := { c with weights := c.weights.canon }

theorem decCoin_encCoin {fin : F → Bool} {c : Coin F} (h : FinCoin fin c) : decCoin (encCoin fin c) = some c.canon := by
  show (do
    let w ← decW (encW fin c.weights)
    let cfg ← decCoinConfig (encCoinConfig fin c.config)
    let ms ← decL decMState (encL (encMState fin) c.modelStates)
    let avg ← decF (encF fin c.averageSquaredNormX)
    let mn ← decF (encF fin c.minLabel)
    let mx ← decF (encF fin c.maxLabel)
    let lo ← decLoss (encLoss fin c.lossFunction)
    let ps ← decL decNs2 (encL encNs2 c.pass.pairs)
    let ts ← decL decNs3 (encL encNs3 c.pass.triples)
    some (Coin.mk w cfg ms avg mn mx lo ⟨ps, ts, c.pass.numBits, c.pass.addConstant⟩)) = _
  rw [decW_encW h.weights, decCoinConfig_enc h.config, decL_encL (fun s hs => decMState_enc (h.states s hs)), decF_encF h.avg,
    decF_encF h.minL, decF_encF h.maxL, decLoss_encLoss h.loss, decL_encL (fun s _ => decNs2_encNs2 s),
    decL_encL (fun s _ => decNs3_encNs3 s)]
  rfl

@[simp] theorem decLabelType_enc (t : LabelType) : decLabelType (encLabelType t : Doc F) = some t := by cases t <;> rfl
@[simp] theorem decFeaturesType_enc (t : FeaturesType) : decFeaturesType (encFeaturesType t : Doc F) = some t := by cases t <;> rfl
@[simp] theorem decPredictionType_enc (t : PredictionType) : decPredictionType (encPredictionType t : Doc F) = some t := by
  cases t <;> rfl

theorem decTypes_enc (t : TypeDesc) : decTypes (encTypes t : Doc F) = some t := by
  obtain ⟨a, b, c, d, e, f⟩ := t
  show (do
    let il ← decLabelType (encLabelType a : Doc F)
    let ol ← decO decLabelType (encO encLabelType b : Doc F)
    let ift ← decFeaturesType (encFeaturesType c : Doc F)
    let oft ← decO decFeaturesType (encO encFeaturesType d : Doc F)
    let ip ← decO decPredictionType (encO encPredictionType e : Doc F)
    let op ← decPredictionType (encPredictionType f : Doc F)
    some (TypeDesc.mk il ol ift oft ip op)) = _
  have hb : decO decLabelType (encO encLabelType b : Doc F) = some b := by
    cases b with
    | none => rfl
    | some x => cases x <;> rfl
  have hd : decO decFeaturesType (encO encFeaturesType d : Doc F) = some d := by
    cases d with
    | none => rfl
    | some x => cases x <;> rfl
  have he : decO decPredictionType (encO encPredictionType e : Doc F) = some e := by
    cases e with
    | none => rfl
    | some x => cases x <;> rfl
  rw [hb, hd, he]
  simp

theorem decMeta_enc (m : Meta) (b : Doc F) : decMeta (encWrap m b) = some m := by
  show (do
    let ty ← decTypes (encTypes m.types : Doc F)
    some (Meta.mk (String.ofList m.typename.toList) ty m.numModelsBelow)) = _
  rw [decTypes_enc]
  simp

@[simp] theorem decCBType_enc (t : CBType) : decCBType (encCBType t : Doc F) = some t := by cases t <;> rfl

end structs

/-- The stack with plain zeros in its weight table. -/
def canonRed : (r : Red F) → r.State → r.State
  | .coin _, c => Coin.canon c
  | .binary _ r, s => canonRed r s
  | .cbAdf _ _ r, s => (s.1, canonRed r s.2)
  | .greedy _ _ r, s => canonRed r s
  | .softmax _ _ _ r, s => (s.1, canonRed r s.2)
  | .squareCb _ _ _ _ r, s => (s.1, canonRed r s.2)
  | .debug _ r, s => canonRed r s
  | .elementwise _ _ _ _ r, s => canonRed r s

/-- Number of reductions in a stack. -/
def Red.height : Red F → Nat
  | .coin _ => 1
  | .binary _ r | .cbAdf _ _ r | .greedy _ _ r | .softmax _ _ _ r | .squareCb _ _ _ _ r | .debug _ r | .elementwise _ _ _ _ r => r.height + 1

theorem decRed_encRed {fin : F → Bool} (r : Red F) : ∀ (s : r.State) (fuel : Nat), FinRed fin r s → r.height ≤ fuel →
    decRed fuel (encRed fin r s) = some ⟨r, canonRed r s⟩ := by
  induction r with
  | coin m =>
    intro s fuel hf hh
    cases fuel with
    | zero => simp [Red.height] at hh
    | succ fuel =>
      rw [decRed, encRed, decMeta_enc]
      show (do
        let c ← decCoin (encCoin fin s)
        some (⟨.coin m, c⟩ : (r : Red F) × r.State)) = _
      rw [decCoin_encCoin hf]; rfl
  | binary m r ih =>
    intro s fuel hf hh
    cases fuel with
    | zero => simp [Red.height] at hh
    | succ fuel =>
      rw [decRed, encRed, decMeta_enc]
      show (do
        let ⟨r', s'⟩ ← decRed fuel (encRed fin r s)
        some (⟨.binary m r', s'⟩ : (r : Red F) × r.State)) = _
      rw [ih s fuel hf (by simp [Red.height] at hh; omega)]; rfl
  | cbAdf m ty r ih =>
    intro s fuel hf hh
    cases fuel with
    | zero => simp [Red.height] at hh
    | succ fuel =>
      rw [decRed, encRed, decMeta_enc]
      show (do
        let ty' ← decCBType (encCBType ty : Doc F)
        let ⟨r', s'⟩ ← decRed fuel (encRed fin r s.2)
        some (⟨.cbAdf m ty' r', (⟨s.1.actionSum, s.1.eventSum⟩, s')⟩ : (r : Red F) × r.State)) = _
      rw [ih s.2 fuel hf (by simp [Red.height] at hh; omega), decCBType_enc]; rfl
  | greedy m e r ih =>
    intro s fuel hf hh
    cases fuel with
    | zero => simp [Red.height] at hh
    | succ fuel =>
      rw [decRed, encRed, decMeta_enc]
      show (do
        let e ← decF (encF fin e)
        let ⟨r', s'⟩ ← decRed fuel (encRed fin r s)
        some (⟨.greedy m e r', s'⟩ : (r : Red F) × r.State)) = _
      rw [ih s fuel hf.2 (by simp [Red.height] at hh; omega), decF_encF hf.1]; rfl
  | softmax m e la r ih =>
    intro s fuel hf hh
    cases fuel with
    | zero => simp [Red.height] at hh
    | succ fuel =>
      rw [decRed, encRed, decMeta_enc]
      show (do
        let e ← decF (encF fin e)
        let la ← decF (encF fin la)
        let ⟨r', s'⟩ ← decRed fuel (encRed fin r s.2)
        some (⟨.softmax m e la r', (s.1, s')⟩ : (r : Red F) × r.State)) = _
      rw [ih s.2 fuel hf.2.2 (by simp [Red.height] at hh; omega), decF_encF hf.1, decF_encF hf.2.1]; rfl
  | squareCb m e gs ge r ih =>
    intro s fuel hf hh
    cases fuel with
    | zero => simp [Red.height] at hh
    | succ fuel =>
      rw [decRed, encRed, decMeta_enc]
      show (do
        let e ← decF (encF fin e)
        let gs ← decF (encF fin gs)
        let ge ← decF (encF fin ge)
        let ⟨r', s'⟩ ← decRed fuel (encRed fin r s.2)
        some (⟨.squareCb m e gs ge r', (s.1, s')⟩ : (r : Red F) × r.State)) = _
      rw [ih s.2 fuel hf.2.2.2 (by simp [Red.height] at hh; omega), decF_encF hf.1, decF_encF hf.2.1, decF_encF hf.2.2.1]; rfl
  | debug m r ih =>
    intro s fuel hf hh
    cases fuel with
    | zero => simp [Red.height] at hh
    | succ fuel =>
      rw [decRed, encRed, decMeta_enc]
      show (do
        let ⟨r', s'⟩ ← decRed fuel (encRed fin r s)
        some (⟨.debug m r', s'⟩ : (r : Red F) × r.State)) = _
      rw [ih s fuel hf (by simp [Red.height] at hh; omega)]; rfl
  | elementwise m p keep nb r ih =>
    intro s fuel hf hh
    cases fuel with
    | zero => simp [Red.height] at hh
    | succ fuel =>
      rw [decRed, encRed, decMeta_enc]
      show (do
        let ⟨r', s'⟩ ← decRed fuel (encRed fin r s)
        let p' ← decNs2 (encNs2 p : Doc F)
        some (⟨.elementwise m p' keep nb r', s'⟩ : (r : Red F) × r.State)) = _
      rw [ih s fuel hf (by simp [Red.height] at hh; omega), decNs2_encNs2]; rfl

theorem depthEntries_mem {k : List Char} {v : Doc F} : ∀ {l : List (List Char × Doc F)}, (k, v) ∈ l → depth v ≤ depthEntries l
  | (k', v') :: l, h => by
    rw [depthEntries]
    rcases List.mem_cons.1 h with h | h
    · injection h with _ h; subst h; omega
    · have := depthEntries_mem h; omega

theorem depth_wrap (m : Meta) (b : Doc F) : depth b < depth (encWrap m b) := by
  have := depthEntries_mem (F := F) (k := "reduction".toList) (v := b) (l := [("num_models_below".toList, encN m.numModelsBelow),
    ("reduction".toList, b), ("type_description".toList, encTypes m.types), ("typename".toList, .str m.typename.toList)]) (by simp)
  unfold encWrap
  rw [depth]; omega

theorem depth_obj {k : List Char} {v : Doc F} {l : List (List Char × Doc F)} (h : (k, v) ∈ l) : depth v < depth (.obj l) := by
  have := depthEntries_mem h
  rw [depth]; omega

theorem height_le_depth (fin : F → Bool) (r : Red F) : ∀ s : r.State, r.height ≤ depth (encRed fin r s) := by
  induction r with
  | coin m => intro s; rw [encRed, Red.height]; have := depth_wrap m (encCoin fin s); omega
  | binary m r ih =>
    intro s; rw [encRed, Red.height]
    refine Nat.le_trans ?_ (Nat.le_of_lt (depth_wrap m _))
    exact Nat.lt_of_le_of_lt (ih s) (depth_obj (k := "regressor".toList) (by simp))
  | cbAdf m ty r ih =>
    intro s; rw [encRed, Red.height]
    refine Nat.le_trans ?_ (Nat.le_of_lt (depth_wrap m _))
    exact Nat.lt_of_le_of_lt (ih s.2) (depth_obj (k := "regressor".toList) (by simp))
  | greedy m e r ih =>
    intro s; rw [encRed, Red.height]
    refine Nat.le_trans ?_ (Nat.le_of_lt (depth_wrap m _))
    exact Nat.lt_of_le_of_lt (ih s) (depth_obj (k := "cb_adf".toList) (by simp))
  | softmax m e la r ih =>
    intro s; rw [encRed, Red.height]
    refine Nat.le_trans ?_ (Nat.le_of_lt (depth_wrap m _))
    exact Nat.lt_of_le_of_lt (ih s.2) (depth_obj (k := "cb_adf".toList) (by simp))
  | squareCb m e gs ge r ih =>
    intro s; rw [encRed, Red.height]
    refine Nat.le_trans ?_ (Nat.le_of_lt (depth_wrap m _))
    exact Nat.lt_of_le_of_lt (ih s.2) (depth_obj (k := "cb_adf".toList) (by simp))
  | debug m r ih =>
    intro s; rw [encRed, Red.height]
    refine Nat.le_trans ?_ (Nat.le_of_lt (depth_wrap m _))
    exact Nat.lt_of_le_of_lt (ih s) (depth_obj (k := "next".toList) (by simp))
  | elementwise m p keep nb r ih =>
    intro s; rw [encRed, Red.height]
    refine Nat.le_trans ?_ (Nat.le_of_lt (depth_wrap m _))
    exact Nat.lt_of_le_of_lt (ih s) (depth_obj (k := "regressor".toList) (by simp))

/-- The model with plain zeros. -/
def Serde.Model.canon (m : Serde.Model F) : Serde.Model F := ⟨m.global, m.ws.red, canonRed m.ws.red m.ws.st⟩

theorem decModel_encModel {fin : F → Bool} {m : Serde.Model F} (h : FinRed fin m.ws.red m.ws.st) :
    decModel (encModel fin m) = some m.canon := by
  have hd : m.ws.red.height ≤ depth (encModel fin m) := by
    refine Nat.le_trans (height_le_depth fin _ m.ws.st) (Nat.le_of_lt ?_)
    exact depth_obj (k := "entry_reduction".toList) (by simp)
  unfold decModel
  show (do
    let g ← decGlobal (encGlobal m.global : Doc F)
    let ⟨r, s⟩ ← decRed (depth (encModel fin m)) (encRed fin m.ws.red m.ws.st)
    some (Serde.Model.mk g ⟨r, s⟩)) = _
  rw [decGlobal_encGlobal, decRed_encRed _ _ _ h hd]
  rfl

end Rml
