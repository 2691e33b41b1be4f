import Verif.Lemmas.Visit
import Verif.Lemmas.SpecHash
import Verif.Lemmas.Weights
import Verif.Model.Field
import Mathlib.Data.List.ProdSigma
import Mathlib.Data.Sym.Sym2
import Mathlib.Data.Multiset.Basic
import Mathlib.Data.List.Nodup
import Mathlib.Data.List.Range

/-! C12, C13, C14: which features a pass visits. -/

namespace Rml
variable {F : Type}

/-- Number of positions of a namespace that hold index `i` with value `v`. -/
def occurrences [DecidableEq F] (n : NsFeats F) (i : U32) (v : F) : Nat :=
  ((List.range n.idx.data.length).filter (fun k => n.idx.data[k]? = some i ∧ n.vals.data[k]? = some v)).length

theorem count_zip_eq [DecidableEq F] (i : U32) (v : F) : ∀ (a : List U32) (b : List F),
    (a.zip b).count (i, v) = ((List.range a.length).filter (fun k => a[k]? = some i ∧ b[k]? = some v)).length := by
  intro a
  induction a with
  | nil => intro b; simp
  | cons x xs ih =>
    intro b
    cases b with
    | nil => simp
    | cons y ys =>
      rw [List.zip_cons_cons, List.count_cons, ih ys, List.length_cons, List.range_succ_eq_map, List.filter_cons]
      have e : ∀ l : List Nat, (List.filter (fun k => decide ((x :: xs)[k]? = some i ∧ (y :: ys)[k]? = some v))
          (l.map Nat.succ)).length = (l.filter (fun k => decide (xs[k]? = some i ∧ ys[k]? = some v))).length := by
        intro l; rw [List.filter_map, List.length_map]; rfl
      by_cases h : x = i ∧ y = v
      · obtain ⟨rfl, rfl⟩ := h
        simp only [List.getElem?_cons_zero, and_self, decide_true, if_true, beq_self_eq_true, List.length_cons]
        rw [e]
      · have h' : ((x, y) == (i, v)) = false := by
          simp only [beq_eq_false_iff_ne, ne_eq, Prod.mk.injEq]; exact h
        rw [h']
        simp only [List.getElem?_cons_zero, Option.some.injEq, h, decide_false, Bool.false_eq_true, if_false]
        rw [e]; simp

/-- C12 (what is visited). For every example, index and value: the number of times a pass calls its closure with them is the
number of positions in the example holding exactly them, plus the interaction features (C13, C14), plus one for the constant
`(2^numBits / 2, 1)` when enabled. -/
theorem C12_each_feature_once [Flt F] [DecidableEq F] (c : PassCfg) (hb : c.numBits ≤ 31) (f : SparseFeatures F)
    (i : U32) (v : F) :
    (visited c f).count (i, v) =
      (f.entries.map (fun e => occurrences e.2 i v)).sum +
      (c.pairs.map (fun p => (quadVisit c.numBits f p).count (i, v))).sum +
      (c.triples.map (fun t => (cubicVisit c.numBits f t).count (i, v))).sum +
      (if c.addConstant = true ∧ i.toNat = 2 ^ c.numBits / 2 ∧ v = Flt.one then 1 else 0) := by
  unfold visited
  simp only [List.count_append, List.count_flatMap, SparseFeatures.allFeatures]
  congr 1
  · congr 2
    apply congrArg
    apply List.map_congr_left
    intro e _
    exact count_zip_eq i v _ _
  · unfold constVisit
    have hc := constantFeatureIndex_toNat (n := c.numBits) (by omega)
    cases hcb : c.addConstant
    · simp
    · simp only [if_true, true_and, List.count_singleton, beq_iff_eq, Prod.mk.injEq]
      congr 1
      apply propext
      constructor
      · rintro ⟨rfl, rfl⟩; exact ⟨hc, rfl⟩
      · rintro ⟨h1, rfl⟩; exact ⟨BitVec.eq_of_toNat_eq (by omega), rfl⟩

/-- C12 (how it is visited), reading: on a table that has room for the visited indices, a read pass is the left fold of the
closure over the visited features, each with the weight stored for its index. -/
theorem C12_read_pass_folds [Flt F] {S : Type} (dbg : Bool) (model : Nat) (f : SparseFeatures F) (w : DenseWeights F)
    (c : PassCfg) (func : S → F → F → S) (s : S) (wt : U32 → F)
    (hwt : ∀ iv ∈ visited c f, w.weightAt dbg iv.1.toNat model = .ok (wt iv.1)) :
    foreachFeature dbg model f w c func s = .ok ((visited c f).foldl (fun s iv => func s iv.2 (wt iv.1)) s) := by
  unfold foreachFeature
  revert hwt
  generalize visited c f = vs
  intro hwt
  induction vs generalizing s with
  | nil => rfl
  | cons a l ih =>
    have h1 := hwt a (by simp)
    simp only [List.foldlM_cons, List.foldl_cons, h1, bind, Except.bind]
    exact ih _ (fun iv hiv => hwt iv (by simp [hiv]))

theorem DenseWeights.putState_self (w : DenseWeights F) (h : w.WF) {f m : Nat} (hf : f < w.featureIndexSize)
    (hm : m < w.modelIndexSize) :
    w.putState f m ((w.weights.drop (w.slot f m)).take w.featureStateSize) = w := by
  have hb := slot_add_le w h hf hm
  unfold putState
  congr 1
  conv_rhs => rw [← List.take_append_drop (w.slot f m) w.weights]
  rw [List.append_assoc]
  congr 1
  conv_rhs => rw [← List.take_append_drop w.featureStateSize (w.weights.drop (w.slot f m))]
  rw [List.drop_drop]

/-- C12 (how it is visited), writing: the mutable pass calls its closure on the same features in the same order: a closure that
only records the values it is given (and puts the state back) records exactly the visited values and leaves the table alone. -/
theorem C12_write_pass_visits_same [Flt F] (dbg : Bool) (model : Nat) (f : SparseFeatures F) (w : DenseWeights F) (h : w.WF)
    (c : PassCfg) (hr : ∀ iv ∈ visited c f, iv.1.toNat < w.featureIndexSize) (hm : model < w.modelIndexSize) :
    foreachFeatureWithStateMut dbg model f w c (fun (s : List F) v st => .ok (s ++ [v], st)) [] =
      .ok ((visited c f).map (·.2), w) ∧
    foreachFeatureWithState dbg model f w c (fun (s : List F) v _ => .ok (s ++ [v])) [] =
      .ok ((visited c f).map (·.2)) := by
  unfold foreachFeatureWithStateMut foreachFeatureWithState
  suffices H : ∀ acc : List F, List.foldlM (m := Except Panic) (fun (sw : List F × DenseWeights F) (iv : U32 × F) => do
      let st ← sw.2.stateAt dbg iv.1.toNat model
      let (s', st') ← (Except.ok (sw.1 ++ [iv.2], st) : M (List F × List F))
      let w' ← sw.2.setStateAt dbg iv.1.toNat model st'
      .ok (s', w')) (acc, w) (visited c f) = .ok (acc ++ (visited c f).map (·.2), w) ∧
      List.foldlM (m := Except Panic) (fun (s : List F) (iv : U32 × F) => do
        let _ ← w.stateAt dbg iv.1.toNat model
        .ok (s ++ [iv.2])) acc (visited c f) = .ok (acc ++ (visited c f).map (·.2)) by
    simpa using H []
  revert hr
  generalize visited c f = vs
  intro hr
  induction vs with
  | nil => intro acc; simp [pure, Except.pure]
  | cons a l ih =>
    intro acc
    have h1 := hr a (by simp)
    have e1 := DenseWeights.stateAt_eq dbg w h h1 hm
    have e2 := DenseWeights.setStateAt_eq dbg w h h1 hm
      (s := (w.weights.drop (w.slot a.1.toNat model)).take w.featureStateSize)
      (by have := DenseWeights.slot_add_le w h h1 hm; simp; omega)
    rw [DenseWeights.putState_self w h h1 hm] at e2
    have := ih (fun iv hiv => hr iv (by simp [hiv])) (acc ++ [a.2])
    simp only [List.foldlM_cons, e1, e2, bind, Except.bind, List.map_cons] at this ⊢
    simpa using this

/-! ### C13 -/

/-- The features of a namespace as far as interactions see them: those of an active namespace. -/
def activeFeats (f : SparseFeatures F) (ns : Namespace) : List (U32 × F) :=
  match SparseFeatures.lookup f.entries ns with
  | some n => if n.active then n.idx.data.zip n.vals.data else []
  | none => []

theorem nsIter_eq (f : SparseFeatures F) [Flt F] (ns : Namespace) : nsIter f ns = activeFeats f ns := by
  unfold nsIter activeFeats SparseFeatures.getNamespace
  cases SparseFeatures.lookup f.entries ns with
  | none => rfl
  | some n => by_cases h : n.active <;> simp [h, NsFeats.iter]

/-- The interaction feature of two features: FNV-style hash of the indices and product of the values. -/
def pairFeature [Flt F] (numBits : Nat) (a b : U32 × F) : U32 × F :=
  (lowBits numBits (pairIndex a.1 b.1), Flt.mul a.2 b.2)

/-- The interaction feature of three features. -/
def tripleFeature [Flt F] (numBits : Nat) (a b c : U32 × F) : U32 × F :=
  (lowBits numBits (tripleIndex a.1 b.1 c.1), Flt.mul (Flt.mul a.2 b.2) c.2)

/-- Positions of all unordered pairs (with repetition) below `n`, ordered. -/
def upperPairs (n : Nat) : List (Nat × Nat) := (List.range n).flatMap fun i => ((List.range n).drop i).map fun j => (i, j)

theorem mem_drop_range {n i j : Nat} : j ∈ (List.range n).drop i ↔ i ≤ j ∧ j < n := by
  rw [List.mem_iff_getElem?]
  constructor
  · rintro ⟨k, hk⟩
    rw [List.getElem?_drop, List.getElem?_eq_some_iff] at hk
    obtain ⟨h1, h2⟩ := hk
    simp at h1 h2
    omega
  · rintro ⟨h1, h2⟩
    refine ⟨j - i, ?_⟩
    rw [List.getElem?_drop, List.getElem?_eq_some_iff]
    refine ⟨by simp; omega, by simp; omega⟩

theorem mem_upperPairs {n : Nat} {p : Nat × Nat} : p ∈ upperPairs n ↔ p.1 ≤ p.2 ∧ p.2 < n := by
  simp only [upperPairs, List.mem_flatMap, List.mem_range, List.mem_map, mem_drop_range]
  constructor
  · rintro ⟨i, hi, j, ⟨h1, h2⟩, rfl⟩; exact ⟨h1, h2⟩
  · rintro ⟨h1, h2⟩; exact ⟨p.1, by omega, p.2, ⟨h1, h2⟩, rfl⟩

theorem upperPairs_nodup (n : Nat) : (upperPairs n).Nodup := by
  unfold upperPairs
  rw [List.nodup_flatMap]
  constructor
  · intro i _
    apply List.Nodup.map
    · intro a b h; exact (Prod.mk.inj h).2
    · exact (List.nodup_range).sublist (List.drop_sublist _ _)
  · refine List.Nodup.pairwise_of_forall_ne List.nodup_range ?_
    intro a _ b _ hab x hx hy
    simp only [List.mem_map] at hx hy
    obtain ⟨_, _, rfl⟩ := hx
    obtain ⟨_, _, h⟩ := hy
    exact hab (Prod.mk.inj h).1.symm

theorem upperPairs_sym_nodup (n : Nat) : ((upperPairs n).map (fun p => s(p.1, p.2))).Nodup := by
  rw [List.nodup_map_iff_inj_on (upperPairs_nodup _)]
  intro p hp q hq e
  rw [mem_upperPairs] at hp hq
  rw [Sym2.eq_iff] at e
  rcases e with ⟨e1, e2⟩ | ⟨e1, e2⟩
  · exact Prod.ext e1 e2
  · apply Prod.ext <;> omega

theorem upperPairs_sym_mem (n : Nat) :
    ∀ i j, s(i, j) ∈ (upperPairs n).map (fun p => s(p.1, p.2)) ↔ i < n ∧ j < n := by
  intro i j
  simp only [List.mem_map, mem_upperPairs, Sym2.eq_iff]
  constructor
  · rintro ⟨p, ⟨h1, h2⟩, ⟨e1, e2⟩ | ⟨e1, e2⟩⟩ <;> omega
  · rintro ⟨h1, h2⟩
    rcases Nat.le_total i j with h | h
    · exact ⟨(i, j), ⟨h, h2⟩, Or.inl ⟨rfl, rfl⟩⟩
    · exact ⟨(j, i), ⟨h, h1⟩, Or.inr ⟨rfl, rfl⟩⟩

theorem zipIdx_flatMap_getD {α β : Type} (l : List α) (g : α → Nat → List β) (d : α) :
    l.zipIdx.flatMap (fun p => g p.1 p.2) = (List.range l.length).flatMap (fun i => g (l.getD i d) i) := by
  have : l.zipIdx = (List.range l.length).map (fun i => (l.getD i d, i)) := by
    apply List.ext_getElem
    · simp
    · intro n h1 h2
      simp at h1
      simp [h1]
  rw [this, List.flatMap_map]

theorem zipIdx_flatMap_fst {α β : Type} (l : List α) (g : α → List β) :
    l.zipIdx.flatMap (fun p => g p.1) = l.flatMap g := by
  conv_rhs => rw [← List.zipIdx_map_fst 0 l]
  rw [List.flatMap_map]

theorem drop_map_range {α β : Type} (l : List α) (i : Nat) (g : α → β) (d : α) :
    (l.drop i).map g = ((List.range l.length).drop i).map (fun j => g (l.getD j d)) := by
  have : l = (List.range l.length).map (fun j => l.getD j d) := by
    apply List.ext_getElem
    · simp
    · intro n h1 h2
      simp [h1]
  conv_lhs => rw [this]
  rw [← List.map_drop, List.map_map]
  rfl

/-- C13, different namespaces: the visited features are exactly the products of every feature of the first with every feature of
the second namespace, each once. -/
theorem C13_quadratic_distinct [Flt F] (numBits : Nat) (f : SparseFeatures F) (A B : Namespace) (h : A ≠ B) :
    quadVisit numBits f (A, B) =
      ((activeFeats f A) ×ˢ (activeFeats f B)).map (fun p => pairFeature numBits p.1 p.2) := by
  unfold quadVisit pairFeature pairIndex
  simp only [nsIter_eq, if_neg h, List.drop_zero, fnvMul_eq, lowBits_eq, FNV_PRIME]
  rw [zipIdx_flatMap_fst (activeFeats f A) (fun a => List.map
    (fun f2 => (maskIdx numBits (16777619#32 * a.1 ^^^ f2.1), Flt.mul a.2 f2.2)) (activeFeats f B))]
  change _ = List.map _ ((activeFeats f A).flatMap fun a => (activeFeats f B).map (Prod.mk a))
  rw [List.map_flatMap]
  simp only [List.map_map]
  rfl

/-- C13, a namespace with itself: there is a list of position pairs that contains every unordered pair of positions (including a
position with itself) exactly once, and the visited features are the interaction features at these positions, in order. -/
theorem C13_quadratic_same [Flt F] (numBits : Nat) (f : SparseFeatures F) (A : Namespace) (d : U32 × F) :
    ∃ pos : List (Nat × Nat),
      quadVisit numBits f (A, A) =
        pos.map (fun p => pairFeature numBits ((activeFeats f A).getD p.1 d) ((activeFeats f A).getD p.2 d)) ∧
      (pos.map (fun p => s(p.1, p.2))).Nodup ∧
      ∀ i j, s(i, j) ∈ pos.map (fun p => s(p.1, p.2)) ↔ i < (activeFeats f A).length ∧ j < (activeFeats f A).length := by
  refine ⟨upperPairs (activeFeats f A).length, ?_, ?_, ?_⟩
  · unfold quadVisit pairFeature pairIndex upperPairs
    simp only [nsIter_eq, if_true, fnvMul_eq, lowBits_eq, FNV_PRIME]
    generalize activeFeats f A = l
    rw [zipIdx_flatMap_getD l (fun a i => List.map (fun f2 => (maskIdx numBits (16777619#32 * a.1 ^^^ f2.1), Flt.mul a.2 f2.2))
      (List.drop i l)) d]
    rw [List.map_flatMap]
    congr 1
    funext i
    rw [List.map_map, drop_map_range l i _ d]
    rfl
  · exact upperPairs_sym_nodup _
  · exact upperPairs_sym_mem _

/-- C13, missing or inactive namespaces contribute nothing. -/
theorem C13_quadratic_missing [Flt F] (numBits : Nat) (f : SparseFeatures F) (A B : Namespace)
    (h : f.getNamespace A = none ∨ f.getNamespace B = none) : quadVisit numBits f (A, B) = [] := by
  rcases h with h | h
  · simp [quadVisit, nsIter, h]
  · simp [quadVisit, nsIter, h]

/-- A concrete example: two features in one namespace, one in another. -/
def sampleFeats : SparseFeatures Int :=
  ⟨[(.named 1#32, ⟨.named 1#32, ⟨[3#32, 4#32], 2⟩, ⟨[2, 5], 2⟩, true⟩), (.named 2#32, ⟨.named 2#32, ⟨[6#32], 1⟩, ⟨[7], 1⟩, true⟩)]⟩

example : (@quadVisit Int intFlt 18 sampleFeats (.named 1#32, .named 1#32)).map (·.2) = [4, 10, 25] ∧
    (@quadVisit Int intFlt 18 sampleFeats (.named 1#32, .named 2#32)).map (·.2) = [14, 35] ∧
    (@visited Int intFlt ⟨[(.named 1#32, .named 2#32)], [], 18, true⟩ sampleFeats).map (·.2) = [2, 5, 7, 14, 35, 1] := by decide

/-! ### C14 -/

/-- The full C14 for three different namespaces: every combination exactly once. -/
theorem C14_cubic_distinct_partial [Flt F] (numBits : Nat) (f : SparseFeatures F) (A B C : Namespace) (hAB : A ≠ B)
    (hBC : B ≠ C) :
    cubicVisit numBits f (A, B, C) =
      ((activeFeats f A) ×ˢ ((activeFeats f B) ×ˢ (activeFeats f C))).map
        (fun p => tripleFeature numBits p.1 p.2.1 p.2.2) := by
  unfold cubicVisit tripleFeature tripleIndex pairIndex
  simp only [nsIter_eq, if_neg hAB, if_neg hBC, List.drop_zero, fnvMul_eq, lowBits_eq, FNV_PRIME]
  rw [zipIdx_flatMap_fst (activeFeats f A) (fun a => List.flatMap (fun f2 => List.map
    (fun f3 => (maskIdx numBits (16777619#32 * (16777619#32 * a.1 ^^^ f2.1) ^^^ f3.1), Flt.mul (Flt.mul a.2 f2.2) f3.2))
      (activeFeats f C)) (activeFeats f B))]
  change _ = List.map _ ((activeFeats f A).flatMap fun a => ((activeFeats f B).flatMap fun b =>
    (activeFeats f C).map (Prod.mk b)).map (Prod.mk a))
  simp only [List.map_flatMap, List.map_map]
  rfl

/-- C14 for a twice-repeated first namespace: every unordered pair of the first with every feature of the third, exactly once.
Missing from the full property: the cases `B = C`, where it is false (`C14_false_last_two_equal`, `C14_false_all_equal`). -/
theorem C14_cubic_first_two_equal_partial [Flt F] (numBits : Nat) (f : SparseFeatures F) (A C : Namespace) (hAC : A ≠ C)
    (d : U32 × F) :
    ∃ pos : List (Nat × Nat),
      cubicVisit numBits f (A, A, C) =
        (pos ×ˢ (activeFeats f C)).map (fun p => tripleFeature numBits ((activeFeats f A).getD p.1.1 d)
          ((activeFeats f A).getD p.1.2 d) p.2) ∧
      (pos.map (fun p => s(p.1, p.2))).Nodup ∧
      ∀ i j, s(i, j) ∈ pos.map (fun p => s(p.1, p.2)) ↔ i < (activeFeats f A).length ∧ j < (activeFeats f A).length := by
  refine ⟨upperPairs (activeFeats f A).length, ?_, upperPairs_sym_nodup _, upperPairs_sym_mem _⟩
  unfold cubicVisit tripleFeature tripleIndex pairIndex upperPairs
  simp only [nsIter_eq, if_true, if_neg hAC, List.drop_zero, fnvMul_eq, lowBits_eq, FNV_PRIME]
  generalize activeFeats f A = l
  rw [zipIdx_flatMap_getD l (fun a i => List.flatMap (fun f2 => List.map
    (fun f3 => (maskIdx numBits (16777619#32 * (16777619#32 * a.1 ^^^ f2.1) ^^^ f3.1), Flt.mul (Flt.mul a.2 f2.2) f3.2))
      (activeFeats f C)) (l.drop i)) d]
  change _ = List.map _ (List.flatMap (fun a => (activeFeats f C).map (Prod.mk a)) _)
  simp only [List.map_flatMap, List.map_map, List.flatMap_assoc]
  congr 1
  funext i
  rw [List.flatMap_def, drop_map_range l i _ d, ← List.flatMap_def, List.flatMap_map]
  rfl

theorem drop_eq_map (l : List (U32 × F)) (n : Nat) (d : U32 × F) : l.drop n = ((List.range l.length).drop n).map (fun i => l.getD i d) := by
  simpa using drop_map_range l n id d

/-- C14, what the code does for every choice of namespaces: it visits the combination of the positions `i`, `j` and `k` exactly if `i ≤ j` when the first
two namespaces coincide and `i ≤ k` when the last two coincide, and no combination of positions twice. -/
theorem C14_exact [Flt F] (numBits : Nat) (f : SparseFeatures F) (A B C : Namespace) (d : U32 × F) :
    ∃ pos : List (Nat × Nat × Nat),
      cubicVisit numBits f (A, B, C) = pos.map (fun p => tripleFeature numBits ((activeFeats f A).getD p.1 d)
        ((activeFeats f B).getD p.2.1 d) ((activeFeats f C).getD p.2.2 d)) ∧
      pos.Nodup ∧
      ∀ i j k, (i, j, k) ∈ pos ↔ i < (activeFeats f A).length ∧ j < (activeFeats f B).length ∧ k < (activeFeats f C).length ∧
        (A = B → i ≤ j) ∧ (B = C → i ≤ k) := by
  refine ⟨(List.range (activeFeats f A).length).flatMap fun i => ((List.range (activeFeats f B).length).drop (if A = B then i else 0)).flatMap fun j =>
    ((List.range (activeFeats f C).length).drop (if B = C then i else 0)).map fun k => (i, j, k), ?_, ?_, ?_⟩
  · unfold cubicVisit tripleFeature tripleIndex pairIndex
    simp only [nsIter_eq, fnvMul_eq, lowBits_eq, FNV_PRIME]
    rw [zipIdx_flatMap_getD (activeFeats f A) (fun a i => List.flatMap (fun f2 => List.map
      (fun f3 => (maskIdx numBits (16777619#32 * (16777619#32 * a.1 ^^^ f2.1) ^^^ f3.1), Flt.mul (Flt.mul a.2 f2.2) f3.2))
        ((activeFeats f C).drop (if B = C then i else 0))) ((activeFeats f B).drop (if A = B then i else 0))) d]
    rw [List.map_flatMap]
    congr 1
    funext i
    rw [drop_eq_map (activeFeats f B) _ d, drop_eq_map (activeFeats f C) _ d, List.map_flatMap, List.flatMap_map]
    simp only [List.map_map]
    rfl
  · have hr : ∀ n k : Nat, ((List.range n).drop k).Nodup := fun n k => (List.nodup_range).sublist (List.drop_sublist _ _)
    refine List.nodup_flatMap.2 ⟨fun i _ => List.nodup_flatMap.2 ⟨fun j _ => (hr _ _).map (fun a b h => by simpa using h), ?_⟩, ?_⟩
    · refine (hr _ _).imp ?_
      intro a b hab x hx hy
      simp only [List.mem_map] at hx hy
      obtain ⟨_, _, rfl⟩ := hx
      obtain ⟨_, _, h⟩ := hy
      simp only [Prod.mk.injEq] at h
      exact hab h.2.1.symm
    · refine (List.nodup_range).imp ?_
      intro a b hab x hx hy
      simp only [List.mem_flatMap, List.mem_map] at hx hy
      obtain ⟨_, _, _, _, rfl⟩ := hx
      obtain ⟨_, _, _, _, h⟩ := hy
      simp only [Prod.mk.injEq] at h
      exact hab h.1.symm
  · intro i j k
    simp only [List.mem_flatMap, List.mem_map, mem_drop_range, List.mem_range, Prod.mk.injEq]
    constructor
    · rintro ⟨i', hi, j', hj, k', hk, rfl, rfl, rfl⟩
      refine ⟨hi, hj.2, hk.2, fun h => ?_, fun h => ?_⟩
      · rw [if_pos h] at hj; exact hj.1
      · rw [if_pos h] at hk; exact hk.1
    · rintro ⟨hi, hj, hk, h1, h2⟩
      refine ⟨i, hi, j, ⟨?_, hj⟩, k, ⟨?_, hk⟩, rfl, rfl, rfl⟩
      · split
        · exact h1 ‹_›
        · omega
      · split
        · exact h2 ‹_›
        · omega

/-- The exact description covers the three kinds of coincidence. -/
example : (@cubicVisit Int intFlt 18 sampleFeats (.named 1#32, .named 1#32, .named 1#32)).map (·.2) = [8, 20, 20, 50, 125] ∧
    (@cubicVisit Int intFlt 18 sampleFeats (.named 2#32, .named 1#32, .named 1#32)).map (·.2) = [28, 70, 70, 175] ∧
    (@cubicVisit Int intFlt 18 sampleFeats (.named 1#32, .named 2#32, .named 2#32)).map (·.2) = [98] := by decide

/-- Positions actually visited by the code when all three namespaces coincide: `i ≤ j` and `i ≤ k` (not `j ≤ k`). So every
unordered triple of positions is visited at least once, but not exactly once. -/
theorem C14_all_equal_covers_partial [Flt F] (numBits : Nat) (f : SparseFeatures F) (A : Namespace) (d : U32 × F) (i j k : Nat)
    (hij : i ≤ j) (hjk : j ≤ k) (hk : k < (activeFeats f A).length) :
    tripleFeature numBits ((activeFeats f A).getD i d) ((activeFeats f A).getD j d) ((activeFeats f A).getD k d) ∈
      cubicVisit numBits f (A, A, A) := by
  unfold cubicVisit tripleFeature tripleIndex pairIndex
  simp only [nsIter_eq, if_true, fnvMul_eq, lowBits_eq, FNV_PRIME]
  generalize activeFeats f A = l at *
  have hmem : ∀ m, i ≤ m → m < l.length → l.getD m d ∈ l.drop i := by
    intro m h1 h2
    rw [List.mem_iff_getElem?]
    refine ⟨m - i, ?_⟩
    rw [List.getElem?_drop]
    have : i + (m - i) = m := by omega
    rw [this]
    simp [h2]
  rw [List.mem_flatMap]
  refine ⟨(l.getD i d, i), ?_, ?_⟩
  · rw [List.mem_iff_getElem?]
    exact ⟨i, by simp [show i < l.length by omega]⟩
  · simp only [List.mem_flatMap, List.mem_map]
    exact ⟨_, hmem j hij (by omega), _, hmem k (by omega) hk, rfl⟩

/-- C14 fails when the last two namespaces coincide: with two features in `A` and one in `B`, the interaction `A B B` has two
selections, but the code visits only one of them (no choice of positions that covers all selections exists). -/
theorem C14_false_last_two_equal (F : Type) [Flt F] (d : U32 × F) :
    ∃ (f : SparseFeatures F) (A B : Namespace), A ≠ B ∧
      ¬ ∃ pos : List (Nat × Nat × Nat),
        cubicVisit 18 f (A, B, B) = pos.map (fun p => tripleFeature 18 ((activeFeats f A).getD p.1 d)
          ((activeFeats f B).getD p.2.1 d) ((activeFeats f B).getD p.2.2 d)) ∧
        (pos.map (fun p => (p.1, s(p.2.1, p.2.2)))).Nodup ∧
        ∀ i j k, (i, s(j, k)) ∈ pos.map (fun p => (p.1, s(p.2.1, p.2.2))) ↔
          i < (activeFeats f A).length ∧ j < (activeFeats f B).length ∧ k < (activeFeats f B).length := by
  refine ⟨⟨[(.named 1#32, ⟨.named 1#32, ⟨[3#32, 4#32], 2⟩, ⟨[Flt.one, Flt.one], 2⟩, true⟩),
    (.named 2#32, ⟨.named 2#32, ⟨[6#32], 1⟩, ⟨[Flt.one], 1⟩, true⟩)]⟩, .named 1#32, .named 2#32, by decide, ?_⟩
  rintro ⟨pos, h1, _, h3⟩
  have hlen := congrArg List.length h1
  have h0 := (h3 0 0 0).2 ⟨show 0 < 2 by omega, show 0 < 1 by omega, show 0 < 1 by omega⟩
  have h1' := (h3 1 0 0).2 ⟨show 1 < 2 by omega, show 0 < 1 by omega, show 0 < 1 by omega⟩
  have e1 : (cubicVisit 18 (⟨[(.named 1#32, ⟨.named 1#32, ⟨[3#32, 4#32], 2⟩, ⟨[Flt.one, Flt.one], 2⟩, true⟩),
    (.named 2#32, ⟨.named 2#32, ⟨[6#32], 1⟩, ⟨[Flt.one], 1⟩, true⟩)]⟩ : SparseFeatures F)
      (.named 1#32, .named 2#32, .named 2#32)).length = 1 := rfl
  rw [e1, List.length_map] at hlen
  match pos, hlen with
  | [p], _ =>
    simp at h0 h1'
    omega

/-- C14 fails when all three namespaces coincide: with two features there are four unordered triples, but the code visits five
features, so some combination is counted twice. -/
theorem C14_false_all_equal (F : Type) [Flt F] (d : U32 × F) :
    ∃ (f : SparseFeatures F) (A : Namespace),
      ¬ ∃ pos : List (Nat × Nat × Nat),
        cubicVisit 18 f (A, A, A) = pos.map (fun p => tripleFeature 18 ((activeFeats f A).getD p.1 d)
          ((activeFeats f A).getD p.2.1 d) ((activeFeats f A).getD p.2.2 d)) ∧
        (pos.map (fun p => ({p.1, p.2.1, p.2.2} : Multiset Nat))).Nodup ∧
        ∀ i j k, ({i, j, k} : Multiset Nat) ∈ pos.map (fun p => ({p.1, p.2.1, p.2.2} : Multiset Nat)) ↔
          i < (activeFeats f A).length ∧ j < (activeFeats f A).length ∧ k < (activeFeats f A).length := by
  refine ⟨⟨[(.named 1#32, ⟨.named 1#32, ⟨[3#32, 4#32], 2⟩, ⟨[Flt.one, Flt.one], 2⟩, true⟩)]⟩, .named 1#32, ?_⟩
  rintro ⟨pos, h1, h2, h3⟩
  have hlen := congrArg List.length h1
  have e1 : (cubicVisit 18 (⟨[(.named 1#32, ⟨.named 1#32, ⟨[3#32, 4#32], 2⟩, ⟨[Flt.one, Flt.one], 2⟩, true⟩)]⟩ :
    SparseFeatures F) (.named 1#32, .named 1#32, .named 1#32)).length = 5 := rfl
  rw [e1, List.length_map] at hlen
  have hsub : pos.map (fun p => ({p.1, p.2.1, p.2.2} : Multiset Nat)) ⊆
      [{0, 0, 0}, {0, 0, 1}, {0, 1, 1}, {1, 1, 1}] := by
    intro m hm
    obtain ⟨⟨i, j, k⟩, hp, rfl⟩ := List.mem_map.1 hm
    have := (h3 i j k).1 (List.mem_map.2 ⟨(i, j, k), hp, rfl⟩)
    have hl : (activeFeats (⟨[(.named 1#32, ⟨.named 1#32, ⟨[3#32, 4#32], 2⟩, ⟨[Flt.one, Flt.one], 2⟩, true⟩)]⟩ :
      SparseFeatures F) (.named 1#32)).length = 2 := rfl
    rw [hl] at this
    obtain ⟨hi, hj, hk⟩ := this
    have hi' : i = 0 ∨ i = 1 := by omega
    have hj' : j = 0 ∨ j = 1 := by omega
    have hk' : k = 0 ∨ k = 1 := by omega
    rcases hi' with rfl | rfl <;> rcases hj' with rfl | rfl <;> rcases hk' with rfl | rfl <;> decide
  have := (h2.subperm hsub).length_le
  simp [← hlen] at this

end Rml
