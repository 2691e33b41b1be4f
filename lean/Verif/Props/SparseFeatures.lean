import Verif.Lemmas.SparseFeatures
import Verif.Model.Field

/-! C09, C10, C11: sparse features. -/

namespace Rml
open SparseFeatures
variable {F : Type}

/-- Well-formed feature objects: sorted keys, matching vectors, entries under their own namespace, and inactive namespaces are
empty. Every object built through the API is well-formed (`C10_reachable_wf`). -/
structure SparseFeatures.WF (f : SparseFeatures F) : Prop extends f.Inv0 where
  inactive_empty : ∀ ns, (f.vw ns).2.2 = false → (f.vw ns).1 = []

/-! ### C09 -/

/-- Same features in the same order and same visibility in every namespace, and the same overall feature sequence. -/
def SparseFeatures.SameAs (f g : SparseFeatures F) : Prop :=
  (∀ ns, (f.getNamespace ns).map (fun n => (n.idx.data, n.vals.data)) =
    (g.getNamespace ns).map (fun n => (n.idx.data, n.vals.data))) ∧
  f.allFeatures = g.allFeatures ∧ f.activeKeys = g.activeKeys ∧ f.isEmpty = g.isEmpty

theorem getNamespace_map_vw (f : SparseFeatures F) (ns : Namespace) :
    (f.getNamespace ns).map (fun n => (n.idx.data, n.vals.data)) =
      if (f.vw ns).2.2 then some ((f.vw ns).1, (f.vw ns).2.1) else none := by
  unfold getNamespace vw
  cases lookup f.entries ns with
  | none => rfl
  | some n => by_cases h : n.active <;> simp [h]

theorem isEmpty_vw {f : SparseFeatures F} (h : f.Inv0) : f.isEmpty = true ↔ ∀ ns, (f.vw ns).2.2 = false := by
  have h1 : f.isEmpty = true ↔ f.activeKeys = [] := by
    unfold SparseFeatures.isEmpty activeKeys
    rw [List.map_eq_nil_iff, List.filter_eq_nil_iff]
    cases he : f.entries with
    | nil => simp
    | cons a t => simp
  rw [h1]
  constructor
  · intro hk ns
    by_contra hc
    have := (mem_activeKeys h ns).2 (by simpa using hc)
    rw [hk] at this; simp at this
  · intro hk
    rw [List.eq_nil_iff_forall_not_mem]
    intro ns hm
    have := (mem_activeKeys h ns).1 hm
    rw [hk ns] at this; simp at this

theorem sameAs_of_vw {f g : SparseFeatures F} (hf : f.Inv0) (hg : g.Inv0) (he : ∀ ns, f.vw ns = g.vw ns) : f.SameAs g := by
  refine ⟨fun ns => ?_, allFeatures_congr hf hg he, activeKeys_congr hf hg he, ?_⟩
  · rw [getNamespace_map_vw, getNamespace_map_vw, he]
  · rw [Bool.eq_iff_iff, isEmpty_vw hf, isEmpty_vw hg]
    simp only [he]

/-- C09 (when no namespace of the shared features is present but empty in the example): appending and then removing succeeds and
restores the example. Missing from the full property: the excluded case, where it is false
(`C09_empty_namespace_false`). -/
theorem C09_append_remove_partial (a s : SparseFeatures F) (ha : a.WF) (hs : s.WF)
    (hne : ∀ ns n m, s.getNamespace ns = some n → a.getNamespace ns = some m → m.size ≠ 0) :
    ∃ a1 a2, a.append s = .ok a1 ∧ a1.remove s = .ok a2 ∧ a2.SameAs a := by
  obtain ⟨a1, h1, i1, v1⟩ := append_spec ha.toInv0 hs.toInv0
  obtain ⟨a2, h2, i2, v2⟩ := remove_spec i1 hs.toInv0 (by
    intro ns hns
    rw [v1, vwAppend, if_pos hns]
    simp)
  refine ⟨a1, a2, h1, h2, sameAs_of_vw i2 ha.toInv0 (fun ns => ?_)⟩
  rw [v2, v1, vwRemove_vwAppend _ _ (vw_lens ha.toInv0 ns)]
  split
  · rename_i hact
    cases hav : (a.vw ns).2.2 with
    | false =>
      have h0 := ha.inactive_empty ns hav
      have h00 : (a.vw ns).2.1 = [] := by
        have := vw_lens ha.toInv0 ns
        rw [h0] at this
        exact List.length_eq_zero_iff.1 this.symm
      apply Prod.ext
      · rfl
      · apply Prod.ext
        · rfl
        · simp [h0, hav]
    | true =>
      apply Prod.ext
      · rfl
      · apply Prod.ext
        · rfl
        · have g1 := getNamespace_isSome_vw s ns
          have g2 := getNamespace_isSome_vw a ns
          rw [hact] at g1
          rw [hav] at g2
          obtain ⟨n, hn⟩ := Option.isSome_iff_exists.1 g1
          obtain ⟨m, hm⟩ := Option.isSome_iff_exists.1 g2
          have hsz := hne ns n m hn hm
          have hmv := getNamespace_map_vw a ns
          rw [hm, hav] at hmv
          simp at hmv
          rw [NsFeats.size, hmv.1] at hsz
          simp [hav, hsz]
  · rfl

/-- C09, exactly when it holds: appending and removing always succeeds, and it restores the example if and only if no namespace that both have is visible
but empty in the example. -/
theorem C09_exact (a s : SparseFeatures F) (ha : a.WF) (hs : s.WF) :
    ∃ a1 a2, a.append s = .ok a1 ∧ a1.remove s = .ok a2 ∧
      (a2.SameAs a ↔ ∀ ns n m, s.getNamespace ns = some n → a.getNamespace ns = some m → m.size ≠ 0) := by
  obtain ⟨a1, h1, i1, v1⟩ := append_spec ha.toInv0 hs.toInv0
  obtain ⟨a2, h2, i2, v2⟩ := remove_spec i1 hs.toInv0 (by
    intro ns hns
    rw [v1, vwAppend, if_pos hns]
    simp)
  refine ⟨a1, a2, h1, h2, fun h ns n m hn hm h0 => ?_, fun hne => ?_⟩
  · have hv : a2.vw ns = vwRemove (vwAppend (a.vw ns) (s.vw ns)) (s.vw ns) := by rw [v2, v1]
    rw [vwRemove_vwAppend _ _ (vw_lens ha.toInv0 ns)] at hv
    have g1 := getNamespace_isSome_vw s ns
    rw [hn, Option.isSome_some] at g1
    rw [if_pos g1.symm] at hv
    have g2 := getNamespace_isSome_vw a2 ns
    have hmv := getNamespace_map_vw a ns
    rw [hm] at hmv
    have g3 := getNamespace_isSome_vw a ns
    rw [hm, Option.isSome_some] at g3
    rw [← g3] at hmv
    simp at hmv
    rw [NsFeats.size, hmv.1] at h0
    have hs := h.1 ns
    rw [hm] at hs
    rw [hv, h0] at g2
    simp at g2
    rw [g2] at hs
    simp at hs
  · obtain ⟨b1, b2, q1, q2, q3⟩ := C09_append_remove_partial a s ha hs hne
    rw [h1] at q1
    cases q1
    rw [h2] at q2
    cases q2
    exact q3

/-- C09 fails otherwise: an example with a present but empty namespace loses that namespace. -/
theorem C09_empty_namespace_false :
    ¬ ∀ a s : SparseFeatures Int, a.WF → s.WF →
      ∃ a1 a2, a.append s = .ok a1 ∧ a1.remove s = .ok a2 ∧ a2.SameAs a := by
  intro h
  let a : SparseFeatures Int := (SparseFeatures.new : SparseFeatures Int).modifyOrCreate .default id
  let s : SparseFeatures Int := (SparseFeatures.new : SparseFeatures Int).modifyOrCreate .default (fun n => n.addFeature 3#32 7)
  have wf : ∀ n : NsFeats Int, n.idx.data.length = n.vals.data.length → n.namespace_ = .default → n.active = true →
      SparseFeatures.WF ⟨[(.default, n)]⟩ := by
    intro n h1 h2 h3
    refine ⟨⟨by simp [Sorted], by simp [h1], by simp [h2]⟩, ?_⟩
    intro ns
    by_cases hns : Namespace.default = ns <;> simp [vw, lookup, hns, h3]
  have ha : a.WF := wf _ rfl rfl rfl
  have hs : s.WF := wf _ rfl rfl rfl
  obtain ⟨a1, a2, h1, h2, h3⟩ := h a s ha hs
  have e1 : a.append s = .ok ⟨[(.default, ⟨.default, ⟨[3#32], 4⟩, ⟨[7], 4⟩, true⟩)]⟩ := rfl
  rw [e1] at h1
  injection h1 with h1
  subst h1
  have e2 : (⟨[(.default, ⟨.default, ⟨[3#32], 4⟩, ⟨[7], 4⟩, true⟩)]⟩ : SparseFeatures Int).remove s =
      .ok ⟨[(.default, ⟨.default, ⟨[], 4⟩, ⟨[], 4⟩, false⟩)]⟩ := rfl
  rw [e2] at h2
  injection h2 with h2
  subst h2
  have h4 := h3.1 .default
  revert h4
  decide

/-! ### C10 -/

/-- An operation of the API of `SparseFeatures` (with the `SparseFeaturesNamespace` operations on the returned reference). -/
inductive FOp (F : Type) where
  /-- `get_or_create_namespace(ns)` -/
  | touch (ns : Namespace)
  /-- `get_or_create_namespace_with_capacity(ns, cap)` -/
  | touchCap (ns : Namespace) (cap : Nat)
  /-- `get_or_create_namespace(ns).add_feature(i, v)` -/
  | add (ns : Namespace) (i : U32) (v : F)
  /-- `get_or_create_namespace(ns).add_features(is, vs)` -/
  | addMany (ns : Namespace) (is : List U32) (vs : List F)
  /-- `get_or_create_namespace(ns).add_features_with_iter(is, vs)` -/
  | addIter (ns : Namespace) (is : List U32) (vs : List F)
  /-- `clear()` -/
  | clear
  /-- `remove_namespace(ns)` -/
  | removeNs (ns : Namespace)
  /-- `set_namespace(ns, n)` -/
  | setNs (ns : Namespace) (n : NsFeats F)
  /-- `append(other)` -/
  | append (other : SparseFeatures F)

/-- Executing an operation on the model. -/
def FOp.run (f : SparseFeatures F) : FOp F → M (SparseFeatures F)
  | .touch ns => .ok (f.setNamespace ns (f.getOrCreate ns))
  | .touchCap ns cap => .ok (f.setNamespace ns (f.getOrCreateWithCapacity ns cap))
  | .add ns i v => .ok (f.setNamespace ns ((f.getOrCreate ns).addFeature i v))
  | .addMany ns is vs => do
    let n ← (f.getOrCreate ns).addFeatures is vs
    .ok (f.setNamespace ns n)
  | .addIter ns is vs => do
    let n ← (f.getOrCreate ns).addFeaturesWithIter is vs
    .ok (f.setNamespace ns n)
  | .clear => .ok f.clear
  | .removeNs ns => .ok (f.removeNamespace ns).2
  | .setNs ns n => .ok (f.setNamespace ns n)
  | .append o => f.append o

/-- Specification: a map from namespaces to ordered feature lists. -/
abbrev SMap (F : Type) := Namespace → Option (List (U32 × F))

/-- Replace the entry of one namespace. -/
def SMap.put (m : SMap F) (ns : Namespace) (v : Option (List (U32 × F))) : SMap F := fun k => if ns = k then v else m k

/-- What a feature object reports through `get_namespace`. -/
def SparseFeatures.report (f : SparseFeatures F) : SMap F := fun ns => (f.getNamespace ns).map NsFeats.iter

/-- Specification of the operations; `none` is a panic. -/
def FOp.spec (m : SMap F) : FOp F → Option (SMap F)
  | .touch ns => some (m.put ns (some ((m ns).getD [])))
  | .touchCap ns _ => some (m.put ns (some ((m ns).getD [])))
  | .add ns i v => some (m.put ns (some ((m ns).getD [] ++ [(i, v)])))
  | .addMany ns is vs => if is.length = vs.length then some (m.put ns (some ((m ns).getD [] ++ is.zip vs))) else none
  | .addIter ns is vs => if is.length = vs.length then some (m.put ns (some ((m ns).getD [] ++ is.zip vs))) else none
  | .clear => some (fun _ => none)
  | .removeNs ns => some (m.put ns none)
  | .setNs ns n => some (m.put ns (some (n.idx.data.zip n.vals.data)))
  | .append o => some (fun ns => match o.report ns with | none => m ns | some l => some ((m ns).getD [] ++ l))

/-- Arguments that are themselves feature objects must be well-formed; a namespace that is put back must have been active (as those
returned by `remove_namespace` for a present namespace are). -/
def FOp.Valid : FOp F → Prop
  | .setNs ns n => n.active = true ∧ n.idx.data.length = n.vals.data.length ∧ n.namespace_ = ns
  | .append o => o.WF
  | _ => True

/-- The observable state of a feature object is the map `m`: contents of every namespace, namespaces in a fixed order (by
`Namespace` order), all features in that order, emptiness. -/
def SparseFeatures.Represents (f : SparseFeatures F) (m : SMap F) : Prop :=
  (∀ ns, (f.getNamespace ns).map (fun n => (n.idx.data, n.vals.data)) = (m ns).map List.unzip) ∧
  (∃ keys : List Namespace, keys.Pairwise (fun a b => a.rank < b.rank) ∧ (∀ ns, ns ∈ keys ↔ (m ns).isSome) ∧
    f.allFeatures = keys.flatMap (fun ns => (m ns).getD [])) ∧
  (f.isEmpty = true ↔ ∀ ns, m ns = none)

/-- The map determined by the view. -/
def absV (v : List U32 × List F × Bool) : Option (List (U32 × F)) := if v.2.2 then some (v.1.zip v.2.1) else none

theorem report_eq_absV (f : SparseFeatures F) (ns : Namespace) : f.report ns = absV (f.vw ns) := by
  unfold report getNamespace vw absV
  cases lookup f.entries ns with
  | none => rfl
  | some n => by_cases h : n.active <;> simp [h, NsFeats.iter]

theorem getD_absV {f : SparseFeatures F} (h : f.WF) (ns : Namespace) :
    (absV (f.vw ns)).getD [] = (f.vw ns).1.zip (f.vw ns).2.1 := by
  unfold absV
  cases hv : (f.vw ns).2.2 with
  | false => simp [h.inactive_empty ns hv]
  | true => rfl

theorem represents_of_wf {f : SparseFeatures F} (h : f.WF) : f.Represents f.report := by
  refine ⟨fun ns => ?_, ⟨f.activeKeys, activeKeys_sorted h.toInv0, fun ns => ?_, ?_⟩, ?_⟩
  · rw [getNamespace_map_vw, report_eq_absV, absV]
    split
    · have hl := vw_lens h.toInv0 ns
      simp [List.unzip_zip hl]
    · rfl
  · rw [mem_activeKeys h.toInv0, report_eq_absV, absV]
    split <;> simp_all
  · rw [allFeatures_contents]
    have hc : f.contents = (f.activeKeys.map (fun ns => (ns, (f.report ns).getD []))).filter (fun e => !e.2.isEmpty) := by
      apply eq_of_sorted_mem (fun e => e.1.rank) (contents_sorted h.toInv0)
      · apply List.Pairwise.filter
        rw [List.pairwise_map]
        exact activeKeys_sorted h.toInv0
      · rintro ⟨ns, l⟩
        rw [mem_contents h.toInv0]
        simp only [List.mem_filter, List.mem_map, report_eq_absV, getD_absV h, Prod.mk.injEq, Bool.not_eq_true',
          List.isEmpty_eq_false_iff]
        constructor
        · rintro ⟨h1, h2⟩
          refine ⟨⟨ns, ?_, rfl, h1.symm⟩, h2⟩
          rw [mem_activeKeys h.toInv0]
          by_contra hc
          apply h2
          rw [h1, h.inactive_empty ns (by simpa using hc)]
          rfl
        · rintro ⟨⟨k, _, rfl, h1⟩, h2⟩
          exact ⟨h1.symm, h2⟩
    rw [hc]
    generalize f.activeKeys = ks
    induction ks with
    | nil => rfl
    | cons k t ih =>
      simp only [List.map_cons, List.filter_cons, List.flatMap_cons]
      cases hk : (f.report k).getD [] with
      | nil => simpa [hk] using ih
      | cons a l => simp [ih]
  · rw [isEmpty_vw h.toInv0]
    apply forall_congr'
    intro ns
    rw [report_eq_absV, absV]
    split <;> simp_all

theorem wf_setNamespace {f : SparseFeatures F} (h : f.WF) {ns : Namespace} {n : NsFeats F}
    (hl : n.idx.data.length = n.vals.data.length) (hk : n.namespace_ = ns) (ha : n.active = true) :
    (f.setNamespace ns n).WF := by
  refine ⟨setNamespace_inv0 h.toInv0 hl hk, fun k => ?_⟩
  rw [vw_setNamespace]
  split
  · simp [ha]
  · exact h.inactive_empty k

theorem report_setNamespace (f : SparseFeatures F) {ns : Namespace} {n : NsFeats F} (ha : n.active = true) :
    (f.setNamespace ns n).report = f.report.put ns (some (n.idx.data.zip n.vals.data)) := by
  funext k
  rw [report_eq_absV, vw_setNamespace, SMap.put]
  split
  · simp [absV, ha]
  · rw [report_eq_absV]

/-- One operation: model and specification agree, and well-formedness is kept. -/
theorem FOp.step {f : SparseFeatures F} (h : f.WF) (op : FOp F) (hv : op.Valid) :
    match op.spec f.report with
    | some m => ∃ f', op.run f = .ok f' ∧ f'.WF ∧ f'.report = m
    | none => ∃ e, op.run f = .error e := by
  have hgd : ∀ ns, (f.report ns).getD [] = (f.vw ns).1.zip (f.vw ns).2.1 := by
    intro ns; rw [report_eq_absV, getD_absV h]
  cases op with
  | touch ns =>
    obtain ⟨g1, g2, g3, g4⟩ := getOrCreate_spec h.toInv0 ns
    refine ⟨_, rfl, wf_setNamespace h (by rw [g1, g2]; exact vw_lens h.toInv0 ns) g4 g3, ?_⟩
    rw [report_setNamespace f g3, g1, g2, hgd]
  | touchCap ns cap =>
    obtain ⟨g1, g2, g3, g4⟩ := getOrCreateWithCapacity_spec h.toInv0 ns cap
    refine ⟨_, rfl, wf_setNamespace h (by rw [g1, g2]; exact vw_lens h.toInv0 ns) g4 g3, ?_⟩
    rw [report_setNamespace f g3, g1, g2, hgd]
  | add ns i v =>
    obtain ⟨g1, g2, g3, g4⟩ := getOrCreate_spec h.toInv0 ns
    have hl := vw_lens h.toInv0 ns
    refine ⟨_, rfl, wf_setNamespace h ?_ g4 g3, ?_⟩
    · simp [NsFeats.addFeature, RVec.push, g1, g2, hl]
    · have ha : ((f.getOrCreate ns).addFeature i v).active = true := g3
      rw [report_setNamespace f ha, hgd]
      simp only [NsFeats.addFeature, RVec.push, g1, g2]
      rw [List.zip_append hl]
      rfl
  | addMany ns is vs =>
    obtain ⟨g1, g2, g3, g4⟩ := getOrCreate_spec h.toInv0 ns
    have hl := vw_lens h.toInv0 ns
    simp only [FOp.spec]
    by_cases he : is.length = vs.length
    · rw [if_pos he]
      refine ⟨f.setNamespace ns { f.getOrCreate ns with
        idx := (f.getOrCreate ns).idx.extend is, vals := (f.getOrCreate ns).vals.extend vs }, ?_,
        wf_setNamespace h ?_ g4 g3, ?_⟩
      · simp [FOp.run, NsFeats.addFeatures, he, bind, Except.bind]
      · simp [RVec.extend, g1, g2, hl, he]
      · refine (report_setNamespace f (by exact g3)).trans ?_
        rw [hgd]
        simp only [RVec.extend, g1, g2]
        rw [List.zip_append hl]
    · rw [if_neg he]
      exact ⟨.assert, by simp [FOp.run, NsFeats.addFeatures, he, bind, Except.bind]⟩
  | addIter ns is vs =>
    obtain ⟨g1, g2, g3, g4⟩ := getOrCreate_spec h.toInv0 ns
    have hl := vw_lens h.toInv0 ns
    simp only [FOp.spec]
    by_cases he : is.length = vs.length
    · rw [if_pos he]
      refine ⟨f.setNamespace ns { f.getOrCreate ns with
        idx := (f.getOrCreate ns).idx.extend is, vals := (f.getOrCreate ns).vals.extend vs }, ?_,
        wf_setNamespace h ?_ g4 g3, ?_⟩
      · simp [FOp.run, NsFeats.addFeaturesWithIter, he, bind, Except.bind, RVec.extend, g1, g2, hl]
      · simp [RVec.extend, g1, g2, hl, he]
      · refine (report_setNamespace f (by exact g3)).trans ?_
        rw [hgd]
        simp only [RVec.extend, g1, g2]
        rw [List.zip_append hl]
    · rw [if_neg he]
      exact ⟨.assert, by simp [FOp.run, NsFeats.addFeaturesWithIter, he, bind, Except.bind, RVec.extend, g1, g2, hl]⟩
  | clear =>
    refine ⟨_, rfl, ⟨clear_inv0 h.toInv0, fun ns _ => by rw [vw_clear]⟩, ?_⟩
    funext ns
    rw [report_eq_absV, vw_clear]
    rfl
  | removeNs ns =>
    refine ⟨_, rfl, ⟨removeNamespace_inv0 h.toInv0 ns, fun k => ?_⟩, ?_⟩
    · rw [vw_removeNamespace h.toInv0]
      split
      · simp
      · exact h.inactive_empty k
    · funext k
      rw [report_eq_absV, vw_removeNamespace h.toInv0, SMap.put]
      split
      · rfl
      · rw [report_eq_absV]
  | setNs ns n => exact ⟨_, rfl, wf_setNamespace h hv.2.1 hv.2.2 hv.1, report_setNamespace f hv.1⟩
  | append o =>
    obtain ⟨f', h1, h2, h3⟩ := append_spec h.toInv0 (hv : o.WF).toInv0
    refine ⟨f', h1, ⟨h2, fun ns => ?_⟩, ?_⟩
    · rw [h3, vwAppend]
      split
      · simp
      · exact h.inactive_empty ns
    · funext ns
      rw [report_eq_absV, h3, report_eq_absV o]
      simp only [vwAppend]
      cases hov : (o.vw ns).2.2 with
      | false => simp [absV, hov, report_eq_absV]
      | true =>
        simp only [if_true, absV, hov]
        rw [hgd, List.zip_append (vw_lens h.toInv0 ns)]

/-- Running a list of operations on the model. -/
def FOp.runAll (ops : List (FOp F)) (f : SparseFeatures F) : M (SparseFeatures F) := ops.foldlM FOp.run f

/-- Running a list of operations on the specification. -/
def FOp.specAll : List (FOp F) → SMap F → Option (SMap F)
  | [], m => some m
  | op :: ops, m => (op.spec m).bind (FOp.specAll ops)

theorem FOp.runAll_spec (ops : List (FOp F)) : ∀ {f : SparseFeatures F}, f.WF → (∀ op ∈ ops, op.Valid) →
    match FOp.specAll ops f.report with
    | some m => ∃ f', FOp.runAll ops f = .ok f' ∧ f'.WF ∧ f'.report = m
    | none => ∃ e, FOp.runAll ops f = .error e := by
  induction ops with
  | nil => intro f h _; exact ⟨f, rfl, h, rfl⟩
  | cons op ops ih =>
    intro f h hv
    have hs := FOp.step h op (hv op (by simp))
    simp only [FOp.specAll]
    cases hsp : op.spec f.report with
    | none =>
      rw [hsp] at hs
      obtain ⟨e, he⟩ := hs
      exact ⟨e, by simp [FOp.runAll, List.foldlM_cons, he, bind, Except.bind]⟩
    | some m =>
      rw [hsp] at hs
      obtain ⟨f', h1, h2, rfl⟩ := hs
      have hi := ih h2 (fun o ho => hv o (by simp [ho]))
      simp only [Option.bind_some]
      have hr : FOp.runAll (op :: ops) f = FOp.runAll ops f' := by
        simp [FOp.runAll, List.foldlM_cons, h1, bind, Except.bind]
      rw [hr]
      exact hi

theorem new_wf : (SparseFeatures.new : SparseFeatures F).WF := ⟨new_inv0, fun _ _ => rfl⟩

theorem report_new : (SparseFeatures.new : SparseFeatures F).report = fun _ => none := rfl

/-- C10. For every sequence of API calls on a new object, the calls panic exactly when the specification says so (vectors of
different lengths), and otherwise the object reports exactly the map obtained by the same calls on the specification, with the
namespaces and features in a fixed order. -/
theorem C10_refines_map (ops : List (FOp F)) (hv : ∀ op ∈ ops, op.Valid) :
    match FOp.specAll ops (fun _ => none) with
    | some m => ∃ f, FOp.runAll ops SparseFeatures.new = .ok f ∧ f.Represents m
    | none => ∃ e, FOp.runAll ops (SparseFeatures.new : SparseFeatures F) = .error e := by
  have h := FOp.runAll_spec ops (new_wf (F := F)) hv
  rw [report_new] at h
  cases hs : FOp.specAll ops (fun _ => none) with
  | none => rw [hs] at h; exact h
  | some m =>
    rw [hs] at h
    obtain ⟨f, h1, h2, h3⟩ := h
    exact ⟨f, h1, h3 ▸ represents_of_wf h2⟩

/-- Every object built through the API is well-formed, so it can be passed to `append` in C10 and used in C09. -/
theorem C10_reachable_wf (ops : List (FOp F)) (hv : ∀ op ∈ ops, op.Valid) (f : SparseFeatures F)
    (h : FOp.runAll ops SparseFeatures.new = .ok f) : f.WF := by
  have hs := FOp.runAll_spec ops (new_wf (F := F)) hv
  cases hsp : FOp.specAll ops (SparseFeatures.new : SparseFeatures F).report with
  | none =>
    rw [hsp] at hs
    obtain ⟨e, he⟩ := hs
    rw [h] at he; injection he
  | some m =>
    rw [hsp] at hs
    obtain ⟨f', h1, h2, _⟩ := hs
    rw [h] at h1
    injection h1 with h1
    exact h1 ▸ h2

/-- A concrete sequence: the namespaces come out in key order whatever the insertion order. -/
example : ∃ f : SparseFeatures Int,
    FOp.runAll [.add .default 9#32 1, .addMany (.named 7#32) [1#32, 2#32] [5, 6], .touch (.named 3#32), .removeNs (.named 3#32),
      .add .default 8#32 2] SparseFeatures.new = .ok f ∧
    f.allFeatures = [(1#32, 5), (2#32, 6), (9#32, 1), (8#32, 2)] := ⟨_, rfl, by decide⟩

/-- A caveat recorded with C10: a namespace put in with `set_namespace` that is not active is invisible to `get_namespace` but its
features are still reported by `all_features`. ElementwiseInteraction relies on this (C60). -/
theorem C10_set_inactive_quirk [Flt F] (i : U32) (v : F) :
    ∃ f : SparseFeatures F, f.getNamespace .default = none ∧ f.allFeatures = [(i, v)] :=
  ⟨SparseFeatures.new.setNamespace .default ((NsFeats.new .default).addFeature i v), rfl, rfl⟩

/-- A case that meets the hypotheses of C09: an example and shared features with a common and a separate namespace. -/
example : ∃ a s : SparseFeatures Int,
    FOp.runAll [.add .default 9#32 1, .add (.named 7#32) 1#32 5] SparseFeatures.new = .ok a ∧
    FOp.runAll [.add .default 3#32 4, .add (.named 5#32) 2#32 6] SparseFeatures.new = .ok s ∧ a.WF ∧ s.WF ∧
    (∀ ns n m, s.getNamespace ns = some n → a.getNamespace ns = some m → m.size ≠ 0) := by
  refine ⟨_, _, rfl, rfl, C10_reachable_wf [.add .default 9#32 1, .add (.named 7#32) 1#32 5] ?_ _ rfl,
    C10_reachable_wf [.add .default 3#32 4, .add (.named 5#32) 2#32 6] ?_ _ rfl, ?_⟩
  · intro op hop
    simp only [List.mem_cons, List.not_mem_nil, or_false] at hop
    rcases hop with rfl | rfl <;> trivial
  · intro op hop
    simp only [List.mem_cons, List.not_mem_nil, or_false] at hop
    rcases hop with rfl | rfl <;> trivial
  · intro ns n m _ hm
    unfold getNamespace at hm
    split at hm
    · rename_i x hx
      split at hm
      · injection hm with hm
        subst hm
        have hmem := lookup_mem hx
        simp only [SparseFeatures.setNamespace, SparseFeatures.new, SparseFeatures.getOrCreate, SparseFeatures.insert, lookup,
          reduceCtorEq, if_false, Namespace.rank] at hmem
        revert hmem
        simp [NsFeats.addFeature, NsFeats.size, RVec.push]
        rintro (⟨_, rfl⟩ | ⟨_, rfl⟩) <;> simp
      · simp at hm
    · simp at hm

/-! ### C11 -/

/-- Pools that can arise: new, after returning a (well-formed) object, after taking one. -/
inductive PoolReach : Pool (SparseFeatures F) → Prop where
  | empty : PoolReach ⟨[]⟩
  | ret {p} (f : SparseFeatures F) : PoolReach p → f.Inv0 → PoolReach (f.clearAndReturn p)
  | get {p} : PoolReach p → PoolReach (p.getObject SparseFeatures.new).2

theorem pool_objects {p : Pool (SparseFeatures F)} (h : PoolReach p) :
    ∀ f ∈ p.objects, f.Inv0 ∧ ∀ ns, f.vw ns = ([], [], false) := by
  induction h with
  | empty => simp
  | ret f _ hf ih =>
    intro g hg
    simp only [clearAndReturn, Pool.returnObject, List.mem_cons] at hg
    rcases hg with rfl | hg
    · exact ⟨clear_inv0 hf, vw_clear f⟩
    · exact ih g hg
  | @get p _ ih =>
    intro g hg
    unfold Pool.getObject at hg
    split at hg
    · exact ih g hg
    · rename_i a t heq
      exact ih g (by rw [heq]; exact List.mem_cons_of_mem _ hg)

theorem get_object_fresh {p : Pool (SparseFeatures F)} (h : PoolReach p) :
    (p.getObject SparseFeatures.new).1.Inv0 ∧ ∀ ns, (p.getObject SparseFeatures.new).1.vw ns = ([], [], false) := by
  unfold Pool.getObject
  split
  · exact ⟨new_inv0, fun _ => rfl⟩
  · rename_i a t heq
    exact pool_objects h a (by rw [heq]; simp)

/-- Operations act the same on objects with the same view. -/
theorem FOp.run_congr {f g : SparseFeatures F} (hf : f.Inv0) (hg : g.Inv0) (he : ∀ ns, f.vw ns = g.vw ns) (op : FOp F)
    (hv : op.Valid) :
    (∃ f' g', op.run f = .ok f' ∧ op.run g = .ok g' ∧ f'.Inv0 ∧ g'.Inv0 ∧ ∀ ns, f'.vw ns = g'.vw ns) ∨
      ∃ e, op.run f = .error e ∧ op.run g = .error e := by
  have key : ∀ (ns : Namespace) (n m : NsFeats F), n.idx.data.length = n.vals.data.length → n.namespace_ = ns →
      n.active = true → m.idx.data = n.idx.data → m.vals.data = n.vals.data → m.namespace_ = ns → m.active = true →
      (f.setNamespace ns n).Inv0 ∧ (g.setNamespace ns m).Inv0 ∧
        ∀ k, (f.setNamespace ns n).vw k = (g.setNamespace ns m).vw k := by
    intro ns n m h1 h2 h3 h4 h5 h6 h7
    refine ⟨setNamespace_inv0 hf h1 h2, setNamespace_inv0 hg (by rw [h4, h5]; exact h1) h6, fun k => ?_⟩
    rw [vw_setNamespace, vw_setNamespace, h3, h4, h5, h7, he]
  cases op with
  | touch ns =>
    obtain ⟨g1, g2, g3, g4⟩ := getOrCreate_spec hf ns
    obtain ⟨k1, k2, k3, k4⟩ := getOrCreate_spec hg ns
    exact Or.inl ⟨_, _, rfl, rfl, key ns _ _ (by rw [g1, g2]; exact vw_lens hf ns) g4 g3 (by rw [k1, g1, he])
      (by rw [k2, g2, he]) k4 k3⟩
  | touchCap ns cap =>
    obtain ⟨g1, g2, g3, g4⟩ := getOrCreateWithCapacity_spec hf ns cap
    obtain ⟨k1, k2, k3, k4⟩ := getOrCreateWithCapacity_spec hg ns cap
    exact Or.inl ⟨_, _, rfl, rfl, key ns _ _ (by rw [g1, g2]; exact vw_lens hf ns) g4 g3 (by rw [k1, g1, he])
      (by rw [k2, g2, he]) k4 k3⟩
  | add ns i v =>
    obtain ⟨g1, g2, g3, g4⟩ := getOrCreate_spec hf ns
    obtain ⟨k1, k2, k3, k4⟩ := getOrCreate_spec hg ns
    refine Or.inl ⟨_, _, rfl, rfl, key ns ((f.getOrCreate ns).addFeature i v) ((g.getOrCreate ns).addFeature i v) ?_ g4 g3 ?_ ?_
      k4 k3⟩
    · simp [NsFeats.addFeature, RVec.push, g1, g2, vw_lens hf ns]
    · simp [NsFeats.addFeature, RVec.push, g1, k1, he]
    · simp [NsFeats.addFeature, RVec.push, g2, k2, he]
  | addMany ns is vs =>
    obtain ⟨g1, g2, g3, g4⟩ := getOrCreate_spec hf ns
    obtain ⟨k1, k2, k3, k4⟩ := getOrCreate_spec hg ns
    by_cases hl : is.length = vs.length
    · refine Or.inl ⟨f.setNamespace ns { f.getOrCreate ns with
          idx := (f.getOrCreate ns).idx.extend is, vals := (f.getOrCreate ns).vals.extend vs },
          g.setNamespace ns { g.getOrCreate ns with
          idx := (g.getOrCreate ns).idx.extend is, vals := (g.getOrCreate ns).vals.extend vs }, ?_, ?_,
          key ns _ _ ?_ g4 g3 ?_ ?_ k4 k3⟩
      · simp [FOp.run, NsFeats.addFeatures, hl, bind, Except.bind]
      · simp [FOp.run, NsFeats.addFeatures, hl, bind, Except.bind]
      · simp [RVec.extend, g1, g2, vw_lens hf ns, hl]
      · simp [RVec.extend, g1, k1, he]
      · simp [RVec.extend, g2, k2, he]
    · exact Or.inr ⟨.assert, by simp [FOp.run, NsFeats.addFeatures, hl, bind, Except.bind],
        by simp [FOp.run, NsFeats.addFeatures, hl, bind, Except.bind]⟩
  | addIter ns is vs =>
    obtain ⟨g1, g2, g3, g4⟩ := getOrCreate_spec hf ns
    obtain ⟨k1, k2, k3, k4⟩ := getOrCreate_spec hg ns
    have l1 := vw_lens hf ns
    have l2 := vw_lens hg ns
    by_cases hl : is.length = vs.length
    · refine Or.inl ⟨f.setNamespace ns { f.getOrCreate ns with
          idx := (f.getOrCreate ns).idx.extend is, vals := (f.getOrCreate ns).vals.extend vs },
          g.setNamespace ns { g.getOrCreate ns with
          idx := (g.getOrCreate ns).idx.extend is, vals := (g.getOrCreate ns).vals.extend vs }, ?_, ?_,
          key ns _ _ ?_ g4 g3 ?_ ?_ k4 k3⟩
      · simp [FOp.run, NsFeats.addFeaturesWithIter, hl, bind, Except.bind, RVec.extend, g1, g2, l1]
      · simp [FOp.run, NsFeats.addFeaturesWithIter, hl, bind, Except.bind, RVec.extend, k1, k2, l2]
      · simp [RVec.extend, g1, g2, l1, hl]
      · simp [RVec.extend, g1, k1, he]
      · simp [RVec.extend, g2, k2, he]
    · exact Or.inr ⟨.assert, by simp [FOp.run, NsFeats.addFeaturesWithIter, hl, bind, Except.bind, RVec.extend, g1, g2, l1],
        by simp [FOp.run, NsFeats.addFeaturesWithIter, hl, bind, Except.bind, RVec.extend, k1, k2, l2]⟩
  | clear => exact Or.inl ⟨_, _, rfl, rfl, clear_inv0 hf, clear_inv0 hg, fun ns => by rw [vw_clear, vw_clear]⟩
  | removeNs ns =>
    exact Or.inl ⟨_, _, rfl, rfl, removeNamespace_inv0 hf ns, removeNamespace_inv0 hg ns,
      fun k => by rw [vw_removeNamespace hf, vw_removeNamespace hg, he]⟩
  | setNs ns n => exact Or.inl ⟨_, _, rfl, rfl, key ns n n hv.2.1 hv.2.2 hv.1 rfl rfl hv.2.2 hv.1⟩
  | append o =>
    obtain ⟨f', h1, h2, h3⟩ := append_spec hf (hv : o.WF).toInv0
    obtain ⟨g', k1, k2, k3⟩ := append_spec hg (hv : o.WF).toInv0
    exact Or.inl ⟨f', g', h1, k1, h2, k2, fun ns => by rw [h3, k3, he]⟩

theorem FOp.runAll_congr (ops : List (FOp F)) : ∀ {f g : SparseFeatures F}, f.Inv0 → g.Inv0 → (∀ ns, f.vw ns = g.vw ns) →
    (∀ op ∈ ops, op.Valid) →
    (∃ f' g', runAll ops f = .ok f' ∧ runAll ops g = .ok g' ∧ f'.Inv0 ∧ g'.Inv0 ∧ ∀ ns, f'.vw ns = g'.vw ns) ∨
      ∃ e, runAll ops f = .error e ∧ runAll ops g = .error e := by
  induction ops with
  | nil => intro f g hf hg he _; exact Or.inl ⟨f, g, rfl, rfl, hf, hg, he⟩
  | cons op ops ih =>
    intro f g hf hg he hv
    rcases FOp.run_congr hf hg he op (hv op (by simp)) with ⟨f', g', h1, h2, h3, h4, h5⟩ | ⟨e, h1, h2⟩
    · have := ih h3 h4 h5 (fun o ho => hv o (by simp [ho]))
      simpa only [runAll, List.foldlM_cons, h1, h2, bind, Except.bind] using this
    · exact Or.inr ⟨e, by simp [runAll, List.foldlM_cons, h1, bind, Except.bind],
        by simp [runAll, List.foldlM_cons, h2, bind, Except.bind]⟩

/-- C11. For every history of the pool: an object taken from it reports nothing, and any sequence of API calls on it panics exactly
when it would on a new object, and otherwise leads to an object with the same namespaces, features and order, and the same
features visited by every prediction or learning pass.
Missing from the full property: `reserve` on a namespace and the `namespaces` iterator, which do distinguish recycled objects
(`C11_reserve_false`, `C11_namespaces_false`). -/
theorem C11_recycled_partial [Flt F] (p : Pool (SparseFeatures F)) (hp : PoolReach p) (f : SparseFeatures F)
    (hf : f = (p.getObject SparseFeatures.new).1) :
    f.SameAs SparseFeatures.new ∧
    ∀ ops : List (FOp F), (∀ op ∈ ops, op.Valid) →
      (∃ f' g', FOp.runAll ops f = .ok f' ∧ FOp.runAll ops SparseFeatures.new = .ok g' ∧ f'.SameAs g' ∧
        ∀ c : PassCfg, visited c f' = visited c g') ∨
      ∃ e, FOp.runAll ops f = .error e ∧ FOp.runAll ops (SparseFeatures.new : SparseFeatures F) = .error e := by
  subst hf
  obtain ⟨hi, hvw⟩ := get_object_fresh hp
  refine ⟨sameAs_of_vw hi new_inv0 (fun ns => by rw [hvw]; rfl), fun ops hv => ?_⟩
  rcases FOp.runAll_congr ops hi new_inv0 (fun ns => by rw [hvw]; rfl) hv with ⟨f', g', h1, h2, h3, h4, h5⟩ | h
  · exact Or.inl ⟨f', g', h1, h2, sameAs_of_vw h3 h4 h5, fun c => visited_congr h3 h4 h5 c⟩
  · exact Or.inr h

/-- A pool history in which a used object is recycled. -/
example : PoolReach (((SparseFeatures.new : SparseFeatures Int).modifyOrCreate .default (fun n => n.addFeature 3#32 7)).clearAndReturn
    ⟨[]⟩) := by
  apply PoolReach.ret _ .empty
  exact setNamespace_inv0 new_inv0 rfl rfl

/-- `reserve` on a recycled namespace panics although the same call on a new object succeeds: the capacity of the recycled
vectors is larger than the requested size. -/
theorem C11_reserve_false : ∃ (p : Pool (SparseFeatures Int)) (ns : Namespace) (size : Nat), PoolReach p ∧
    ((p.getObject SparseFeatures.new).1.getOrCreate ns).reserve size = .error .overflow ∧
    ∃ n, ((SparseFeatures.new : SparseFeatures Int).getOrCreate ns).reserve size = .ok n := by
  refine ⟨_, .default, 2, PoolReach.ret ((SparseFeatures.new : SparseFeatures Int).modifyOrCreate .default
    (fun n => n.addFeature 3#32 7)) .empty (setNamespace_inv0 new_inv0 rfl rfl), ?_, _, rfl⟩
  rfl

/-- The `namespaces` iterator of a recycled object still lists the namespaces of its former life (empty). -/
theorem C11_namespaces_false : ∃ (p : Pool (SparseFeatures Int)), PoolReach p ∧
    (p.getObject SparseFeatures.new).1.namespaces ≠ (SparseFeatures.new : SparseFeatures Int).namespaces := by
  refine ⟨_, PoolReach.ret ((SparseFeatures.new : SparseFeatures Int).modifyOrCreate .default
    (fun n => n.addFeature 3#32 7)) .empty (setNamespace_inv0 new_inv0 rfl rfl), ?_⟩
  decide

end Rml
