import Verif.Model.Weights
import Verif.SpecTypes
import Verif.Lemmas.Hash
import Mathlib.Data.List.Sort
import Mathlib.Data.List.Perm.Basic

/-! Helper lemmas about `SparseFeatures`: sorted keys, lookups, and the view through which everything is observed. -/

namespace Rml
namespace SparseFeatures
variable {F : Type}

theorem lookup_insert (l : List (Namespace × NsFeats F)) (ns k : Namespace) (n : NsFeats F) :
    lookup (insert l ns n) k = if ns = k then some n else lookup l k := by
  induction l with
  | nil => simp [insert, lookup]
  | cons e t ih =>
    obtain ⟨k', v⟩ := e
    unfold insert
    split
    · rename_i h; subst h
      simp only [lookup]
      split <;> rfl
    · split
      · simp only [lookup]
      · simp only [lookup, ih]
        split
        · rename_i h1 h2 h3
          split
          · rename_i h4; exact absurd (h3.trans h4.symm) h1
          · rfl
        · rfl

theorem lookup_eq_none_of_lt {l : List (Namespace × NsFeats F)} {ns : Namespace}
    (h : ∀ e ∈ l, ns.rank < e.1.rank) : lookup l ns = none := by
  induction l with
  | nil => rfl
  | cons e t ih =>
    obtain ⟨k, v⟩ := e
    have h1 := h (k, v) (by simp)
    simp only [lookup]
    rw [if_neg (by rintro rfl; exact Nat.lt_irrefl _ h1)]
    exact ih (fun e he => h e (by simp [he]))

theorem lookup_erase {l : List (Namespace × NsFeats F)} (hs : Sorted l) (ns k : Namespace) :
    lookup (erase l ns) k = if ns = k then none else lookup l k := by
  induction l with
  | nil => simp [erase, lookup]
  | cons e t ih =>
    obtain ⟨k', v⟩ := e
    have hs' := List.pairwise_cons.1 hs
    unfold erase
    split
    · rename_i h; subst h
      split
      · rename_i h; subst h
        exact lookup_eq_none_of_lt hs'.1
      · rename_i h; simp only [lookup]; rw [if_neg h]
    · rename_i h
      simp only [lookup, ih hs'.2]
      split
      · rename_i h3; subst h3
        rw [if_neg (fun e => h e.symm)]
      · rfl

theorem mem_insert {l : List (Namespace × NsFeats F)} {ns : Namespace} {n : NsFeats F} {e : Namespace × NsFeats F}
    (h : e ∈ insert l ns n) : e = (ns, n) ∨ e ∈ l := by
  induction l with
  | nil => simp [insert] at h; exact Or.inl h
  | cons a t ih =>
    obtain ⟨k, v⟩ := a
    unfold insert at h
    split at h
    · simp at h; rcases h with h | h
      · exact Or.inl h
      · exact Or.inr (by simp [h])
    · split at h
      · simp at h; rcases h with h | h | h
        · exact Or.inl h
        · exact Or.inr (by simp [h])
        · exact Or.inr (by simp [h])
      · simp at h; rcases h with h | h
        · exact Or.inr (by simp [h])
        · rcases ih h with h | h
          · exact Or.inl h
          · exact Or.inr (by simp [h])

theorem insert_sorted {l : List (Namespace × NsFeats F)} (hs : Sorted l) (ns : Namespace) (n : NsFeats F) :
    Sorted (insert l ns n) := by
  induction l with
  | nil => simp [insert, Sorted]
  | cons e t ih =>
    obtain ⟨k, v⟩ := e
    have hs' := List.pairwise_cons.1 hs
    unfold insert
    split
    · rename_i h; subst h
      exact List.pairwise_cons.2 ⟨hs'.1, hs'.2⟩
    · rename_i hne
      split
      · rename_i hlt
        refine List.pairwise_cons.2 ⟨?_, hs⟩
        intro a ha
        simp at ha
        rcases ha with rfl | ha
        · exact hlt
        · exact Nat.lt_trans hlt (hs'.1 a ha)
      · rename_i hge
        refine List.pairwise_cons.2 ⟨?_, ih hs'.2⟩
        intro a ha
        rcases mem_insert ha with rfl | ha
        · have : k.rank ≠ ns.rank := fun e => hne (Namespace.rank_inj e)
          simp only at *
          omega
        · exact hs'.1 a ha

theorem mem_erase {l : List (Namespace × NsFeats F)} {ns : Namespace} {e : Namespace × NsFeats F}
    (h : e ∈ erase l ns) : e ∈ l := by
  induction l with
  | nil => exact h
  | cons a t ih =>
    obtain ⟨k, v⟩ := a
    unfold erase at h
    split at h
    · simp [h]
    · simp at h; rcases h with h | h
      · simp [h]
      · simp [ih h]

theorem erase_sorted {l : List (Namespace × NsFeats F)} (hs : Sorted l) (ns : Namespace) : Sorted (erase l ns) := by
  induction l with
  | nil => exact hs
  | cons e t ih =>
    obtain ⟨k, v⟩ := e
    have hs' := List.pairwise_cons.1 hs
    unfold erase
    split
    · exact hs'.2
    · exact List.pairwise_cons.2 ⟨fun a ha => hs'.1 a (mem_erase ha), ih hs'.2⟩

theorem lookup_mem {l : List (Namespace × NsFeats F)} {ns : Namespace} {n : NsFeats F} (h : lookup l ns = some n) :
    (ns, n) ∈ l := by
  induction l with
  | nil => simp [lookup] at h
  | cons e t ih =>
    obtain ⟨k, v⟩ := e
    simp only [lookup] at h
    split at h
    · rename_i hk; subst hk; injection h with h; subst h; simp
    · simp [ih h]

theorem mem_lookup {l : List (Namespace × NsFeats F)} (hs : Sorted l) {ns : Namespace} {n : NsFeats F}
    (h : (ns, n) ∈ l) : lookup l ns = some n := by
  induction l with
  | nil => simp at h
  | cons e t ih =>
    obtain ⟨k, v⟩ := e
    have hs' := List.pairwise_cons.1 hs
    simp at h
    rcases h with ⟨rfl, rfl⟩ | h
    · simp [lookup]
    · have := hs'.1 _ h
      simp only [lookup]
      rw [if_neg (by rintro rfl; simp at this)]
      exact ih hs'.2 h

theorem sorted_ext {l l' : List (Namespace × NsFeats F)} (h : Sorted l) (h' : Sorted l')
    (he : ∀ ns, lookup l ns = lookup l' ns) : l = l' := by
  apply List.Perm.eq_of_pairwise (le := fun (a b : Namespace × NsFeats F) => a.1.rank < b.1.rank)
  · intro a b _ _ h1 h2; omega
  · exact h
  · exact h'
  · rw [List.perm_ext_iff_of_nodup]
    · rintro ⟨k, v⟩
      constructor
      · intro hm; exact lookup_mem ((he k) ▸ mem_lookup h hm)
      · intro hm; exact lookup_mem ((he k).symm ▸ mem_lookup h' hm)
    · exact h.imp (fun hlt e => by rw [e] at hlt; exact Nat.lt_irrefl _ hlt)
    · exact h'.imp (fun hlt e => by rw [e] at hlt; exact Nat.lt_irrefl _ hlt)

theorem new_inv0 : (new : SparseFeatures F).Inv0 := ⟨List.Pairwise.nil, by simp [new], by simp [new]⟩

theorem vw_new (ns : Namespace) : (new : SparseFeatures F).vw ns = ([], [], false) := rfl

theorem vw_lens {f : SparseFeatures F} (h : f.Inv0) (ns : Namespace) : (f.vw ns).1.length = (f.vw ns).2.1.length := by
  unfold vw
  cases hl : lookup f.entries ns with
  | none => rfl
  | some n => exact h.lens _ (lookup_mem hl)

theorem setNamespace_inv0 {f : SparseFeatures F} (h : f.Inv0) {ns : Namespace} {n : NsFeats F}
    (hl : n.idx.data.length = n.vals.data.length) (hk : n.namespace_ = ns) : (f.setNamespace ns n).Inv0 := by
  refine ⟨insert_sorted h.sorted ns n, ?_, ?_⟩
  · intro e he
    rcases mem_insert he with rfl | he
    · exact hl
    · exact h.lens e he
  · intro e he
    rcases mem_insert he with rfl | he
    · exact hk
    · exact h.keys e he

theorem vw_setNamespace (f : SparseFeatures F) (ns k : Namespace) (n : NsFeats F) :
    (f.setNamespace ns n).vw k = if ns = k then (n.idx.data, n.vals.data, n.active) else f.vw k := by
  unfold vw setNamespace
  simp only [lookup_insert]
  by_cases h : ns = k <;> simp [h]

theorem removeNamespace_inv0 {f : SparseFeatures F} (h : f.Inv0) (ns : Namespace) : (f.removeNamespace ns).2.Inv0 :=
  ⟨erase_sorted h.sorted ns, fun e he => h.lens e (mem_erase he), fun e he => h.keys e (mem_erase he)⟩

theorem vw_removeNamespace {f : SparseFeatures F} (h : f.Inv0) (ns k : Namespace) :
    (f.removeNamespace ns).2.vw k = if ns = k then ([], [], false) else f.vw k := by
  unfold vw removeNamespace
  simp only [lookup_erase h.sorted]
  by_cases h : ns = k <;> simp [h]

theorem getOrCreate_spec {f : SparseFeatures F} (h : f.Inv0) (ns : Namespace) :
    (f.getOrCreate ns).idx.data = (f.vw ns).1 ∧ (f.getOrCreate ns).vals.data = (f.vw ns).2.1 ∧
      (f.getOrCreate ns).active = true ∧ (f.getOrCreate ns).namespace_ = ns := by
  unfold getOrCreate vw
  cases hl : lookup f.entries ns with
  | none => exact ⟨rfl, rfl, rfl, rfl⟩
  | some n => exact ⟨rfl, rfl, rfl, h.keys _ (lookup_mem hl)⟩

theorem getOrCreateWithCapacity_spec {f : SparseFeatures F} (h : f.Inv0) (ns : Namespace) (cap : Nat) :
    (f.getOrCreateWithCapacity ns cap).idx.data = (f.vw ns).1 ∧ (f.getOrCreateWithCapacity ns cap).vals.data = (f.vw ns).2.1 ∧
      (f.getOrCreateWithCapacity ns cap).active = true ∧ (f.getOrCreateWithCapacity ns cap).namespace_ = ns := by
  unfold getOrCreateWithCapacity vw
  cases hl : lookup f.entries ns with
  | none => exact ⟨rfl, rfl, rfl, rfl⟩
  | some n => exact ⟨rfl, rfl, rfl, h.keys _ (lookup_mem hl)⟩

theorem clear_inv0 {f : SparseFeatures F} (h : f.Inv0) : f.clear.Inv0 := by
  refine ⟨?_, ?_, ?_⟩
  · unfold Sorted clear
    rw [List.pairwise_map]
    exact h.sorted
  · intro e he
    simp only [clear, List.mem_map] at he
    obtain ⟨e', _, rfl⟩ := he
    rfl
  · intro e he
    simp only [clear, List.mem_map] at he
    obtain ⟨e', he', rfl⟩ := he
    exact h.keys e' he'

theorem lookup_map (l : List (Namespace × NsFeats F)) (g : NsFeats F → NsFeats F) (ns : Namespace) :
    lookup (l.map (fun e => (e.1, g e.2))) ns = (lookup l ns).map g := by
  induction l with
  | nil => rfl
  | cons e t ih =>
    obtain ⟨k, v⟩ := e
    simp only [List.map_cons, lookup, ih]
    split <;> rfl

theorem vw_clear (f : SparseFeatures F) (ns : Namespace) : f.clear.vw ns = ([], [], false) := by
  unfold vw clear
  simp only
  rw [lookup_map f.entries (fun n => { n.clear with active := false })]
  cases lookup f.entries ns <;> rfl

/-- Effect of appending a namespace's view `b` to a view `a`. -/
def vwAppend (a b : List U32 × List F × Bool) : List U32 × List F × Bool :=
  if b.2.2 then (a.1 ++ b.1, a.2.1 ++ b.2.1, true) else a

/-- Effect of removing a namespace's view `b` from a view `a`. -/
def vwRemove (a b : List U32 × List F × Bool) : List U32 × List F × Bool :=
  if b.2.2 then
    let i := a.1.take (a.1.length - b.1.length)
    (i, a.2.1.take (a.1.length - b.1.length), !decide (i.length = 0))
  else a

/-- View of an entry list. -/
def vwl (l : List (Namespace × NsFeats F)) (ns : Namespace) : List U32 × List F × Bool := vw ⟨l⟩ ns

theorem foldlM_cons_ok {α β : Type} (g : β → α → M β) (a : α) (l : List α) (b b' : β) (h : g b a = .ok b') :
    List.foldlM g b (a :: l) = List.foldlM g b' l := by
  simp only [List.foldlM_cons, h, bind, Except.bind]

theorem append_aux (l : List (Namespace × NsFeats F)) : ∀ (f : SparseFeatures F), f.Inv0 → Inv0 ⟨l⟩ →
    ∃ f', l.foldlM appendStep f = .ok f' ∧ f'.Inv0 ∧ ∀ ns, f'.vw ns = vwAppend (f.vw ns) (vw ⟨l⟩ ns) := by
  induction l with
  | nil =>
    intro f h _
    exact ⟨f, rfl, h, fun ns => by simp [vwAppend, vw, lookup]⟩
  | cons e t ih =>
    intro f h hl
    obtain ⟨k, n⟩ := e
    have hs := List.pairwise_cons.1 hl.sorted
    have ht : Inv0 ⟨t⟩ := ⟨hs.2, fun e he => hl.lens e (by simp [he]), fun e he => hl.keys e (by simp [he])⟩
    have hln : n.idx.data.length = n.vals.data.length := hl.lens (k, n) (by simp)
    have hnone : lookup t k = none := lookup_eq_none_of_lt (fun e he => hs.1 e he)
    by_cases hact : n.active = true
    · obtain ⟨g1, g2, g3, g4⟩ := getOrCreateWithCapacity_spec h k n.size
      have hstep : appendStep f (k, n) = .ok (f.setNamespace k { (f.getOrCreateWithCapacity k n.size) with
          idx := (f.getOrCreateWithCapacity k n.size).idx.extend n.idx.data,
          vals := (f.getOrCreateWithCapacity k n.size).vals.extend n.vals.data }) := by
        simp [appendStep, hact, NsFeats.addFeatures, hln, bind, Except.bind]
      rw [foldlM_cons_ok _ _ _ _ _ hstep]
      have hinv := setNamespace_inv0 h (ns := k) (n := { (f.getOrCreateWithCapacity k n.size) with
          idx := (f.getOrCreateWithCapacity k n.size).idx.extend n.idx.data,
          vals := (f.getOrCreateWithCapacity k n.size).vals.extend n.vals.data })
          (by simp [RVec.extend, g1, g2, vw_lens h, hln]) g4
      obtain ⟨f', h1, h2, h3⟩ := ih _ hinv ht
      refine ⟨f', h1, h2, fun ns => ?_⟩
      rw [h3 ns, vw_setNamespace]
      by_cases hk : k = ns
      · subst hk
        simp [vwAppend, vw, hnone, lookup, hact, RVec.extend]
        refine ⟨?_, ?_, ?_⟩
        · rw [g1]; simp [vw]
        · rw [g2]; simp [vw]
        · exact g3
      · simp only [hk, if_false]
        congr 1
        simp [vw, lookup, hk]
    · have hstep : appendStep f (k, n) = .ok f := by simp [appendStep, hact]
      rw [foldlM_cons_ok _ _ _ _ _ hstep]
      obtain ⟨f', h1, h2, h3⟩ := ih f h ht
      refine ⟨f', h1, h2, fun ns => ?_⟩
      rw [h3 ns]
      by_cases hk : k = ns
      · subst hk
        simp [vwAppend, vw, hnone, lookup, hact]
      · congr 1
        simp [vw, lookup, hk]

theorem append_spec {f s : SparseFeatures F} (h : f.Inv0) (hs : s.Inv0) :
    ∃ f', f.append s = .ok f' ∧ f'.Inv0 ∧ ∀ ns, f'.vw ns = vwAppend (f.vw ns) (s.vw ns) :=
  append_aux s.entries f h hs

theorem remove_aux (l : List (Namespace × NsFeats F)) : ∀ (f : SparseFeatures F), f.Inv0 → Inv0 ⟨l⟩ →
    (∀ ns, (vw ⟨l⟩ ns).2.2 = true → (vw ⟨l⟩ ns).1.length ≤ (f.vw ns).1.length) →
    ∃ f', l.foldlM removeStep f = .ok f' ∧ f'.Inv0 ∧ ∀ ns, f'.vw ns = vwRemove (f.vw ns) (vw ⟨l⟩ ns) := by
  induction l with
  | nil =>
    intro f h _ _
    exact ⟨f, rfl, h, fun ns => by simp [vwRemove, vw, lookup]⟩
  | cons e t ih =>
    intro f h hl hsz
    obtain ⟨k, n⟩ := e
    have hs := List.pairwise_cons.1 hl.sorted
    have ht : Inv0 ⟨t⟩ := ⟨hs.2, fun e he => hl.lens e (by simp [he]), fun e he => hl.keys e (by simp [he])⟩
    have hnone : lookup t k = none := lookup_eq_none_of_lt (fun e he => hs.1 e he)
    have htv : ∀ ns, k ≠ ns → vw ⟨(k, n) :: t⟩ ns = vw ⟨t⟩ ns := by
      intro ns hk; simp [vw, lookup, hk]
    by_cases hact : n.active = true
    · obtain ⟨g1, g2, g3, g4⟩ := getOrCreate_spec h k
      have hszk : n.idx.data.length ≤ (f.vw k).1.length := by
        have := hsz k
        simpa [vw, lookup, hact] using this
      have hszk' : ¬ (f.getOrCreate k).size < n.size := by
        simp only [NsFeats.size, g1]; omega
      let c : NsFeats F := { f.getOrCreate k with
          idx := (f.getOrCreate k).idx.truncate ((f.getOrCreate k).size - n.size),
          vals := (f.getOrCreate k).vals.truncate ((f.getOrCreate k).size - n.size) }
      let c' : NsFeats F := if c.size = 0 then { c with active := false } else c
      have hstep : removeStep f (k, n) = .ok (f.setNamespace k c') := by
        simp only [removeStep, hact, if_true, hszk', if_false]
        rfl
      have hci : c'.idx.data = (f.vw k).1.take ((f.vw k).1.length - n.idx.data.length) := by
        have : c'.idx = c.idx := by simp only [c']; split <;> rfl
        rw [this]
        simp [c, RVec.truncate, NsFeats.size, g1]
      have hcv : c'.vals.data = (f.vw k).2.1.take ((f.vw k).1.length - n.idx.data.length) := by
        have : c'.vals = c.vals := by simp only [c']; split <;> rfl
        rw [this]
        simp [c, RVec.truncate, NsFeats.size, g1, g2]
      have hcn : c'.namespace_ = k := by
        have : c'.namespace_ = c.namespace_ := by simp only [c']; split <;> rfl
        rw [this]; exact g4
      have hca : c'.active = !decide (((f.vw k).1.take ((f.vw k).1.length - n.idx.data.length)).length = 0) := by
        have hcs : c.size = ((f.vw k).1.take ((f.vw k).1.length - n.idx.data.length)).length := by
          simp [c, RVec.truncate, NsFeats.size, g1]
        simp only [c']
        rw [hcs]
        split
        · rename_i h0; simp [h0]
        · rename_i h0
          simp only [h0, decide_false, Bool.not_false]
          exact g3
      rw [foldlM_cons_ok _ _ _ _ _ hstep]
      have hinv := setNamespace_inv0 h (ns := k) (n := c')
          (by rw [hci, hcv]; simp [vw_lens h]) hcn
      obtain ⟨f', h1, h2, h3⟩ := ih _ hinv ht (by
        intro ns hns
        rw [vw_setNamespace]
        by_cases hk : k = ns
        · subst hk
          simp [vw, hnone] at hns
        · simp only [hk, if_false]
          rw [← htv ns hk]
          exact hsz ns (by rw [htv ns hk]; exact hns))
      refine ⟨f', h1, h2, fun ns => ?_⟩
      rw [h3 ns, vw_setNamespace]
      by_cases hk : k = ns
      · subst hk
        have e1 : vw ⟨t⟩ k = ([], [], false) := by simp [vw, hnone]
        have e2 : vw ⟨(k, n) :: t⟩ k = (n.idx.data, n.vals.data, true) := by simp [vw, lookup, hact]
        rw [e1, e2]
        simp only [vwRemove, if_true, Bool.false_eq_true, if_false, hci, hcv, hca]
      · simp only [hk, if_false, htv ns hk]
    · have hstep : removeStep f (k, n) = .ok f := by simp [removeStep, hact]
      rw [foldlM_cons_ok _ _ _ _ _ hstep]
      obtain ⟨f', h1, h2, h3⟩ := ih f h ht (by
        intro ns hns
        by_cases hk : k = ns
        · subst hk
          simp [vw, hnone] at hns
        · rw [← htv ns hk]
          exact hsz ns (by rw [htv ns hk]; exact hns))
      refine ⟨f', h1, h2, fun ns => ?_⟩
      rw [h3 ns]
      by_cases hk : k = ns
      · subst hk
        simp [vwRemove, vw, hnone, lookup, hact]
      · rw [htv ns hk]

theorem remove_spec {f s : SparseFeatures F} (h : f.Inv0) (hs : s.Inv0)
    (hsz : ∀ ns, (s.vw ns).2.2 = true → (s.vw ns).1.length ≤ (f.vw ns).1.length) :
    ∃ f', f.remove s = .ok f' ∧ f'.Inv0 ∧ ∀ ns, f'.vw ns = vwRemove (f.vw ns) (s.vw ns) :=
  remove_aux s.entries f h hs hsz

/-- Removing what was appended, in terms of views. -/
theorem vwRemove_vwAppend (a b : List U32 × List F × Bool) (ha : a.1.length = a.2.1.length) :
    vwRemove (vwAppend a b) b = if b.2.2 then (a.1, a.2.1, !decide (a.1.length = 0)) else a := by
  unfold vwAppend
  split
  · rename_i h
    simp only [vwRemove, h, if_true, List.length_append, Nat.add_sub_cancel]
    rw [List.take_left' rfl, List.take_left' ha.symm]
  · rename_i h
    simp [vwRemove, h]

/-! ### Everything observable is determined by the view -/

theorem nsIter_vw [Flt F] (f : SparseFeatures F) (ns : Namespace) :
    nsIter f ns = if (f.vw ns).2.2 then (f.vw ns).1.zip (f.vw ns).2.1 else [] := by
  unfold nsIter getNamespace vw
  cases lookup f.entries ns with
  | none => rfl
  | some n => by_cases h : n.active <;> simp [h, NsFeats.iter]

theorem getNamespace_isSome_vw (f : SparseFeatures F) (ns : Namespace) :
    (f.getNamespace ns).isSome = (f.vw ns).2.2 := by
  unfold getNamespace vw
  cases lookup f.entries ns with
  | none => rfl
  | some n => by_cases h : n.active <;> simp [h]

/-- Sorted lists (by an injective-enough key) with the same members are equal. -/
theorem eq_of_sorted_mem {α : Type} (key : α → Nat) {l l' : List α} (h : l.Pairwise (fun a b => key a < key b))
    (h' : l'.Pairwise (fun a b => key a < key b)) (he : ∀ x, x ∈ l ↔ x ∈ l') : l = l' := by
  apply List.Perm.eq_of_pairwise (le := fun a b => key a < key b)
  · intro a b _ _ h1 h2; omega
  · exact h
  · exact h'
  · rw [List.perm_ext_iff_of_nodup]
    · exact he
    · exact h.imp (fun hlt e => by rw [e] at hlt; exact Nat.lt_irrefl _ hlt)
    · exact h'.imp (fun hlt e => by rw [e] at hlt; exact Nat.lt_irrefl _ hlt)

/-- The nonempty namespaces with their features, in order. -/
def contents (f : SparseFeatures F) : List (Namespace × List (U32 × F)) :=
  (f.entries.map (fun e => (e.1, e.2.iter))).filter (fun e => !e.2.isEmpty)

theorem allFeatures_contents (f : SparseFeatures F) : f.allFeatures = f.contents.flatMap (·.2) := by
  unfold allFeatures contents
  induction f.entries with
  | nil => rfl
  | cons e t ih =>
    simp only [List.flatMap_cons, List.map_cons, List.filter_cons]
    cases h : e.2.iter with
    | nil => simp [ih]
    | cons a l => simp [ih]

theorem contents_sorted {f : SparseFeatures F} (h : f.Inv0) : f.contents.Pairwise (fun a b => a.1.rank < b.1.rank) := by
  unfold contents
  apply List.Pairwise.filter
  rw [List.pairwise_map]
  exact h.sorted

theorem mem_contents {f : SparseFeatures F} (h : f.Inv0) (e : Namespace × List (U32 × F)) :
    e ∈ f.contents ↔ e.2 = (f.vw e.1).1.zip (f.vw e.1).2.1 ∧ e.2 ≠ [] := by
  obtain ⟨ns, l⟩ := e
  simp only [contents, List.mem_filter, List.mem_map, vw, Bool.not_eq_true', List.isEmpty_eq_false_iff]
  constructor
  · rintro ⟨⟨⟨k, n⟩, hm, he⟩, hne⟩
    injection he with h1 h2
    subst h1 h2
    rw [mem_lookup h.sorted hm]
    exact ⟨rfl, hne⟩
  · rintro ⟨he, hne⟩
    refine ⟨?_, hne⟩
    cases hl : lookup f.entries ns with
    | none => rw [hl] at he; simp at he; exact absurd he hne
    | some n => rw [hl] at he; exact ⟨(ns, n), lookup_mem hl, by rw [he]; rfl⟩

theorem contents_congr {f g : SparseFeatures F} (hf : f.Inv0) (hg : g.Inv0) (he : ∀ ns, f.vw ns = g.vw ns) :
    f.contents = g.contents := by
  apply eq_of_sorted_mem (fun e => e.1.rank) (contents_sorted hf) (contents_sorted hg)
  intro e
  rw [mem_contents hf, mem_contents hg, he]

theorem allFeatures_congr {f g : SparseFeatures F} (hf : f.Inv0) (hg : g.Inv0) (he : ∀ ns, f.vw ns = g.vw ns) :
    f.allFeatures = g.allFeatures := by
  rw [allFeatures_contents, allFeatures_contents, contents_congr hf hg he]

theorem activeKeys_sorted {f : SparseFeatures F} (h : f.Inv0) : f.activeKeys.Pairwise (fun a b => a.rank < b.rank) := by
  unfold activeKeys
  rw [List.pairwise_map]
  exact List.Pairwise.filter _ h.sorted

theorem mem_activeKeys {f : SparseFeatures F} (h : f.Inv0) (ns : Namespace) : ns ∈ f.activeKeys ↔ (f.vw ns).2.2 = true := by
  simp only [activeKeys, List.mem_map, List.mem_filter, vw]
  constructor
  · rintro ⟨⟨k, n⟩, ⟨hm, ha⟩, rfl⟩
    rw [mem_lookup h.sorted hm]
    exact ha
  · intro ha
    cases hl : lookup f.entries ns with
    | none => rw [hl] at ha; simp at ha
    | some n => rw [hl] at ha; exact ⟨(ns, n), ⟨lookup_mem hl, ha⟩, rfl⟩

theorem activeKeys_congr {f g : SparseFeatures F} (hf : f.Inv0) (hg : g.Inv0) (he : ∀ ns, f.vw ns = g.vw ns) :
    f.activeKeys = g.activeKeys := by
  apply eq_of_sorted_mem Namespace.rank (activeKeys_sorted hf) (activeKeys_sorted hg)
  intro ns
  rw [mem_activeKeys hf, mem_activeKeys hg, he]

theorem visited_congr [Flt F] {f g : SparseFeatures F} (hf : f.Inv0) (hg : g.Inv0) (he : ∀ ns, f.vw ns = g.vw ns)
    (c : PassCfg) : visited c f = visited c g := by
  have hn : ∀ ns, nsIter f ns = nsIter g ns := by intro ns; rw [nsIter_vw, nsIter_vw, he]
  unfold visited
  rw [allFeatures_congr hf hg he]
  congr 2
  · congr 2
    funext p
    simp only [quadVisit, hn]
  · congr 1
    funext p
    simp only [cubicVisit, hn]

end SparseFeatures
end Rml
