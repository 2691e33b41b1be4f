import Verif.Model.InverseHash
import Mathlib.Data.List.Basic

/-! C100: the table that finds features by their index. -/

namespace Rml

/-- The table after a sequence of insertions into a new one. -/
def InverseHashTable.filled (ops : List (U32 × Feature)) : InverseHashTable := ops.foldl (fun t op => t.insert op.1 op.2) InverseHashTable.new

theorem find_map_same (l : List (U32 × List Feature)) (j : U32) (x : Feature) :
    (l.map (fun e => if e.1 = j then (e.1, x :: e.2) else e)).find? (fun e => e.1 = j) = (l.find? (fun e => e.1 = j)).map (fun e => (e.1, x :: e.2)) := by
  induction l with
  | nil => rfl
  | cons a l ih =>
    by_cases h : a.1 = j
    · simp [h]
    · simp [h, ih]

theorem find_map_other (l : List (U32 × List Feature)) (i j : U32) (x : Feature) (hij : i ≠ j) :
    (l.map (fun e => if e.1 = j then (e.1, x :: e.2) else e)).find? (fun e => e.1 = i) = l.find? (fun e => e.1 = i) := by
  induction l with
  | nil => rfl
  | cons a l ih =>
    by_cases h : a.1 = j
    · have : ¬ a.1 = i := fun q => hij (q.symm.trans h)
      have h2 : ¬ j = i := fun q => hij q.symm
      simp [h, ih, h2]
    · by_cases hi : a.1 = i
      · simp [hi, hij]
      · simp [h, ih, hi]

theorem get_insert (t : InverseHashTable) (i j : U32) (x : Feature) :
    (t.insert j x).get i = if i = j then some (x :: (t.get j).getD []) else t.get i := by
  unfold InverseHashTable.insert
  cases h : t.get j with
  | some v =>
    simp only [Option.getD_some]
    unfold InverseHashTable.get at h ⊢
    by_cases hij : i = j
    · subst hij
      simp only [if_true]
      rw [find_map_same]
      obtain ⟨e, he, rfl⟩ := Option.map_eq_some_iff.1 h
      rw [he]
      rfl
    · rw [if_neg hij, find_map_other _ _ _ _ hij]
  | none =>
    unfold InverseHashTable.get at h ⊢
    rw [Option.map_eq_none_iff] at h
    simp only [List.find?_append]
    by_cases hij : i = j
    · subst hij
      simp [h]
    · have h2 : ¬ j = i := fun q => hij q.symm
      simp [hij, h2]

theorem get_fold (ops : List (U32 × Feature)) : ∀ (t : InverseHashTable) (i : U32),
    ((ops.foldl (fun t op => t.insert op.1 op.2) t).get i = none ↔ t.get i = none ∧ ∀ op ∈ ops, op.1 ≠ i) ∧
    ∀ x, (∃ fs, (ops.foldl (fun t op => t.insert op.1 op.2) t).get i = some fs ∧ x ∈ fs) ↔ (∃ fs, t.get i = some fs ∧ x ∈ fs) ∨ (i, x) ∈ ops := by
  induction ops with
  | nil => intro t i; simp
  | cons op ops ih =>
    intro t i
    obtain ⟨a, b⟩ := ih (t.insert op.1 op.2) i
    rw [List.foldl_cons]
    refine ⟨?_, ?_⟩
    · rw [a, get_insert]
      by_cases h : i = op.1
      · simp [h]
      · have h2 : op.1 ≠ i := fun q => h q.symm
        simp [h, h2]
    · intro x
      rw [b x, get_insert]
      by_cases h : i = op.1
      · subst h
        rw [if_pos rfl]
        cases hg : t.get op.1 with
        | none => simp [Prod.ext_iff]
        | some v => simp [Prod.ext_iff]; tauto
      · rw [if_neg h]
        simp [Prod.ext_iff, h]

/-- C100: after any insertions, looking an index up finds nothing exactly if nothing was inserted under it, and otherwise finds a set whose members are exactly the
features that were inserted under it: colliding features are all kept, and none appears under another index. -/
theorem C100_lookup (ops : List (U32 × Feature)) (i : U32) :
    ((InverseHashTable.filled ops).get i = none ↔ ∀ x, (i, x) ∉ ops) ∧
    ∀ fs, (InverseHashTable.filled ops).get i = some fs → ∀ x, x ∈ fs ↔ (i, x) ∈ ops := by
  obtain ⟨a, b⟩ := get_fold ops InverseHashTable.new i
  have hn : InverseHashTable.new.get i = none := rfl
  refine ⟨?_, ?_⟩
  · unfold InverseHashTable.filled
    rw [a]
    simp only [hn, true_and]
    constructor
    · intro h x hx; exact h _ hx rfl
    · rintro h ⟨j, x⟩ hop rfl; exact h x hop
  · intro fs hfs x
    have := b x
    unfold InverseHashTable.filled at hfs
    rw [hfs, hn] at this
    simpa using this

/-- Two features that collide, and one that does not. -/
example : (InverseHashTable.filled [(1#32, .simple [] ['a']), (2#32, .anonymous [] 5#32), (1#32, .simple [] ['b'])]).get 1#32 =
    some [.simple [] ['b'], .simple [] ['a']] ∧
    (InverseHashTable.filled [(1#32, .simple [] ['a']), (2#32, .anonymous [] 5#32), (1#32, .simple [] ['b'])]).get 3#32 = none := ⟨rfl, rfl⟩

end Rml
