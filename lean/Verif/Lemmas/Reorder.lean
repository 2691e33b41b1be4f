import Verif.Lemmas.Relabel
import Verif.Lemmas.SparseFeatures

/-! Helper lemmas: reordered features under append and remove. -/

set_option linter.unusedSectionVars false

namespace Rml
open SparseFeatures
variable {F : Type} [Flt F]

/-- Entries of reordered features. -/
abbrev RelEs (es es' : List (Namespace × NsFeats F)) : Prop := List.Forall₂ (fun e e' => e'.1 = e.1 ∧ e.2.Reordered e'.2) es es'

theorem RelEs.keys {es es' : List (Namespace × NsFeats F)} (h : RelEs es es') : es'.map (·.1) = es.map (·.1) := by
  induction h with
  | nil => rfl
  | cons h _ ih => rw [List.map_cons, List.map_cons, ih, h.1]

theorem lookup_reorder {es es' : List (Namespace × NsFeats F)} (h : RelEs es es') (ns : Namespace) :
    Option.Rel NsFeats.Reordered (lookup es ns) (lookup es' ns) := by
  induction h with
  | nil => exact .none
  | @cons a b _ _ h _ ih =>
    obtain ⟨k, n⟩ := a
    obtain ⟨k', n'⟩ := b
    obtain ⟨h1, h2⟩ := h
    simp only at h1 h2
    subst h1
    simp only [lookup]
    split
    · exact .some h2
    · exact ih

theorem insert_reorder {es es' : List (Namespace × NsFeats F)} (h : RelEs es es') (ns : Namespace) {n n' : NsFeats F} (hn : n.Reordered n') :
    RelEs (SparseFeatures.insert es ns n) (SparseFeatures.insert es' ns n') := by
  induction h with
  | nil => exact .cons ⟨rfl, hn⟩ .nil
  | @cons a b _ _ h t ih =>
    obtain ⟨k, m⟩ := a
    obtain ⟨k', m'⟩ := b
    obtain ⟨h1, h2⟩ := h
    simp only at h1 h2
    subst h1
    simp only [SparseFeatures.insert]
    split
    · exact .cons ⟨rfl, hn⟩ t
    · split
      · exact .cons ⟨rfl, hn⟩ (.cons ⟨rfl, h2⟩ t)
      · exact .cons ⟨rfl, h2⟩ ih

/-- Truncated to the first `k` features. -/
def cut (n : NsFeats F) (k : Nat) : NsFeats F := { n with idx := n.idx.truncate k, vals := n.vals.truncate k }

/-- What `remove` needs: without the features of `s`, the two are still reordered. -/
def Undo (es es' : List (Namespace × NsFeats F)) (a a' : SparseFeatures F) : Prop :=
  List.Forall₂ (fun e e' => e.2.active = true → ∃ n n', lookup a.entries e.1 = some n ∧ lookup a'.entries e.1 = some n' ∧ n.active = true ∧ n'.active = true ∧
    n.Reordered n' ∧ (cut n (n.size - e.2.size)).Reordered (cut n' (n'.size - e'.2.size))) es es'

theorem Undo.congr {es es' : List (Namespace × NsFeats F)} {a a' b b' : SparseFeatures F} (h : Undo es es' a a')
    (h1 : ∀ e ∈ es, lookup b.entries e.1 = lookup a.entries e.1) (h2 : ∀ e ∈ es, lookup b'.entries e.1 = lookup a'.entries e.1) : Undo es es' b b' := by
  induction h with
  | nil => exact .nil
  | cons h _ ih =>
    refine .cons (fun ha => ?_) (ih (fun e he => h1 e (List.mem_cons_of_mem _ he)) fun e he => h2 e (List.mem_cons_of_mem _ he))
    rw [h1 _ (List.mem_cons_self ..), h2 _ (List.mem_cons_self ..)]
    exact h ha

theorem createCap_reorder {a a' : SparseFeatures F} (h : RelEs a.entries a'.entries) (ns : Namespace) (k k' : Nat) :
    (a.getOrCreateWithCapacity ns k).Reordered (a'.getOrCreateWithCapacity ns k') ∧ (a.getOrCreateWithCapacity ns k).active = true ∧
      (a'.getOrCreateWithCapacity ns k').active = true := by
  unfold getOrCreateWithCapacity
  have := lookup_reorder h ns
  revert this
  generalize lookup a.entries ns = x
  generalize lookup a'.entries ns = x'
  intro h
  cases h with
  | none => exact ⟨⟨rfl, rfl, rfl, rfl, fun _ => rfl⟩, rfl, rfl⟩
  | some h => exact ⟨⟨rfl, h.paired, h.paired', h.length, h.values⟩, rfl, rfl⟩

theorem append_reorder {es es' : List (Namespace × NsFeats F)} (hes : RelEs es es') : ∀ {a a' a1 : SparseFeatures F},
    es.Pairwise (fun a b => a.1.rank < b.1.rank) → a.Reordered a' → es.foldlM appendStep a = .ok a1 →
    ∃ a1', es'.foldlM appendStep a' = .ok a1' ∧ a1.Reordered a1' ∧ Undo es es' a1 a1' ∧
      ∀ ns, ns ∉ es.map (·.1) → lookup a1.entries ns = lookup a.entries ns ∧ lookup a1'.entries ns = lookup a'.entries ns := by
  induction hes with
  | nil => intro a a' a1 _ h h1; cases h1; exact ⟨a', rfl, h, .nil, fun _ _ => ⟨rfl, rfl⟩⟩
  | @cons e e' es es' he _ ih =>
    intro a a' a1 hk h h1
    obtain ⟨k, m⟩ := e
    obtain ⟨k', m'⟩ := e'
    obtain ⟨h2, h3⟩ := he
    simp only at h2 h3
    subst h2
    rw [List.foldlM_cons] at h1
    obtain ⟨a2, h4, h5⟩ := bind_ok.1 h1
    obtain ⟨hk1, hk2⟩ := List.pairwise_cons.1 hk
    have hnot : k' ∉ es.map (·.1) := by
      intro hm
      obtain ⟨e, he, hke⟩ := List.mem_map.1 hm
      have := hk1 e he
      rw [hke] at this
      exact Nat.lt_irrefl _ this
    by_cases hact : m.active = true
    · have hact' : m'.active = true := h3.active.trans hact
      obtain ⟨q1, q2, q3⟩ := createCap_reorder h.entries k' m.size m'.size
      generalize hn : a.getOrCreateWithCapacity k' m.size = n at *
      generalize hn' : a'.getOrCreateWithCapacity k' m'.size = n' at *
      have e4 : a2 = a.setNamespace k' { n with idx := n.idx.extend m.idx.data, vals := n.vals.extend m.vals.data } := by
        unfold appendStep at h4
        dsimp only at h4
        rw [if_pos hact, hn] at h4
        unfold NsFeats.addFeatures at h4
        rw [if_pos h3.paired] at h4
        cases h4
        rfl
      have k4 : appendStep a' (k', m') = .ok (a'.setNamespace k' { n' with idx := n'.idx.extend m'.idx.data, vals := n'.vals.extend m'.vals.data }) := by
        unfold appendStep
        dsimp only
        rw [if_pos hact', hn']
        unfold NsFeats.addFeatures
        rw [if_pos h3.paired']
        rfl
      have hr : (({ n with idx := n.idx.extend m.idx.data, vals := n.vals.extend m.vals.data } : NsFeats F)).Reordered
          ({ n' with idx := n'.idx.extend m'.idx.data, vals := n'.vals.extend m'.vals.data } : NsFeats F) := by
        refine ⟨q1.active, ?_, ?_, ?_, fun i => ?_⟩
        · simp only [RVec.extend, List.length_append, q1.paired, h3.paired]
        · simp only [RVec.extend, List.length_append, q1.paired', h3.paired']
        · simp only [RVec.extend, List.length_append, q1.length, h3.length]
        · simp only [RVec.extend]
          rw [List.zip_append q1.paired, List.zip_append q1.paired', List.filter_append, List.filter_append, List.map_append, List.map_append, q1.values,
            h3.values]
      subst e4
      have h2' : (a.setNamespace k' { n with idx := n.idx.extend m.idx.data, vals := n.vals.extend m.vals.data }).Reordered
          (a'.setNamespace k' { n' with idx := n'.idx.extend m'.idx.data, vals := n'.vals.extend m'.vals.data }) :=
        ⟨insert_sorted h.keys _ _, insert_reorder h.entries k' hr⟩
      obtain ⟨a1', k5, k6, k7, k8⟩ := ih hk2 h2' h5
      refine ⟨a1', by rw [List.foldlM_cons]; exact bind_ok.2 ⟨_, k4, k5⟩, k6, .cons (fun _ => ?_) k7, fun ns hns => ?_⟩
      · obtain ⟨l1, l2⟩ := k8 k' hnot
        unfold setNamespace at l1 l2
        rw [lookup_insert, if_pos rfl] at l1 l2
        refine ⟨_, _, l1, l2, q2, q3, hr, ?_⟩
        have c1 : ∀ (n m : NsFeats F), n.idx.data.length = n.vals.data.length → (cut ({ n with idx := n.idx.extend m.idx.data, vals := n.vals.extend m.vals.data } : NsFeats F)
            (({ n with idx := n.idx.extend m.idx.data, vals := n.vals.extend m.vals.data } : NsFeats F).size - m.size)).idx.data = n.idx.data ∧
            (cut ({ n with idx := n.idx.extend m.idx.data, vals := n.vals.extend m.vals.data } : NsFeats F)
            (({ n with idx := n.idx.extend m.idx.data, vals := n.vals.extend m.vals.data } : NsFeats F).size - m.size)).vals.data = n.vals.data := by
          intro n m hp
          simp only [cut, RVec.extend, RVec.truncate, NsFeats.size, List.length_append, Nat.add_sub_cancel]
          exact ⟨List.take_left, by rw [hp]; exact List.take_left⟩
        obtain ⟨x1, x2⟩ := c1 n m q1.paired
        obtain ⟨y1, y2⟩ := c1 n' m' q1.paired'
        exact ⟨q1.active, by rw [x1, x2]; exact q1.paired, by rw [y1, y2]; exact q1.paired', by rw [x1, y1]; exact q1.length, fun i => by
          rw [x1, x2, y1, y2]; exact q1.values i⟩
      · rw [List.map_cons, List.mem_cons, not_or] at hns
        obtain ⟨l1, l2⟩ := k8 ns hns.2
        unfold setNamespace at l1 l2
        rw [lookup_insert, if_neg (Ne.symm hns.1)] at l1 l2
        exact ⟨l1, l2⟩
    · have e4 : a2 = a := by
        unfold appendStep at h4
        dsimp only at h4
        rw [if_neg hact] at h4
        cases h4
        rfl
      have k4 : appendStep a' (k', m') = .ok a' := by
        unfold appendStep
        dsimp only
        rw [if_neg (by rw [h3.active]; exact hact)]
      subst e4
      obtain ⟨a1', k5, k6, k7, k8⟩ := ih hk2 h h5
      refine ⟨a1', by rw [List.foldlM_cons]; exact bind_ok.2 ⟨_, k4, k5⟩, k6, .cons (fun hx => absurd hx hact) k7, fun ns hns => ?_⟩
      rw [List.map_cons, List.mem_cons, not_or] at hns
      exact k8 ns hns.2

theorem remove_reorder {es es' : List (Namespace × NsFeats F)} (hes : RelEs es es') : ∀ {a a' a1 : SparseFeatures F},
    es.Pairwise (fun a b => a.1.rank < b.1.rank) → a.Reordered a' → Undo es es' a a' → es.foldlM removeStep a = .ok a1 →
    ∃ a1', es'.foldlM removeStep a' = .ok a1' ∧ a1.Reordered a1' := by
  induction hes with
  | nil => intro a a' a1 _ h _ h1; cases h1; exact ⟨a', rfl, h⟩
  | @cons e e' es es' he _ ih =>
    intro a a' a1 hk h hu h1
    obtain ⟨k, m⟩ := e
    obtain ⟨k', m'⟩ := e'
    obtain ⟨h2, h3⟩ := he
    simp only at h2 h3
    subst h2
    rw [List.foldlM_cons] at h1
    obtain ⟨a2, h4, h5⟩ := bind_ok.1 h1
    obtain ⟨hk1, hk2⟩ := List.pairwise_cons.1 hk
    have hnot : ∀ e ∈ es, k' ≠ e.1 := by
      rintro e he rfl
      exact Nat.lt_irrefl _ (hk1 e he)
    cases hu with
    | cons hu hus =>
    by_cases hact : m.active = true
    · have hact' : m'.active = true := h3.active.trans hact
      obtain ⟨n, n', l1, l2, p1, p2, hr, hc⟩ := hu hact
      have g1 : a.getOrCreate k' = n := by
        unfold getOrCreate
        simp only at l1
        rw [l1]
        obtain ⟨_, _, _, act⟩ := n
        simp only at p1
        subst p1
        rfl
      have g2 : a'.getOrCreate k' = n' := by
        unfold getOrCreate
        simp only at l2
        rw [l2]
        obtain ⟨_, _, _, act⟩ := n'
        simp only at p2
        subst p2
        rfl
      have hsz : n'.size = n.size := hr.length
      have hsm : m'.size = m.size := h3.length
      have hcs : (cut n' (n'.size - m'.size)).size = (cut n (n.size - m.size)).size := hc.length
      unfold removeStep at h4
      dsimp only at h4
      rw [if_pos hact, g1] at h4
      split at h4
      · cases h4
      · rename_i hlt
        have k4 : removeStep a' (k', m') = .ok (a'.setNamespace k' (if (cut n' (n'.size - m'.size)).size = 0 then
            { cut n' (n'.size - m'.size) with active := false } else cut n' (n'.size - m'.size))) := by
          unfold removeStep
          dsimp only
          rw [if_pos hact', g2, if_neg (by rw [hsz, hsm]; exact hlt)]
          rfl
        cases h4
        have hr2 : (if (cut n (n.size - m.size)).size = 0 then { cut n (n.size - m.size) with active := false } else cut n (n.size - m.size)).Reordered
            (if (cut n' (n'.size - m'.size)).size = 0 then { cut n' (n'.size - m'.size) with active := false } else cut n' (n'.size - m'.size)) := by
          rw [hcs]
          split
          · exact ⟨rfl, hc.paired, hc.paired', hc.length, hc.values⟩
          · exact hc
        have h2' := insert_reorder h.entries k' hr2
        have hu2 : Undo es es' (a.setNamespace k' (if (cut n (n.size - m.size)).size = 0 then { cut n (n.size - m.size) with active := false } else
            cut n (n.size - m.size))) (a'.setNamespace k' (if (cut n' (n'.size - m'.size)).size = 0 then
            { cut n' (n'.size - m'.size) with active := false } else cut n' (n'.size - m'.size))) := by
          refine Undo.congr hus (fun e he => ?_) fun e he => ?_
          · unfold setNamespace; rw [lookup_insert, if_neg (hnot e he)]
          · unfold setNamespace; rw [lookup_insert, if_neg (hnot e he)]
        obtain ⟨a1', k5, k6⟩ := ih hk2 ⟨insert_sorted h.keys _ _, h2'⟩ hu2 h5
        exact ⟨a1', by rw [List.foldlM_cons]; exact bind_ok.2 ⟨_, k4, k5⟩, k6⟩
    · have e4 : a2 = a := by
        unfold removeStep at h4
        dsimp only at h4
        rw [if_neg hact] at h4
        cases h4
        rfl
      have k4 : removeStep a' (k', m') = .ok a' := by
        unfold removeStep
        dsimp only
        rw [if_neg (by rw [h3.active]; exact hact)]
      subst e4
      obtain ⟨a1', k5, k6⟩ := ih hk2 h hus h5
      exact ⟨a1', by rw [List.foldlM_cons]; exact bind_ok.2 ⟨_, k4, k5⟩, k6⟩

/-- The lift for reordered examples, given the two facts about regressors. -/
theorem lift_reorder {RC : Coin F → Coin F → Prop}
    (hp : ∀ {c c' : Coin F} {f f' : SparseFeatures F}, RC c c' → f.Reordered f' → Fwd Eq (c.predict false f) (c'.predict false f'))
    (hl : ∀ {c c' : Coin F} {f f' : SparseFeatures F} {l w : F}, RC c c' → f.Reordered f' → Fwd RC (c.learn false f l w) (c'.learn false f' l w)) :
    Lift RC SparseFeatures.Reordered where
  predict := hp
  learn := hl
  add := by
    intro a a' s s' a1 ha hs h
    obtain ⟨a1', h1, h2, h3, _⟩ := append_reorder hs.entries hs.keys ha h
    exact ⟨a1', h1, h2, fun a3 h4 => remove_reorder hs.entries hs.keys h2 h3 h4⟩

theorem relFt_reorder {ft ft' : Features F} : RelFt SparseFeatures.Reordered ft ft' ↔ ft.Reordered ft' := by
  constructor
  · intro h
    cases ft <;> cases ft'
    · exact .simple h
    · exact h.elim
    · exact h.elim
    · exact .cbAdf h.1 h.2
  · intro h
    cases h with
    | simple h => exact h
    | cbAdf h1 h2 => exact ⟨h1, h2⟩

theorem values_reorder {f f' : SparseFeatures F} (h : f.Reordered f') (i : U32) :
    (f'.allFeatures.filter fun iv => iv.1 = i).map (·.2) = (f.allFeatures.filter fun iv => iv.1 = i).map (·.2) := by
  unfold allFeatures
  have := h.entries
  revert this
  generalize f.entries = es
  generalize f'.entries = es'
  intro h
  induction h with
  | nil => rfl
  | cons h _ ih =>
    rw [List.flatMap_cons, List.flatMap_cons, List.filter_append, List.filter_append, List.map_append, List.map_append, ih]
    congr 1
    exact h.2.values i

end Rml
