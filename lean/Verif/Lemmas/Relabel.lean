import Verif.SpecRelabel
import Verif.Lemmas.Lift

/-! Helper lemmas: relabelled examples under append and remove. -/

set_option linter.unusedSectionVars false

namespace Rml
open SparseFeatures
variable {F : Type} [Flt F] {σ : U32 → U32} {u : U32 → F → F} {U : U32 → Prop}

/-- The namespace has as many values as indices, and the indices are in `U`. -/
def NsFeats.In (U : U32 → Prop) (n : NsFeats F) : Prop := n.idx.data.length = n.vals.data.length ∧ ∀ i ∈ n.idx.data, U i

/-- All namespaces. -/
def SparseFeatures.In (U : U32 → Prop) (f : SparseFeatures F) : Prop := ∀ e ∈ f.entries, e.2.In U

/-- The second is the first one relabelled. -/
def Relabelled (σ : U32 → U32) (u : U32 → F → F) (U : U32 → Prop) (f f' : SparseFeatures F) : Prop := f' = f.relabel σ u ∧ f.In U

theorem lookup_relabel (es : List (Namespace × NsFeats F)) (ns : Namespace) :
    lookup (es.map fun e => (e.1, e.2.relabel σ u)) ns = (lookup es ns).map (NsFeats.relabel σ u) := by
  induction es with
  | nil => rfl
  | cons e es ih =>
    obtain ⟨k, v⟩ := e
    simp only [List.map_cons, lookup]
    split
    · rfl
    · exact ih

theorem insert_relabel (es : List (Namespace × NsFeats F)) (ns : Namespace) (n : NsFeats F) :
    insert (es.map fun e => (e.1, e.2.relabel σ u)) ns (n.relabel σ u) = (insert es ns n).map fun e => (e.1, e.2.relabel σ u) := by
  induction es with
  | nil => rfl
  | cons e es ih =>
    obtain ⟨k, v⟩ := e
    simp only [List.map_cons, SparseFeatures.insert]
    split
    · rfl
    · split
      · rfl
      · rw [ih]; rfl

theorem setNamespace_relabel (f : SparseFeatures F) (ns : Namespace) (n : NsFeats F) :
    (f.relabel σ u).setNamespace ns (n.relabel σ u) = (f.setNamespace ns n).relabel σ u := by
  unfold setNamespace relabel
  rw [insert_relabel]

theorem mem_lookup {es : List (Namespace × NsFeats F)} {ns : Namespace} {n : NsFeats F} (h : lookup es ns = some n) : (ns, n) ∈ es := by
  induction es with
  | nil => cases h
  | cons e es ih =>
    obtain ⟨k, v⟩ := e
    simp only [lookup] at h
    split at h
    · rename_i hk
      cases h
      subst hk
      exact List.mem_cons_self ..
    · exact List.mem_cons_of_mem _ (ih h)

theorem mem_insert {es : List (Namespace × NsFeats F)} {ns : Namespace} {n : NsFeats F} {e : Namespace × NsFeats F} (h : e ∈ insert es ns n) :
    e = (ns, n) ∨ e ∈ es := by
  induction es with
  | nil => exact .inl (List.mem_singleton.1 h)
  | cons e' es ih =>
    obtain ⟨k, v⟩ := e'
    simp only [SparseFeatures.insert] at h
    split at h
    · rcases List.mem_cons.1 h with h | h
      · exact .inl h
      · exact .inr (List.mem_cons_of_mem _ h)
    · split at h
      · rcases List.mem_cons.1 h with h | h
        · exact .inl h
        · exact .inr h
      · rcases List.mem_cons.1 h with h | h
        · exact .inr (h ▸ List.mem_cons_self ..)
        · rcases ih h with h | h
          · exact .inl h
          · exact .inr (List.mem_cons_of_mem _ h)

theorem in_set {f : SparseFeatures F} (h : f.In U) {ns : Namespace} {n : NsFeats F} (hn : n.In U) : (f.setNamespace ns n).In U := by
  intro e he
  rcases mem_insert he with rfl | he
  · exact hn
  · exact h e he

theorem in_create {f : SparseFeatures F} (h : f.In U) (ns : Namespace) : (f.getOrCreate ns).In U := by
  unfold getOrCreate
  cases hl : lookup f.entries ns with
  | none => exact ⟨rfl, fun _ h => nomatch h⟩
  | some n => exact h _ (mem_lookup hl)

theorem in_createCap {f : SparseFeatures F} (h : f.In U) (ns : Namespace) (k : Nat) : (f.getOrCreateWithCapacity ns k).In U := by
  unfold getOrCreateWithCapacity
  cases hl : lookup f.entries ns with
  | none => exact ⟨rfl, fun _ h => nomatch h⟩
  | some n => exact h _ (mem_lookup hl)

theorem create_relabel (f : SparseFeatures F) (ns : Namespace) : (f.relabel σ u).getOrCreate ns = (f.getOrCreate ns).relabel σ u := by
  unfold getOrCreate relabel
  dsimp only
  rw [lookup_relabel]
  cases lookup f.entries ns <;> rfl

theorem createCap_relabel (f : SparseFeatures F) (ns : Namespace) (k : Nat) :
    (f.relabel σ u).getOrCreateWithCapacity ns k = (f.getOrCreateWithCapacity ns k).relabel σ u := by
  unfold getOrCreateWithCapacity relabel
  dsimp only
  rw [lookup_relabel]
  cases lookup f.entries ns <;> rfl

theorem appendStep_relabel {f f' f1 : SparseFeatures F} (hf : Relabelled σ u U f f') {e : Namespace × NsFeats F} (he : e.2.In U)
    (h : appendStep f e = .ok f1) : ∃ f1', appendStep f' (e.1, e.2.relabel σ u) = .ok f1' ∧ Relabelled σ u U f1 f1' := by
  obtain ⟨rfl, hi⟩ := hf
  unfold appendStep at h ⊢
  change (if e.2.active then _ else _) = _ at h
  change ∃ f1', (if e.2.active then _ else _) = _ ∧ _
  split at h
  · rename_i ha
    rw [if_pos ha]
    have hc := in_createCap hi e.1 e.2.size
    have hs : (e.2.relabel σ u).size = e.2.size := List.length_map _
    unfold NsFeats.addFeatures at h ⊢
    rw [if_pos he.1] at h
    cases h
    simp only [hs, createCap_relabel]
    generalize f.getOrCreateWithCapacity e.1 e.2.size = n at hc ⊢
    have hl : (e.2.relabel σ u).idx.data.length = (e.2.relabel σ u).vals.data.length := by
      simp only [NsFeats.relabel, List.length_map, List.length_zipWith]; have := he.1; omega
    rw [if_pos hl]
    have heq : ({ n.relabel σ u with idx := (n.relabel σ u).idx.extend (e.2.relabel σ u).idx.data, vals := (n.relabel σ u).vals.extend (e.2.relabel σ u).vals.data } : NsFeats F) =
        ({ n with idx := n.idx.extend e.2.idx.data, vals := n.vals.extend e.2.vals.data } : NsFeats F).relabel σ u := by
      have h1 := hc.1
      have h2 := he.1
      simp only [NsFeats.relabel, RVec.extend, List.map_append, List.length_map, List.length_zipWith, NsFeats.mk.injEq, RVec.mk.injEq, true_and, and_true]
      rw [List.zipWith_append h1]
      refine ⟨rfl, ?_⟩
      rw [h1, h2, Nat.min_self, Nat.min_self]
    refine ⟨_, rfl, ?_, in_set hi ⟨?_, ?_⟩⟩
    · rw [heq]
      exact setNamespace_relabel _ _ _
    · simp only [RVec.extend, List.length_append, hc.1, he.1]
    · intro i hm
      rcases List.mem_append.1 hm with hm | hm
      · exact hc.2 i hm
      · exact he.2 i hm
  · rename_i ha
    rw [if_neg ha]
    cases h
    exact ⟨_, rfl, rfl, hi⟩

theorem removeStep_relabel {f f' f1 : SparseFeatures F} (hf : Relabelled σ u U f f') {e : Namespace × NsFeats F}
    (h : removeStep f e = .ok f1) : ∃ f1', removeStep f' (e.1, e.2.relabel σ u) = .ok f1' ∧ Relabelled σ u U f1 f1' := by
  obtain ⟨rfl, hi⟩ := hf
  unfold removeStep at h ⊢
  change (if e.2.active then _ else _) = _ at h
  change ∃ f1', (if e.2.active then _ else _) = _ ∧ _
  split at h
  · rename_i ha
    rw [if_pos ha]
    have hc := in_create hi e.1
    have hs : ∀ n : NsFeats F, (n.relabel σ u).size = n.size := fun n => List.length_map _
    dsimp only at h ⊢
    rw [create_relabel, hs, hs]
    generalize f.getOrCreate e.1 = n at h hc ⊢
    split at h
    · cases h
    · rename_i hlt
      rw [if_neg hlt]
      cases h
      have heq : ({ n.relabel σ u with idx := (n.relabel σ u).idx.truncate (n.size - e.2.size), vals := (n.relabel σ u).vals.truncate (n.size - e.2.size) } : NsFeats F) =
          ({ n with idx := n.idx.truncate (n.size - e.2.size), vals := n.vals.truncate (n.size - e.2.size) } : NsFeats F).relabel σ u := by
        simp only [NsFeats.relabel, RVec.truncate, List.map_take, List.take_zipWith]
      rw [heq, hs]
      have hin : ({ n with idx := n.idx.truncate (n.size - e.2.size), vals := n.vals.truncate (n.size - e.2.size) } : NsFeats F).In U := by
        refine ⟨?_, fun i hm => hc.2 i (List.mem_of_mem_take hm)⟩
        simp only [RVec.truncate, List.length_take, hc.1]
      refine ⟨_, rfl, ?_, in_set hi ?_⟩
      · split
        · refine Eq.trans (congrArg _ ?_) (setNamespace_relabel f e.1
            { n with idx := n.idx.truncate (n.size - e.2.size), vals := n.vals.truncate (n.size - e.2.size), active := false })
          simp only [NsFeats.relabel, RVec.truncate, List.map_take, List.take_zipWith]
        · exact setNamespace_relabel f e.1 _
      · split
        · exact hin
        · exact hin
  · rename_i ha
    rw [if_neg ha]
    cases h
    exact ⟨_, rfl, rfl, hi⟩

theorem append_relabel {s : SparseFeatures F} (hs : s.In U) : ∀ {f f' f1 : SparseFeatures F}, Relabelled σ u U f f' → f.append s = .ok f1 →
    ∃ f1', f'.append (s.relabel σ u) = .ok f1' ∧ Relabelled σ u U f1 f1' := by
  unfold append relabel SparseFeatures.In at *
  revert hs
  generalize s.entries = es
  induction es with
  | nil => intro _ f f' f1 hf h; cases h; exact ⟨f', rfl, hf⟩
  | cons e es ih =>
    intro hs f f' f1 hf h
    rw [List.foldlM_cons] at h
    obtain ⟨f2, h1, h2⟩ := bind_ok.1 h
    obtain ⟨f2', k1, k2⟩ := appendStep_relabel hf (hs e (List.mem_cons_self ..)) h1
    obtain ⟨f1', k3, k4⟩ := ih (fun e he => hs e (List.mem_cons_of_mem _ he)) k2 h2
    refine ⟨f1', ?_, k4⟩
    dsimp only
    rw [List.map_cons, List.foldlM_cons]
    exact bind_ok.2 ⟨f2', k1, k3⟩

theorem remove_relabel (s : SparseFeatures F) : ∀ {f f' f1 : SparseFeatures F}, Relabelled σ u U f f' → f.remove s = .ok f1 →
    ∃ f1', f'.remove (s.relabel σ u) = .ok f1' ∧ Relabelled σ u U f1 f1' := by
  unfold remove relabel
  generalize s.entries = es
  induction es with
  | nil => intro f f' f1 hf h; cases h; exact ⟨f', rfl, hf⟩
  | cons e es ih =>
    intro f f' f1 hf h
    rw [List.foldlM_cons] at h
    obtain ⟨f2, h1, h2⟩ := bind_ok.1 h
    obtain ⟨f2', k1, k2⟩ := removeStep_relabel hf h1
    obtain ⟨f1', k3, k4⟩ := ih k2 h2
    refine ⟨f1', ?_, k4⟩
    dsimp only
    rw [List.map_cons, List.foldlM_cons]
    exact bind_ok.2 ⟨f2', k1, k3⟩

theorem iter_relabel (n : NsFeats F) : (n.relabel σ u).iter = n.iter.map fun iv => (σ iv.1, u iv.1 iv.2) := by
  unfold NsFeats.iter NsFeats.relabel
  dsimp only
  generalize n.idx.data = a
  generalize n.vals.data = b
  induction a generalizing b with
  | nil => rfl
  | cons x a ih =>
    cases b with
    | nil => rfl
    | cons y b => simp only [List.map_cons, List.zipWith_cons_cons, List.zip_cons_cons, ih]

theorem allFeatures_relabel (f : SparseFeatures F) : (f.relabel σ u).allFeatures = f.allFeatures.map fun iv => (σ iv.1, u iv.1 iv.2) := by
  unfold allFeatures relabel
  rw [List.flatMap_map, List.map_flatMap]
  exact List.flatMap_congr fun e _ => iter_relabel e.2

theorem in_allFeatures {f : SparseFeatures F} (h : f.In U) {iv : U32 × F} (hm : iv ∈ f.allFeatures) : U iv.1 := by
  obtain ⟨e, he, hm⟩ := List.mem_flatMap.1 hm
  exact (h e he).2 _ (List.of_mem_zip (a := iv.1) (b := iv.2) hm).1

/-- The lift for relabelled examples, given the two facts about regressors. -/
theorem lift_relabel {RC : Coin F → Coin F → Prop}
    (hp : ∀ {c c' : Coin F} {f : SparseFeatures F}, RC c c' → f.In U → Fwd Eq (c.predict false f) (c'.predict false (f.relabel σ u)))
    (hl : ∀ {c c' : Coin F} {f : SparseFeatures F} {l w : F}, RC c c' → f.In U → Fwd RC (c.learn false f l w) (c'.learn false (f.relabel σ u) l w)) :
    Lift RC (Relabelled σ u U) where
  predict := by rintro c c' f _ hc ⟨rfl, hi⟩; exact hp hc hi
  learn := by rintro c c' f _ l w hc ⟨rfl, hi⟩; exact hl hc hi
  add := by
    rintro a a' s _ a1 ha ⟨rfl, hs⟩ h
    obtain ⟨a1', h1, h2⟩ := append_relabel hs ha h
    exact ⟨a1', h1, h2, fun a3 h3 => remove_relabel s h2 h3⟩

theorem relFt_relabel {ft : Features F} (h : ∀ f ∈ ft.objects, f.In U) : RelFt (Relabelled σ u U) ft (ft.relabel σ u) := by
  cases ft with
  | simple f => exact ⟨rfl, h f (List.mem_singleton.2 rfl)⟩
  | cbAdf f =>
    obtain ⟨sh, as⟩ := f
    simp only [Features.objects, List.mem_append, Option.mem_toList] at h
    refine ⟨?_, ?_⟩
    · cases sh with
      | none => exact .none
      | some s => exact .some ⟨rfl, h s (.inl rfl)⟩
    · refine List.forall₂_map_right_iff.2 (List.forall₂_same.2 fun a ha => ⟨rfl, h a (.inr ha)⟩)

theorem relabel_of_relFt {ft ft' : Features F} (h : RelFt (Relabelled σ u U) ft ft') : ft' = ft.relabel σ u := by
  cases ft <;> cases ft'
  · rw [h.1]; rfl
  · exact h.elim
  · exact h.elim
  · rename_i f f'
    obtain ⟨sh, as⟩ := f
    obtain ⟨sh', as'⟩ := f'
    obtain ⟨h1, h2⟩ := h
    unfold Features.relabel
    congr 2
    · cases h1 with
      | none => rfl
      | some h => rw [h.1]; rfl
    · dsimp only at h2
      clear h1
      induction h2 with
      | nil => rfl
      | cons h _ ih => rw [List.map_cons, ← ih, h.1]

/-- A session on relabelled examples. -/
theorem run_relabel {RC : Coin F → Coin F → Prop} (L : Lift RC (Relabelled σ u U)) {w w' : Workspace F} (hn : w.red.NoElementwise) (hw : SimWs RC w w')
    {ex : Nat → Features F} (hex : ∀ k, ∀ f ∈ (ex k).objects, f.In U) {calls : List (Call F)} {S1 : Session F} {outs}
    (h : (⟨w, ex⟩ : Session F).run false calls = .ok (S1, outs)) :
    ∃ w1', (⟨w', fun k => (ex k).relabel σ u⟩ : Session F).run false calls = .ok (⟨w1', fun k => (S1.ex k).relabel σ u⟩, outs) := by
  obtain ⟨⟨⟨w1', ex1'⟩, outs'⟩, h1, ⟨_, h2⟩, h3⟩ := run_lift L calls hn (S' := ⟨w', fun k => (ex k).relabel σ u⟩)
    ⟨hw, fun k => relFt_relabel (hex k)⟩ _ h
  simp only at h2 h3
  subst h3
  refine ⟨w1', ?_⟩
  rw [h1]
  congr 3
  funext k
  exact relabel_of_relFt (h2 k)

end Rml
