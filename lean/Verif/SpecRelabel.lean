import Verif.SpecSafe

/-! Specification vocabulary: the same example with other names or in other units (C84, C89 for whole stacks). -/

namespace Rml
variable {F : Type} [Flt F]

/-- Every feature `(i, v)` of the namespace becomes `(σ i, u i v)`. -/
def NsFeats.relabel (σ : U32 → U32) (u : U32 → F → F) (n : NsFeats F) : NsFeats F :=
  { n with idx := ⟨n.idx.data.map σ, n.idx.cap⟩, vals := ⟨List.zipWith u n.idx.data n.vals.data, n.vals.cap⟩ }

/-- Every feature of the object. -/
def SparseFeatures.relabel (σ : U32 → U32) (u : U32 → F → F) (f : SparseFeatures F) : SparseFeatures F :=
  ⟨f.entries.map fun e => (e.1, e.2.relabel σ u)⟩

/-- Every feature of the example: of the shared features and of every action. -/
def Features.relabel (σ : U32 → U32) (u : U32 → F → F) : Features F → Features F
  | .simple f => .simple (f.relabel σ u)
  | .cbAdf f => .cbAdf ⟨f.shared.map (SparseFeatures.relabel σ u), f.actions.map (SparseFeatures.relabel σ u)⟩

/-- Every namespace of the example has as many values as indices. -/
def Features.Paired (ft : Features F) : Prop := ∀ f ∈ ft.objects, ∀ e ∈ f.entries, e.2.idx.data.length = e.2.vals.data.length

/-- Some example has a feature with this index. -/
def Occurs (ex : Nat → Features F) (i : U32) : Prop := ∃ k, ∃ f ∈ (ex k).objects, ∃ e ∈ f.entries, i ∈ e.2.idx.data

/-- The features of the two namespaces are the same but for their order; those with the same index are in the same order. -/
structure NsFeats.Reordered (n n' : NsFeats F) : Prop where
  active : n'.active = n.active
  paired : n.idx.data.length = n.vals.data.length
  paired' : n'.idx.data.length = n'.vals.data.length
  length : n'.idx.data.length = n.idx.data.length
  values : ∀ i, ((n'.idx.data.zip n'.vals.data).filter fun iv => iv.1 = i).map (·.2) = ((n.idx.data.zip n.vals.data).filter fun iv => iv.1 = i).map (·.2)

/-- The same in every namespace; namespaces are in the order of the map, and none is there twice. -/
structure SparseFeatures.Reordered (f f' : SparseFeatures F) : Prop where
  keys : f.entries.Pairwise fun a b => a.1.rank < b.1.rank
  entries : List.Forall₂ (fun e e' => e'.1 = e.1 ∧ e.2.Reordered e'.2) f.entries f'.entries

/-- The same in the shared features and in every action. -/
inductive Features.Reordered : Features F → Features F → Prop
  | simple {f f' : SparseFeatures F} : f.Reordered f' → Features.Reordered (.simple f) (.simple f')
  | cbAdf {f f' : CBAdfFeatures F} : Option.Rel SparseFeatures.Reordered f.shared f'.shared →
      List.Forall₂ SparseFeatures.Reordered f.actions f'.actions → Features.Reordered (.cbAdf f) (.cbAdf f')

end Rml
