import Verif.Lemmas.ParsedFit
import Verif.Props.Recycle

/-!
C80: what the parsers make fits the model that the parser was made for: the types, the size of the indices, and, for VW text, the labelled action.
-/

set_option linter.unusedSectionVars false

namespace Rml
open Text SparseFeatures
variable {F : Type} [Flt F] {N : Type}

theorem Fitting.parts {nb : Nat} {ft : FeaturesType} {lt : LabelType} {x : Features F × Option (Label F)} (h : Fitting nb ft lt x) :
    x.1.ty = ft ∧ (∀ l, x.2 = some l → l.ty = lt) ∧ ∀ f ∈ x.1.objects, ∀ iv ∈ f.allFeatures, iv.1.toNat < 2 ^ nb :=
  ⟨h.type, h.label, fun f hf => (h.fit f hf).fits⟩

/-- C80, VW text. The parser of a model has bandit features exactly if it has bandit labels (C22 has the types of models). Then every parsed example
has the features and labels of the model, every index is smaller than `2 ^ num_bits`, and a labelled action is an action of the example. -/
theorem C80_vw (pr : Vw.Parser F) (ht : pr.featuresType = .sparseCBAdf ↔ pr.labelType = .cb) (pool : Pool (SparseFeatures F)) (hpool : PoolReach pool)
    (chunk : Str) (r : (Features F × Option (Label F)) × Pool (SparseFeatures F)) (h : Vw.parseChunk pr pool chunk = .ok r) :
    r.1.1.ty = pr.featuresType ∧ (∀ l, r.1.2 = some l → l.ty = pr.labelType) ∧
    (∀ f ∈ r.1.1.objects, ∀ iv ∈ f.allFeatures, iv.1.toNat < 2 ^ pr.numBits) ∧
    ∀ f cl, r.1.1 = .cbAdf f → r.1.2 = some (.cb cl) → cl.action < f.actions.length := by
  obtain ⟨h1, h2⟩ := Vw.parseChunk_fit pr ht (PoolOk.fit (pool_objects hpool) _) chunk r h
  exact ⟨h1.parts.1, h1.parts.2.1, h1.parts.2.2, h2⟩

/-- C80, JSON. -/
theorem C80_json (pr : Js.Parser F N) (pool : Pool (SparseFeatures F)) (hpool : PoolReach pool) (chunk : Str)
    (r : (Features F × Option (Label F)) × Pool (SparseFeatures F)) (h : Js.parseChunk pr pool chunk = .ok r) :
    r.1.1.ty = pr.featuresType ∧ (∀ l, r.1.2 = some l → l.ty = pr.labelType) ∧
    ∀ f ∈ r.1.1.objects, ∀ iv ∈ f.allFeatures, iv.1.toNat < 2 ^ pr.numBits :=
  (Js.parseChunk_fit pr (PoolOk.fit (pool_objects hpool) _) chunk r h).1.parts

/-- C80, DsJson: bandit examples with shared features. -/
theorem C80_dsjson (pr : Js.Parser F N) (pool : Pool (SparseFeatures F)) (hpool : PoolReach pool) (chunk : Str)
    (r : (Features F × Option (Label F)) × Pool (SparseFeatures F)) (h : Ds.parseChunk pr pool chunk = .ok r) :
    (∃ f, r.1.1 = .cbAdf f ∧ f.shared.isSome = true) ∧ (∀ l, r.1.2 = some l → l.ty = .cb) ∧
    ∀ f ∈ r.1.1.objects, ∀ iv ∈ f.allFeatures, iv.1.toNat < 2 ^ pr.numBits := by
  obtain ⟨h1, h2⟩ := Ds.parseChunk_fit pr (PoolOk.fit (pool_objects hpool) _) chunk r h
  exact ⟨h2, h1.parts.2⟩

/-! ### What does not fit -/

/-- A model for binary labels cannot be trained from a file: no VW text and no JSON can be parsed for it. -/
theorem C80_binary_false (pool : Pool (SparseFeatures F)) (chunk : Str) (r : (Features F × Option (Label F)) × Pool (SparseFeatures F)) :
    (∀ pr : Vw.Parser F, pr.featuresType = .sparseSimple → pr.labelType = .binary → Vw.parseChunk pr pool chunk ≠ .ok r) ∧
    ∀ pr : Js.Parser F N, pr.labelType = .binary → Js.parseChunk pr pool chunk ≠ .ok r := by
  constructor
  · intro pr hf hl h
    have key : OkE (fun _ => pr.labelType = .simple) (Vw.parseChunk pr pool chunk) := by
      unfold Vw.parseChunk
      rw [if_neg (by simp [Vw.Parser.isMultiline, hf])]
      exact (Vw.line_simple pr (by rw [hl]; simp) _ _).bind fun a ha => (OkE.triv _).bind fun _ _ => OkE.ok ha
    have := key r h
    rw [hl] at this
    cases this
  · intro pr hl h
    unfold Js.parseChunk at h
    obtain ⟨j, _, h⟩ := bind_ok.1 h
    obtain ⟨⟨f, p⟩, _, h⟩ := bind_ok.1 h
    obtain ⟨l, h1, _⟩ := bind_ok.1 h
    exact (Js.parseLabel_ty pr j l h1).1 hl

/-- The labelled action of a JSON example need not be an action of the example. -/
theorem C80_json_action_false : ∃ (pr : Js.Parser F Nat) (chunk : Str) (f : CBAdfFeatures F) (cl : CBLabel F) (pool : Pool (SparseFeatures F)),
    Js.parseChunk pr ⟨[]⟩ chunk = .ok ((.cbAdf f, some (.cb cl)), pool) ∧ f.actions = [] ∧ cl.action = 7 := by
  refine ⟨⟨.sparseCBAdf, .cb, 0#32, 4, fun s k => BitVec.ofNat 32 s.length + k, fun _ => some (.obj [("actions".toList, .arr []),
    ("label".toList, .obj [("action".toList, .num 7), ("cost".toList, .num 1), ("probability".toList, .num 1)])]), fun _ => Flt.zero, fun n => some n,
    fun _ => Flt.zero, true⟩, [], _, _, _, rfl, rfl, rfl⟩

/-- Nor need that of a DsJson example. -/
theorem C80_dsjson_action_false : ∃ (pr : Js.Parser F Nat) (chunk : Str) (f : CBAdfFeatures F) (cl : CBLabel F) (pool : Pool (SparseFeatures F)),
    Ds.parseChunk pr ⟨[]⟩ chunk = .ok ((.cbAdf f, some (.cb cl)), pool) ∧ f.actions = [] ∧ cl.action = 7 := by
  refine ⟨⟨.sparseCBAdf, .cb, 0#32, 4, fun s k => BitVec.ofNat 32 s.length + k, fun _ => some (.obj [("c".toList, .obj [("_multi".toList, .arr [])]),
    ("_labelIndex".toList, .num 7), ("_label_cost".toList, .num 1), ("_label_probability".toList, .num 1)]), fun _ => Flt.zero, fun n => some n,
    fun _ => Flt.zero, true⟩, [], _, _, _, rfl, rfl, rfl⟩

/-! ### Concrete cases -/

attribute [local instance] intFlt

def tinyBandit : Vw.Parser Int := ⟨.sparseCBAdf, .cb, 0#32, 4, fun s k => BitVec.ofNat 32 s.length + k, fun s => some s.length, true⟩

/-- C80: a bandit example with three actions, the third of which is labelled. -/
example : (tinyBandit.featuresType = .sparseCBAdf ↔ tinyBandit.labelType = .cb) ∧ ∃ r f cl,
    Vw.parseChunk tinyBandit ⟨[]⟩ "shared |a x\n|b y z\n|b w\n0:1:1 |b v".toList = .ok r ∧ r.1 = (.cbAdf f, some (.cb cl)) ∧ f.actions.length = 3 ∧
    cl.action = 2 ∧ (f.actions.flatMap (·.allFeatures)).length = 4 := by
  refine ⟨by decide, _, _, _, rfl, rfl, by decide +kernel, by decide +kernel, by decide +kernel⟩

end Rml
