import Verif.SpecPyConfig
import Verif.Props.Config

/-! C114: configurations with the published Python types. -/

namespace Rml
namespace Cfg
open Serde
variable {F : Type} [Flt F]

theorem has_or_lacks {j : Doc F} {ks : List String} (h : OnlyKeys j ks) (k : String) : Lacks j k ∨ ∃ v, Has j k v := by
  obtain ⟨l, rfl, _⟩ := h
  cases hk : l.lookup k.toList with
  | none => exact .inl ⟨l, rfl, hk⟩
  | some v => exact .inr ⟨v, l, rfl, hk⟩

theorem setting_of {α : Type} {j : Doc F} {ks : List String} (h : OnlyKeys j ks) (k : String) (d : α) {Den : Doc F → α → Prop}
    (ht : NotRequired j k (fun v => ∃ a, Den v a)) : ∃ a, Setting j k d Den a := by
  rcases has_or_lacks h k with hl | ⟨v, hv⟩
  · exact ⟨d, .inl ⟨hl, rfl⟩⟩
  · obtain ⟨a, ha⟩ := ht v hv
    exact ⟨a, .inr ⟨v, hv, ha⟩⟩

/-- C114 without interactions: the configuration is read, and if the entry reduction has a stack, it is that of the document. -/
theorem C114_accepted_partial (j : Doc F) (h : PyConfig j) (hi : NoInteractions j) : ∃ cfg, readConfiguration j = .ok cfg ∧
    ∀ c, readEntry cfg.entry = .ok c → ConfigMeans j cfg.global c := by
  obtain ⟨hk, ⟨g, hg, hG⟩, e, he, hE⟩ := h
  obtain ⟨nb, h1⟩ := setting_of hG.keys "numBits" 18 hG.numBits
  obtain ⟨seed, h2⟩ := setting_of hG.keys "hashSeed" 0 hG.hashSeed
  obtain ⟨co, h3⟩ := setting_of hG.keys "constantFeatureEnabled" true hG.constant
  have hs : seed < 2 ^ 32 := by
    rcases h2 with ⟨_, rfl⟩ | ⟨v, _, _, h⟩
    · decide
    · exact h
  have hm : GlobalMeans g ⟨nb, BitVec.ofNat 32 seed, co, []⟩ := by
    refine ⟨hG.keys, h1, ?_, h3, ?_⟩
    · rw [BitVec.toNat_ofNat, Nat.mod_eq_of_lt hs]; exact h2
    · rcases has_or_lacks hG.keys "interactions" with hl | ⟨v, hv⟩
      · exact .inl ⟨hl, rfl⟩
      · obtain ⟨l, rfl, _⟩ := hG.interactions v hv
        have := hi g l hg hv
        subst this
        exact .inr ⟨_, hv, [], rfl, .nil⟩
  obtain ⟨s, ht⟩ := hE.typename
  have hr : ∃ r, readRedDoc e = some r := by
    obtain ⟨l, rfl, hl⟩ := ht
    rcases has_or_lacks hE.keys "config" with hlk | ⟨v, hv⟩
    · have hlk := lacks_obj.1 hlk
      refine ⟨⟨s, none⟩, ?_⟩
      simp only [readRedDoc, field, fieldOr, Json.get?, hl, hlk]
      rfl
    · obtain ⟨m, rfl⟩ := hE.config v hv
      have hv := has_iff.1 hv
      refine ⟨⟨s, some (.obj m)⟩, ?_⟩
      simp only [readRedDoc, field, fieldOr, hv]
      simp only [Json.get?, hl]
      rfl
  obtain ⟨r, hr⟩ := hr
  have hk' : OnlyKeys j ["$schema", "globalConfig", "entryReduction"] := by
    obtain ⟨l, rfl, hl⟩ := hk
    refine ⟨l, rfl, fun x hx => ?_⟩
    obtain ⟨k, h, h'⟩ := hl x hx
    exact ⟨k, List.mem_cons_of_mem _ h, h'⟩
  have hsch : Lacks j "$schema" := by
    rcases has_or_lacks hk "$schema" with h | ⟨v, l, rfl, hv⟩
    · exact h
    · exfalso
      obtain ⟨l', hl', hl⟩ := hk
      cases hl'
      have hmem : ("$schema".toList, v) ∈ l := by
        clear hl hg he hk' hi
        induction l with
        | nil => simp at hv
        | cons x xs ih =>
          rw [List.lookup_cons] at hv
          split at hv
          · rename_i heq
            cases hv
            have := eq_of_beq heq
            rw [this]; exact List.mem_cons_self
          · exact List.mem_cons_of_mem _ (ih hv)
      obtain ⟨k, h, h'⟩ := hl _ hmem
      simp only [List.mem_cons, List.not_mem_nil, or_false] at h
      simp only at h'
      rcases h with rfl | rfl <;> exact absurd h' (by decide)
  have hread : readConfiguration j = .ok ⟨⟨nb, BitVec.ofNat 32 seed, co, []⟩, r⟩ := by
    have hd := denyUnknown_iff.2 hk'
    obtain ⟨l, rfl⟩ := onlyKeys_obj hk'
    unfold readConfiguration
    refine obind.2 ⟨_, hd, obind.2 ⟨_, schema_iff.2 (.inl hsch), obind.2 ⟨_, ?_, obind.2 ⟨r, ?_, rfl⟩⟩⟩⟩
    · simp only [field, Option.bind_eq_some_iff]; exact ⟨g, has_iff.1 hg, (readGlobal_iff _ _).2 hm⟩
    · simp only [field, Option.bind_eq_some_iff]; exact ⟨e, has_iff.1 he, hr⟩
  exact ⟨_, hread, fun c hc => (C63_read _ _ _).1 ⟨_, hread, rfl, hc⟩⟩

/-- C114 is false for every configuration with interactions: those of the published type are never accepted. -/
theorem C114_interactions_false (j : Doc F) (h : PyConfig j) (hi : ¬ NoInteractions j) (cfg : Configuration F) : readConfiguration j ≠ .ok cfg := by
  intro hr
  unfold readConfiguration at hr
  obtain ⟨_, _, hr⟩ := obind.1 hr
  obtain ⟨_, _, hr⟩ := obind.1 hr
  obtain ⟨g', h2, _⟩ := obind.1 hr
  simp only [field, Option.bind_eq_some_iff] at h2
  obtain ⟨v, hv, h2⟩ := h2
  have hm := (readGlobal_iff _ _).1 h2
  unfold NoInteractions at hi
  push Not at hi
  obtain ⟨g, l, hg, hl, hne⟩ := hi
  obtain ⟨_, ⟨g2, hg2, hG⟩, _⟩ := h
  have e1 := hg.unique (has_iff.2 hv)
  have e2 := hg.unique hg2
  subst e1 e2
  obtain ⟨l', e, hl'⟩ := hG.interactions _ hl
  cases e
  rcases hm.interactions with ⟨h, _⟩ | ⟨w, hw, m, rfl, hf⟩
  · exact h.not_has hl
  · have := hl.unique hw
    cases this
    generalize g'.interactions = is at hf
    cases hf with
    | nil => exact hne rfl
    | @cons i _ _ _ hi _ =>
      obtain ⟨x, rfl, _⟩ := hi
      cases hl' _ List.mem_cons_self

/-! ### Examples -/

section
attribute [local instance] intFlt

/-- A configuration with these global settings. -/
def pyDoc (g : List (List Char × Doc Int)) : Doc Int :=
  .obj [("globalConfig".toList, .obj g), ("entryReduction".toList, .obj [("typename".toList, .str "Coin".toList)])]

theorem pyDoc_typed {g : List (List Char × Doc Int)} (h : PyGlobal (.obj g)) : PyConfig (pyDoc g) := by
  refine ⟨⟨_, rfl, ?_⟩, ⟨_, ⟨_, rfl, rfl⟩, h⟩, ⟨_, ⟨_, rfl, rfl⟩, ⟨_, rfl, ?_⟩, ⟨_, _, rfl, rfl⟩, ?_⟩⟩
  · intro e he
    simp only [List.mem_cons, List.not_mem_nil, or_false] at he
    rcases he with rfl | rfl
    · exact ⟨_, List.mem_cons_self, rfl⟩
    · exact ⟨_, List.mem_cons_of_mem _ List.mem_cons_self, rfl⟩
  · intro e he
    simp only [List.mem_cons, List.not_mem_nil, or_false] at he
    subst he
    exact ⟨_, List.mem_cons_of_mem _ List.mem_cons_self, rfl⟩
  · rintro v ⟨l, hl, hv⟩
    cases hl
    cases hv

example : ∃ j : Doc Int, PyConfig j ∧ NoInteractions j ∧ ∃ cfg, readConfiguration j = .ok cfg ∧ cfg.global.numBits = 10 := by
  refine ⟨pyDoc [("numBits".toList, .num (.nat 10))], pyDoc_typed ⟨⟨_, rfl, ?_⟩, ?_, ?_, ?_, ?_⟩, ?_, _, rfl, rfl⟩
  · intro e he
    simp only [List.mem_cons, List.not_mem_nil, or_false] at he
    subst he
    exact ⟨_, List.mem_cons_self, rfl⟩
  · rintro v ⟨l, hl, hv⟩
    cases hl
    cases hv
    exact ⟨10, rfl, by decide⟩
  all_goals first
    | (rintro v ⟨l, hl, hv⟩; cases hl; cases hv)
    | skip
  rintro g l ⟨m, hm, hv⟩ ⟨k, hk, hw⟩
  cases hm
  cases hv
  cases hk
  cases hw

/-- The interaction of the default namespace and `a`, as the types suggest. -/
example : ∃ j : Doc Int, PyConfig j ∧ ¬ NoInteractions j := by
  refine ⟨pyDoc [("interactions".toList, .arr [.str "Default".toList, .obj [("name".toList, .str "a".toList)]])], pyDoc_typed ⟨⟨_, rfl, ?_⟩, ?_, ?_, ?_, ?_⟩, ?_⟩
  · intro e he
    simp only [List.mem_cons, List.not_mem_nil, or_false] at he
    subst he
    exact ⟨"interactions", by simp, rfl⟩
  · rintro v ⟨l, hl, hv⟩; cases hl; cases hv
  · rintro v ⟨l, hl, hv⟩; cases hl; cases hv
  · rintro v ⟨l, hl, hv⟩; cases hl; cases hv
  · rintro v ⟨l, hl, hv⟩
    cases hl
    cases hv
    refine ⟨_, rfl, fun i hi => ?_⟩
    simp only [List.mem_cons, List.not_mem_nil, or_false] at hi
    rcases hi with rfl | rfl
    · exact .default
    · exact .name _
  · intro h
    have := h _ _ ⟨_, rfl, rfl⟩ ⟨_, rfl, rfl⟩
    cases this

end

end Cfg
end Rml
