import Verif.SpecConfigNew
import Verif.Props.Config

/-! C65: what `config new` prints. -/

namespace Rml
namespace Cfg
variable {F : Type} [Flt F]

/-- C65. `config new` prints exactly the documents of the specification. -/
theorem C65_prints (schema : List Char) (t : String) (j : Doc F) :
    configNew schema t = some j ↔ ∃ s, (t, s) ∈ allSettings ∧ j = printed schema t s := by
  constructor
  · intro h
    unfold configNew at h
    simp only [Option.bind_eq_bind, Option.bind_eq_some_iff, Option.some.injEq] at h
    obtain ⟨d, hd, rfl⟩ := h
    rcases dflt_cases hd with ⟨rfl, rfl⟩ | ⟨rfl, rfl⟩ | ⟨rfl, rfl⟩ | ⟨rfl, rfl⟩ | ⟨rfl, rfl⟩ | ⟨rfl, rfl⟩ | ⟨rfl, rfl⟩ | ⟨rfl, rfl⟩
    · exact ⟨_, List.mem_of_getElem? (i := 0) rfl, rfl⟩
    · exact ⟨_, List.mem_of_getElem? (i := 1) rfl, rfl⟩
    · exact ⟨_, List.mem_of_getElem? (i := 2) rfl, rfl⟩
    · exact ⟨_, List.mem_of_getElem? (i := 3) rfl, rfl⟩
    · exact ⟨_, List.mem_of_getElem? (i := 6) rfl, rfl⟩
    · exact ⟨_, List.mem_of_getElem? (i := 5) rfl, rfl⟩
    · exact ⟨_, List.mem_of_getElem? (i := 4) rfl, rfl⟩
    · exact ⟨_, List.mem_of_getElem? (i := 7) rfl, rfl⟩
  · rintro ⟨s, h, rfl⟩
    simp only [allSettings, List.mem_cons, Prod.mk.injEq, List.not_mem_nil, or_false] at h
    rcases h with ⟨rfl, rfl⟩ | ⟨rfl, rfl⟩ | ⟨rfl, rfl⟩ | ⟨rfl, rfl⟩ | ⟨rfl, rfl⟩ | ⟨rfl, rfl⟩ | ⟨rfl, rfl⟩ | ⟨rfl, rfl⟩ <;> rfl

/-- C65. The printed configuration is full: it gives a value to every setting that the reduction has and to nothing else. -/
theorem C65_full (t : String) (ks : List String) (h : (t, ks) ∈ settingsOf) (schema : List Char) :
    ∃ (j e : Doc F) (l : List (List Char × Doc F)), configNew schema t = some j ∧ Has j "entryReduction" e ∧ Has e "typename" (.str t.toList) ∧
      Has e "config" (.obj l) ∧ ∀ k : String, k ∈ ks ↔ ∃ v, Has (.obj l) k v := by
  have key : ∀ (l : List (List Char × Doc F)) (k : String), (∃ v, Has (.obj l) k v) ↔ k.toList ∈ l.map (·.1) := by
    intro l k
    constructor
    · rintro ⟨v, l', e, h⟩
      cases e
      obtain ⟨a, b, e, _⟩ := List.lookup_eq_some_iff.1 h
      rw [e]; simp
    · intro h
      cases hv : l.lookup k.toList with
      | some v => exact ⟨v, l, rfl, hv⟩
      | none =>
        obtain ⟨e, he, h⟩ := List.mem_map.1 h
        have := List.lookup_eq_none_iff.1 hv e he
        simp [h] at this
  have fin : ∀ (ks ks' : List String) (l : List (List Char × Doc F)), l.map (·.1) = ks'.map String.toList → ks.Perm ks' →
      ∀ k : String, k ∈ ks ↔ ∃ v, Has (.obj l) k v := by
    intro ks ks' l hl hp k
    rw [key, hl, hp.mem_iff]
    constructor
    · exact fun hk => List.mem_map_of_mem hk
    · intro hk
      obtain ⟨x, hx, e⟩ := List.mem_map.1 hk
      exact String.toList_inj.1 e ▸ hx
  simp only [settingsOf, List.mem_cons, Prod.mk.injEq, List.not_mem_nil, or_false] at h
  rcases h with ⟨rfl, rfl⟩ | ⟨rfl, rfl⟩ | ⟨rfl, rfl⟩ | ⟨rfl, rfl⟩ | ⟨rfl, rfl⟩ | ⟨rfl, rfl⟩ | ⟨rfl, rfl⟩ | ⟨rfl, rfl⟩
  · exact ⟨_, _, _, rfl, ⟨_, rfl, rfl⟩, ⟨_, rfl, rfl⟩, ⟨_, rfl, rfl⟩, fin _ ["alpha", "beta", "l1Lambda", "l2Lambda", "linkFunction", "lossFunction"] _ rfl (by decide)⟩
  · exact ⟨_, _, _, rfl, ⟨_, rfl, rfl⟩, ⟨_, rfl, rfl⟩, ⟨_, rfl, rfl⟩, fin _ ["regressor"] _ rfl (by decide)⟩
  · exact ⟨_, _, _, rfl, ⟨_, rfl, rfl⟩, ⟨_, rfl, rfl⟩, ⟨_, rfl, rfl⟩, fin _ ["cbType", "regressor"] _ rfl (by decide)⟩
  · exact ⟨_, _, _, rfl, ⟨_, rfl, rfl⟩, ⟨_, rfl, rfl⟩, ⟨_, rfl, rfl⟩, fin _ ["cbAdf", "epsilon"] _ rfl (by decide)⟩
  · exact ⟨_, _, _, rfl, ⟨_, rfl, rfl⟩, ⟨_, rfl, rfl⟩, ⟨_, rfl, rfl⟩, fin _ ["cbAdf", "lambda", "uniformEpsilon"] _ rfl (by decide)⟩
  · exact ⟨_, _, _, rfl, ⟨_, rfl, rfl⟩, ⟨_, rfl, rfl⟩, ⟨_, rfl, rfl⟩, fin _ ["cbAdf", "gammaExponent", "gammaScale", "uniformEpsilon"] _ rfl (by decide)⟩
  · exact ⟨_, _, _, rfl, ⟨_, rfl, rfl⟩, ⟨_, rfl, rfl⟩, ⟨_, rfl, rfl⟩, fin _ ["features", "id", "indent", "label", "next", "prediction"] _ rfl (by decide)⟩
  · exact ⟨_, _, _, rfl, ⟨_, rfl, rfl⟩, ⟨_, rfl, rfl⟩, ⟨_, rfl, rfl⟩, fin _ ["keepOriginalFeatures", "one", "regressor", "two"] _ rfl (by decide)⟩

attribute [local instance] intFlt in
example : ∃ (j : Doc Int) (s : List (List Char × Doc Int)), configNew "s".toList "Debug" = some j ∧ j = printed "s".toList "Debug" s ∧ s.length = 6 ∧
    ("Debug", ["id", "prediction", "label", "features", "indent", "next"]) ∈ settingsOf :=
  ⟨_, _, rfl, rfl, rfl, by simp [settingsOf]⟩

end Cfg
end Rml
