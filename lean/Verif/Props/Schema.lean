import Verif.Lemmas.Schema
import Verif.Props.Config

/-!
C83: the published JSON schema for configurations describes what is accepted. `gen-schema` prints the published schema. A configuration that is accepted
is valid according to the schema, if its reductions have only the keys `typename` and `config`; a valid configuration can be read, if it has what the
schema cannot or does not require.
-/

set_option linter.unusedSectionVars false

namespace Rml
namespace JsonSchema
open Cfg
variable {F : Type} [Flt F]

/-- C83. The schema that `gen-schema` builds is the published one. -/
theorem C83_published : build = published := rfl

/-- C83. A configuration that makes a workspace is valid. Missing from the full statement: reductions with other keys than `typename` and `config`, or with
`null` as `config`, see `C83_other_key_false` and `C83_null_false`. -/
theorem C83_accepted_partial (whole : F → Prop) (hash : HashFn) (j : Doc F) (m : Serde.Model F) (h : newWorkspace hash j = .ok m)
    (ht : ∀ v, Has j "entryReduction" v → Tidy v) : Valid whole published j := by
  obtain ⟨c, h1, -⟩ := (C63_workspace hash j m).1 h
  obtain ⟨g, hg, h2⟩ := h1.global
  obtain ⟨e, he, h3⟩ := h1.entry
  exact valid_iff.2 (sat_root.2 ⟨onlyKeys_perm h1.keys (by simp), ⟨e, he, means_sat h3 (ht e he)⟩, g, hg, global_sat h2⟩)

/-- C83. A valid configuration can be read: it stands for global settings and a stack. Whether the stack is well typed and the interactions are pairs or
triples (C28, C29, C15) is beyond the schema. Missing from the full statement: what `Complete` and `CompleteRest` ask for, see the theorems below. -/
theorem C83_valid_partial (whole : F → Prop) (j : Doc F) (h : Valid whole published j) (hu : UniqueKeys j)
    (hc : ∀ v, Has j "entryReduction" v → Complete v) (hr : CompleteRest j) :
    ∃ cfg c, readConfiguration j = .ok cfg ∧ readEntry cfg.entry = .ok c ∧ ConfigMeans j cfg.global c := by
  obtain ⟨h1, ⟨e, he, h2⟩, g, hg, h3⟩ := sat_root.1 (valid_iff.1 h)
  obtain ⟨c, hm⟩ := sat_means (hc e he) h2 (unique_has hu he)
  obtain ⟨gc, hgm⟩ := global_of h3 (unique_has hu hg) (fun v => hr.numBits g v hg) (fun v => hr.hashSeed g v hg)
  have hcm : ConfigMeans j gc c := by
    refine ⟨onlyKeys_perm h1 (by simp), ?_, ⟨g, hg, hgm⟩, e, he, hm⟩
    obtain ⟨l, rfl, -⟩ := h1
    cases hl : l.lookup "$schema".toList with
    | none => exact .inl ⟨l, rfl, hl⟩
    | some v =>
      rcases hr.schema v ⟨l, rfl, hl⟩ with rfl | ⟨s, rfl⟩
      · exact .inr (.inl ⟨l, rfl, hl⟩)
      · exact .inr (.inr ⟨s, l, rfl, hl⟩)
  obtain ⟨cfg, h4, h5, h6⟩ := (C63_read j gc c).2 hcm
  exact ⟨cfg, c, h4, h6, by rw [h5]; exact hcm⟩

theorem tidy_redObj {t : String} {d : Doc F} (hd : d ≠ .null) (h : ∀ k v, k ∈ ["regressor", "cbAdf", "next"] → Has d k v → Tidy v) :
    Tidy (redObj t d) := by
  refine .mk ⟨_, rfl, by simp⟩ ?_ ?_
  · rintro ⟨l, e, hl⟩
    cases e
    exact hd (Option.some.inj hl)
  · rintro s k v ⟨l, e, hl⟩ hk hv
    cases e
    cases (Option.some.inj hl)
    exact h k v hk hv

theorem tidy_dfltCoin : Tidy (redObj "Coin" dfltCoin : Doc F) := by
  refine tidy_redObj (by simp [dfltCoin, Serde.encCoinConfig]) fun k v hk hv => ?_
  obtain ⟨l, e, h⟩ := hv
  cases e
  simp only [List.mem_cons, List.not_mem_nil, or_false] at hk
  rcases hk with rfl | rfl | rfl <;> exact nomatch (h : none = some v)

theorem tidy_dfltCbAdf : Tidy (redObj "CbAdf" dfltCbAdf : Doc F) := by
  refine tidy_redObj (by simp [dfltCbAdf]) fun k v hk hv => ?_
  obtain ⟨l, e, h⟩ := hv
  cases e
  simp only [List.mem_cons, List.not_mem_nil, or_false] at hk
  rcases hk with rfl | rfl | rfl
  · cases (Option.some.inj h)
    exact tidy_dfltCoin
  · exact nomatch (h : none = some v)
  · exact nomatch (h : none = some v)

/-- A reduction whose settings are an object with just this one reduction in it. -/
theorem tidy_one {t : String} {l : List (List Char × Doc F)} {c : Doc F}
    (h : (["regressor", "cbAdf", "next"].filterMap fun k => l.lookup k.toList) = [c]) (hc : Tidy c) : Tidy (redObj t (.obj l)) := by
  refine tidy_redObj (by simp) fun k v hk hv => ?_
  obtain ⟨l', e, hl⟩ := hv
  cases e
  have : v ∈ ["regressor", "cbAdf", "next"].filterMap fun k => l.lookup k.toList := List.mem_filterMap.2 ⟨k, hk, hl⟩
  rw [h, List.mem_singleton] at this
  rw [this]; exact hc

/-- C83. What `config new` emits for any reduction except Debug is valid. -/
theorem C83_new_partial (whole : F → Prop) (schema : List Char) (t : String) (ht : t ≠ "Debug") (j : Doc F) (h : configNew schema t = some j) :
    Valid whole published j := by
  obtain ⟨c, w, -, -, h1, -⟩ := C65_new_is_accepted_partial (fun _ _ => 0) schema t ht j h
  refine C83_accepted_partial whole _ j _ h1 fun v hv => ?_
  unfold configNew at h
  simp only [Option.bind_eq_bind, Option.bind_eq_some_iff, Option.some.injEq] at h
  obtain ⟨d, hd, rfl⟩ := h
  obtain ⟨l, e, hl⟩ := hv
  cases e
  have hv : v = redObj t d := (Option.some.inj hl).symm
  subst hv
  rcases dflt_cases hd with ⟨rfl, rfl⟩ | ⟨rfl, rfl⟩ | ⟨rfl, rfl⟩ | ⟨rfl, rfl⟩ | ⟨rfl, rfl⟩ | ⟨rfl, rfl⟩ | ⟨rfl, rfl⟩ | ⟨rfl, rfl⟩
  · exact tidy_dfltCoin
  · exact tidy_one rfl tidy_dfltCoin
  · exact tidy_dfltCbAdf
  · exact tidy_one rfl tidy_dfltCbAdf
  · exact absurd rfl ht
  · exact tidy_one rfl tidy_dfltCbAdf
  · exact tidy_one rfl tidy_dfltCbAdf
  · exact tidy_one rfl tidy_dfltCoin

/-! ### Accepted, but not valid -/

/-- A configuration with this entry reduction. -/
def entry (e : Doc F) : Doc F := .obj [("entryReduction".toList, e), ("globalConfig".toList, .obj [])]

theorem valid_entry {whole : F → Prop} {e : Doc F} : Valid whole published (entry e) ↔ Sat whole any e := by
  rw [valid_iff, sat_root]
  constructor
  · rintro ⟨-, ⟨v, ⟨l, h, hl⟩, hv⟩, -⟩
    cases h
    cases (Option.some.inj hl)
    exact hv
  · intro h
    refine ⟨⟨_, rfl, by simp⟩, ⟨e, ⟨_, rfl, rfl⟩, h⟩, .obj [], ⟨_, rfl, rfl⟩, sat_struct.2 ⟨⟨_, rfl, by simp⟩, ?_⟩⟩
    rintro p - v ⟨l, h, hl⟩
    cases h
    simp at hl

theorem shortest_coin (hash : HashFn) : ∃ m, newWorkspace hash (shortest "Coin" : Doc F) = .ok m := by
  obtain ⟨_, w, -, -, -, h⟩ := C65_new_is_accepted_partial (F := F) hash [] "Coin" (by decide) _ rfl
  exact ⟨_, h⟩

/-- The converse of `C83_valid_partial` fails: a reduction with a misspelled `config` is accepted (see C64), but not valid. -/
theorem C83_other_key_false (whole : F → Prop) (hash : HashFn) : ∃ j : Doc F, (∃ m, newWorkspace hash j = .ok m) ∧ ¬ Valid whole published j := by
  refine ⟨entry (.obj [("conf".toList, .obj []), ("typename".toList, .str "Coin".toList)]), shortest_coin hash, fun h => ?_⟩
  · rw [valid_entry, sat_reduction (t := "Coin") (by simp [names]) rfl ⟨_, rfl, rfl⟩] at h
    obtain ⟨⟨l, e, h⟩, -⟩ := h
    cases e
    have := h ("conf".toList, .obj []) (by simp)
    revert this
    simp

/-- Nor is a reduction whose `config` is `null`. -/
theorem C83_null_false (whole : F → Prop) (hash : HashFn) : ∃ j : Doc F, (∃ m, newWorkspace hash j = .ok m) ∧ ¬ Valid whole published j ∧
    ∀ v, Has j "entryReduction" v → OnlyKeys v ["typename", "config"] := by
  refine ⟨entry (.obj [("config".toList, .null), ("typename".toList, .str "Coin".toList)]), shortest_coin hash, fun h => ?_, ?_⟩
  · rw [valid_entry, sat_reduction (t := "Coin") (by simp [names]) rfl ⟨_, rfl, rfl⟩] at h
    obtain ⟨⟨l, e, -⟩, -⟩ := sat_struct.1 (h.2 .null ⟨_, rfl, rfl⟩)
    cases e
  · rintro v ⟨l, e, h⟩
    cases e
    cases (Option.some.inj h)
    exact ⟨_, rfl, by simp⟩

/-! ### Valid, but not accepted -/

/-- A reduction without `typename` can be valid, but is rejected. -/
theorem C83_typename_false (whole : F → Prop) (hash : HashFn) : ∃ j : Doc F, Valid whole published j ∧ newWorkspace hash j = .error .invalid := by
  refine ⟨entry (.obj [("config".toList, .obj [("alpha".toList, .num (.nat 1))])]), ?_, rfl⟩
  rw [valid_entry, any, sat_ref lookup_any]
  refine (sat_oneOf (a := { ref := some "Coin" }) (by simp [names]) ?_ ?_).2 ?_
  · exact List.Nodup.map (fun a b h => by simpa using congrArg Schema.ref h) (by decide)
  · intro b hb hne
    obtain ⟨t, ht, rfl⟩ := List.mem_map.1 hb
    refine ⟨4, fun m hm h => ?_⟩
    obtain ⟨m, rfl⟩ : ∃ k, m = k + 4 := ⟨m - 4, by omega⟩
    have key : ∃ ps, published.defs.lookup t = some (branch t (struct ps)) ∧ "alpha" ∉ ps.map (·.1) := by
      simp only [names, List.mem_cons, List.not_mem_nil, or_false] at ht
      rcases ht with rfl | rfl | rfl | rfl | rfl | rfl | rfl | rfl
      · exact ⟨_, rfl, by decide⟩
      · exact ⟨_, rfl, by decide⟩
      · exact ⟨_, rfl, by decide⟩
      · exact ⟨_, rfl, by decide⟩
      · exact ⟨_, rfl, by decide⟩
      · exact absurd rfl hne
      · exact ⟨_, rfl, by decide⟩
      · exact ⟨_, rfl, by decide⟩
    obtain ⟨ps, hs, hps⟩ := key
    rw [Accepts] at h
    obtain ⟨s', h1, h⟩ := h
    rw [hs] at h1
    cases h1
    rw [Accepts] at h
    have h2 := h.2.2.2.2.2.2.2.1 ("config", struct ps) (by simp [branch]) _ (has_obj _ _)
    rw [Accepts] at h2
    obtain ⟨p, hp, e⟩ := h2.2.2.2.2.2.2.2.2.1 rfl _ rfl ("alpha".toList, .num (.nat 1)) (by simp)
    exact hps (List.mem_map.2 ⟨p, hp, (String.toList_inj.1 e).symm⟩)
  · refine (sat_ref (s := branch "Coin" _) rfl).2 (sat_props.2 ⟨⟨_, rfl, by simp⟩, ?_⟩)
    simp only [List.forall_mem_cons, List.not_mem_nil, false_imp_iff, implies_true, and_true]
    refine ⟨?_, ?_⟩
    · rintro v ⟨l, e, h⟩
      cases e
      cases (Option.some.inj h)
      refine sat_struct.2 ⟨⟨_, rfl, by simp⟩, ?_⟩
      simp only [List.forall_mem_cons, List.not_mem_nil, false_imp_iff, implies_true, and_true]
      refine ⟨?_, ?_, ?_, ?_, ?_, ?_⟩
      · rintro v ⟨l, e, h⟩
        cases e
        cases (Option.some.inj h)
        exact sat_num _ _ (.nat 1)
      all_goals
        intro v hv
        exact absurd hv (not_has_obj (by decide))
    · intro v hv
      exact absurd hv (not_has_obj (by decide))

/-- So is Debug without `next`: it is valid, but rejected. -/
theorem C83_debug_false (whole : F → Prop) (hash : HashFn) : ∃ j : Doc F, Valid whole published j ∧ newWorkspace hash j = .error .unknownType ∧
    j = shortest "Debug" := by
  refine ⟨entry (.obj [("typename".toList, .str "Debug".toList)]), ?_, rfl, rfl⟩
  rw [valid_entry, sat_reduction (t := "Debug") (by simp [names]) rfl ⟨_, rfl, rfl⟩]
  refine ⟨⟨_, rfl, by simp⟩, ?_⟩
  rintro v ⟨l, e, h⟩
  cases e
  exact nomatch (h : none = some v)

/-- Too many bits are valid, but rejected. -/
theorem C83_range_false (whole : F → Prop) (hash : HashFn) : ∃ j : Doc F, Valid whole published j ∧ newWorkspace hash j = .error .invalid ∧
    ∃ g, Has j "globalConfig" g ∧ Has g "numBits" (.num (.nat 256)) := by
  refine ⟨.obj [("entryReduction".toList, .obj [("typename".toList, .str "Coin".toList)]),
    ("globalConfig".toList, .obj [("numBits".toList, .num (.nat 256))])], ?_, rfl, _, ⟨_, rfl, rfl⟩, ⟨_, rfl, rfl⟩⟩
  refine valid_iff.2 (sat_root.2 ⟨⟨_, rfl, by simp⟩, ⟨_, ⟨_, rfl, rfl⟩, ?_⟩, _, ⟨_, rfl, rfl⟩, ?_⟩)
  · rw [sat_reduction (t := "Coin") (by simp [names]) rfl ⟨_, rfl, rfl⟩]
    exact ⟨⟨_, rfl, by simp⟩, fun v hv => absurd hv (not_has_obj (by decide))⟩
  · refine sat_struct.2 ⟨⟨_, rfl, by simp⟩, ?_⟩
    simp only [List.forall_mem_cons, List.not_mem_nil, false_imp_iff, implies_true, and_true]
    refine ⟨fun v hv => absurd hv (not_has_obj (by decide)), fun v hv => absurd hv (not_has_obj (by decide)),
      fun v hv => absurd hv (not_has_obj (by decide)), ?_⟩
    rintro v ⟨l, e, h⟩
    cases e
    cases (Option.some.inj h)
    exact sat_uint

/-- So is a `$schema` that is not a string. -/
theorem C83_schema_false (whole : F → Prop) (hash : HashFn) : ∃ j : Doc F, Valid whole published j ∧ newWorkspace hash j = .error .invalid ∧
    Has j "$schema" (.bool true) := by
  refine ⟨.obj [("$schema".toList, .bool true), ("entryReduction".toList, .obj [("typename".toList, .str "Coin".toList)]),
    ("globalConfig".toList, .obj [])], ?_, rfl, ⟨_, rfl, rfl⟩⟩
  refine valid_iff.2 (sat_root.2 ⟨⟨_, rfl, by simp⟩, ⟨_, ⟨_, rfl, rfl⟩, ?_⟩, _, ⟨_, rfl, rfl⟩, ?_⟩)
  · rw [sat_reduction (t := "Coin") (by simp [names]) rfl ⟨_, rfl, rfl⟩]
    exact ⟨⟨_, rfl, by simp⟩, fun v hv => absurd hv (not_has_obj (by decide))⟩
  · refine sat_struct.2 ⟨⟨_, rfl, by simp⟩, ?_⟩
    rintro p - v ⟨l, h, hl⟩
    cases h
    simp at hl

/-- What `config new` emits for Debug is not valid: below Debug it has a reduction of type `Unknown`. -/
theorem C83_new_debug_false (whole : F → Prop) (schema : List Char) : ∃ j : Doc F, configNew schema "Debug" = some j ∧ ¬ Valid whole published j := by
  refine ⟨_, rfl, fun h => ?_⟩
  obtain ⟨-, ⟨e, ⟨l, e1, he⟩, h⟩, -⟩ := sat_root.1 (valid_iff.1 h)
  cases e1
  cases (Option.some.inj he)
  rw [sat_reduction (t := "Debug") (by simp [names]) rfl ⟨_, rfl, rfl⟩] at h
  have h1 := (sat_struct.1 (h.2 _ ⟨_, rfl, rfl⟩)).2 ("next", child) (by simp [child]) _ ⟨_, rfl, rfl⟩
  obtain ⟨t, ht, e⟩ := any_typename (sat_child.1 h1) ⟨_, rfl, rfl⟩
  injection e with e
  rw [← String.toList_inj.1 e] at ht
  revert ht
  decide

/-! ### Concrete cases -/

attribute [local instance] intFlt

/-- Softmax over CbAdf over Coin, with an interaction of two namespaces. -/
def exValid : Doc Int :=
  .obj [("$schema".toList, .str "schema.json".toList),
    ("entryReduction".toList, .obj [("config".toList, .obj [("cbAdf".toList, .obj [("config".toList, .obj [("cbType".toList, .str "ips".toList)]),
      ("typename".toList, .str "CbAdf".toList)]), ("lambda".toList, .num (.nat 3))]), ("typename".toList, .str "CbExploreAdfSoftmax".toList)]),
    ("globalConfig".toList, .obj [("interactions".toList, .arr [.arr [.str "Default".toList, .obj [("Name".toList, .str "b".toList)]]]),
      ("numBits".toList, .num (.nat 4))])]

example : (∃ m, newWorkspace (fun _ _ => 0) exValid = .ok m) ∧ ∀ v, Has exValid "entryReduction" v → Tidy v := by
  refine ⟨⟨_, rfl⟩, ?_⟩
  rintro v ⟨l, e, h⟩
  cases e
  cases (Option.some.inj h)
  refine tidy_one rfl (tidy_redObj (by simp) ?_)
  rintro k v hk ⟨l, e, h⟩
  cases e
  simp only [List.mem_cons, List.not_mem_nil, or_false] at hk
  rcases hk with rfl | rfl | rfl <;> exact nomatch (h : none = some v)

example (whole : Int → Prop) : Valid whole published exValid ∧ UniqueKeys exValid ∧ (∀ v, Has exValid "entryReduction" v → Complete v) ∧
    CompleteRest exValid := by
  have ht : ∀ v, Has exValid "entryReduction" v → Tidy v := by
    rintro v ⟨l, e, h⟩
    cases e
    cases (Option.some.inj h)
    refine tidy_one rfl (tidy_redObj (by simp) ?_)
    rintro k v hk ⟨l, e, h⟩
    cases e
    simp only [List.mem_cons, List.not_mem_nil, or_false] at hk
    rcases hk with rfl | rfl | rfl <;> exact nomatch (h : none = some v)
  refine ⟨C83_accepted_partial whole (fun _ _ => 0) _ _ rfl ht, ?_, ?_, ?_, ?_, ?_⟩
  · simp only [exValid, UniqueKeys, UniqueEntries, UniqueList, List.map_cons, List.map_nil, and_true, true_and]
    decide
  · rintro v ⟨l, e, h⟩
    cases e
    cases (Option.some.inj h)
    refine .mk ⟨_, _, rfl, rfl⟩ ?_ ?_ ?_
    · rintro ⟨l, e, h⟩
      cases e
      exact absurd (Option.some.inj h) (str_ne (by decide))
    · rintro s v ⟨l, e, h⟩ ⟨l', e', h'⟩
      cases e
      cases (Option.some.inj h)
      cases e'
      exact nomatch (h' : none = some v)
    · rintro s k v ⟨l, e, h⟩ hk ⟨l', e', h'⟩
      cases e
      cases (Option.some.inj h)
      cases e'
      simp only [List.mem_cons, List.not_mem_nil, or_false] at hk
      rcases hk with rfl | rfl | rfl
      · exact nomatch (h' : none = some v)
      · cases (Option.some.inj h')
        refine .mk ⟨_, _, rfl, rfl⟩ ?_ ?_ ?_
        · rintro ⟨l, e, h⟩
          cases e
          exact absurd (Option.some.inj h) (str_ne (by decide))
        · rintro s v ⟨l, e, h⟩ ⟨l', e', h'⟩
          cases e
          cases (Option.some.inj h)
          cases e'
          exact nomatch (h' : none = some v)
        · rintro s k v ⟨l, e, h⟩ hk ⟨l', e', h'⟩
          cases e
          cases (Option.some.inj h)
          cases e'
          simp only [List.mem_cons, List.not_mem_nil, or_false] at hk
          rcases hk with rfl | rfl | rfl <;> exact nomatch (h' : none = some v)
      · exact nomatch (h' : none = some v)
  · rintro v ⟨l, e, h⟩
    cases e
    cases (Option.some.inj h)
    exact .inr ⟨_, rfl⟩
  · rintro g v ⟨l, e, h⟩ ⟨l', e', h'⟩
    cases e
    cases (Option.some.inj h)
    cases e'
    cases (Option.some.inj h')
    exact ⟨4, rfl, by decide⟩
  · rintro g v ⟨l, e, h⟩ ⟨l', e', h'⟩
    cases e
    cases (Option.some.inj h)
    cases e'
    exact nomatch (h' : none = some v)

end JsonSchema
end Rml
