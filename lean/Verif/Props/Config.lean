import Verif.Lemmas.Config
import Verif.Props.Types

/-! C63 to C66: what a configuration document stands for, and `config new`. -/

set_option linter.unusedSectionVars false

namespace Rml
namespace Cfg
open Serde
variable {F : Type} [Flt F]

/-! ### C63 -/

theorem schema_iff {l : List (List Char × Doc F)} : fieldOr (.obj l) "$schema" () decSchema = some () ↔
    (Lacks (.obj l) "$schema" ∨ Has (.obj l) "$schema" .null ∨ ∃ s, Has (.obj l) "$schema" (.str s)) := by
  unfold fieldOr
  simp only [has_iff, lacks_obj]
  cases hk : (Json.obj l).get? "$schema" with
  | none =>
    have hk' : l.lookup "$schema".toList = none := hk
    rw [hk']
    simp only [true_or]
  | some v =>
    have hk' : l.lookup "$schema".toList = some v := hk
    rw [hk']
    cases v <;> simp only [decSchema, Option.some.injEq, reduceCtorEq, false_or, true_iff, exists_const, or_false, Json.str.injEq, exists_eq', or_true, exists_false, true_or]

/-- C63. A configuration is read as global settings `g` and stack `c` exactly when that is what the document stands for: every setting is
the value given for its key, or its default; a reduction below that is not given is the default one; nothing else is accepted. -/
theorem C63_read (j : Doc F) (g : GlobalConfig) (c : RedConfig F) :
    (∃ cfg, readConfiguration j = .ok cfg ∧ cfg.global = g ∧ readEntry cfg.entry = .ok c) ↔ ConfigMeans j g c := by
  constructor
  · rintro ⟨cfg, h, rfl, hc⟩
    unfold readConfiguration at h
    obtain ⟨_, h0, h⟩ := obind.1 h
    obtain ⟨_, h1, h⟩ := obind.1 h
    obtain ⟨g, h2, h⟩ := obind.1 h
    obtain ⟨e, h3, h⟩ := obind.1 h
    cases h
    have h0 := denyUnknown_iff.1 h0
    obtain ⟨l, rfl⟩ := onlyKeys_obj h0
    simp only [field, Option.bind_eq_some_iff] at h2 h3
    obtain ⟨v, hv, h2⟩ := h2
    obtain ⟨w, hw, h3⟩ := h3
    exact ⟨h0, schema_iff.1 h1, ⟨v, has_iff.2 hv, (readGlobal_iff _ _).1 h2⟩, ⟨w, has_iff.2 hw, readEntry_iff.1 ⟨e, h3, hc⟩⟩⟩
  · rintro ⟨h0, h1, ⟨v, hv, h2⟩, w, hw, h3⟩
    have hk := denyUnknown_iff.2 h0
    obtain ⟨l, rfl⟩ := onlyKeys_obj h0
    obtain ⟨e, he, hc⟩ := readEntry_iff.2 h3
    refine ⟨⟨g, e⟩, ?_, rfl, hc⟩
    unfold readConfiguration
    refine obind.2 ⟨_, hk, obind.2 ⟨_, schema_iff.2 h1, obind.2 ⟨g, ?_, obind.2 ⟨e, ?_, rfl⟩⟩⟩⟩
    · simp only [field, Option.bind_eq_some_iff]; exact ⟨v, has_iff.1 hv, (readGlobal_iff _ _).2 h2⟩
    · simp only [field, Option.bind_eq_some_iff]; exact ⟨w, has_iff.1 hw, he⟩

/-- C63. A workspace made from a document is the one made from the settings and the stack that the document stands for. -/
theorem C63_workspace (hash : HashFn) (j : Doc F) (m : Serde.Model F) :
    newWorkspace hash j = .ok m ↔ ∃ c, ConfigMeans j m.global c ∧ Workspace.new hash m.global c = .ok m.ws := by
  unfold newWorkspace
  constructor
  · intro h
    obtain ⟨cfg, h1, h⟩ := ebind.1 h
    obtain ⟨c, h2, h⟩ := ebind.1 h
    obtain ⟨w, h3, h⟩ := ebind.1 h
    cases h
    exact ⟨c, (C63_read _ _ _).1 ⟨cfg, h1, rfl, h2⟩, h3⟩
  · rintro ⟨c, h, hw⟩
    obtain ⟨cfg, h1, h2, h3⟩ := (C63_read _ _ _).2 h
    refine ebind.2 ⟨cfg, h1, ebind.2 ⟨c, h3, ebind.2 ⟨m.ws, ?_, ?_⟩⟩⟩
    · rw [h2]; exact hw
    · rw [h2]

/-- C63. A document stands for at most one configuration. -/
theorem C63_unambiguous {j : Doc F} {g g' : GlobalConfig} {c c' : RedConfig F} (h : ConfigMeans j g c) (h' : ConfigMeans j g' c') :
    g = g' ∧ c = c' := by
  obtain ⟨cfg, h1, h2, h3⟩ := (C63_read _ _ _).2 h
  obtain ⟨cfg', h1', h2', h3'⟩ := (C63_read _ _ _).2 h'
  rw [h1] at h1'
  cases h1'
  rw [h3] at h3'
  cases h3'
  exact ⟨h2.symm.trans h2', rfl⟩

/-! ### C64 -/

/-- The settings of every reduction. -/
def settingsOf : List (String × List String) :=
  [("Coin", ["alpha", "beta", "l1Lambda", "l2Lambda", "lossFunction", "linkFunction"]), ("Binary", ["regressor"]),
   ("CbAdf", ["cbType", "regressor"]), ("CbExploreAdfGreedy", ["epsilon", "cbAdf"]),
   ("CbExploreAdfSoftmax", ["uniformEpsilon", "lambda", "cbAdf"]),
   ("CbExploreAdfSquareCb", ["uniformEpsilon", "gammaScale", "gammaExponent", "cbAdf"]),
   ("Debug", ["id", "prediction", "label", "features", "indent", "next"]),
   ("ElementwiseInteraction", ["regressor", "one", "two", "keepOriginalFeatures"])]

/-- `d` is the document of the entry reduction or of a reduction below it: reached through the settings `regressor`, `cbAdf`, `next`. -/
inductive InStack : Doc F → Doc F → Prop
  | here (j : Doc F) : InStack j j
  | child {j s v d : Doc F} {t k : String} : Describes j t s → k ∈ ["regressor", "cbAdf", "next"] → Has s k v → InStack v d → InStack j d

theorem describes_unique {j s s' : Doc F} {t t' : String} (h : Describes j t s) (h' : Describes j t' s') : t = t' ∧ s = s' := by
  obtain ⟨h1, h2⟩ := h
  obtain ⟨h1', h2'⟩ := h'
  refine ⟨?_, ?_⟩
  · have := h1.unique h1'
    simp only [Json.str.injEq] at this
    exact String.toList_inj.1 this
  · rcases h2 with ⟨h2, h3⟩ | ⟨h2, rfl⟩ <;> rcases h2' with ⟨h2', h3'⟩ | ⟨h2', rfl⟩
    · exact h2.unique h2'
    · rcases h2' with h2' | h2'
      · exact (h2'.not_has h2).elim
      · exact absurd (h2.unique h2') h3
    · rcases h2 with h2 | h2
      · exact (h2.not_has h2').elim
      · exact absurd (h2'.unique h2) h3'
    · rfl

theorem onlyKeys_has {s v : Doc F} {ks : List String} {k : String} (h : OnlyKeys s ks) (hv : Has s k v) : k ∈ ks := by
  obtain ⟨l, rfl, h⟩ := h
  obtain ⟨l', e, hv⟩ := hv
  cases e
  obtain ⟨l₁, l₂, e, _⟩ := List.lookup_eq_some_iff.1 hv
  obtain ⟨k', hk, e'⟩ := h (k.toList, v) (by rw [e]; simp)
  rwa [String.toList_inj.1 e']

/-- What a meaningful document looks like: the type is known, the settings are among those of the type, and whatever is below means something. -/
theorem means_inv {j s : Doc F} {c : RedConfig F} {t : String} (h : Means j c) (hD : Describes j t s) :
    (∃ ks, (t, ks) ∈ settingsOf ∧ OnlyKeys s ks) ∧ ∀ k ∈ ["regressor", "cbAdf", "next"], ∀ v, Has s k v → ∃ c', Means v c' := by
  have mem : ∀ {a : String × List String}, a ∈ settingsOf ↔ settingsOf.contains a = true := by
    intro a; rw [List.contains_iff_mem]
  have nok : ∀ {ks : List String} {P : Prop} {k : String} {v : Doc F}, OnlyKeys s ks → k ∉ ks → Has s k v → P := by
    intro ks P k v h0 hk hv; exact absurd (onlyKeys_has h0 hv) hk
  have bel : ∀ {k d : String} {v w : Doc F} {c : RedConfig F}, Below s k d v → Means v c → Has s k w → ∃ c', Means w c' := by
    intro k d v w c hb hm hw
    rcases hb with hb | ⟨hb, _⟩
    · rw [hw.unique hb]; exact ⟨_, hm⟩
    · exact (hb.not_has hw).elim
  cases h with
  | coin h1 h2 =>
    obtain ⟨rfl, rfl⟩ := describes_unique hD h1
    refine ⟨⟨_, mem.2 (by decide), h2.keys⟩, fun k hk v hv => ?_⟩
    simp only [List.mem_cons, List.not_mem_nil, or_false] at hk
    rcases hk with rfl | rfl | rfl <;> exact nok h2.keys (by decide) hv
  | binary h1 h0 hb hm =>
    obtain ⟨rfl, rfl⟩ := describes_unique hD h1
    refine ⟨⟨_, mem.2 (by decide), h0⟩, fun k hk v hv => ?_⟩
    simp only [List.mem_cons, List.not_mem_nil, or_false] at hk
    rcases hk with rfl | rfl | rfl
    · exact bel hb hm hv
    all_goals exact nok h0 (by decide) hv
  | cbAdf h1 h0 _ hb hm =>
    obtain ⟨rfl, rfl⟩ := describes_unique hD h1
    refine ⟨⟨_, mem.2 (by decide), h0⟩, fun k hk v hv => ?_⟩
    simp only [List.mem_cons, List.not_mem_nil, or_false] at hk
    rcases hk with rfl | rfl | rfl
    · exact bel hb hm hv
    all_goals exact nok h0 (by decide) hv
  | greedy h1 h0 _ hb hm =>
    obtain ⟨rfl, rfl⟩ := describes_unique hD h1
    refine ⟨⟨_, mem.2 (by decide), h0⟩, fun k hk v hv => ?_⟩
    simp only [List.mem_cons, List.not_mem_nil, or_false] at hk
    rcases hk with rfl | rfl | rfl
    · exact nok h0 (by decide) hv
    · exact bel hb hm hv
    · exact nok h0 (by decide) hv
  | softmax h1 h0 _ _ hb hm =>
    obtain ⟨rfl, rfl⟩ := describes_unique hD h1
    refine ⟨⟨_, mem.2 (by decide), h0⟩, fun k hk v hv => ?_⟩
    simp only [List.mem_cons, List.not_mem_nil, or_false] at hk
    rcases hk with rfl | rfl | rfl
    · exact nok h0 (by decide) hv
    · exact bel hb hm hv
    · exact nok h0 (by decide) hv
  | squareCb h1 h0 _ _ _ hb hm =>
    obtain ⟨rfl, rfl⟩ := describes_unique hD h1
    refine ⟨⟨_, mem.2 (by decide), h0⟩, fun k hk v hv => ?_⟩
    simp only [List.mem_cons, List.not_mem_nil, or_false] at hk
    rcases hk with rfl | rfl | rfl
    · exact nok h0 (by decide) hv
    · exact bel hb hm hv
    · exact nok h0 (by decide) hv
  | debug h1 h0 _ _ _ _ _ hb hm =>
    obtain ⟨rfl, rfl⟩ := describes_unique hD h1
    refine ⟨⟨_, mem.2 (by decide), h0⟩, fun k hk v hv => ?_⟩
    simp only [List.mem_cons, List.not_mem_nil, or_false] at hk
    rcases hk with rfl | rfl | rfl
    · exact nok h0 (by decide) hv
    · exact nok h0 (by decide) hv
    · rw [hv.unique hb]; exact ⟨_, hm⟩
  | elementwise h1 h0 _ _ _ hb hm =>
    obtain ⟨rfl, rfl⟩ := describes_unique hD h1
    refine ⟨⟨_, mem.2 (by decide), h0⟩, fun k hk v hv => ?_⟩
    simp only [List.mem_cons, List.not_mem_nil, or_false] at hk
    rcases hk with rfl | rfl | rfl
    · exact bel hb hm hv
    all_goals exact nok h0 (by decide) hv

theorem means_inStack {j d : Doc F} (h : InStack j d) : ∀ {c : RedConfig F}, Means j c → ∃ c', Means d c' := by
  induction h with
  | here => intro c h; exact ⟨c, h⟩
  | child hD hk hv _ ih =>
    intro c h
    obtain ⟨c', h'⟩ := (means_inv h hD).2 _ hk _ hv
    exact ih h'

/-- C64. A misspelled setting is never ignored: a document with an unknown key at the top, among the global settings, or among the settings
of a reduction at any depth is rejected with an error. Missing from the full statement: keys of a reduction other than `typename` and
`config`, see `C64_unknown_key_false`. -/
theorem C64_unknown_setting_partial (hash : HashFn) (j v : Doc F) (k : String)
    (h : (Has j k v ∧ k ∉ ["$schema", "globalConfig", "entryReduction"]) ∨
      (∃ g, Has j "globalConfig" g ∧ Has g k v ∧ k ∉ ["numBits", "hashSeed", "constantFeatureEnabled", "interactions"]) ∨
      ∃ e d t s ks, Has j "entryReduction" e ∧ InStack e d ∧ Describes d t s ∧ Has s k v ∧ (t, ks) ∈ settingsOf ∧ k ∉ ks) :
    ∀ m, newWorkspace hash j ≠ .ok m := by
  intro m hm
  obtain ⟨c, h1, _⟩ := (C63_workspace hash j m).1 hm
  rcases h with ⟨h2, h3⟩ | ⟨g, h2, h3, h4⟩ | ⟨e, d, t, s, ks, h2, h3, h4, h5, h6, h7⟩
  · exact h3 (onlyKeys_has h1.keys h2)
  · obtain ⟨v', hv, hg⟩ := h1.global
    rw [h2.unique hv] at h3
    exact h4 (onlyKeys_has hg.keys h3)
  · obtain ⟨e', he, hc⟩ := h1.entry
    rw [← h2.unique he] at hc
    obtain ⟨c', hc'⟩ := means_inStack h3 hc
    obtain ⟨⟨ks', hks, h0⟩, _⟩ := means_inv hc' h4
    have : ks = ks' := by
      have key : ∀ a ∈ settingsOf, ∀ b ∈ settingsOf, a.1 = b.1 → a.2 = b.2 := by decide
      exact key _ h6 _ hks rfl
    exact h7 (this ▸ onlyKeys_has h0 h5)

/-- C64 does not hold for the object around the settings: with a misspelled `config`, the settings are silently dropped, whatever they
are, and every reduction has its defaults. -/
theorem C64_unknown_key_false (t k : String) (s : Doc F) (h1 : k ≠ "typename") (h2 : k ≠ "config") (c : RedConfig F) :
    Means (.obj [(k.toList, s), ("typename".toList, .str t.toList)]) c ↔ Means (.obj [("typename".toList, .str t.toList)]) c := by
  have e : readRedDoc (.obj [(k.toList, s), ("typename".toList, .str t.toList)] : Doc F) =
      readRedDoc (.obj [("typename".toList, .str t.toList)]) := by
    have n1 : ("typename".toList == k.toList) = false := by
      rw [beq_eq_false_iff_ne]; intro h; exact h1 (String.toList_inj.1 h).symm
    have n2 : ("config".toList == k.toList) = false := by
      rw [beq_eq_false_iff_ne]; intro h; exact h2 (String.toList_inj.1 h).symm
    simp only [readRedDoc, field, fieldOr, Json.get?, List.lookup_cons, n1, n2]
  rw [← readEntry_iff, ← readEntry_iff, e]

/-! ### C65 -/

/-- The shortest configuration with this entry reduction. -/
def shortest (t : String) : Doc F :=
  .obj [("entryReduction".toList, .obj [("typename".toList, .str t.toList)]), ("globalConfig".toList, .obj [])]

theorem coin_new_dflt (hash : HashFn) : ∃ coin, Coin.new hash (CoinConfig.dflt : CoinConfig F) dfltGlobal 1 = .ok coin := by
  unfold Coin.new
  exact ⟨_, rfl⟩

theorem dflt_cases {t : String} {d : Doc F} (h : registry.lookup t = some d) :
    (t = "Coin" ∧ d = dfltCoin) ∨ (t = "Binary" ∧ d = dfltBinary) ∨ (t = "CbAdf" ∧ d = dfltCbAdf) ∨
      (t = "CbExploreAdfGreedy" ∧ d = dfltGreedy) ∨ (t = "Debug" ∧ d = dfltDebug) ∨ (t = "CbExploreAdfSquareCb" ∧ d = dfltSquareCb) ∨
      (t = "CbExploreAdfSoftmax" ∧ d = dfltSoftmax) ∨ (t = "ElementwiseInteraction" ∧ d = dfltElementwise) := by
  obtain ⟨l₁, l₂, e, _⟩ := List.lookup_eq_some_iff.1 h
  have : (t, d) ∈ (registry : List (String × Doc F)) := by rw [e]; simp
  simpa [registry] using this

/-- The default settings of the regressor: alpha 4, beta 1, no regularisation, squared loss, no link function. -/
def dfltRegressor : CoinConfig F := ⟨Flt.lit 4 1, Flt.lit 1 1, Flt.zero, Flt.zero, .squared, .identity⟩

/-- The stack that every registered reduction has by default. -/
def dfltStack : String → Option (RedConfig F)
  | "Coin" => some (.coin dfltRegressor)
  | "Binary" => some (.binary (.coin dfltRegressor))
  | "CbAdf" => some (.cbAdf .mtr (.coin dfltRegressor))
  | "CbExploreAdfGreedy" => some (.greedy (Flt.lit 5 100) (.cbAdf .mtr (.coin dfltRegressor)))
  | "CbExploreAdfSoftmax" => some (.softmax Flt.zero (Flt.lit 1 1) (.cbAdf .mtr (.coin dfltRegressor)))
  | "CbExploreAdfSquareCb" => some (.squareCb Flt.zero (Flt.lit 10 1) (Flt.lit 1 2) (.cbAdf .mtr (.coin dfltRegressor)))
  | "ElementwiseInteraction" => some (.elementwise .default .default false (.coin dfltRegressor))
  | _ => none

theorem new_of_read (hash : HashFn) {j : Doc F} {g : GlobalConfig} {c : RedConfig F} {w : Workspace F} (h : ConfigMeans j g c)
    (hw : Workspace.new hash g c = .ok w) : newWorkspace hash j = .ok ⟨g, w⟩ := (C63_workspace hash j ⟨g, w⟩).2 ⟨c, h, hw⟩

theorem dflt_works (hash : HashFn) {t : String} {d : Doc F} (h : registry.lookup t = some d) (ht : t ≠ "Debug") :
    ∃ c w, dfltStack t = some c ∧ Workspace.new hash dfltGlobal c = .ok w ∧
      (∀ n, parseRed (n + 3) (⟨t.toList, some d⟩ : RedDoc F) = .ok c) ∧ (∀ n, parseRed (n + 3) (⟨t.toList, none⟩ : RedDoc F) = .ok c) ∧ optDoc d = some (some d) := by
  have acc : ∀ c : RedConfig F, c.typeOf ≠ none → c.SquareCbOverMtr → c.bottom = some CoinConfig.dflt → ∃ w, Workspace.new hash dfltGlobal c = .ok w := by
    intro c h1 h2 h3
    obtain ⟨coin, hc⟩ := coin_new_dflt (F := F) hash
    exact (C29_accepted_iff hash dfltGlobal c).2 ⟨h1, h2, _, coin, h3, hc⟩
  rcases dflt_cases h with ⟨rfl, rfl⟩ | ⟨rfl, rfl⟩ | ⟨rfl, rfl⟩ | ⟨rfl, rfl⟩ | ⟨rfl, rfl⟩ | ⟨rfl, rfl⟩ | ⟨rfl, rfl⟩ | ⟨rfl, rfl⟩
  · obtain ⟨w, hw⟩ := acc (.coin CoinConfig.dflt) (by simp [RedConfig.typeOf]) trivial rfl
    exact ⟨_, w, rfl, hw, fun _ => rfl, fun _ => rfl, rfl⟩
  · obtain ⟨w, hw⟩ := acc (.binary (.coin CoinConfig.dflt)) (by simp [RedConfig.typeOf]) trivial rfl
    exact ⟨_, w, rfl, hw, fun _ => rfl, fun _ => rfl, rfl⟩
  · obtain ⟨w, hw⟩ := acc (.cbAdf .mtr (.coin CoinConfig.dflt)) (by simp [RedConfig.typeOf]) trivial rfl
    exact ⟨_, w, rfl, hw, fun _ => rfl, fun _ => rfl, rfl⟩
  · obtain ⟨w, hw⟩ := acc (.greedy (Flt.lit 5 100) (.cbAdf .mtr (.coin CoinConfig.dflt))) (by simp [RedConfig.typeOf]) trivial rfl
    exact ⟨_, w, rfl, hw, fun _ => rfl, fun _ => rfl, rfl⟩
  · exact absurd rfl ht
  · obtain ⟨w, hw⟩ := acc (.squareCb Flt.zero (Flt.lit 10 1) (Flt.lit 1 2) (.cbAdf .mtr (.coin CoinConfig.dflt))) (by simp [RedConfig.typeOf])
      ⟨by intro c' h; simp at h, trivial⟩ rfl
    exact ⟨_, w, rfl, hw, fun _ => rfl, fun _ => rfl, rfl⟩
  · obtain ⟨w, hw⟩ := acc (.softmax Flt.zero (Flt.lit 1 1) (.cbAdf .mtr (.coin CoinConfig.dflt))) (by simp [RedConfig.typeOf]) trivial rfl
    exact ⟨_, w, rfl, hw, fun _ => rfl, fun _ => rfl, rfl⟩
  · obtain ⟨w, hw⟩ := acc (.elementwise .default .default false (.coin CoinConfig.dflt)) (by simp [RedConfig.typeOf]) trivial rfl
    exact ⟨_, w, rfl, hw, fun _ => rfl, fun _ => rfl, rfl⟩

/-- C65. For every reduction except Debug, the configuration that `config new` emits is accepted by `config check`, and it makes exactly the
workspace that the shortest configuration makes, which has the default stack of that reduction. Missing from the full statement: Debug, see
`C65_debug_false`. -/
theorem C65_new_is_accepted_partial (hash : HashFn) (schema : List Char) (t : String) (ht : t ≠ "Debug") (j : Doc F)
    (h : configNew schema t = some j) :
    ∃ c w, dfltStack t = some c ∧ Workspace.new hash ⟨18, 0, true, []⟩ c = .ok w ∧ newWorkspace hash j = .ok ⟨⟨18, 0, true, []⟩, w⟩ ∧
      newWorkspace hash (shortest t) = .ok ⟨⟨18, 0, true, []⟩, w⟩ := by
  unfold configNew at h
  simp only [Option.bind_eq_bind, Option.bind_eq_some_iff, Option.some.injEq] at h
  obtain ⟨d, hd, rfl⟩ := h
  obtain ⟨c, w, h1, h2, h3, h4, h5⟩ := dflt_works hash hd ht
  refine ⟨c, w, h1, h2, new_of_read hash (c := c) ((C63_read _ _ _).1 ?_) h2, new_of_read hash (c := c) ((C63_read _ _ _).1 ?_) h2⟩
  · refine ⟨⟨dfltGlobal, ⟨t.toList, some d⟩⟩, ?_, rfl, h3 _⟩
    unfold readConfiguration
    refine obind.2 ⟨_, rfl, obind.2 ⟨_, rfl, obind.2 ⟨dfltGlobal, rfl, obind.2 ⟨_, ?_, rfl⟩⟩⟩⟩
    show (readRedDoc (redObj t d)) = _
    exact readRedDoc_redObj t d (by rintro rfl; simp [optDoc] at h5)
  · exact ⟨⟨dfltGlobal, ⟨t.toList, none⟩⟩, rfl, rfl, h4 _⟩

/-- C65. `config new` knows exactly the eight registered reductions. -/
theorem C65_known (schema : List Char) (t : String) : (∃ j : Doc F, configNew schema t = some j) ↔
    t ∈ ["Coin", "Binary", "CbAdf", "CbExploreAdfGreedy", "CbExploreAdfSoftmax", "CbExploreAdfSquareCb", "Debug", "ElementwiseInteraction"] := by
  constructor
  · rintro ⟨j, h⟩
    unfold configNew at h
    simp only [Option.bind_eq_bind, Option.bind_eq_some_iff] at h
    obtain ⟨d, hd, _⟩ := h
    rcases dflt_cases hd with ⟨rfl, _⟩ | ⟨rfl, _⟩ | ⟨rfl, _⟩ | ⟨rfl, _⟩ | ⟨rfl, _⟩ | ⟨rfl, _⟩ | ⟨rfl, _⟩ | ⟨rfl, _⟩ <;> decide
  · intro h
    simp only [List.mem_cons, List.not_mem_nil, or_false] at h
    rcases h with rfl | rfl | rfl | rfl | rfl | rfl | rfl | rfl <;> exact ⟨_, rfl⟩

/-- C65 does not hold for Debug: what `config new Debug` emits is rejected, since the reduction below defaults to one that does not exist. -/
theorem C65_debug_false (hash : HashFn) (schema : List Char) :
    ∃ j : Doc F, configNew schema "Debug" = some j ∧ newWorkspace hash j = .error .unknownType := ⟨_, rfl, rfl⟩

/-! ### C66 -/

/-- A stack written as a document, every setting spelled out. -/
def write : RedConfig F → Doc F
  | .coin c => redObj "Coin" (encCoinConfig (fun _ => true) c)
  | .binary c => redObj "Binary" (.obj [("regressor".toList, write c)])
  | .cbAdf ty c => redObj "CbAdf" (.obj [("cbType".toList, encCBType ty), ("regressor".toList, write c)])
  | .greedy e c => redObj "CbExploreAdfGreedy" (.obj [("epsilon".toList, .num (.flt e)), ("cbAdf".toList, write c)])
  | .softmax e la c => redObj "CbExploreAdfSoftmax" (.obj [("uniformEpsilon".toList, .num (.flt e)), ("lambda".toList, .num (.flt la)),
      ("cbAdf".toList, write c)])
  | .squareCb e gs ge c => redObj "CbExploreAdfSquareCb" (.obj [("uniformEpsilon".toList, .num (.flt e)), ("gammaScale".toList, .num (.flt gs)),
      ("gammaExponent".toList, .num (.flt ge)), ("cbAdf".toList, write c)])
  | .debug c => redObj "Debug" (.obj [("next".toList, write c)])
  | .elementwise one two keep c => redObj "ElementwiseInteraction" (.obj [("one".toList, encNsDef one), ("two".toList, encNsDef two),
      ("keepOriginalFeatures".toList, .bool keep), ("regressor".toList, write c)])
  | .unknown t => redObj t (.obj [])

/-- Global settings and a stack written as a configuration. -/
def writeConfig (g : GlobalConfig) (c : RedConfig F) : Doc F :=
  .obj [("globalConfig".toList, encGlobal g), ("entryReduction".toList, write c)]

theorem describes_redObj (t : String) {d : Doc F} (h : d ≠ .null) : Describes (redObj t d) t d := by
  refine ⟨has_iff.2 rfl, .inl ⟨has_iff.2 rfl, h⟩⟩

theorem onlyKeys_iff_all {l : List (List Char × Doc F)} {ks : List String} (h : ∀ k ∈ l.map Prod.fst, k ∈ ks.map String.toList) :
    OnlyKeys (.obj l) ks := by
  refine ⟨l, rfl, fun e he => ?_⟩
  obtain ⟨k, hk, e'⟩ := List.mem_map.1 (h e.1 (List.mem_map_of_mem he))
  exact ⟨k, hk, e'.symm⟩

theorem means_write {c : RedConfig F} (h : ¬ c.HasUnknown) : Means (write c) c := by
  have lk : ∀ {l : List (List Char × Doc F)} {k : String} {v : Doc F}, l.lookup k.toList = some v → Has (.obj l) k v := fun h => ⟨_, rfl, h⟩
  induction c with
  | coin c =>
    exact .coin (describes_redObj _ (by simp [encCoinConfig])) ((decCoinConfig_iff _ _).1
      (decCoinConfig_enc ⟨rfl, rfl, rfl, rfl, by cases c.lossFunction <;> simp [FinLoss]⟩))
  | binary c ih => exact .binary (describes_redObj _ (by simp)) (onlyKeys_iff_all (by simp)) (.inl (lk rfl)) (ih h)
  | cbAdf ty c ih =>
    exact .cbAdf (describes_redObj _ (by simp)) (onlyKeys_iff_all (by simp)) (.inr ⟨_, lk rfl, by cases ty <;> constructor⟩) (.inl (lk rfl)) (ih h)
  | greedy e c ih =>
    exact .greedy (describes_redObj _ (by simp)) (onlyKeys_iff_all (by simp)) (.inr ⟨_, lk rfl, .flt e⟩) (.inl (lk rfl)) (ih h)
  | softmax e la c ih =>
    exact .softmax (describes_redObj _ (by simp)) (onlyKeys_iff_all (by simp)) (.inr ⟨_, lk rfl, .flt e⟩) (.inr ⟨_, lk rfl, .flt la⟩)
      (.inl (lk rfl)) (ih h)
  | squareCb e gs ge c ih =>
    exact .squareCb (describes_redObj _ (by simp)) (onlyKeys_iff_all (by simp)) (.inr ⟨_, lk rfl, .flt e⟩) (.inr ⟨_, lk rfl, .flt gs⟩)
      (.inr ⟨_, lk rfl, .flt ge⟩) (.inl (lk rfl)) (ih h)
  | debug c ih =>
    exact .debug (describes_redObj _ (by simp)) (onlyKeys_iff_all (by simp)) (.inl ⟨lacks_obj.2 rfl, rfl⟩) (.inl ⟨lacks_obj.2 rfl, rfl⟩)
      (.inl ⟨lacks_obj.2 rfl, rfl⟩) (.inl ⟨lacks_obj.2 rfl, rfl⟩) (.inl ⟨lacks_obj.2 rfl, rfl⟩) (lk rfl) (ih h)
  | elementwise one two keep c ih =>
    exact .elementwise (describes_redObj _ (by simp)) (onlyKeys_iff_all (by simp)) (.inr ⟨_, lk rfl, by cases one <;> constructor⟩)
      (.inr ⟨_, lk rfl, by cases two <;> constructor⟩) (.inr ⟨_, lk rfl, rfl⟩) (.inl (lk rfl)) (ih h)
  | unknown t => exact absurd trivial h

theorem global_write {g : GlobalConfig} (h : g.numBits < 256) : GlobalMeans (encGlobal g : Doc F) g := by
  have lk : ∀ {l : List (List Char × Doc F)} {k : String} {v : Doc F}, l.lookup k.toList = some v → Has (.obj l) k v := fun h => ⟨_, rfl, h⟩
  refine ⟨onlyKeys_iff_all (by simp), .inr ⟨_, lk rfl, rfl, h⟩, .inr ⟨_, lk rfl, rfl, g.hashSeed.isLt⟩, .inr ⟨_, lk rfl, rfl⟩,
    .inr ⟨_, lk rfl, ?_⟩⟩
  exact (decL_iff (decL_iff decNsDef_iff) _ _).1 (decL_encL fun x _ => decL_encL fun y _ => decNsDef_encNsDef y)

theorem config_write {g : GlobalConfig} {c : RedConfig F} (hg : g.numBits < 256) (hc : ¬ c.HasUnknown) : ConfigMeans (writeConfig g c) g c :=
  ⟨onlyKeys_iff_all (by simp), .inl (lacks_obj.2 rfl), ⟨_, has_iff.2 rfl, global_write hg⟩, ⟨_, has_iff.2 rfl, means_write hc⟩⟩

/-- C66. Every stack of known reductions, with any settings and any global settings (the number of bits is a `u8`), can be configured:
there is a document that stands for it, and such a document makes a workspace exactly if the stack can be created. -/
theorem C66_expressible (hash : HashFn) (g : GlobalConfig) (c : RedConfig F) (hg : g.numBits < 256) (hc : ¬ c.HasUnknown) :
    ∃ j : Doc F, ConfigMeans j g c ∧ ∀ w, newWorkspace hash j = .ok ⟨g, w⟩ ↔ Workspace.new hash g c = .ok w := by
  refine ⟨writeConfig g c, config_write hg hc, fun w => ?_⟩
  rw [C63_workspace]
  constructor
  · rintro ⟨c', h, hw⟩
    rw [(C63_unambiguous (config_write hg hc) h).2]; exact hw
  · intro hw; exact ⟨c, config_write hg hc, hw⟩

/-! ### Concrete cases -/

section examples
attribute [local instance] intFlt

/-- `{"globalConfig": {"numBits": 4}, "entryReduction": {"typename": "CbExploreAdfGreedy", "config": {"epsilon": 1}}}`. -/
def exDoc : Doc Int := .obj [("globalConfig".toList, .obj [("numBits".toList, .num (.nat 4))]),
  ("entryReduction".toList, .obj [("typename".toList, .str "CbExploreAdfGreedy".toList), ("config".toList, .obj [("epsilon".toList, .num (.nat 1))])])]

/-- The document stands for a greedy stack with one explicit setting and defaults for the rest. -/
example : ConfigMeans exDoc ⟨4, 0, true, []⟩ (.greedy 1 (.cbAdf .mtr (.coin CoinConfig.dflt))) :=
  (C63_read _ _ _).1 ⟨⟨⟨4, 0, true, []⟩, ⟨_, _⟩⟩, rfl, rfl, rfl⟩

/-- A document with a misspelled setting deep inside. -/
def exTypo : Doc Int := .obj [("globalConfig".toList, .obj []), ("entryReduction".toList,
  redObj "CbAdf" (.obj [("regressor".toList, redObj "Coin" (.obj [("alhpa".toList, .num (.nat 1))]))]))]

example (hash : HashFn) : ∀ m, newWorkspace hash exTypo ≠ .ok m :=
  C64_unknown_setting_partial hash exTypo (.num (.nat 1)) "alhpa" (.inr (.inr ⟨_, redObj "Coin" (.obj [("alhpa".toList, .num (.nat 1))]), "Coin", _, _,
    has_iff.2 rfl, .child (k := "regressor") (describes_redObj _ (by simp)) (by decide) (has_iff.2 rfl) (.here _), describes_redObj _ (by simp), has_iff.2 rfl,
    List.mem_cons_self, by decide⟩))

/-- A misspelled `config`: `alpha` is 4, not 1. -/
example : Means (.obj [("confg".toList, .obj [("alpha".toList, .num (.nat 1))]), ("typename".toList, .str "Coin".toList)])
    (.coin (CoinConfig.dflt : CoinConfig Int)) :=
  (C64_unknown_key_false "Coin" "confg" _ (by decide) (by decide) _).2 (readEntry_iff.1 ⟨_, rfl, rfl⟩)

/-- `config new CbExploreAdfSquareCb`. -/
example : ∃ j : Doc Int, configNew "s".toList "CbExploreAdfSquareCb" = some j := ⟨_, rfl⟩

example : ¬ (RedConfig.squareCb 0 10 1 (.cbAdf .mtr (.coin CoinConfig.dflt)) : RedConfig Int).HasUnknown := by simp [RedConfig.HasUnknown]

end examples

end Cfg
end Rml
