import Verif.SpecSchema
import Verif.Lemmas.Config

/-! What the schema for configurations says, keyword by keyword. -/

set_option linter.unusedSectionVars false

namespace Rml
namespace JsonSchema
open Cfg
variable {F : Type} [Flt F] {whole : F → Prop}

/-- From some number on. -/
def Ev (P : Nat → Prop) : Prop := ∃ n, ∀ m ≥ n, P m

theorem Ev.succ {P : Nat → Prop} : Ev P ↔ Ev fun n => P (n + 1) := by
  constructor
  · rintro ⟨n, h⟩
    exact ⟨n, fun m hm => h _ (by omega)⟩
  · rintro ⟨n, h⟩
    refine ⟨n + 1, fun m hm => ?_⟩
    obtain ⟨k, rfl⟩ : ∃ k, m = k + 1 := ⟨m - 1, by omega⟩
    exact h k (by omega)

theorem Ev.and {P Q : Nat → Prop} : (Ev fun n => P n ∧ Q n) ↔ Ev P ∧ Ev Q := by
  constructor
  · rintro ⟨n, h⟩
    exact ⟨⟨n, fun m hm => (h m hm).1⟩, n, fun m hm => (h m hm).2⟩
  · rintro ⟨⟨n, h⟩, k, h'⟩
    exact ⟨max n k, fun m hm => ⟨h m (by omega), h' m (by omega)⟩⟩

theorem Ev.const {p : Prop} : (Ev fun _ => p) ↔ p := ⟨fun ⟨n, h⟩ => h n (Nat.le_refl _), fun h => ⟨0, fun _ _ => h⟩⟩

theorem Ev.congr {P Q : Nat → Prop} (h : ∀ n, P n ↔ Q n) : Ev P ↔ Ev Q := by
  have : P = Q := funext fun n => propext (h n)
  rw [this]

theorem Ev.mono {P Q : Nat → Prop} (h : ∀ n, P n → Q n) : Ev P → Ev Q := fun ⟨n, hn⟩ => ⟨n, fun m hm => h m (hn m hm)⟩

theorem Ev.all {α : Type} {l : List α} {P : α → Nat → Prop} : (Ev fun n => ∀ a ∈ l, P a n) ↔ ∀ a ∈ l, Ev (P a) := by
  constructor
  · rintro ⟨n, h⟩ a ha
    exact ⟨n, fun m hm => h m hm a ha⟩
  · intro h
    induction l with
    | nil => exact ⟨0, fun _ _ _ h => nomatch h⟩
    | cons a l ih =>
      obtain ⟨n, h1⟩ := h a (by simp)
      obtain ⟨k, h2⟩ := ih fun b hb => h b (List.mem_cons_of_mem _ hb)
      refine ⟨max n k, fun m hm b hb => ?_⟩
      rcases List.mem_cons.1 hb with rfl | hb
      · exact h1 m (by omega)
      · exact h2 m (by omega) b hb

/-- The value at a key, if any. -/
theorem Ev.has {j : Doc F} {k : String} {P : Doc F → Nat → Prop} : (Ev fun n => ∀ v, Has j k v → P v n) ↔ ∀ v, Has j k v → Ev (P v) := by
  constructor
  · rintro ⟨n, h⟩ v hv
    exact ⟨n, fun m hm => h m hm v hv⟩
  · intro h
    by_cases h0 : ∃ v, Has j k v
    · obtain ⟨v, hv⟩ := h0
      exact (h v hv).imp fun n hn m hm w hw => by rw [← hv.unique hw]; exact hn m hm
    · exact ⟨0, fun m _ v hv => absurd ⟨v, hv⟩ h0⟩

/-- The document satisfies a part of the published schema. -/
def Sat (whole : F → Prop) (s : Schema) (j : Doc F) : Prop := Ev fun n => Accepts whole published.defs n s j

theorem valid_iff {j : Doc F} : Valid whole published j ↔ Sat whole published.schema j := Iff.rfl

theorem sat_ref {r : String} {s : Schema} (h : published.defs.lookup r = some s) {j : Doc F} : Sat whole { ref := some r } j ↔ Sat whole s j := by
  unfold Sat
  rw [Ev.succ]
  refine Ev.congr fun n => ?_
  simp [Accepts, h]

theorem sat_allOf {s : Schema} {j : Doc F} : Sat whole { allOf := [s] } j ↔ Sat whole s j := by
  unfold Sat
  rw [Ev.succ]
  refine Ev.congr fun n => ?_
  simp [Accepts]

theorem sat_defined {r : String} {s : Schema} (h : published.defs.lookup r = some s) {j : Doc F} : Sat whole (defined r) j ↔ Sat whole s j :=
  sat_allOf.trans (sat_ref h)

theorem sat_type {t : JType} {j : Doc F} : Sat whole { type := [t] } j ↔ HasType whole t j := by
  unfold Sat
  rw [Ev.succ, Ev.congr (Q := fun _ => HasType whole t j), Ev.const]
  intro n
  simp [Accepts]

theorem sat_float {j : Doc F} : Sat whole float j ↔ ∃ x, IsNum j x := by
  rw [float, sat_type]
  constructor
  · rintro ⟨n, rfl⟩
    cases n with
    | nat n => exact ⟨_, .nat n⟩
    | flt x => exact ⟨_, .flt x⟩
  · rintro ⟨_, h⟩
    cases h <;> exact ⟨_, rfl⟩

theorem sat_boolean {j : Doc F} : Sat whole boolean j ↔ ∃ x, IsBool j x := sat_type
theorem sat_string {j : Doc F} : Sat whole string j ↔ ∃ x, IsStr j x := sat_type

theorem sat_uint {n : Nat} : Sat whole uint (.num (.nat n) : Doc F) := by
  unfold Sat
  refine Ev.succ.2 ⟨0, fun n _ => ?_⟩
  simp [Accepts, uint, HasType]

theorem sat_const {x : String} {j : Doc F} : Sat whole { const := some x } j ↔ j = .str x.toList := by
  unfold Sat
  rw [Ev.succ, Ev.congr (Q := fun _ => j = .str x.toList), Ev.const]
  intro n
  simp [Accepts]

theorem sat_enum {l : List String} {j : Doc F} : Sat whole { type := [.string], enum := some l } j ↔ ∃ x ∈ l, j = .str x.toList := by
  unfold Sat
  rw [Ev.succ, Ev.congr (Q := fun _ => ∃ x ∈ l, j = .str x.toList), Ev.const]
  intro n
  simp only [Accepts, HasType]
  simp
  rintro x _ rfl
  exact ⟨_, rfl⟩

/-- Objects with no other keys than these. -/
theorem sat_props {ps : List (String × Schema)} {l : List (List Char × Doc F)} : Sat whole { properties := ps, additional := false } (.obj l) ↔
    OnlyKeys (.obj l) (ps.map (·.1)) ∧ ∀ p ∈ ps, ∀ v, Has (.obj l) p.1 v → Sat whole p.2 v := by
  unfold Sat
  simp only [← Ev.has, ← Ev.all]
  rw [Ev.succ, Ev.congr (Q := fun n => OnlyKeys (.obj l) (ps.map (·.1)) ∧ ∀ p ∈ ps, ∀ v, Has (.obj l) p.1 v → Accepts whole published.defs n p.2 v),
    Ev.and, Ev.const]
  intro n
  simp [Accepts, OnlyKeys]
  exact and_comm

theorem sat_struct {ps : List (String × Schema)} {j : Doc F} : Sat whole (struct ps) j ↔
    OnlyKeys j (ps.map (·.1)) ∧ ∀ p ∈ ps, ∀ v, Has j p.1 v → Sat whole p.2 v := by
  unfold Sat
  simp only [← Ev.has, ← Ev.all]
  rw [Ev.succ, Ev.congr (Q := fun n => OnlyKeys j (ps.map (·.1)) ∧ ∀ p ∈ ps, ∀ v, Has j p.1 v → Accepts whole published.defs n p.2 v), Ev.and, Ev.const]
  intro n
  constructor
  · intro h
    simp only [struct, Accepts] at h
    obtain ⟨l, rfl⟩ : ∃ l, j = .obj l := by simpa [HasType] using h.1
    refine ⟨⟨l, rfl, ?_⟩, h.2.2.2.2.2.2.2.1⟩
    simpa using h.2.2.2.2.2.2.2.2.1
  · rintro ⟨⟨l, rfl, h1⟩, h2⟩
    simp only [struct, Accepts]
    simp [HasType]
    exact ⟨fun a b hp v => h2 (a, b) hp v, by simpa using h1⟩

/-- An enum variant with content: an object with just this key. -/
theorem sat_variant {k : String} {s : Schema} {j : Doc F} :
    Sat whole { type := [.object], required := [k], properties := [(k, s)], additional := false } j ↔
    OnlyKeys j [k] ∧ ∃ v, Has j k v ∧ Sat whole s v := by
  unfold Sat
  constructor
  · rintro ⟨n, h⟩
    have h0 := h (n + 1) (by omega)
    simp only [Accepts] at h0
    obtain ⟨l, rfl⟩ : ∃ l, j = .obj l := by simpa [HasType] using h0.1
    obtain ⟨v, hv⟩ := h0.2.2.2.2.2.2.1 l rfl k (by simp)
    refine ⟨⟨l, rfl, by simpa using h0.2.2.2.2.2.2.2.2.1⟩, v, hv, n, fun m hm => ?_⟩
    have h1 := h (m + 1) (by omega)
    simp only [Accepts] at h1
    exact h1.2.2.2.2.2.2.2.1 (k, s) (by simp) v hv
  · rintro ⟨⟨l, rfl, h1⟩, v, hv, n, h2⟩
    refine ⟨n + 1, fun m hm => ?_⟩
    obtain ⟨m, rfl⟩ : ∃ k, m = k + 1 := ⟨m - 1, by omega⟩
    simp only [Accepts]
    simp [HasType]
    refine ⟨⟨v, hv⟩, fun w hw => ?_, by simpa using h1⟩
    rw [hw.unique hv]
    exact h2 m (by omega)

theorem sat_array {s : Schema} {j : Doc F} : Sat whole { type := [.array], items := some s } j ↔ ∃ l, j = .arr l ∧ ∀ v ∈ l, Sat whole s v := by
  unfold Sat
  constructor
  · rintro ⟨n, h⟩
    have h0 := h (n + 1) (by omega)
    simp only [Accepts] at h0
    obtain ⟨l, rfl⟩ : ∃ l, j = .arr l := by simpa [HasType] using h0.1
    refine ⟨l, rfl, fun v hv => ⟨n, fun m hm => ?_⟩⟩
    have h1 := h (m + 1) (by omega)
    simp only [Accepts] at h1
    exact h1.2.2.2.2.2.2.2.2.2.1 s rfl l rfl v hv
  · rintro ⟨l, rfl, h⟩
    refine Ev.succ.2 ((Ev.all.2 h).mono fun n h => ?_)
    simp only [Accepts]
    simpa [HasType] using h

/-- Alternatives that exclude each other. -/
theorem sat_oneOf {l : List Schema} {j : Doc F} {a : Schema} (ha : a ∈ l) (hl : l.Nodup)
    (hx : ∀ b ∈ l, b ≠ a → Ev fun n => ¬ Accepts whole published.defs n b j) : Sat whole { oneOf := some l } j ↔ Sat whole a j := by
  have hx' : Ev fun n => ∀ b ∈ l, b ≠ a → ¬ Accepts whole published.defs n b j := by
    refine Ev.all.2 fun b hb => ?_
    by_cases h : b = a
    · exact ⟨0, fun _ _ h' => absurd h h'⟩
    · exact (hx b hb h).mono fun n hn _ => hn
  unfold Sat
  rw [Ev.succ]
  constructor
  · intro h
    refine (Ev.and.2 ⟨h, hx'⟩).mono fun n ⟨h1, h2⟩ => ?_
    simp only [Accepts] at h1
    obtain ⟨b, hb, h3⟩ := (h1.2.2.2.2.2.2.2.2.2.2.2 l rfl).1
    by_cases e : b = a
    · rw [← e]; exact h3
    · exact absurd h3 (h2 b hb e)
  · intro h
    refine (Ev.and.2 ⟨h, hx'⟩).mono fun n ⟨h1, h2⟩ => ?_
    simp only [Accepts]
    simp
    refine ⟨⟨a, ha, h1⟩, hl.imp_of_mem fun {b c} hb hc hbc h3 h4 => ?_⟩
    by_cases e : b = a
    · exact h2 c hc (fun e' => hbc (e.trans e'.symm)) h4
    · exact h2 b hb e h3

/-- Alternatives without knowing which: at least one holds from time to time. -/
theorem sat_oneOf_some {l : List Schema} {j : Doc F} (h : Sat whole { oneOf := some l } j) (n : Nat) :
    ∃ a ∈ l, ∃ m ≥ n, Accepts whole published.defs m a j := by
  obtain ⟨k, h⟩ := h
  have := h (max n k + 1) (by omega)
  simp only [Accepts] at this
  obtain ⟨a, ha, h1⟩ := (this.2.2.2.2.2.2.2.2.2.2.2 l rfl).1
  exact ⟨a, ha, _, by omega, h1⟩

/-- The reductions of the schema. -/
def names : List String :=
  ["Binary", "CbAdf", "CbExploreAdfGreedy", "CbExploreAdfSoftmax", "CbExploreAdfSquareCb", "Coin", "Debug", "ElementwiseInteraction"]

/-- A reference to any reduction. -/
def any : Schema := { ref := some "any_reduction_config" }

/-- One alternative. -/
def branch (t : String) (inner : Schema) : Schema := { properties := [("config", inner), ("typename", { const := some t })], additional := false }

theorem lookup_any : published.defs.lookup "any_reduction_config" = some { oneOf := some (names.map fun t => { ref := some t }) } := rfl

theorem lookup_branch {t : String} (h : t ∈ names) : ∃ s, published.defs.lookup t = some (branch t s) := by
  simp only [names, List.mem_cons, List.not_mem_nil, or_false] at h
  rcases h with rfl | rfl | rfl | rfl | rfl | rfl | rfl | rfl <;> exact ⟨_, rfl⟩

theorem branch_typename {t : String} (ht : t ∈ names) {j x : Doc F} (hx : Has j "typename" x) {n : Nat}
    (h : Accepts whole published.defs (n + 3) { ref := some t } j) : x = .str t.toList := by
  obtain ⟨s, hs⟩ := lookup_branch ht
  rw [Accepts] at h
  obtain ⟨s', h1, h⟩ := h
  rw [hs] at h1
  cases h1
  rw [Accepts] at h
  have h2 := h.2.2.2.2.2.2.2.1 ("typename", { const := some t }) (by simp [branch]) x hx
  rw [Accepts] at h2
  exact h2.2.2.1 t rfl

theorem str_ne {t t' : String} (h : t ≠ t') : (.str t.toList : Doc F) ≠ .str t'.toList := by
  intro e
  injection e with e
  exact h (String.toList_inj.1 e)

theorem sat_any {t : String} (ht : t ∈ names) {j : Doc F} (hj : Has j "typename" (.str t.toList)) : Sat whole any j ↔ Sat whole { ref := some t } j := by
  rw [any, sat_ref lookup_any]
  refine sat_oneOf (List.mem_map.2 ⟨t, ht, rfl⟩) ?_ ?_
  · exact List.Nodup.map (fun a b h => by simpa using congrArg Schema.ref h) (by decide)
  · intro b hb hne
    obtain ⟨t', ht', rfl⟩ := List.mem_map.1 hb
    refine ⟨3, fun m hm h => ?_⟩
    obtain ⟨m, rfl⟩ : ∃ k, m = k + 3 := ⟨m - 3, by omega⟩
    exact str_ne (fun e => hne (by rw [e])) (branch_typename ht' hj h)

theorem any_typename {j x : Doc F} (h : Sat whole any j) (hx : Has j "typename" x) : ∃ t ∈ names, x = .str t.toList := by
  rw [any, sat_ref lookup_any] at h
  obtain ⟨a, ha, m, hm, h1⟩ := sat_oneOf_some h 3
  obtain ⟨t, ht, rfl⟩ := List.mem_map.1 ha
  obtain ⟨m, rfl⟩ : ∃ k, m = k + 3 := ⟨m - 3, by omega⟩
  exact ⟨t, ht, branch_typename ht hx h1⟩

theorem has_isObj {j v : Doc F} {k : String} (h : Has j k v) : ∃ l, j = .obj l := h.imp fun _ h => h.1

/-- A reduction of a known type. -/
theorem sat_reduction {t : String} (ht : t ∈ names) {s : Schema} (hs : published.defs.lookup t = some (branch t s)) {j : Doc F}
    (hj : Has j "typename" (.str t.toList)) : Sat whole any j ↔ OnlyKeys j ["config", "typename"] ∧ ∀ v, Has j "config" v → Sat whole s v := by
  rw [sat_any ht hj, sat_ref hs]
  obtain ⟨l, rfl⟩ := has_isObj hj
  rw [branch, sat_props]
  simp only [List.map_cons, List.map_nil, List.forall_mem_cons]
  constructor
  · rintro ⟨h1, h2, _⟩
    exact ⟨h1, h2⟩
  · rintro ⟨h1, h2⟩
    exact ⟨h1, h2, fun v hv => by rw [hv.unique hj]; exact sat_const.2 rfl, by simp⟩

theorem onlyKeys_perm {j : Doc F} {ks ks' : List String} (h : OnlyKeys j ks) (hk : ∀ k ∈ ks, k ∈ ks') : OnlyKeys j ks' := by
  obtain ⟨l, rfl, h⟩ := h
  exact ⟨l, rfl, fun e he => (h e he).imp fun k h => ⟨hk k h.1, h.2⟩⟩

theorem setting_sat {α : Type} {s : Doc F} {k : String} {d a : α} {Den : Doc F → α → Prop} {p : Schema} (hd : ∀ v a, Den v a → Sat whole p v)
    (h : Setting s k d Den a) : ∀ v, Has s k v → Sat whole p v := by
  intro v hv
  rcases h with ⟨h, _⟩ | ⟨w, h, h1⟩
  · exact (h.not_has hv).elim
  · rw [hv.unique h]; exact hd _ _ h1

theorem sat_child {j : Doc F} : Sat whole child j ↔ Sat whole any j := sat_allOf

theorem sat_num (v : Doc F) (x : F) (h : IsNum v x) : Sat whole float v := sat_float.2 ⟨x, h⟩
theorem sat_bool (v : Doc F) (x : Bool) (h : IsBool v x) : Sat whole boolean v := sat_boolean.2 ⟨x, h⟩
theorem sat_str (v : Doc F) (x : List Char) (h : IsStr v x) : Sat whole string v := sat_string.2 ⟨x, h⟩
theorem sat_nat (b : Nat) (v : Doc F) (x : Nat) (h : IsNat b v x) : Sat whole uint v := by rw [h.1]; exact sat_uint

theorem not_has_obj {k k' : String} {w v : Doc F} (h : k ≠ k') : ¬ Has (.obj [(k.toList, w)]) k' v := by
  rintro ⟨l, e, h1⟩
  cases e
  have h2 : (k'.toList == k.toList) = false := by simpa using fun e => h (String.toList_inj.1 e).symm
  simp [List.lookup, h2] at h1

theorem has_obj (k : String) (w : Doc F) : Has (.obj [(k.toList, w)]) k w := ⟨_, rfl, by simp [List.lookup]⟩

/-- Variants exclude each other. -/
theorem not_variant {k k' : String} (hk : k ≠ k') {s : Schema} {w : Doc F} : Ev fun n => ¬ Accepts whole published.defs n
    { type := [.object], required := [k'], properties := [(k', s)], additional := false } (.obj [(k.toList, w)]) := by
  refine ⟨0, fun n _ h => ?_⟩
  cases n with
  | zero => exact h
  | succ n =>
    rw [Accepts] at h
    obtain ⟨v, hv⟩ := h.2.2.2.2.2.2.1 _ rfl k' (by simp)
    exact not_has_obj hk hv

theorem sat_ns {v : Doc F} {x : NamespaceDef} (h : IsNs v x) : Sat whole new.namespaceDef v := by
  unfold new.namespaceDef
  cases h with
  | default =>
    refine (sat_oneOf (a := { type := [.string], enum := some ["Default"] }) (by simp) (by simp) ?_).2 (sat_enum.2 ⟨_, by simp, rfl⟩)
    intro b hb hne
    simp only [List.mem_cons, List.not_mem_nil, or_false] at hb
    rcases hb with rfl | rfl
    · exact absurd rfl hne
    · refine ⟨0, fun n _ h => ?_⟩
      cases n with
      | zero => exact h
      | succ n =>
        rw [Accepts] at h
        simpa [HasType] using h.1
  | name s =>
    refine (sat_oneOf (a := { type := [.object], required := ["Name"], properties := [("Name", { type := [.string] })], additional := false })
      (by simp) (by simp) ?_).2 (sat_variant.2 ⟨⟨_, rfl, by simp⟩, _, has_obj _ _, sat_type.2 ⟨_, rfl⟩⟩)
    intro b hb hne
    simp only [List.mem_cons, List.not_mem_nil, or_false] at hb
    rcases hb with rfl | rfl
    · refine ⟨0, fun n _ h => ?_⟩
      cases n with
      | zero => exact h
      | succ n =>
        rw [Accepts] at h
        simpa [HasType] using h.1
    · exact absurd rfl hne

theorem sat_loss {v : Doc F} {x : LossFunction F} (h : IsLoss v x) : Sat whole { oneOf := some [
      { type := [.object], required := ["Squared"], properties := [("Squared", { ref := some "SquaredLoss" })], additional := false },
      { type := [.object], required := ["Logistic"], properties := [("Logistic", { ref := some "LogisticLoss" })], additional := false }] } v := by
  cases h with
  | squared l =>
    refine (sat_oneOf (a := { type := [.object], required := ["Squared"], properties := [("Squared", { ref := some "SquaredLoss" })], additional := false })
      (by simp) (by simp) ?_).2 (sat_variant.2 ⟨⟨_, rfl, by simp⟩, _, has_obj _ _, (sat_ref rfl).2 (sat_type (t := .object).2 ⟨_, rfl⟩)⟩)
    intro b hb hne
    simp only [List.mem_cons, List.not_mem_nil, or_false] at hb
    rcases hb with rfl | rfl
    · exact absurd rfl hne
    · exact not_variant (by decide)
  | logistic w lo hi h1 h2 =>
    refine (sat_oneOf (a := { type := [.object], required := ["Logistic"], properties := [("Logistic", { ref := some "LogisticLoss" })], additional := false })
      (by simp) (by simp) ?_).2 (sat_variant.2 ⟨⟨_, rfl, by simp⟩, _, has_obj _ _, (sat_ref rfl).2 ?_⟩)
    · intro b hb hne
      simp only [List.mem_cons, List.not_mem_nil, or_false] at hb
      rcases hb with rfl | rfl
      · exact not_variant (by decide)
      · exact absurd rfl hne
    · obtain ⟨l, rfl⟩ : ∃ l, w = .obj l := by
        rcases h1 with ⟨⟨l, h, _⟩, _⟩ | ⟨_, ⟨l, h, _⟩, _⟩ <;> exact ⟨l, h⟩
      refine Ev.succ.2 ((Ev.and.2 ⟨Ev.has.2 (setting_sat (whole := whole) sat_num h1), Ev.has.2 (setting_sat (whole := whole) sat_num h2)⟩).mono fun n ⟨h3, h4⟩ => ?_)
      simp only [Accepts]
      simp [HasType]
      exact ⟨h4, h3⟩

theorem sat_link {v : Doc F} {x : LinkFunction} (h : IsLink v x) : Sat whole { type := [.string], enum := some ["Identity", "Logistic"] } v := by
  cases h <;> exact sat_enum.2 ⟨_, by simp, rfl⟩

theorem sat_cbType {v : Doc F} {x : CBType} (h : IsCBType v x) : Sat whole { type := [.string], enum := some ["ips", "mtr"] } v := by
  cases h <;> exact sat_enum.2 ⟨_, by simp, rfl⟩

/-! ### Accepted configurations are valid -/

/-- A reduction of a known type whose settings are valid. -/
theorem describes_sat {t : String} (ht : t ∈ names) {p : Schema} (hs : published.defs.lookup t = some (branch t p)) {j s : Doc F}
    (hj : Describes j t s) (htidy : Tidy j) (h : (∀ k v, k ∈ ["regressor", "cbAdf", "next"] → Has s k v → Tidy v) → Sat whole p s) : Sat whole any j := by
  obtain ⟨h1, h2, h3⟩ := htidy
  rw [sat_reduction ht hs hj.1]
  refine ⟨onlyKeys_perm h1 (by simp), fun v hv => ?_⟩
  rcases hj.2 with ⟨h4, _⟩ | ⟨h4 | h4, _⟩
  · rw [hv.unique h4]
    exact h fun k w hk hw => h3 s k w h4 hk hw
  · exact (h4.not_has hv).elim
  · exact absurd h4 h2

theorem below_sat {s v : Doc F} {k dflt : String} (hk : k ∈ ["regressor", "cbAdf", "next"]) (h : Below s k dflt v)
    (ht : ∀ k v, k ∈ ["regressor", "cbAdf", "next"] → Has s k v → Tidy v) (ih : Tidy v → Sat whole any v) : ∀ w, Has s k w → Sat whole child w := by
  intro w hw
  rcases h with h | ⟨h, _⟩
  · rw [hw.unique h]
    exact sat_child.2 (ih (ht k v hk h))
  · exact (h.not_has hw).elim

theorem means_sat {j : Doc F} {c : RedConfig F} (h : Means j c) : Tidy j → Sat whole any j := by
  induction h with
  | coin h1 h2 =>
    intro ht
    refine describes_sat (by simp [names]) rfl h1 ht fun _ => sat_struct.2 ⟨onlyKeys_perm h2.keys (by simp), ?_⟩
    simp only [List.forall_mem_cons, List.not_mem_nil, false_imp_iff, implies_true, and_true]
    exact ⟨setting_sat sat_num h2.alpha, setting_sat sat_num h2.beta, setting_sat sat_num h2.l1, setting_sat sat_num h2.l2,
      setting_sat (fun _ _ h => (sat_defined rfl).2 (sat_link h)) h2.link, setting_sat (fun _ _ h => (sat_defined rfl).2 (sat_loss h)) h2.loss⟩
  | binary h1 h2 h3 _ ih =>
    intro ht
    refine describes_sat (by simp [names]) rfl h1 ht fun hb => sat_struct.2 ⟨onlyKeys_perm h2 (by simp), ?_⟩
    simp only [List.forall_mem_cons, List.not_mem_nil, false_imp_iff, implies_true, and_true]
    exact below_sat (by simp) h3 hb ih
  | cbAdf h1 h2 h3 h4 _ ih =>
    intro ht
    refine describes_sat (by simp [names]) rfl h1 ht fun hb => sat_struct.2 ⟨onlyKeys_perm h2 (by simp), ?_⟩
    simp only [List.forall_mem_cons, List.not_mem_nil, false_imp_iff, implies_true, and_true]
    exact ⟨setting_sat (fun _ _ h => (sat_defined rfl).2 (sat_cbType h)) h3, below_sat (by simp) h4 hb ih⟩
  | greedy h1 h2 h3 h4 _ ih =>
    intro ht
    refine describes_sat (by simp [names]) rfl h1 ht fun hb => sat_struct.2 ⟨onlyKeys_perm h2 (by simp), ?_⟩
    simp only [List.forall_mem_cons, List.not_mem_nil, false_imp_iff, implies_true, and_true]
    exact ⟨below_sat (by simp) h4 hb ih, setting_sat sat_num h3⟩
  | softmax h1 h2 h3 h4 h5 _ ih =>
    intro ht
    refine describes_sat (by simp [names]) rfl h1 ht fun hb => sat_struct.2 ⟨onlyKeys_perm h2 (by simp), ?_⟩
    simp only [List.forall_mem_cons, List.not_mem_nil, false_imp_iff, implies_true, and_true]
    exact ⟨below_sat (by simp) h5 hb ih, setting_sat sat_num h4, setting_sat sat_num h3⟩
  | squareCb h1 h2 h3 h4 h5 h6 _ ih =>
    intro ht
    refine describes_sat (by simp [names]) rfl h1 ht fun hb => sat_struct.2 ⟨onlyKeys_perm h2 (by simp), ?_⟩
    simp only [List.forall_mem_cons, List.not_mem_nil, false_imp_iff, implies_true, and_true]
    exact ⟨below_sat (by simp) h6 hb ih, setting_sat sat_num h5, setting_sat sat_num h4, setting_sat sat_num h3⟩
  | debug h1 h2 h3 h4 h5 h6 h7 h8 _ ih =>
    intro ht
    refine describes_sat (by simp [names]) rfl h1 ht fun hb => sat_struct.2 ⟨onlyKeys_perm h2 (by simp), ?_⟩
    simp only [List.forall_mem_cons, List.not_mem_nil, false_imp_iff, implies_true, and_true]
    exact ⟨setting_sat sat_bool h6, setting_sat sat_str h3, setting_sat (sat_nat 64) h7, setting_sat sat_bool h5,
      below_sat (dflt := "") (by simp) (.inl h8) hb ih, setting_sat sat_bool h4⟩
  | elementwise h1 h2 h3 h4 h5 h6 _ ih =>
    intro ht
    refine describes_sat (by simp [names]) rfl h1 ht fun hb => sat_struct.2 ⟨onlyKeys_perm h2 (by simp), ?_⟩
    simp only [List.forall_mem_cons, List.not_mem_nil, false_imp_iff, implies_true, and_true]
    exact ⟨setting_sat sat_bool h5, setting_sat (fun _ _ h => (sat_defined rfl).2 (sat_ns h)) h3, below_sat (by simp) h6 hb ih,
      setting_sat (fun _ _ h => (sat_defined rfl).2 (sat_ns h)) h4⟩

/-- The definition of the global settings. -/
def globalDef : Schema := struct [("constantFeatureEnabled", boolean), ("hashSeed", uint),
  ("interactions", { type := [.array], items := some { type := [.array], items := some { ref := some "NamespaceDef" } } }), ("numBits", uint)]

theorem forall₂_left {α β : Type} {R : α → β → Prop} {l : List α} {m : List β} (h : List.Forall₂ R l m) : ∀ a ∈ l, ∃ b, R a b := by
  induction h with
  | nil => exact fun _ h => nomatch h
  | cons h _ ih =>
    intro a ha
    rcases List.mem_cons.1 ha with rfl | ha
    · exact ⟨_, h⟩
    · exact ih a ha

theorem global_sat {j : Doc F} {g : GlobalConfig} (h : GlobalMeans j g) : Sat whole globalDef j := by
  refine sat_struct.2 ⟨onlyKeys_perm h.keys (by simp), ?_⟩
  simp only [List.forall_mem_cons, List.not_mem_nil, false_imp_iff, implies_true, and_true]
  refine ⟨setting_sat sat_bool h.constant, setting_sat (sat_nat 32) h.hashSeed, setting_sat (fun v a hv => ?_) h.interactions,
    setting_sat (sat_nat 8) h.numBits⟩
  obtain ⟨l, rfl, hl⟩ := hv
  refine sat_array.2 ⟨l, rfl, fun w hw => ?_⟩
  obtain ⟨_, m, rfl, hm⟩ := forall₂_left hl w hw
  refine sat_array.2 ⟨m, rfl, fun u hu => (sat_ref rfl).2 ?_⟩
  obtain ⟨_, h1⟩ := forall₂_left hm u hu
  exact sat_ns h1

theorem sat_root {j : Doc F} : Sat whole published.schema j ↔ OnlyKeys j ["$schema", "entryReduction", "globalConfig"] ∧
    (∃ v, Has j "entryReduction" v ∧ Sat whole any v) ∧ ∃ v, Has j "globalConfig" v ∧ Sat whole globalDef v := by
  have e : Sat whole globalDef = Sat whole { ref := some "GlobalConfig" } := funext fun v => propext (sat_ref rfl).symm
  rw [e]
  unfold Sat
  constructor
  · rintro ⟨n, h⟩
    have h0 := h (n + 1) (by omega)
    rw [published] at h0
    simp only [Accepts] at h0
    obtain ⟨l, rfl⟩ : ∃ l, j = .obj l := by simpa [HasType] using h0.1
    obtain ⟨v, hv⟩ := h0.2.2.2.2.2.2.1 l rfl "entryReduction" (by simp)
    obtain ⟨w, hw⟩ := h0.2.2.2.2.2.2.1 l rfl "globalConfig" (by simp)
    refine ⟨⟨l, rfl, by simpa using h0.2.2.2.2.2.2.2.2.1⟩, ⟨v, hv, n, fun m hm => ?_⟩, w, hw, n, fun m hm => ?_⟩
    · have h1 := h (m + 1) (by omega)
      rw [published, Accepts] at h1
      exact h1.2.2.2.2.2.2.2.1 ("entryReduction", any) (by simp [any]) v hv
    · have h1 := h (m + 1) (by omega)
      rw [published, Accepts] at h1
      exact h1.2.2.2.2.2.2.2.1 ("globalConfig", { ref := some "GlobalConfig" }) (by simp) w hw
  · rintro ⟨⟨l, rfl, h1⟩, ⟨v, hv, h2⟩, w, hw, h3⟩
    refine Ev.succ.2 ((Ev.and.2 ⟨h2, h3⟩).mono fun n ⟨h2, h3⟩ => ?_)
    have hn : n ≠ 0 := by
      rintro rfl
      exact h2
    obtain ⟨n, rfl⟩ : ∃ k, n = k + 1 := ⟨n - 1, by omega⟩
    have hs : ∀ u : Doc F, Accepts whole published.defs (n + 1) { pattern := some ".*" } u := by
      intro u
      simp [Accepts]
    rw [Accepts]
    refine ⟨.inr ⟨.object, by simp [published], l, rfl⟩, by simp [published], by simp [published], by simp [published], by simp [published],
      by simp [published], ?_, ?_, ?_, by simp [published], by simp [published], by simp [published]⟩
    · rintro _ - k hk
      have : k = "entryReduction" ∨ k = "globalConfig" := by simpa [published] using hk
      rcases this with rfl | rfl
      · exact ⟨v, hv⟩
      · exact ⟨w, hw⟩
    · intro p hp u hu
      have : p = ("$schema", { pattern := some ".*" }) ∨ p = ("entryReduction", any) ∨ p = ("globalConfig", { ref := some "GlobalConfig" }) := by
        simpa [published, any] using hp
      rcases this with rfl | rfl | rfl
      · exact hs u
      · rw [hu.unique hv]; exact h2
      · rw [hu.unique hw]; exact h3
    · intro _ l' e
      cases e
      simpa [published] using h1

/-! ### Valid configurations can be read -/

theorem unique_lookup {l : List (List Char × Doc F)} (h : UniqueEntries l) {k : List Char} {v : Doc F} (hk : l.lookup k = some v) : UniqueKeys v := by
  induction l with
  | nil => simp at hk
  | cons e l ih =>
    obtain ⟨a, w⟩ := e
    simp only [UniqueEntries] at h
    simp only [List.lookup] at hk
    split at hk
    · cases hk; exact h.1
    · exact ih h.2 hk

theorem unique_has {j v : Doc F} {k : String} (h : UniqueKeys j) (hv : Has j k v) : UniqueKeys v := by
  obtain ⟨l, rfl, h1⟩ := hv
  rw [UniqueKeys] at h
  exact unique_lookup h.2 h1

theorem unique_mem {l : List (Doc F)} (h : UniqueList l) {v : Doc F} (hv : v ∈ l) : UniqueKeys v := by
  induction l with
  | nil => cases hv
  | cons w l ih =>
    simp only [UniqueList] at h
    rcases List.mem_cons.1 hv with rfl | hv
    · exact h.1
    · exact ih h.2 hv

/-- An object with just one possible key that has this key. -/
theorem only_one {j v : Doc F} {k : String} (h : OnlyKeys j [k]) (hv : Has j k v) (hu : UniqueKeys j) : j = .obj [(k.toList, v)] := by
  obtain ⟨l, rfl, h1⟩ := h
  obtain ⟨l', e, h2⟩ := hv
  cases e
  rw [UniqueKeys] at hu
  cases l with
  | nil => simp at h2
  | cons e l =>
    obtain ⟨a, w⟩ := e
    have ha : a = k.toList := by simpa using h1 (a, w) (by simp)
    subst ha
    simp [List.lookup] at h2
    subst h2
    cases l with
    | nil => rfl
    | cons e l =>
      have hb : e.1 = k.toList := by simpa using h1 e (by simp)
      have := hu.1
      simp [hb] at this

theorem setting_of {α : Type} {s : Doc F} {k : String} {ks : List String} (d : α) {Den : Doc F → α → Prop} (h : OnlyKeys s ks)
    (hv : ∀ v, Has s k v → ∃ a, Den v a) : ∃ a, Setting s k d Den a := by
  obtain ⟨l, rfl, -⟩ := h
  cases e : l.lookup k.toList with
  | none => exact ⟨d, .inl ⟨⟨l, rfl, e⟩, rfl⟩⟩
  | some v =>
    obtain ⟨a, ha⟩ := hv v ⟨l, rfl, e⟩
    exact ⟨a, .inr ⟨v, ⟨l, rfl, e⟩, ha⟩⟩

theorem ns_of {v : Doc F} (h : Sat whole new.namespaceDef v) (hu : UniqueKeys v) : ∃ x, IsNs v x := by
  obtain ⟨a, ha, m, hm, h1⟩ := sat_oneOf_some h 2
  obtain ⟨m, rfl⟩ : ∃ k, m = k + 2 := ⟨m - 2, by omega⟩
  simp only [List.mem_cons, List.not_mem_nil, or_false] at ha
  rcases ha with rfl | rfl
  · rw [Accepts] at h1
    obtain ⟨x, hx, rfl⟩ := h1.2.1 _ rfl
    simp only [List.mem_singleton] at hx
    subst hx
    exact ⟨_, .default⟩
  · rw [Accepts] at h1
    obtain ⟨l, rfl⟩ : ∃ l, v = .obj l := by simpa [HasType] using h1.1
    obtain ⟨w, hw⟩ := h1.2.2.2.2.2.2.1 l rfl "Name" (by simp)
    have h2 := h1.2.2.2.2.2.2.2.1 ("Name", { type := [.string] }) (by simp) w hw
    rw [Accepts] at h2
    obtain ⟨s, rfl⟩ : ∃ s, w = .str s := by simpa [HasType] using h2.1
    rw [only_one ⟨l, rfl, by simpa using h1.2.2.2.2.2.2.2.2.1⟩ hw hu]
    exact ⟨_, .name s⟩

theorem loss_of {v : Doc F} (h : Sat whole { oneOf := some [
      { type := [.object], required := ["Squared"], properties := [("Squared", { ref := some "SquaredLoss" })], additional := false },
      { type := [.object], required := ["Logistic"], properties := [("Logistic", { ref := some "LogisticLoss" })], additional := false }] } v)
    (hu : UniqueKeys v) : ∃ x, IsLoss v x := by
  obtain ⟨a, ha, m, hm, h1⟩ := sat_oneOf_some h 4
  obtain ⟨m, rfl⟩ : ∃ k, m = k + 4 := ⟨m - 4, by omega⟩
  simp only [List.mem_cons, List.not_mem_nil, or_false] at ha
  rcases ha with rfl | rfl
  · rw [Accepts] at h1
    obtain ⟨l, rfl⟩ : ∃ l, v = .obj l := by simpa [HasType] using h1.1
    obtain ⟨w, hw⟩ := h1.2.2.2.2.2.2.1 l rfl "Squared" (by simp)
    have h2 := h1.2.2.2.2.2.2.2.1 ("Squared", { ref := some "SquaredLoss" }) (by simp) w hw
    rw [Accepts] at h2
    obtain ⟨s, hs, h2⟩ := h2
    have e : s = { type := [.object] } := (Option.some.inj hs).symm
    subst e
    rw [Accepts] at h2
    obtain ⟨s, rfl⟩ : ∃ s, w = .obj s := by simpa [HasType] using h2.1
    rw [only_one ⟨l, rfl, by simpa using h1.2.2.2.2.2.2.2.2.1⟩ hw hu]
    exact ⟨_, .squared s⟩
  · rw [Accepts] at h1
    obtain ⟨l, rfl⟩ : ∃ l, v = .obj l := by simpa [HasType] using h1.1
    obtain ⟨w, hw⟩ := h1.2.2.2.2.2.2.1 l rfl "Logistic" (by simp)
    have h2 := h1.2.2.2.2.2.2.2.1 ("Logistic", { ref := some "LogisticLoss" }) (by simp) w hw
    rw [Accepts] at h2
    obtain ⟨s, hs, h2⟩ := h2
    have e : s = { type := [.object], properties := [("max_label", float), ("min_label", float)] } := (Option.some.inj hs).symm
    subst e
    rw [Accepts] at h2
    obtain ⟨s, rfl⟩ : ∃ s, w = .obj s := by simpa [HasType] using h2.1
    rw [only_one ⟨l, rfl, by simpa using h1.2.2.2.2.2.2.2.2.1⟩ hw hu]
    have hnum : ∀ {u : Doc F}, Accepts whole published.defs (m + 1) float u → ∃ x, IsNum u x := by
      intro u h
      rw [float, Accepts] at h
      obtain ⟨n, rfl⟩ : ∃ n, u = .num n := by simpa [HasType] using h.1
      cases n with
      | nat n => exact ⟨_, .nat n⟩
      | flt x => exact ⟨_, .flt x⟩
    have hset : ∀ k ∈ ["max_label", "min_label"], ∀ d, ∃ x, Setting (.obj s) k d IsNum x := by
      intro k hk d
      cases e : s.lookup k.toList with
      | none => exact ⟨d, .inl ⟨⟨s, rfl, e⟩, rfl⟩⟩
      | some u =>
        obtain ⟨x, hx⟩ := hnum (h2.2.2.2.2.2.2.2.1 (k, float) (by simpa using hk) u ⟨s, rfl, e⟩)
        exact ⟨x, .inr ⟨u, ⟨s, rfl, e⟩, hx⟩⟩
    obtain ⟨lo, hlo⟩ := hset "min_label" (by simp) (Flt.lit (-1) 1)
    obtain ⟨hi, hhi⟩ := hset "max_label" (by simp) (Flt.lit 1 1)
    exact ⟨_, .logistic _ lo hi hlo hhi⟩

theorem link_of {v : Doc F} (h : Sat whole { type := [.string], enum := some ["Identity", "Logistic"] } v) : ∃ x, IsLink v x := by
  obtain ⟨x, hx, rfl⟩ := sat_enum.1 h
  simp only [List.mem_cons, List.not_mem_nil, or_false] at hx
  rcases hx with rfl | rfl
  · exact ⟨_, .identity⟩
  · exact ⟨_, .logistic⟩

theorem cbType_of {v : Doc F} (h : Sat whole { type := [.string], enum := some ["ips", "mtr"] } v) : ∃ x, IsCBType v x := by
  obtain ⟨x, hx, rfl⟩ := sat_enum.1 h
  simp only [List.mem_cons, List.not_mem_nil, or_false] at hx
  rcases hx with rfl | rfl
  · exact ⟨_, .ips⟩
  · exact ⟨_, .mtr⟩

/-- The minimal document of a reduction that needs no settings. -/
theorem means_coin_dflt : ∃ c : RedConfig F, Means (.obj [("typename".toList, .str "Coin".toList)]) c := by
  refine ⟨_, .coin (s := .obj []) (c := ⟨Flt.lit 4 1, Flt.lit 1 1, Flt.zero, Flt.zero, .squared, .identity⟩)
    ⟨⟨_, rfl, rfl⟩, .inr ⟨.inl ⟨_, rfl, rfl⟩, rfl⟩⟩ ?_⟩
  exact ⟨⟨_, rfl, by simp⟩, .inl ⟨⟨_, rfl, rfl⟩, rfl⟩, .inl ⟨⟨_, rfl, rfl⟩, rfl⟩, .inl ⟨⟨_, rfl, rfl⟩, rfl⟩, .inl ⟨⟨_, rfl, rfl⟩, rfl⟩,
    .inl ⟨⟨_, rfl, rfl⟩, rfl⟩, .inl ⟨⟨_, rfl, rfl⟩, rfl⟩⟩

theorem means_cbAdf_dflt : ∃ c : RedConfig F, Means (.obj [("typename".toList, .str "CbAdf".toList)]) c := by
  obtain ⟨c, hc⟩ := means_coin_dflt (F := F)
  exact ⟨_, .cbAdf (s := .obj []) ⟨⟨_, rfl, rfl⟩, .inr ⟨.inl ⟨_, rfl, rfl⟩, rfl⟩⟩ ⟨_, rfl, by simp⟩ (.inl ⟨⟨_, rfl, rfl⟩, rfl⟩)
    (.inr ⟨⟨_, rfl, rfl⟩, rfl⟩) hc⟩

/-- The reduction below, given or not. -/
theorem below_of {s : Doc F} {k dflt : String} {ks : List String} (ho : OnlyKeys s ks) (hd : ∃ c : RedConfig F, Means (.obj [("typename".toList, .str dflt.toList)]) c)
    (h : ∀ v, Has s k v → ∃ c, Means v c) : ∃ v c, Below s k dflt v ∧ Means v c := by
  obtain ⟨l, rfl, -⟩ := ho
  cases e : l.lookup k.toList with
  | none =>
    obtain ⟨c, hc⟩ := hd
    exact ⟨_, c, .inr ⟨⟨l, rfl, e⟩, rfl⟩, hc⟩
  | some v =>
    obtain ⟨c, hc⟩ := h v ⟨l, rfl, e⟩
    exact ⟨v, c, .inl ⟨l, rfl, e⟩, hc⟩

/-- The settings of a reduction, given or not. -/
theorem settings_of {t : String} {j : Doc F} (ht : Has j "typename" (.str t.toList)) {p : List (String × Schema)} (h : ∀ v, Has j "config" v → Sat whole (struct p) v) :
    ∃ s, Describes j t s ∧ OnlyKeys s (p.map (·.1)) ∧ (∀ q ∈ p, ∀ v, Has s q.1 v → Sat whole q.2 v) ∧
      ((Has j "config" s) ∨ s = .obj [] ∧ ∀ v, ¬ Has j "config" v) := by
  obtain ⟨l, rfl⟩ := has_isObj ht
  cases e : l.lookup "config".toList with
  | none =>
    refine ⟨.obj [], ⟨ht, .inr ⟨.inl ⟨l, rfl, e⟩, rfl⟩⟩, ⟨[], rfl, by simp⟩, ?_, .inr ⟨rfl, ?_⟩⟩
    · rintro q - v ⟨l', e', h'⟩
      cases e'
      simp at h'
    · intro v hv
      exact Lacks.not_has ⟨l, rfl, e⟩ hv
  | some s =>
    have h1 := sat_struct.1 (h s ⟨l, rfl, e⟩)
    refine ⟨s, ⟨ht, .inl ⟨⟨l, rfl, e⟩, ?_⟩⟩, h1.1, h1.2, .inl ⟨l, rfl, e⟩⟩
    rintro rfl
    obtain ⟨l', e', -⟩ := h1.1
    cases e'

theorem sat_means {j : Doc F} (h : Complete j) : Sat whole any j → UniqueKeys j → ∃ c, Means j c := by
  induction h with
  | @mk j h1 h2 h3 h4 ih =>
    intro hs hu
    obtain ⟨x, hx⟩ := h1
    obtain ⟨t, ht, rfl⟩ := any_typename hs hx
    have hch : ∀ {s}, ((Has j "config" s) ∨ s = .obj [] ∧ ∀ v, ¬ Has j "config" v) → ∀ k ∈ ["regressor", "cbAdf", "next"], ∀ v, Has s k v →
        Sat whole child v → ∃ c, Means v c := by
      intro s hcs k hk v hv hsat
      rcases hcs with hcs | ⟨rfl, _⟩
      · exact ih s k v hcs hk hv (sat_child.1 hsat) (unique_has (unique_has hu hcs) hv)
      · obtain ⟨l, e, h⟩ := hv
        cases e
        simp at h
    have hun : ∀ {s}, ((Has j "config" s) ∨ s = .obj [] ∧ ∀ v, ¬ Has j "config" v) → ∀ k v, Has s k v → UniqueKeys v := by
      intro s hcs k v hv
      rcases hcs with hcs | ⟨rfl, _⟩
      · exact unique_has (unique_has hu hcs) hv
      · obtain ⟨l, e, h⟩ := hv
        cases e
        simp at h
    simp only [names, List.mem_cons, List.not_mem_nil, or_false] at ht
    rcases ht with rfl | rfl | rfl | rfl | rfl | rfl | rfl | rfl
    · obtain ⟨s, g1, g2, g3, g4⟩ := settings_of hx (p := [("regressor", child)]) ((sat_reduction (by simp [names]) rfl hx).1 hs).2
      obtain ⟨v, c, b1, b2⟩ := below_of (k := "regressor") g2 means_coin_dflt fun v hv => hch g4 _ (by simp) v hv (g3 ("regressor", child) (by simp) v hv)
      exact ⟨_, .binary g1 (onlyKeys_perm g2 (by simp)) b1 b2⟩
    · obtain ⟨s, g1, g2, g3, g4⟩ := settings_of hx (p := [("cbType", defined "CBType"), ("regressor", child)])
        ((sat_reduction (by simp [names]) rfl hx).1 hs).2
      obtain ⟨v, c, b1, b2⟩ := below_of (k := "regressor") g2 means_coin_dflt fun v hv => hch g4 _ (by simp) v hv (g3 ("regressor", child) (by simp) v hv)
      obtain ⟨ty, hty⟩ := setting_of (k := "cbType") CBType.mtr g2 fun v hv => cbType_of ((sat_defined rfl).1 (g3 ("cbType", defined "CBType") (by simp) v hv))
      exact ⟨_, .cbAdf g1 (onlyKeys_perm g2 (by simp)) hty b1 b2⟩
    · obtain ⟨s, g1, g2, g3, g4⟩ := settings_of hx (p := [("cbAdf", child), ("epsilon", float)]) ((sat_reduction (by simp [names]) rfl hx).1 hs).2
      obtain ⟨v, c, b1, b2⟩ := below_of (k := "cbAdf") g2 means_cbAdf_dflt fun v hv => hch g4 _ (by simp) v hv (g3 ("cbAdf", child) (by simp) v hv)
      obtain ⟨e, he⟩ := setting_of (k := "epsilon") (Flt.lit 5 100) g2 fun v hv => sat_float.1 (g3 ("epsilon", float) (by simp) v hv)
      exact ⟨_, .greedy g1 (onlyKeys_perm g2 (by simp)) he b1 b2⟩
    · obtain ⟨s, g1, g2, g3, g4⟩ := settings_of hx (p := [("cbAdf", child), ("lambda", float), ("uniformEpsilon", float)])
        ((sat_reduction (by simp [names]) rfl hx).1 hs).2
      obtain ⟨v, c, b1, b2⟩ := below_of (k := "cbAdf") g2 means_cbAdf_dflt fun v hv => hch g4 _ (by simp) v hv (g3 ("cbAdf", child) (by simp) v hv)
      obtain ⟨e, he⟩ := setting_of (k := "uniformEpsilon") Flt.zero g2 fun v hv => sat_float.1 (g3 ("uniformEpsilon", float) (by simp) v hv)
      obtain ⟨la, hla⟩ := setting_of (k := "lambda") (Flt.lit 1 1) g2 fun v hv => sat_float.1 (g3 ("lambda", float) (by simp) v hv)
      exact ⟨_, .softmax g1 (onlyKeys_perm g2 (by simp)) he hla b1 b2⟩
    · obtain ⟨s, g1, g2, g3, g4⟩ := settings_of hx (p := [("cbAdf", child), ("gammaExponent", float), ("gammaScale", float), ("uniformEpsilon", float)])
        ((sat_reduction (by simp [names]) rfl hx).1 hs).2
      obtain ⟨v, c, b1, b2⟩ := below_of (k := "cbAdf") g2 means_cbAdf_dflt fun v hv => hch g4 _ (by simp) v hv (g3 ("cbAdf", child) (by simp) v hv)
      obtain ⟨e, he⟩ := setting_of (k := "uniformEpsilon") Flt.zero g2 fun v hv => sat_float.1 (g3 ("uniformEpsilon", float) (by simp) v hv)
      obtain ⟨gs, hgs⟩ := setting_of (k := "gammaScale") (Flt.lit 10 1) g2 fun v hv => sat_float.1 (g3 ("gammaScale", float) (by simp) v hv)
      obtain ⟨ge, hge⟩ := setting_of (k := "gammaExponent") (Flt.lit 1 2) g2 fun v hv => sat_float.1 (g3 ("gammaExponent", float) (by simp) v hv)
      exact ⟨_, .squareCb g1 (onlyKeys_perm g2 (by simp)) he hgs hge b1 b2⟩
    · obtain ⟨s, g1, g2, g3, g4⟩ := settings_of hx (p := [("alpha", float), ("beta", float), ("l1Lambda", float), ("l2Lambda", float),
        ("linkFunction", defined "LinkFunction"), ("lossFunction", defined "LossFunction")]) ((sat_reduction (by simp [names]) rfl hx).1 hs).2
      have num : ∀ k ∈ ["alpha", "beta", "l1Lambda", "l2Lambda"], ∀ d, ∃ a, Setting s k d IsNum a := by
        intro k hk d
        refine setting_of d g2 fun v hv => sat_float.1 (g3 (k, float) ?_ v hv)
        simp only [List.mem_cons, List.not_mem_nil, or_false] at hk
        rcases hk with rfl | rfl | rfl | rfl <;> simp
      obtain ⟨a, ha⟩ := num "alpha" (by simp) (Flt.lit 4 1)
      obtain ⟨b, hb⟩ := num "beta" (by simp) (Flt.lit 1 1)
      obtain ⟨l1, hl1⟩ := num "l1Lambda" (by simp) Flt.zero
      obtain ⟨l2, hl2⟩ := num "l2Lambda" (by simp) Flt.zero
      obtain ⟨li, hli⟩ := setting_of (k := "linkFunction") LinkFunction.identity g2 fun v hv =>
        link_of ((sat_defined rfl).1 (g3 ("linkFunction", defined "LinkFunction") (by simp) v hv))
      obtain ⟨lo, hlo⟩ := setting_of (k := "lossFunction") (LossFunction.squared : LossFunction F) g2 fun v hv =>
        loss_of ((sat_defined rfl).1 (g3 ("lossFunction", defined "LossFunction") (by simp) v hv)) (hun g4 _ v hv)
      exact ⟨_, .coin (c := ⟨a, b, l1, l2, lo, li⟩) g1 ⟨onlyKeys_perm g2 (by simp), ha, hb, hl1, hl2, hlo, hli⟩⟩
    · obtain ⟨s, g1, g2, g3, g4⟩ := settings_of hx (p := [("features", boolean), ("id", string), ("indent", uint), ("label", boolean), ("next", child),
        ("prediction", boolean)]) ((sat_reduction (by simp [names]) rfl hx).1 hs).2
      obtain ⟨s', v, n1, n2⟩ := h2 hx
      have hs' : Has j "config" s := by
        rcases g4 with g4 | ⟨_, g4⟩
        · exact g4
        · exact absurd n1 (g4 s')
      rw [n1.unique hs'] at n2
      obtain ⟨c, hc⟩ := hch g4 "next" (by simp) v n2 (g3 ("next", child) (by simp) v n2)
      obtain ⟨i, hi⟩ := setting_of (k := "id") ([] : List Char) g2 fun v hv => sat_string.1 (g3 ("id", string) (by simp) v hv)
      obtain ⟨q, hq⟩ := setting_of (k := "prediction") false g2 fun v hv => sat_boolean.1 (g3 ("prediction", boolean) (by simp) v hv)
      obtain ⟨la, hla⟩ := setting_of (k := "label") false g2 fun v hv => sat_boolean.1 (g3 ("label", boolean) (by simp) v hv)
      obtain ⟨f, hf⟩ := setting_of (k := "features") false g2 fun v hv => sat_boolean.1 (g3 ("features", boolean) (by simp) v hv)
      obtain ⟨n, hn⟩ := setting_of (k := "indent") 0 g2 fun v hv => h3 s v hs' hv
      exact ⟨_, .debug g1 (onlyKeys_perm g2 (by simp)) hi hq hla hf hn n2 hc⟩
    · obtain ⟨s, g1, g2, g3, g4⟩ := settings_of hx (p := [("keepOriginalFeatures", boolean), ("one", defined "NamespaceDef"), ("regressor", child),
        ("two", defined "NamespaceDef")]) ((sat_reduction (by simp [names]) rfl hx).1 hs).2
      obtain ⟨v, c, b1, b2⟩ := below_of (k := "regressor") g2 means_coin_dflt fun v hv => hch g4 _ (by simp) v hv (g3 ("regressor", child) (by simp) v hv)
      obtain ⟨one, hone⟩ := setting_of (k := "one") NamespaceDef.default g2 fun v hv =>
        ns_of ((sat_defined rfl).1 (g3 ("one", defined "NamespaceDef") (by simp) v hv)) (hun g4 _ v hv)
      obtain ⟨two, htwo⟩ := setting_of (k := "two") NamespaceDef.default g2 fun v hv =>
        ns_of ((sat_defined rfl).1 (g3 ("two", defined "NamespaceDef") (by simp) v hv)) (hun g4 _ v hv)
      obtain ⟨keep, hkeep⟩ := setting_of (k := "keepOriginalFeatures") false g2 fun v hv =>
        sat_boolean.1 (g3 ("keepOriginalFeatures", boolean) (by simp) v hv)
      exact ⟨_, .elementwise g1 (onlyKeys_perm g2 (by simp)) hone htwo hkeep b1 b2⟩

theorem list_of {α : Type} {Den : Doc F → α → Prop} {l : List (Doc F)} (h : ∀ v ∈ l, ∃ a, Den v a) : ∃ as, List.Forall₂ Den l as := by
  induction l with
  | nil => exact ⟨[], .nil⟩
  | cons v l ih =>
    obtain ⟨a, ha⟩ := h v (by simp)
    obtain ⟨as, has⟩ := ih fun w hw => h w (List.mem_cons_of_mem _ hw)
    exact ⟨a :: as, .cons ha has⟩

theorem global_of {j : Doc F} (h : Sat whole globalDef j) (hu : UniqueKeys j) (h8 : ∀ v, Has j "numBits" v → ∃ n, IsNat 8 v n)
    (h32 : ∀ v, Has j "hashSeed" v → ∃ n, IsNat 32 v n) : ∃ g, GlobalMeans j g := by
  obtain ⟨h1, h2⟩ := sat_struct.1 h
  obtain ⟨nb, hnb⟩ := setting_of (k := "numBits") 18 h1 h8
  obtain ⟨sd, hsd⟩ := setting_of (k := "hashSeed") 0 h1 h32
  obtain ⟨c, hc⟩ := setting_of (k := "constantFeatureEnabled") true h1 fun v hv => sat_boolean.1 (h2 ("constantFeatureEnabled", boolean) (by simp) v hv)
  obtain ⟨is, his⟩ := setting_of (k := "interactions") (Den := IsList (IsList IsNs)) ([] : List (List NamespaceDef)) h1 fun v hv => by
    obtain ⟨l, rfl, h3⟩ := sat_array.1 (h2 ("interactions", { type := [.array], items := some { type := [.array], items := some { ref := some "NamespaceDef" } } })
      (by simp) v hv)
    have hu1 := unique_has hu hv
    rw [UniqueKeys] at hu1
    obtain ⟨as, has⟩ := list_of (Den := IsList IsNs) (l := l) fun w hw => by
      obtain ⟨m, rfl, h4⟩ := sat_array.1 (h3 w hw)
      have hu2 := unique_mem hu1 hw
      rw [UniqueKeys] at hu2
      obtain ⟨bs, hbs⟩ := list_of (Den := IsNs) (l := m) fun u hu3 => ns_of ((sat_ref rfl).1 (h4 u hu3)) (unique_mem hu2 hu3)
      exact ⟨bs, m, rfl, hbs⟩
    exact ⟨as, l, rfl, has⟩
  have hlt : sd < 2 ^ 32 := by
    rcases hsd with ⟨_, rfl⟩ | ⟨_, _, _, h⟩
    · decide
    · exact h
  refine ⟨⟨nb, BitVec.ofNat 32 sd, c, is⟩, onlyKeys_perm h1 (by simp), hnb, ?_, hc, his⟩
  rw [BitVec.toNat_ofNat, Nat.mod_eq_of_lt hlt]
  exact hsd

end JsonSchema
end Rml
