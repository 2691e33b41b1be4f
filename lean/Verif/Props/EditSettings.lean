import Verif.Props.Edit
import Verif.Lemmas.Config
set_option linter.unusedSectionVars false

/-!
C108, the other part of a JSON model: the global settings in it mean what they mean in a configuration.
-/

namespace Rml
variable {F : Type} [Flt F]
open Serde Cfg

theorem rewriteEntries_lookup (t : Doc F → Option (Doc F)) : ∀ {l l' : List (List Char × Doc F)}, rewriteEntries t l = some l' → ∀ k : List Char,
    l'.map Prod.fst = l.map Prod.fst ∧ (l.lookup k = none → l'.lookup k = none) ∧ ∀ v, l.lookup k = some v → ∃ v', rewrite t v = some v' ∧ l'.lookup k = some v'
  | [], l', h, k => by
    rw [rewriteEntries] at h
    cases h
    simp
  | (a, v) :: l, l', h, k => by
    rw [rewriteEntries] at h
    simp only [Option.bind_eq_bind, Option.bind_eq_some_iff, Option.some.injEq] at h
    obtain ⟨v', hv, m, hm, rfl⟩ := h
    obtain ⟨h1, h2, h3⟩ := rewriteEntries_lookup t hm k
    refine ⟨by simp [h1], ?_, ?_⟩
    · intro h
      rw [List.lookup_cons] at h ⊢
      split at h
      · cases h
      · exact h2 h
    · intro w h
      rw [List.lookup_cons] at h ⊢
      split at h
      · cases h
        exact ⟨v', hv, rfl⟩
      · exact h3 w h

theorem rewrite_ns {t : Doc F → Option (Doc F)} {j : Doc F} {n : NamespaceDef} (h : IsNs j n) : rewrite t j = some j := by
  cases h with
  | default => rfl
  | name s =>
    rw [rewrite, if_neg (by rw [isTable, show Json.hasKey "weights" [("Name".toList, (Json.str s : Doc F))] = false from rfl]; simp)]
    rfl

theorem rewrite_list {α : Type} {t : Doc F → Option (Doc F)} {P : Doc F → α → Prop} (hP : ∀ j a, P j a → rewrite t j = some j) {j : Doc F} {as : List α}
    (h : IsList P j as) : rewrite t j = some j := by
  obtain ⟨l, rfl, h⟩ := h
  have : rewriteList t l = some l := by
    induction h with
    | nil => rfl
    | cons h _ ih => rw [rewriteList, hP _ _ h, ih]; rfl
  rw [rewrite, this]
  rfl

theorem rewrite_setting {α : Type} {t : Doc F → Option (Doc F)} {P : Doc F → α → Prop} (hP : ∀ j a, P j a → rewrite t j = some j) {l l' : List (List Char × Doc F)}
    (hr : rewriteEntries t l = some l') {k : String} {d a : α} (h : Setting (.obj l) k d P a) : Setting (.obj l') k d P a := by
  obtain ⟨_, h2, h3⟩ := rewriteEntries_lookup t hr k.toList
  rcases h with ⟨⟨m, hm, h⟩, rfl⟩ | ⟨v, ⟨m, hm, h⟩, hv⟩
  · cases hm
    exact .inl ⟨⟨l', rfl, h2 h⟩, rfl⟩
  · cases hm
    obtain ⟨v', hv', hl⟩ := h3 v h
    rw [hP v a hv] at hv'
    cases hv'
    exact .inr ⟨v, ⟨l', rfl, hl⟩, hv⟩

theorem rewrite_global {t : Doc F → Option (Doc F)} {v v' : Doc F} {g : GlobalConfig} (h : GlobalMeans v g) (hr : rewrite t v = some v') : GlobalMeans v' g := by
  obtain ⟨l, rfl, hk⟩ := h.keys
  have hnt : isTable l = false := by
    have : Json.hasKey "weights" l = false := by
      cases hw : Json.hasKey "weights" l with
      | false => rfl
      | true =>
        unfold Json.hasKey at hw
        obtain ⟨v, hv⟩ := Option.isSome_iff_exists.1 hw
        obtain ⟨l1, l2, rfl, _⟩ := List.lookup_eq_some_iff.1 hv
        obtain ⟨k, hk, hek⟩ := hk ("weights".toList, v) (by simp)
        simp only [List.mem_cons, List.not_mem_nil, or_false] at hk
        have hek' : "weights".toList = k.toList := hek
        rcases hk with rfl | rfl | rfl | rfl <;> exact absurd hek' (by decide)
    rw [isTable, this]
    rfl
  rw [rewrite, if_neg (by simp [hnt])] at hr
  simp only [Option.bind_eq_bind, Option.bind_eq_some_iff, Option.some.injEq] at hr
  obtain ⟨l', hl, rfl⟩ := hr
  refine ⟨⟨l', rfl, ?_⟩, rewrite_setting ?_ hl h.numBits, rewrite_setting ?_ hl h.hashSeed, rewrite_setting ?_ hl h.constant, rewrite_setting ?_ hl h.interactions⟩
  · intro e he
    have := (rewriteEntries_lookup t hl []).1
    have hm : e.1 ∈ l'.map Prod.fst := List.mem_map.2 ⟨e, he, rfl⟩
    rw [this] at hm
    obtain ⟨e', he', hee⟩ := List.mem_map.1 hm
    rw [← hee]
    exact hk e' he'
  · rintro j a ⟨rfl, _⟩; rfl
  · rintro j a ⟨rfl, _⟩; rfl
  · rintro j a rfl; rfl
  · intro j a h
    exact rewrite_list (fun j a h => rewrite_list (fun j a h => rewrite_ns h) h) h

theorem fieldOr_decU {j : Doc F} {k : String} {d n bits : Nat} (h : fieldOr j k d (decU bits) = some n) : fieldOr j k d decN = some n := by
  unfold fieldOr at h ⊢
  split
  · rename_i v hv
    rw [hv] at h
    simp only [decU, Option.bind_eq_bind, Option.bind_eq_some_iff] at h
    obtain ⟨m, hm, h⟩ := h
    split at h
    · cases h; exact hm
    · cases h
  · rename_i hv
    rw [hv] at h
    exact h

theorem decGlobal_of_means {j : Doc F} {g : GlobalConfig} (h : GlobalMeans j g) : decGlobal j = some g := by
  have := (readGlobal_iff j g).2 h
  simp only [readGlobal, Option.bind_eq_bind, Option.bind_eq_some_iff, Option.some.injEq] at this
  obtain ⟨_, h0, nb, hnb, sd, hsd, c, hc, is, his, rfl⟩ := this
  unfold decGlobal
  rw [h0, fieldOr_decU hnb, fieldOr_decU hsd, hc, his]
  rfl

theorem decModel_global {j v : Doc F} {g : GlobalConfig} {m : Serde.Model F} (hv : Has j "global_config" v) (hg : GlobalMeans v g) (h : decModel j = some m) : m.global = g := by
  obtain ⟨l, rfl, hl⟩ := hv
  unfold decModel at h
  simp only [Option.bind_eq_bind, Option.bind_eq_some_iff, Option.some.injEq] at h
  obtain ⟨g', hg', _, _, rfl⟩ := h
  unfold field at hg'
  simp only [Option.bind_eq_some_iff] at hg'
  obtain ⟨w, hw, hg'⟩ := hg'
  have : some w = some v := hw.symm.trans hl
  cases this
  rw [decGlobal_of_means hg] at hg'
  exact (Option.some.inj hg').symm

/-- C108: the global settings of a JSON model. Whatever is in the document, also if someone has edited it: if the entry `global_config` stands for the settings `g`, read as in a configuration
(settings that are left out have their default), then a workspace imported from it has these settings. -/
theorem C108_settings (fin : F → Bool) (j v : Doc F) (g : GlobalConfig) (hv : Has j "global_config" v) (hg : GlobalMeans v g) (m : Serde.Model F)
    (h : deserializeFromJson fin j = .ok m) : m.global = g := by
  unfold deserializeFromJson at h
  obtain ⟨l, rfl, hl⟩ := hv
  cases hr : rewriteToSparse fin (.obj l) with
  | none => rw [hr] at h; cases h
  | some j' =>
    rw [hr] at h
    have h' : (match decModel j' with
      | some m => Except.ok m
      | none => Except.error CreateError.invalid) = .ok m := h
    split at h'
    · rename_i m' hm
      cases h'
      unfold rewriteToSparse at hr
      rw [rewrite] at hr
      split at hr
      · exfalso
        simp only [tableToSparse, Option.bind_eq_bind, Option.bind_eq_some_iff, Option.some.injEq] at hr
        obtain ⟨_, _, _, _, rfl⟩ := hr
        cases hm
      · simp only [Option.bind_eq_bind, Option.bind_eq_some_iff, Option.some.injEq] at hr
        obtain ⟨l', hl', rfl⟩ := hr
        obtain ⟨v', hv', hlk⟩ := (rewriteEntries_lookup _ hl' "global_config".toList).2.2 v hl
        exact decModel_global ⟨l', rfl, hlk⟩ (rewrite_global hg hv') hm
    · cases h'

/-- C108: the same for a binary model. -/
theorem C108_settings_binary (j v : Doc F) (g : GlobalConfig) (hv : Has j "global_config" v) (hg : GlobalMeans v g) (m : Serde.Model F)
    (h : createFromModel j = .ok m) : m.global = g := by
  unfold createFromModel at h
  cases hd : decModel j with
  | none => rw [hd] at h; cases h
  | some m' =>
    rw [hd] at h
    cases h
    exact decModel_global hv hg hd

section examples

/-- C108: a document in which the settings leave out the constant feature, and what they stand for. -/
example : Has (.obj [("entry_reduction".toList, .null), ("global_config".toList, .obj [("hashSeed".toList, .num (.nat 7))])] : Doc F) "global_config"
      (.obj [("hashSeed".toList, .num (.nat 7))]) ∧
    GlobalMeans (.obj [("hashSeed".toList, .num (.nat 7))] : Doc F) ⟨18, 7#32, true, []⟩ := by
  refine ⟨⟨_, rfl, rfl⟩, (readGlobal_iff _ _).1 rfl⟩

end examples

end Rml
