import Verif.Model.Names

/-!
# C58: reduction type names

-/

namespace Rml

/-- The characters allowed, written out. -/
def upperLetters : List Char := "ABCDEFGHIJKLMNOPQRSTUVWXYZ".toList
def alphanumerics : List Char := "ABCDEFGHIJKLMNOPQRSTUVWXYZabcdefghijklmnopqrstuvwxyz0123456789".toList

theorem char_eq_of_toNat {c d : Char} (h : c.toNat = d.toNat) : c = d :=
  Char.ext (UInt32.toNat_inj.mp h)

theorem mem_of_toNat {l : List Char} {c : Char} (h : c.toNat ∈ l.map Char.toNat) : c ∈ l := by
  obtain ⟨d, hd, e⟩ := List.mem_map.mp h
  exact char_eq_of_toNat e ▸ hd

theorem isAsciiUpper_iff (c : Char) : isAsciiUpper c = true ↔ c ∈ upperLetters := by
  constructor
  · intro h
    apply mem_of_toNat
    simp only [isAsciiUpper, Bool.and_eq_true, decide_eq_true_eq] at h
    have : upperLetters.map Char.toNat = List.range' 65 26 := by decide +kernel
    rw [this, List.mem_range'_1]
    omega
  · intro h
    have : ∀ d ∈ upperLetters, isAsciiUpper d = true := by decide +kernel
    exact this c h

theorem isAsciiAlnum_iff (c : Char) : isAsciiAlnum c = true ↔ c ∈ alphanumerics := by
  constructor
  · intro h
    apply mem_of_toNat
    simp only [isAsciiAlnum, Bool.or_eq_true, Bool.and_eq_true, decide_eq_true_eq] at h
    have : alphanumerics.map Char.toNat = List.range' 65 26 ++ List.range' 97 26 ++ List.range' 48 10 := by decide +kernel
    rw [this]
    simp only [List.mem_append, List.mem_range'_1]
    omega
  · intro h
    have : ∀ d ∈ alphanumerics, isAsciiAlnum d = true := by decide +kernel
    exact this c h

/-- For every string: it is accepted, unchanged, exactly if it is not empty, its first character is an ASCII uppercase letter and all of its
characters are ASCII letters or digits. -/
theorem C58_accepted (s : List Char) :
    pascalCase s = .ok s ↔ (∃ c rest, s = c :: rest ∧ c ∈ upperLetters) ∧ ∀ c ∈ s, c ∈ alphanumerics := by
  cases s with
  | nil => simp [pascalCase]
  | cons c rest =>
    simp only [pascalCase]
    by_cases h1 : isAsciiUpper c = true
    · by_cases h2 : (c :: rest).any (fun c => !isAsciiAlnum c) = true
      · rw [if_neg (by simp [h1]), if_pos h2]
        simp only [List.any_eq_true, Bool.not_eq_true'] at h2
        obtain ⟨d, hd, hn⟩ := h2
        constructor
        · intro h; cases h
        · rintro ⟨_, hall⟩
          have := (isAsciiAlnum_iff d).mpr (hall d hd)
          rw [hn] at this; cases this
      · rw [if_neg (by simp [h1]), if_neg h2]
        refine ⟨fun _ => ⟨⟨c, rest, rfl, (isAsciiUpper_iff c).mp h1⟩, fun d hd => ?_⟩, fun _ => rfl⟩
        apply (isAsciiAlnum_iff d).mp
        cases hn : isAsciiAlnum d with
        | true => rfl
        | false =>
          exfalso
          apply h2
          rw [List.any_eq_true]
          exact ⟨d, hd, by simp [hn]⟩
    · rw [if_pos (by simpa using h1)]
      constructor
      · intro h; cases h
      · rintro ⟨⟨d, r, e, hd⟩, _⟩
        injection e with e1 e2
        subst e1
        exact absurd ((isAsciiUpper_iff _).mpr hd) h1

/-- A string that is not accepted gives an error, never a different string. -/
theorem C58_unchanged (s t : List Char) (h : pascalCase s = .ok t) : t = s := by
  cases s with
  | nil => simp [pascalCase] at h
  | cons c rest =>
    simp only [pascalCase] at h
    split at h
    · cases h
    · split at h
      · cases h
      · injection h with h; exact h.symm

/-- Which error is reported. -/
theorem C58_errors (s : List Char) (e : NameError) (h : pascalCase s = .error e) :
    match e with
    | .empty => s = []
    | .notUppercase => ∃ c rest, s = c :: rest ∧ c ∉ upperLetters
    | .notAlphanumeric => ∃ c ∈ s, c ∉ alphanumerics := by
  cases s with
  | nil => simp [pascalCase] at h; subst h; rfl
  | cons c rest =>
    simp only [pascalCase] at h
    split at h
    · rename_i hu
      cases h
      exact ⟨c, rest, rfl, fun hm => by rw [(isAsciiUpper_iff c).mpr hm] at hu; simp at hu⟩
    · split at h
      · rename_i ha
        cases h
        rw [List.any_eq_true] at ha
        obtain ⟨d, hd, hn⟩ := ha
        exact ⟨d, hd, fun hm => by rw [(isAsciiAlnum_iff d).mpr hm] at hn; simp at hn⟩
      · cases h

/-- Registering: a name is found exactly if it was registered, with the factory registered last under it; other names are not affected. -/
theorem C58_register {X : Type} (r : Registry X) (name other : List Char) (x : X) :
    (r.register name x).get other = if other = name then some x else r.get other := by
  simp only [Registry.register, Registry.get, List.lookup_cons]
  by_cases h : other = name
  · simp [h]
  · have e : (other == name) = false := by simpa using h
    rw [e, if_neg h]
    simp only
    induction r.entries with
    | nil => rfl
    | cons y l ih =>
      rw [List.filter_cons]
      by_cases hy : y.1 = name
      · have e2 : (y.1 != name) = false := by simp [hy]
        have e3 : (other == y.1) = false := by rw [hy]; exact e
        rw [e2, List.lookup_cons, e3]
        exact ih
      · have e2 : (y.1 != name) = true := by simp [hy]
        rw [e2]
        simp only [if_true]
        rw [List.lookup_cons, List.lookup_cons, ih]

/-- Every built-in reduction has an accepted name, under which the registry finds it; every other name is unknown. -/
theorem C58_registered (f : FactoryId) : pascalCase f.typename = .ok f.typename ∧ reductionRegistry.get f.typename = some f := by
  cases f <;> exact ⟨rfl, by decide +kernel⟩

theorem C58_unknown (name : List Char) (h : ∀ f : FactoryId, name ≠ f.typename) : reductionRegistry.get name = none := by
  simp only [reductionRegistry, List.foldl, C58_register]
  rw [if_neg (h .elementwise), if_neg (h .softmax), if_neg (h .squareCb), if_neg (h .debug), if_neg (h .greedy), if_neg (h .cbAdf),
    if_neg (h .binary), if_neg (h .coin)]
  rfl

/-- Accepted and rejected names exist. -/
example : pascalCase "CbAdf2".toList = .ok "CbAdf2".toList ∧ pascalCase "cbAdf".toList = .error .notUppercase ∧
    pascalCase "Cb_Adf".toList = .error .notAlphanumeric ∧ pascalCase "Äb".toList = .error .notUppercase := ⟨rfl, rfl, rfl, rfl⟩

end Rml
