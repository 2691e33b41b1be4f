import Verif.Model.Weights
import Mathlib.Logic.Basic

/-! C15, C16: the interaction configuration. -/

namespace Rml

/-- Specification: the namespace a configuration entry names. -/
abbrev nsOf (hash : HashFn) (seed : U32) : NamespaceDef → Namespace
  | .name s => .named (hash s seed)
  | .default => .default

/-- Specification: the pairs among the configured interactions, in order. -/
def specPairs (hash : HashFn) (seed : U32) : List (List NamespaceDef) → List (Namespace × Namespace)
  | [] => []
  | [a, b] :: is => (nsOf hash seed a, nsOf hash seed b) :: specPairs hash seed is
  | _ :: is => specPairs hash seed is

/-- Specification: the triples among the configured interactions, in order. -/
def specTriples (hash : HashFn) (seed : U32) : List (List NamespaceDef) → List (Namespace × Namespace × Namespace)
  | [] => []
  | [a, b, c] :: is => (nsOf hash seed a, nsOf hash seed b, nsOf hash seed c) :: specTriples hash seed is
  | _ :: is => specTriples hash seed is

theorem toNamespace_eq (hash : HashFn) (seed : U32) (d : NamespaceDef) : d.toNamespace hash seed = nsOf hash seed d := by
  cases d <;> rfl

theorem pairs_eq (hash : HashFn) (seed : U32) : ∀ is : List (List NamespaceDef),
    (is.filter (fun i => i.length == 2)).mapM (compilePair hash seed) = .ok (specPairs hash seed is)
  | [] => rfl
  | [] :: is => by simpa [specPairs] using pairs_eq hash seed is
  | [_] :: is => by simpa [specPairs] using pairs_eq hash seed is
  | [a, b] :: is => by
    have ih := pairs_eq hash seed is
    simp only [List.length_cons, List.length_nil, Nat.zero_add, Nat.reduceAdd, beq_self_eq_true, List.filter_cons_of_pos,
      List.mapM_cons, ih, specPairs, bind, Except.bind, pure, Except.pure]
    simp [compilePair, hashInteraction, bind, Except.bind, toNamespace_eq]
  | (_ :: _ :: _ :: _) :: is => by simpa [specPairs] using pairs_eq hash seed is

theorem triples_eq (hash : HashFn) (seed : U32) : ∀ is : List (List NamespaceDef),
    (is.filter (fun i => i.length == 3)).mapM (compileTriple hash seed) = .ok (specTriples hash seed is)
  | [] => rfl
  | [] :: is => by simpa [specTriples] using triples_eq hash seed is
  | [_] :: is => by simpa [specTriples] using triples_eq hash seed is
  | [_, _] :: is => by simpa [specTriples] using triples_eq hash seed is
  | [a, b, c] :: is => by
    have ih := triples_eq hash seed is
    simp only [List.length_cons, List.length_nil, Nat.zero_add, Nat.reduceAdd, beq_self_eq_true, List.filter_cons_of_pos,
      List.mapM_cons, ih, specTriples, bind, Except.bind, pure, Except.pure]
    simp [compileTriple, hashInteraction, bind, Except.bind, toNamespace_eq]
  | (_ :: _ :: _ :: _ :: _) :: is => by simpa [specTriples] using triples_eq hash seed is

theorem spec_lengths (hash : HashFn) (seed : U32) : ∀ is : List (List NamespaceDef),
    (specPairs hash seed is).length + (specTriples hash seed is).length ≤ is.length ∧
    ((specPairs hash seed is).length + (specTriples hash seed is).length = is.length ↔
      ∀ i ∈ is, i.length = 2 ∨ i.length = 3)
  | [] => by simp [specPairs, specTriples]
  | [] :: is => by
    have ih := spec_lengths hash seed is
    simp [specPairs, specTriples]; omega
  | [_] :: is => by
    have ih := spec_lengths hash seed is
    simp [specPairs, specTriples]; omega
  | [_, _] :: is => by
    have ih := spec_lengths hash seed is
    simp only [specPairs, specTriples, List.length_cons, List.mem_cons, forall_eq_or_imp, List.length_nil]
    simp only [Nat.zero_add, true_or, true_and, Nat.reduceAdd]
    rw [← ih.2]; omega
  | [_, _, _] :: is => by
    have ih := spec_lengths hash seed is
    simp only [specPairs, specTriples, List.length_cons, List.mem_cons, forall_eq_or_imp, List.length_nil]
    simp only [Nat.zero_add, or_true, true_and, Nat.reduceAdd]
    rw [← ih.2]; omega
  | (_ :: _ :: _ :: _ :: _) :: is => by
    have ih := spec_lengths hash seed is
    simp [specPairs, specTriples]; omega

/-- C15. `compile_interactions` returns a result exactly if every interaction has two or three namespaces, and then the result is
all pairs and all triples, in order, with the namespaces the user named; otherwise it panics. -/
theorem C15_compile_interactions (hash : HashFn) (seed : U32) (is : List (List NamespaceDef)) :
    ((∀ i ∈ is, i.length = 2 ∨ i.length = 3) ∧
      compileInteractions hash seed is = .ok (specPairs hash seed is, specTriples hash seed is)) ∨
    ((∃ i ∈ is, i.length ≠ 2 ∧ i.length ≠ 3) ∧ ∃ e, compileInteractions hash seed is = .error e) := by
  have hl := spec_lengths hash seed is
  have hc : compileInteractions hash seed is =
      if (specPairs hash seed is).length + (specTriples hash seed is).length ≠ is.length then .error .explicit
      else .ok (specPairs hash seed is, specTriples hash seed is) := by
    unfold compileInteractions
    rw [pairs_eq, triples_eq]
    rfl
  by_cases h : ∀ i ∈ is, i.length = 2 ∨ i.length = 3
  · left
    refine ⟨h, ?_⟩
    rw [hc, if_neg (by rw [hl.2.2 h]; simp)]
  · right
    refine ⟨?_, .explicit, ?_⟩
    · simp only [not_forall, not_or] at h
      obtain ⟨i, hi, hh⟩ := h
      exact ⟨i, hi, hh⟩
    · rw [hc, if_pos (fun e => h (hl.2.1 e))]

example : compileInteractions (fun s k => k + s.length) 0#32 [[.name ['a'], .default], [.default, .name ['b', 'c'], .default]] =
    .ok ([(.named 1#32, .default)], [(.default, .named 2#32, .default)]) ∧
    compileInteractions (fun s k => k + s.length) 0#32 [[.name ['a']]] = .error .explicit := ⟨rfl, rfl⟩

/-- C16 (for every name that is not an alias of the default namespace): a configured name resolves to the namespace that the parsers
fill for the same name, and the configured default is the parsers' default.
Missing from the full property: names that the parsers treat as the default namespace, for which it is false
(`C16_default_alias_false`). -/
theorem C16_same_namespace_partial (hash : HashFn) (seed : U32) (s : List Char) (h1 : s ≠ " ".toList)
    (h2 : s ≠ ":default".toList) :
    (NamespaceDef.name s).toNamespace hash seed = Namespace.fromName hash s seed ∧
      NamespaceDef.default.toNamespace hash seed = Namespace.fromName hash ":default".toList seed := by
  constructor
  · unfold Namespace.fromName; rw [if_neg h1, if_neg h2]; rfl
  · unfold Namespace.fromName; rw [if_neg (by decide), if_pos rfl]; rfl

/-- C16 fails for `":default"` and `" "` given as names in the configuration, for every hash function and seed. -/
theorem C16_default_alias_false (hash : HashFn) (seed : U32) :
    (NamespaceDef.name ":default".toList).toNamespace hash seed ≠ Namespace.fromName hash ":default".toList seed ∧
      (NamespaceDef.name " ".toList).toNamespace hash seed ≠ Namespace.fromName hash " ".toList seed := by
  constructor
  · unfold Namespace.fromName; rw [if_neg (by decide), if_pos rfl]; simp [NamespaceDef.toNamespace]
  · unfold Namespace.fromName; rw [if_pos rfl]; simp [NamespaceDef.toNamespace]

/-- Two different configured namespaces never collide unless their hashes do. -/
theorem C16_resolution_injective (hash : HashFn) (seed : U32) (s t : List Char) :
    (NamespaceDef.name s).toNamespace hash seed = (NamespaceDef.name t).toNamespace hash seed ↔ hash s seed = hash t seed := by
  simp [NamespaceDef.toNamespace]

end Rml
