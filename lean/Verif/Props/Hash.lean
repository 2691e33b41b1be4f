import Verif.Lemmas.Visit
import Verif.Lemmas.SpecHash
import Mathlib.Data.List.Forall2

/-! C01, C02, C03: hashes and indices. -/

namespace Rml
variable {F : Type} [Flt F]

/-- C01. Every feature visited by a pass (own features, quadratics, cubics, constant) has an index below `2 ^ numBits`,
when the example's own features have. -/
theorem C01_index_in_range (c : PassCfg) (f : SparseFeatures F) (hb : c.numBits ≤ 31)
    (hf : ∀ iv ∈ f.allFeatures, iv.1.toNat < 2 ^ c.numBits) :
    ∀ iv ∈ visited c f, iv.1.toNat < 2 ^ c.numBits := by
  intro iv hiv
  simp only [visited, List.mem_append, List.mem_flatMap] at hiv
  rcases hiv with ((h | ⟨p, _, h⟩) | ⟨p, _, h⟩) | h
  · exact hf iv h
  · exact quadVisit_lt (by omega) f p iv h
  · exact cubicVisit_lt (by omega) f p iv h
  · unfold constVisit at h
    split at h
    · simp at h; subst h; exact constantFeatureIndex_lt (by omega)
    · simp at h

/-- The bound of C01 is sharp for the interaction features: without masking they would leave the table. -/
example : (pairIndex 3#32 5#32).toNat ≥ 2 ^ 18 ∧ (lowBits 18 (pairIndex 3#32 5#32)).toNat < 2 ^ 18 := by decide

theorem chain_mask {n : Nat} (h : n < 32) : ∀ (l : List U32) (a a' : U32), maskIdx n a = maskIdx n a' →
    maskIdx n (chainIndex a (l.map (maskIdx n))) = maskIdx n (chainIndex a' l)
  | [], _, _, e => e
  | t :: l, a, a', e => by
    have := chain_mask h l (pairIndex a (maskIdx n t)) (pairIndex a' t) (by
      unfold pairIndex
      exact maskIdx_xor_congr (maskIdx_mul_congr h e) (maskIdx_idem h t))
    exact this

theorem fold_chain : ∀ (l : List U32) (a x : U32),
    l.dropLast.foldl (fun h t => FNV_PRIME * (h ^^^ t)) (FNV_PRIME * a) ^^^ l.getLastD x = chainIndex a l ∨ l = []
  | [], _, _ => .inr rfl
  | [b], a, x => .inl rfl
  | b :: c :: l, a, x => by
    rcases fold_chain (c :: l) (pairIndex a b) x with h | h
    · left
      rw [List.dropLast_cons_cons, List.foldl_cons, List.getLastD_cons]
      have e : chainIndex a (b :: c :: l) = chainIndex (pairIndex a b) (c :: l) := rfl
      rw [e, ← h]
      rfl
    · cases h

theorem hashList_ok {hash : HashFn} {dbg : Bool} {seed : U32} {ts : List Feature} {hs : List U32}
    (h : List.Forall₂ (fun t h => t.hash hash dbg seed = .ok h) ts hs) : Feature.hashList hash dbg seed ts = .ok hs := by
  induction h with
  | nil => rfl
  | cons h1 _ ih => rw [Feature.hashList, h1, ih]; rfl

/-- C02. The inverse hash table's hash of an interaction of two or more features is the interaction index of the hashes of the features; and computing the
interaction index from hashes that are already reduced to `n` bits, as the indices of an example are, gives the same `n`-bit index. -/
theorem C02_interaction (hash : HashFn) (dbg : Bool) (seed : U32) (n : Nat) (hn : n ≤ 31) (t1 t2 : Feature) (ts : List Feature) (h1 h2 : U32)
    (hs : List U32) (e : List.Forall₂ (fun t h => t.hash hash dbg seed = .ok h) (t1 :: t2 :: ts) (h1 :: h2 :: hs)) :
    (Feature.interacted (t1 :: t2 :: ts)).hash hash dbg seed = .ok (chainIndex h1 (h2 :: hs)) ∧
      lowBits n (chainIndex (lowBits n h1) ((h2 :: hs).map (lowBits n))) = lowBits n (chainIndex h1 (h2 :: hs)) := by
  constructor
  · rw [Feature.hash, hashList_ok e]
    simp only [bind, Except.bind, combineTerms, interactedHash]
    rcases fold_chain (h2 :: hs) h1 0#32 with h | h
    · rw [h]
    · cases h
  · rw [lowBits_eq]
    exact chain_mask (by omega) _ _ _ (maskIdx_idem (by omega) h1)

/-- C02 for the indices of quadratic interactions (see C13 for which these are). -/
theorem C02_quadratic_index (hash : HashFn) (dbg : Bool) (seed : U32) (n : Nat) (hn : n ≤ 31) (t1 t2 : Feature)
    (h1 h2 : U32) (e1 : t1.hash hash dbg seed = .ok h1) (e2 : t2.hash hash dbg seed = .ok h2) :
    ∃ h, (Feature.interacted [t1, t2]).hash hash dbg seed = .ok h ∧
      lowBits n (pairIndex (lowBits n h1) (lowBits n h2)) = lowBits n h :=
  ⟨_, C02_interaction hash dbg seed n hn t1 t2 [] h1 h2 [] (.cons e1 (.cons e2 .nil))⟩

/-- C02 for the indices of cubic interactions (see C14 for which these are). -/
theorem C02_cubic_index (hash : HashFn) (dbg : Bool) (seed : U32) (n : Nat) (hn : n ≤ 31) (t1 t2 t3 : Feature)
    (h1 h2 h3 : U32) (e1 : t1.hash hash dbg seed = .ok h1) (e2 : t2.hash hash dbg seed = .ok h2)
    (e3 : t3.hash hash dbg seed = .ok h3) :
    ∃ h, (Feature.interacted [t1, t2, t3]).hash hash dbg seed = .ok h ∧
      lowBits n (tripleIndex (lowBits n h1) (lowBits n h2) (lowBits n h3)) = lowBits n h :=
  ⟨_, C02_interaction hash dbg seed n hn t1 t2 [t3] h1 h2 [h3] (.cons e1 (.cons e2 (.cons e3 .nil)))⟩

/-- Reducing at different places gives the same index although the 32-bit hashes differ. -/
example : lowBits 4 (chainIndex (lowBits 4 0xdeadbeef#32) ([0x12345678#32, 77#32].map (lowBits 4))) =
    lowBits 4 (chainIndex 0xdeadbeef#32 [0x12345678#32, 77#32]) ∧
    chainIndex (lowBits 4 0xdeadbeef#32) ([0x12345678#32, 77#32].map (lowBits 4)) ≠ chainIndex 0xdeadbeef#32 [0x12345678#32, 77#32] := by decide

example : ∃ h, (Feature.interacted [.simple ['a'] ['x'], .anonymous ['b'] 3#32]).hash (fun s k => k * 31#32 + s.length)
    true 7#32 = .ok h ∧ lowBits 5 (pairIndex (lowBits 5 6759#32) (lowBits 5 221#32)) = lowBits 5 h := by
  exact C02_quadratic_index _ _ _ 5 (by decide) _ _ 6759#32 221#32 (by decide) (by decide)

/-- C03 (for every namespace name that is not an alias of the default namespace): the feature object built from a parsed
feature hashes to the same value as the parser uses, for any hash function.
Missing from the full property: the default namespace, for which it is false (`C03_default_namespace_false`). -/
theorem C03_inverse_hash_partial (hash : HashFn) (dbg : Bool) (seed : U32) (ns : List Char) (pf : ParsedFeature)
    (h1 : ns ≠ " ".toList) (h2 : ns ≠ ":default".toList) :
    (Feature.ofParsed ns pf).hash hash dbg seed = pf.hash hash dbg (Namespace.fromName hash ns seed).hash := by
  have : (Namespace.fromName hash ns seed).hash = hash ns seed := by
    unfold Namespace.fromName
    rw [if_neg h1, if_neg h2]; rfl
  rw [this]
  cases pf <;> simp [Feature.ofParsed, Feature.hash, ParsedFeature.hash]

example : "color".toList ≠ " ".toList ∧ "color".toList ≠ ":default".toList := by decide

/-- C03 fails for the default namespace: there is a hash function (already the length of the text does) for which the name
object of a default-namespace feature hashes differently from what the parser uses. -/
theorem C03_default_namespace_false :
    ¬ ∀ (hash : HashFn) (dbg : Bool) (seed : U32) (ns : List Char) (pf : ParsedFeature),
      (Feature.ofParsed ns pf).hash hash dbg seed = pf.hash hash dbg (Namespace.fromName hash ns seed).hash := by
  intro h
  have := h (fun s k => BitVec.ofNat 32 s.length + k) true 0#32 ":default".toList (.simple ['x'])
  revert this
  decide

/-- What does hold for the default namespace, for every hash function: the two agree exactly when hashing the name with the
text's own hash gives the same result as hashing it with 0. -/
theorem C03_default_namespace_iff (hash : HashFn) (dbg : Bool) (seed : U32) (name : List Char) :
    (Feature.ofParsed ":default".toList (.simple name)).hash hash dbg seed =
        (ParsedFeature.simple name).hash hash dbg (Namespace.fromName hash ":default".toList seed).hash ↔
      hash name (hash ":default".toList seed) = hash name 0#32 := by
  have e : (Namespace.fromName hash ":default".toList seed).hash = 0#32 := by
    unfold Namespace.fromName
    rw [if_neg (by decide), if_pos rfl]; rfl
  rw [e]
  simp [Feature.ofParsed, Feature.hash, ParsedFeature.hash]

end Rml
