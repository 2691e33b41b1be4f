import Verif.SpecHash
import Verif.Lemmas.Hash
import Verif.Model.JsonParser

/-! The specification's hashes, indices and lookups are those of the model. -/

namespace Rml

theorem lowBits_eq : lowBits = maskIdx := by
  funext n x
  apply BitVec.eq_of_toNat_eq
  by_cases h : n < 32
  · rw [maskIdx_toNat h, lowBits, BitVec.toNat_ofNat]
    apply Nat.mod_eq_of_lt
    exact Nat.lt_of_le_of_lt (Nat.mod_le _ _) x.isLt
  · have e : maskBits n = BitVec.allOnes 32 := by
      unfold maskBits
      rw [BitVec.shiftLeft_eq_zero (by omega)]
      rfl
    have hx : x.toNat < 2 ^ n := Nat.lt_of_lt_of_le x.isLt (Nat.pow_le_pow_right (by decide) (by omega))
    rw [maskIdx, e, BitVec.and_allOnes, lowBits, Nat.mod_eq_of_lt hx, BitVec.toNat_ofNat, Nat.mod_eq_of_lt x.isLt]

theorem pairIndex_eq (a b : U32) : pairIndex a b = fnvMul a ^^^ b := by rw [fnvMul_eq]; rfl

theorem tripleIndex_eq (a b c : U32) : tripleIndex a b c = fnvMul (fnvMul a ^^^ b) ^^^ c := by
  rw [tripleIndex, pairIndex_eq, pairIndex_eq]

theorem seed_eq : Namespace.seed = Namespace.hash := by funext n; cases n <;> rfl

theorem namespaceOf_eq : namespaceOf = Namespace.fromName := by
  funext h n s
  unfold namespaceOf Namespace.fromName
  by_cases h1 : n = " ".toList
  · rw [if_pos (Or.inr h1), if_pos h1]
  · by_cases h2 : n = ":default".toList
    · rw [if_pos (Or.inl h2), if_neg h1, if_pos h2]
    · rw [if_neg (fun h => h.elim h2 h1), if_neg h1, if_neg h2]

theorem find?_lookup {β : Type} (k : List Char) : ∀ l : List (List Char × β), (l.find? (fun e => e.1 = k)).map (·.2) = l.lookup k
  | [] => rfl
  | (a, b) :: l => by
    rw [List.find?_cons, List.lookup_cons]
    by_cases h : a = k
    · subst h; simp
    · have h' : (k == a) = false := by simpa using fun e => h e.symm
      simp only [h, decide_false, h', find?_lookup k l]

theorem valueOf_eq {N : Type} (k : String) (j : Json N) : valueOf k j = Js.getV k j := by
  cases j with
  | obj l =>
    have h := find?_lookup k.toList l
    simp only [valueOf, Js.getV, Json.get?]
    rw [← h]
    cases l.find? _ <;> rfl
  | _ => rfl

theorem lastValue_eq {N : Type} (k : String) (l : List (List Char × Json N)) : lastValue k l = Js.field k l := by
  have h := find?_lookup k.toList l.reverse
  simp only [lastValue, Js.field]
  rw [← h]
  cases l.reverse.find? _ <;> rfl

end Rml
