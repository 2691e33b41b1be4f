import Verif.Model.Schema
import Verif.SpecConfig

/-! Specification vocabulary for C83: what a JSON schema says about documents (JSON Schema, draft 07), and what the schema for configurations leaves
open. -/

namespace Rml
open Cfg
variable {F : Type} [Flt F]

namespace JsonSchema

/-- The document has the type. `whole` tells which numbers with a decimal point are integers, like 2.0. -/
def HasType (whole : F → Prop) : JType → Doc F → Prop
  | .null, j => j = .null
  | .boolean, j => ∃ b, j = .bool b
  | .object, j => ∃ l, j = .obj l
  | .array, j => ∃ l, j = .arr l
  | .number, j => ∃ n, j = .num n
  | .integer, j => (∃ n, j = .num (.nat n)) ∨ ∃ x, j = .num (.flt x) ∧ whole x
  | .string, j => ∃ s, j = .str s

/-- The document satisfies a schema, where at most `n` levels and references are followed. Keywords for one type of documents say nothing about
other documents. The only pattern that occurs is `.*`, which every string matches. -/
def Accepts (whole : F → Prop) (defs : List (String × Schema)) : Nat → Schema → Doc F → Prop
  | 0, _, _ => False
  | n + 1, s, j =>
    match s.ref with
    | some r => ∃ s', defs.lookup r = some s' ∧ Accepts whole defs n s' j
    | none =>
      (s.type = [] ∨ ∃ t ∈ s.type, HasType whole t j) ∧
      (∀ l, s.enum = some l → ∃ x ∈ l, j = .str x.toList) ∧
      (∀ x, s.const = some x → j = .str x.toList) ∧
      (∀ p, s.pattern = some p → ∀ t, j = .str t → p = ".*") ∧
      (∀ m x, s.minimum = some m → j = .num (.flt x) → Flt.le (Flt.ofNat m) x = true) ∧
      (∀ m k, s.minimum = some m → j = .num (.nat k) → m ≤ k) ∧
      (∀ l, j = .obj l → ∀ k ∈ s.required, ∃ v, Has j k v) ∧
      (∀ p ∈ s.properties, ∀ v, Has j p.1 v → Accepts whole defs n p.2 v) ∧
      (s.additional = false → ∀ l, j = .obj l → ∀ e ∈ l, ∃ p ∈ s.properties, e.1 = p.1.toList) ∧
      (∀ i, s.items = some i → ∀ l, j = .arr l → ∀ v ∈ l, Accepts whole defs n i v) ∧
      (∀ a ∈ s.allOf, Accepts whole defs n a j) ∧
      (∀ l, s.oneOf = some l → (∃ a ∈ l, Accepts whole defs n a j) ∧ l.Pairwise fun a b => ¬ (Accepts whole defs n a j ∧ Accepts whole defs n b j))

/-- The document is valid: it satisfies the schema, when levels and references are followed far enough. -/
def Valid (whole : F → Prop) (r : Root) (j : Doc F) : Prop := ∃ n, ∀ m ≥ n, Accepts whole r.defs m r.schema j

end JsonSchema

namespace Cfg

/-- Every reduction in the stack has only the keys `typename` and `config`, and `config` is not `null`. -/
inductive Tidy : Doc F → Prop
  | mk {j} : OnlyKeys j ["typename", "config"] → ¬ Has j "config" .null →
      (∀ s k v, Has j "config" s → k ∈ ["regressor", "cbAdf", "next"] → Has s k v → Tidy v) → Tidy j

/-- What the schema does not require: every reduction in the stack has a `typename`, Debug has `next`, and `indent` is a 64 bit integer, written without
decimal point. -/
inductive Complete : Doc F → Prop
  | mk {j} : (∃ t, Has j "typename" t) → (Has j "typename" (.str "Debug".toList) → ∃ s v, Has j "config" s ∧ Has s "next" v) →
      (∀ s v, Has j "config" s → Has s "indent" v → ∃ n, IsNat 64 v n) →
      (∀ s k v, Has j "config" s → k ∈ ["regressor", "cbAdf", "next"] → Has s k v → Complete v) → Complete j

/-- What the schema does not require of the rest of a configuration: `$schema` is a string or `null`, `numBits` has 8 and `hashSeed` 32 bits, and both are
written without decimal point. -/
structure CompleteRest (j : Doc F) : Prop where
  schema : ∀ v, Has j "$schema" v → v = .null ∨ ∃ s, v = .str s
  numBits : ∀ g v, Has j "globalConfig" g → Has g "numBits" v → ∃ n, IsNat 8 v n
  hashSeed : ∀ g v, Has j "globalConfig" g → Has g "hashSeed" v → ∃ n, IsNat 32 v n

mutual
/-- No object in the document has a key twice (`serde_json` keeps the last one). -/
def UniqueKeys : Doc F → Prop
  | .obj l => (l.map (·.1)).Nodup ∧ UniqueEntries l
  | .arr l => UniqueList l
  | _ => True
/-- In a list of documents. -/
def UniqueList : List (Doc F) → Prop
  | [] => True
  | v :: l => UniqueKeys v ∧ UniqueList l
/-- In the values of an object. -/
def UniqueEntries : List (List Char × Doc F) → Prop
  | [] => True
  | (_, v) :: l => UniqueKeys v ∧ UniqueEntries l
end

end Cfg
end Rml
