import Verif.Model.Base

/-
JSON documents, as the code sees them through `serde_json::Value` and `serde_json_borrow::Value`.
-/

namespace Rml

/-- A JSON value (`serde_json::Value`, `serde_json_borrow::Value`; external crates), over a type `N` of numbers. Strings are lists of
characters; an object is the list of its entries. Parsing of JSON text itself is external and not modelled. -/
inductive Json (N : Type) where
  | null
  | bool (b : Bool)
  | num (n : N)
  | str (s : List Char)
  | arr (l : List (Json N))
  | obj (l : List (List Char × Json N))

namespace Json
variable {N : Type}

/-- The value of the first entry with the key; `none` if there is none or the value is not an object. -/
def get? (k : String) : Json N → Option (Json N)
  | .obj l => l.lookup k.toList
  | _ => none

/-- `map.contains_key(k)`. -/
def hasKey (k : String) (l : List (List Char × Json N)) : Bool := (l.lookup k.toList).isSome

end Json

/-- Decimal digits of a number, least significant first; `fuel` above the number is enough. -/
def digitsRev : Nat → Nat → List Nat
  | 0, _ => []
  | fuel + 1, n => if n < 10 then [n] else n % 10 :: digitsRev fuel (n / 10)

/-- `u32::to_string`: how `serde_json` writes an integer map key. External. -/
def showNat (n : Nat) : List Char := ((digitsRev (n + 1) n).reverse).map fun d => Char.ofNat (48 + d)

/-- The value of a decimal digit. -/
def digitVal? (c : Char) : Option Nat := if 48 ≤ c.toNat ∧ c.toNat ≤ 57 then some (c.toNat - 48) else none

/-- `str::parse` for an unsigned integer (without the optional `+`), used by `serde_json` to read an integer map key. External. -/
def readNat (s : List Char) : Option Nat :=
  if s.isEmpty then none
  else s.foldl (fun acc c => do let a ← acc; let d ← digitVal? c; some (10 * a + d)) (some 0)

end Rml
