import Verif.Model.Hash

/-
`inverse_hash_table.rs` and `parsers.rs:13-32`.
-/

namespace Rml

/-- `ParsedFeature` (`parsers.rs:13-17`). -/
inductive ParsedFeature where
  | simple (name : List Char)
  | simpleWithStringValue (name value : List Char)
  | anonymous (offset : U32)
  deriving DecidableEq, Repr

/-- `u32` addition with the overflow check of the debug profile. -/
def addChecked (dbg : Bool) (a b : U32) : M U32 :=
  if dbg && decide (2 ^ 32 ≤ a.toNat + b.toNat) then .error .overflow else .ok (a + b)

/-- `ParsedFeature::hash` (`parsers.rs:19-32`). -/
def ParsedFeature.hash (hash : HashFn) (dbg : Bool) (nsHash : U32) : ParsedFeature → M U32
  | .simple name => .ok (hash name nsHash)
  | .simpleWithStringValue name value => .ok (hash value (hash name nsHash))
  | .anonymous offset => addChecked dbg nsHash offset

/-- `Feature` (`inverse_hash_table.rs:9-31`). -/
inductive Feature where
  | simple (ns name : List Char)
  | simpleWithStringValue (ns name value : List Char)
  | anonymous (ns : List Char) (offset : U32)
  | interacted (terms : List Feature)
  deriving Repr

/-- The loop over hashed terms for an interacted feature (`inverse_hash_table.rs:56-62`): first term, middle terms, last term.
`FNV_PRIME.wrapping_mul` is 32-bit multiplication. -/
def interactedHash (first : U32) (middle : List U32) (last : U32) : U32 :=
  (middle.foldl (fun h t => FNV_PRIME * (h ^^^ t)) (FNV_PRIME * first)) ^^^ last

/-- `terms.first().unwrap()`, `terms[1..len-1]`, `terms.last().unwrap()` on the hashed terms
(`inverse_hash_table.rs:56-62`): a single term makes the slice `[1..0]` panic, no term makes `unwrap` panic. -/
def combineTerms : List U32 → M U32
  | [] => .error .unwrap
  | [_] => .error .index
  | first :: rest => .ok (interactedHash first rest.dropLast (rest.getLastD 0#32))

mutual
/-- `Feature::hash` (`inverse_hash_table.rs:34-66`). -/
def Feature.hash (hash : HashFn) (dbg : Bool) (seed : U32) : Feature → M U32
  | .simple ns name => .ok (hash name (hash ns seed))
  | .simpleWithStringValue ns name value => .ok (hash value (hash name (hash ns seed)))
  | .anonymous ns offset => addChecked dbg (hash ns seed) offset
  | .interacted terms => do
    let hs ← Feature.hashList hash dbg seed terms
    combineTerms hs

/-- Hashes of all terms in order. -/
def Feature.hashList (hash : HashFn) (dbg : Bool) (seed : U32) : List Feature → M (List U32)
  | [] => .ok []
  | t :: ts => do
    let h ← Feature.hash hash dbg seed t
    let hs ← Feature.hashList hash dbg seed ts
    .ok (h :: hs)
end

/-- `Feature::from_parsed_feature` (`inverse_hash_table.rs:68-84`). -/
def Feature.ofParsed (ns : List Char) : ParsedFeature → Feature
  | .simple name => .simple ns name
  | .simpleWithStringValue name value => .simpleWithStringValue ns name value
  | .anonymous offset => .anonymous ns offset

/-- `InverseHashTable` (`inverse_hash_table.rs:87-103`): the hash map of hash sets as a function from index to the list of
features inserted there (set semantics: only membership is observable). -/
structure InverseHashTable where
  entries : List (U32 × List Feature)

/-- `InverseHashTable::new` (`inverse_hash_table.rs:99-103`). -/
def InverseHashTable.new : InverseHashTable := ⟨[]⟩

/-- `get` (`inverse_hash_table.rs:115-117`). -/
def InverseHashTable.get (t : InverseHashTable) (idx : U32) : Option (List Feature) :=
  (t.entries.find? (fun e => e.1 = idx)).map (·.2)

/-- `insert` (`inverse_hash_table.rs:105-113`). -/
def InverseHashTable.insert (t : InverseHashTable) (idx : U32) (f : Feature) : InverseHashTable :=
  match t.get idx with
  | some _ => ⟨t.entries.map (fun e => if e.1 = idx then (e.1, f :: e.2) else e)⟩
  | none => ⟨t.entries ++ [(idx, [f])]⟩

end Rml
