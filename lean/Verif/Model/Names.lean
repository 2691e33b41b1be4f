import Verif.Model.Factory

/-
`PascalCaseString` and the registry: `reduction_factory.rs:69-116, 179-204` and `reduction_registry.rs`.
-/

namespace Rml

/-- The three errors of `PascalCaseString::try_from` (`reduction_factory.rs:76-90`). -/
inductive NameError where
  | empty
  | notUppercase
  | notAlphanumeric
  deriving DecidableEq, Repr

/-- `char::is_ascii_uppercase` (standard library). -/
def isAsciiUpper (c : Char) : Bool := 65 ≤ c.toNat && c.toNat ≤ 90

/-- `char::is_ascii_alphanumeric` (standard library). -/
def isAsciiAlnum (c : Char) : Bool :=
  (65 ≤ c.toNat && c.toNat ≤ 90) || (97 ≤ c.toNat && c.toNat ≤ 122) || (48 ≤ c.toNat && c.toNat ≤ 57)

/-- `PascalCaseString::try_from` (`reduction_factory.rs:75-116`, the same code for `String` and `&str`). -/
def pascalCase (value : List Char) : Except NameError (List Char) :=
  match value with
  | [] => .error .empty
  | c :: _ =>
    if !isAsciiUpper c then .error .notUppercase
    else if value.any (fun c => !isAsciiAlnum c) then .error .notAlphanumeric
    else .ok value

/-- `ReductionRegistry` (`reduction_registry.rs:29-32`): a map from type names to factories, here any type `X`. -/
structure Registry (X : Type) where
  entries : List (List Char × X)

/-- `ReductionRegistry::register` (`reduction_registry.rs:37-40`): `BTreeMap::insert` replaces. -/
def Registry.register {X : Type} (r : Registry X) (name : List Char) (x : X) : Registry X :=
  ⟨(name, x) :: r.entries.filter (fun e => e.1 != name)⟩

/-- `ReductionRegistry::get` (`reduction_registry.rs:42-44`). -/
def Registry.get {X : Type} (r : Registry X) (name : List Char) : Option X := r.entries.lookup name

/-- The factories (`reduction_registry.rs:18-25`). -/
inductive FactoryId where
  | coin | binary | cbAdf | greedy | debug | squareCb | softmax | elementwise
  deriving DecidableEq, Repr

/-- The type names passed to `impl_default_factory_functions!` (`reductions/coin.rs:154`, `binary.rs:55`, `cb_adf.rs:83`,
`cb_explore_adf_greedy.rs:60`, `debug.rs:77`, `cb_explore_adf_squarecb.rs:78`, `cb_explore_adf_softmax.rs:69`,
`elementwise_interaction.rs:75`). -/
def FactoryId.typename : FactoryId → List Char
  | .coin => "Coin".toList
  | .binary => "Binary".toList
  | .cbAdf => "CbAdf".toList
  | .greedy => "CbExploreAdfGreedy".toList
  | .debug => "Debug".toList
  | .squareCb => "CbExploreAdfSquareCb".toList
  | .softmax => "CbExploreAdfSoftmax".toList
  | .elementwise => "ElementwiseInteraction".toList

/-- `REDUCTION_REGISTRY` (`reduction_registry.rs:16-27`). -/
def reductionRegistry : Registry FactoryId :=
  [FactoryId.coin, .binary, .cbAdf, .greedy, .debug, .squareCb, .softmax, .elementwise].foldl (fun r f => r.register f.typename f) ⟨[]⟩

end Rml
