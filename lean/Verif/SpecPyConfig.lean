import Verif.SpecConfig

/-! Vocabulary of C114: the types `Config`, `GlobalConfig`, `EntryReductionConfig` and `Interaction` of the Python package
(`reductionml-python/python/reductionml/__init__.py:52-79`). -/

namespace Rml
namespace Cfg
variable {F : Type}

/-- `Interaction = Union[Literal["Default"], NameInteraction]`, where `NameInteraction` has the key `name`. -/
inductive PyInteraction : Doc F → Prop
  | default : PyInteraction (.str "Default".toList)
  | name (s : List Char) : PyInteraction (.obj [("name".toList, .str s)])

/-- A `NotRequired` key: if it is there, its value has the type. -/
def NotRequired (j : Doc F) (k : String) (Ty : Doc F → Prop) : Prop := ∀ v, Has j k v → Ty v

/-- `GlobalConfig`. Python integers have no range; here they have the ranges of the settings, in bits. -/
structure PyGlobal (j : Doc F) : Prop where
  keys : OnlyKeys j ["numBits", "hashSeed", "constantFeatureEnabled", "interactions"]
  numBits : NotRequired j "numBits" (fun v => ∃ n, IsNat 8 v n)
  hashSeed : NotRequired j "hashSeed" (fun v => ∃ n, IsNat 32 v n)
  constant : NotRequired j "constantFeatureEnabled" (fun v => ∃ b, IsBool v b)
  interactions : NotRequired j "interactions" (fun v => ∃ l, v = .arr l ∧ ∀ i ∈ l, PyInteraction i)

/-- `EntryReductionConfig`. -/
structure PyEntry (j : Doc F) : Prop where
  keys : OnlyKeys j ["config", "typename"]
  typename : ∃ s, Has j "typename" (.str s)
  config : NotRequired j "config" (fun v => ∃ l, v = .obj l)

/-- `Config`. -/
structure PyConfig (j : Doc F) : Prop where
  keys : OnlyKeys j ["globalConfig", "entryReduction"]
  global : ∃ g, Has j "globalConfig" g ∧ PyGlobal g
  entry : ∃ e, Has j "entryReduction" e ∧ PyEntry e

/-- No interactions are configured. -/
def NoInteractions (j : Doc F) : Prop := ∀ g l, Has j "globalConfig" g → Has g "interactions" (.arr l) → l = []

end Cfg
end Rml
