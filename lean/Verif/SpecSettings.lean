import Verif.Model.Factory

/-! Vocabulary of C115: configurations that differ only in the values of numeric settings. -/

namespace Rml
variable {F : Type}

/-- The same stack with the same choices of types, namespaces and flags. Every number may differ, and the losses and links of the regressors. -/
inductive SameStack : RedConfig F → RedConfig F → Prop
  | coin (k k' : CoinConfig F) : SameStack (.coin k) (.coin k')
  | binary {c c'} : SameStack c c' → SameStack (.binary c) (.binary c')
  | cbAdf {c c'} (ty : CBType) : SameStack c c' → SameStack (.cbAdf ty c) (.cbAdf ty c')
  | greedy {c c'} (eps eps' : F) : SameStack c c' → SameStack (.greedy eps c) (.greedy eps' c')
  | softmax {c c'} (eps eps' lambda lambda' : F) : SameStack c c' → SameStack (.softmax eps lambda c) (.softmax eps' lambda' c')
  | squareCb {c c'} (eps eps' scale scale' exponent exponent' : F) : SameStack c c' →
      SameStack (.squareCb eps scale exponent c) (.squareCb eps' scale' exponent' c')
  | debug {c c'} : SameStack c c' → SameStack (.debug c) (.debug c')
  | elementwise {c c'} (one two : NamespaceDef) (keep : Bool) : SameStack c c' → SameStack (.elementwise one two keep c) (.elementwise one two keep c')

end Rml
