import Verif.SpecHash
import Verif.Model.VwText
import Verif.Props.SparseFeatures
import Mathlib.Data.List.Forall2

/-! Specification vocabulary for the theorems about text input. -/

namespace Rml
namespace Text

/-- The code points of the Unicode property `White_Space`. -/
def whiteSpace : List Nat :=
  [0x09, 0x0A, 0x0B, 0x0C, 0x0D, 0x20, 0x85, 0xA0, 0x1680, 0x2000, 0x2001, 0x2002, 0x2003, 0x2004, 0x2005, 0x2006, 0x2007, 0x2008, 0x2009, 0x200A,
    0x2028, 0x2029, 0x202F, 0x205F, 0x3000]

/-- White space. -/
def isSpace (c : Char) : Bool := whiteSpace.contains c.toNat

/-- White space as the Web knows it: tab, line feed, form feed, carriage return, space. -/
def isAsciiSpace (c : Char) : Bool := [0x09, 0x0A, 0x0C, 0x0D, 0x20].contains c.toNat

/-- A line that holds only white space. -/
def blank (l : Str) : Bool := l.all isSpace

/-- `c` is the line without its trailing white space. -/
def Stripped (line c : Str) : Prop :=
  (∃ t, line = c ++ t ∧ ∀ x ∈ t, isSpace x = true) ∧ ∀ x, c.getLast? = some x → isSpace x = false

end Text

namespace Vw
open Text
variable {F : Type} [Flt F]

/-- Contextual bandit examples span several lines, all others are one line each. -/
def SpansLines (pr : Parser F) : Prop := pr.featuresType = .sparseCBAdf ∧ pr.labelType = .cb

instance (pr : Parser F) : Decidable (SpansLines pr) := by unfold SpansLines; infer_instance

/-- A client that asks for chunks until there is none gets the chunks `cs`; after that it gets none again, for ever. -/
inductive Reads (pr : Parser F) : Str → List Str → Prop
  | stop {input : Str} : getNextChunk pr input = (none, []) → Reads pr input []
  | chunk {input rest c : Str} {cs : List Str} : getNextChunk pr input = (some c, rest) → Reads pr rest cs → Reads pr input (c :: cs)

/-- Groups of consecutive lines that are not blank: the lines are cut at the blank ones. -/
def groups (ls : List Str) : List (List Str) := (ls.splitOnP blank).filter (fun g => !g.isEmpty)

/-- The chunk of a group of lines: the lines without trailing white space, joined by newlines; splitting the chunk into lines, as parsing does,
gives these lines back. -/
def ChunkOf (g : List Str) (c : Str) : Prop :=
  ∃ ts, List.Forall₂ Stripped g ts ∧ c = ['\n'].intercalate ts ∧ lines [] c = ts

/-! ### Documents in VW text format -/

/-- Text without white space, colons and bars. -/
def Plain (s : Str) : Prop := ∀ c ∈ s, isSpace c = false ∧ c ≠ ':' ∧ c ≠ '|'

/-- A separator: at least one white space character. -/
def Sep (s : Str) : Prop := s ≠ [] ∧ ∀ c ∈ s, isAsciiSpace c = true

/-- A feature as written in a VW example: a name alone, a name with a number, a name with a text, a number alone. -/
inductive VwFeat where
  | name (n : Str)
  | number (n : Str) (num : Str)
  | text (n : Str) (value : Str)
  | anon (num : Str)

/-- How the feature is written. -/
def VwFeat.render : VwFeat → Str
  | .name n => n
  | .number n num => n ++ ':' :: num
  | .text n value => n ++ ':' :: value
  | .anon num => ':' :: num

/-- Names are not empty (except for a text value), numbers are numbers and texts are not. -/
def VwFeat.Valid (parseFloat : Str → Option F) : VwFeat → Prop
  | .name n => n ≠ [] ∧ Plain n
  | .number n num => n ≠ [] ∧ Plain n ∧ Plain num ∧ (parseFloat num).isSome = true
  | .text n value => Plain n ∧ Plain value ∧ parseFloat value = none
  | .anon num => Plain num ∧ (parseFloat num).isSome = true

/-- A namespace as written in a VW example: optional name with an optional scale, features with the white space before each, white space after the
last. -/
structure VwNs where
  name : Option (Str × Option Str)
  feats : List (Str × VwFeat)
  trailing : Str

/-- What follows the name. -/
def VwNs.body (n : VwNs) : Str := n.feats.flatMap (fun f => f.1 ++ f.2.render) ++ n.trailing

/-- The name with its scale. -/
def VwNs.head (n : VwNs) : Str :=
  match n.name with
  | none => []
  | some (s, none) => s
  | some (s, some scale) => s ++ ':' :: scale

/-- How the namespace is written. -/
def VwNs.render (n : VwNs) : Str := '|' :: (n.head ++ n.body)

/-- A name is not empty and a scale is a number; without a name there is a space after the bar. -/
structure VwNs.Valid (parseFloat : Str → Option F) (n : VwNs) : Prop where
  head : match n.name with
    | none => n.body.head? = some ' '
    | some (s, none) => s ≠ [] ∧ Plain s
    | some (s, some scale) => s ≠ [] ∧ Plain s ∧ Plain scale ∧ (parseFloat scale).isSome = true
  feats : ∀ f ∈ n.feats, Sep f.1 ∧ f.2.Valid parseFloat
  trailing : ∀ c ∈ n.trailing, isAsciiSpace c = true

/-- The namespace that is meant. -/
def VwNs.ns (hash : HashFn) (seed : U32) (n : VwNs) : Namespace :=
  match n.name with
  | none => .default
  | some (s, _) => .named (hash s seed)

/-- The scale that is meant: 1 if none is written. -/
def VwNs.scale (parseFloat : Str → Option F) (n : VwNs) : F :=
  match n.name with
  | some (_, some scale) => (parseFloat scale).getD Flt.one
  | _ => Flt.one

/-- The features that are meant, in order: hash of the name in the namespace, or of the text and the name, or the position among the anonymous
features, all within the feature space; the value (1 if none is written) times the scale. `k` anonymous features come before. -/
def meant (hash : HashFn) (numBits : Nat) (parseFloat : Str → Option F) (nsHash : U32) (scale : F) : Nat → List VwFeat → List (U32 × F)
  | _, [] => []
  | k, .name n :: fs => (lowBits numBits (hash n nsHash), Flt.mul Flt.one scale) :: meant hash numBits parseFloat nsHash scale k fs
  | k, .number n num :: fs =>
    (lowBits numBits (hash n nsHash), Flt.mul ((parseFloat num).getD Flt.one) scale) :: meant hash numBits parseFloat nsHash scale k fs
  | k, .text n value :: fs => (lowBits numBits (hash value (hash n nsHash)), Flt.mul Flt.one scale) :: meant hash numBits parseFloat nsHash scale k fs
  | k, .anon num :: fs =>
    (lowBits numBits (nsHash + BitVec.ofNat 32 k), Flt.mul ((parseFloat num).getD Flt.one) scale) ::
      meant hash numBits parseFloat nsHash scale (k + 1) fs

/-- The number of anonymous features. -/
def anons : List VwFeat → Nat
  | [] => 0
  | .anon _ :: fs => anons fs + 1
  | _ :: fs => anons fs

/-- The features that a namespace means. -/
def VwNs.features (pr : Parser F) (n : VwNs) : List (U32 × F) :=
  meant pr.hash pr.numBits pr.parseFloat (n.ns pr.hash pr.hashSeed).seed (n.scale pr.parseFloat) 0 (n.feats.map (·.2))

/-- In the debug profile the positions of the anonymous features do not overflow. -/
def VwNs.NoOverflow (pr : Parser F) (n : VwNs) : Prop :=
  pr.dbg = true → (n.ns pr.hash pr.hashSeed).seed.toNat + anons (n.feats.map (·.2)) < 2 ^ 32

/-- The features that an example means: those of all its namespaces, in order; the same namespace can occur more than once. -/
def meaning (pr : Parser F) (nss : List VwNs) : SMap F := fun ns =>
  match nss.filter (fun n => n.ns pr.hash pr.hashSeed = ns) with
  | [] => none
  | l => some (l.flatMap (VwNs.features pr))

/-- The part of an example before the first bar: white space, then tokens each with the white space after it. -/
structure VwHead where
  lead : Str
  toks : List (Str × Str)

/-- How it is written. -/
def VwHead.render (h : VwHead) : Str := h.lead ++ h.toks.flatMap (fun t => t.1 ++ t.2)

/-- There is no space just before the bar. -/
def VwHead.touches (h : VwHead) : Bool :=
  match h.toks.getLast? with
  | some t => t.2.getLast? ≠ some ' '
  | none => false

/-- Tokens are not empty, hold no white space and no bars, and there is white space between them. -/
structure VwHead.Valid (h : VwHead) : Prop where
  lead : ∀ c ∈ h.lead, isSpace c = true
  toks : ∀ t ∈ h.toks, t.1 ≠ [] ∧ (∀ c ∈ t.1, isSpace c = false ∧ c ≠ '|') ∧ ∀ c ∈ t.2, isSpace c = true
  seps : ∀ t ∈ h.toks.dropLast, t.2 ≠ []

/-- The label tokens: all tokens but the tag. The last token is a tag if no space separates it from the bar or if it starts with a quote. -/
def VwHead.labelTokens (h : VwHead) : List Str :=
  match h.toks.getLast? with
  | none => []
  | some t => if h.touches || t.1.head? = some '\'' then (h.toks.dropLast).map (·.1) else h.toks.map (·.1)

/-- A simple label: nothing, a value (weight 1), or a value and a weight. `none`: not a label. -/
def simpleLabel (parseFloat : Str → Option F) : List Str → Option (Option (SimpleLabel F))
  | [] => some none
  | [v] => (parseFloat v).map fun v => some ⟨v, Flt.one⟩
  | [v, w] => (parseFloat v).bind fun v => (parseFloat w).map fun w => some ⟨v, w⟩
  | _ => none

/-- A decimal digit as it is written. -/
def digitChar (d : Fin 10) : Char := Char.ofNat (48 + d.val)

/-- The number that a sequence of digits stands for. -/
def decimal (ds : List (Fin 10)) : Nat := ds.foldl (fun n d => 10 * n + d.val) 0

/-- The text of a number below 2^32: decimal digits, possibly after a plus sign. -/
def IsU32 (s : Str) : Prop := ∃ ds : List (Fin 10), ds ≠ [] ∧ decimal ds < 2 ^ 32 ∧ (s = ds.map digitChar ∨ s = '+' :: ds.map digitChar)

/-- `action:cost:probability`; anything may follow after another colon. -/
def IsCbLabel (parseFloat : Str → Option F) (s : Str) : Prop :=
  ∃ a c p r, s = a ++ ':' :: (c ++ ':' :: (p ++ r)) ∧ ':' ∉ a ∧ ':' ∉ c ∧ ':' ∉ p ∧ (r = [] ∨ r.head? = some ':') ∧
    IsU32 a ∧ (parseFloat c).isSome = true ∧ (parseFloat p).isSome = true

/-- What a line of a contextual bandit example says about its label: nothing, that it holds the shared features, or that its action was taken with a
cost and a probability. -/
inductive CbKind where
  | unlabelled
  | shared
  | labelled (action cost prob : Str)

/-- A line of a contextual bandit example. -/
structure CbLine where
  head : VwHead
  kind : CbKind
  nss : List VwNs

/-- How the line is written. -/
def CbLine.render (l : CbLine) : Str := l.head.render ++ l.nss.flatMap VwNs.render

/-- The label token says what the kind is; the numbers are numbers; it is one line. -/
structure CbLine.Valid (pr : Parser F) (l : CbLine) : Prop where
  head : l.head.Valid
  kind : match l.kind with
    | .unlabelled => l.head.labelTokens = []
    | .shared => l.head.labelTokens.head? = some "shared".toList
    | .labelled a c p => l.head.labelTokens.head? = some (a ++ ':' :: (c ++ ':' :: p)) ∧ ':' ∉ a ∧ ':' ∉ c ∧ ':' ∉ p ∧
        IsU32 a ∧ (pr.parseFloat c).isSome = true ∧ (pr.parseFloat p).isSome = true
  nss : ∀ n ∈ l.nss, n.Valid pr.parseFloat ∧ n.NoOverflow pr
  line : l.render ≠ [] ∧ '\n' ∉ l.render ∧ l.render.getLast? ≠ some '\r'

/-- The cost and probability of a labelled line. -/
def CbLine.label (pr : Parser F) (l : CbLine) : Option (F × F) :=
  match l.kind with
  | .labelled _ c p => some ((pr.parseFloat c).getD Flt.zero, (pr.parseFloat p).getD Flt.zero)
  | _ => none

/-- The shared line, if the first line is one. -/
def sharedLine : List CbLine → Option CbLine
  | l :: _ => match l.kind with
    | .shared => some l
    | _ => none
  | [] => none

/-- The lines of the actions: all but a leading shared line. -/
def actionLines (ls : List CbLine) : List CbLine :=
  match sharedLine ls with
  | some _ => ls.tail
  | none => ls

/-- The features are those of the lines: shared features if there is a leading shared line, one action for every other line, in order. -/
def Assembled (pr : Parser F) (ls : List CbLine) (f : CBAdfFeatures F) : Prop :=
  (match sharedLine ls, f.shared with
    | some l, some s => s.Represents (meaning pr l.nss)
    | none, none => True
    | _, _ => False) ∧
  List.Forall₂ (fun l a => SparseFeatures.Represents a (meaning pr l.nss)) (actionLines ls) f.actions

/-- A recycled object of the pool: nothing is visible in it. -/
def Recycled (f : SparseFeatures F) : Prop := f.WF ∧ ∀ ns, f.report ns = none

end Vw
end Rml
