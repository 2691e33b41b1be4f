import Verif.Lemmas.Create
import Verif.Lemmas.JsonParser

/-! Lemmas for C52: what the parsers make of a chunk does not depend on the objects they are given. -/

set_option linter.unusedSectionVars false

namespace Rml
open Text SparseFeatures

/-- Two computations with related results. With `s`, failures agree as well; without, nothing is said about failures. -/
def RelE {ε α β : Type} (s : Prop) (R : α → β → Prop) : Except ε α → Except ε β → Prop
  | .ok a, .ok b => R a b
  | .error e, .error e' => s → e = e'
  | _, _ => ¬ s

theorem RelE.bind {ε α β γ δ : Type} {s : Prop} {R : α → β → Prop} {S : γ → δ → Prop} {x : Except ε α} {y : Except ε β} {f : α → Except ε γ}
    {g : β → Except ε δ} (h : RelE s R x y) (hf : ∀ a b, R a b → RelE s S (f a) (g b)) : RelE s S (x >>= f) (y >>= g) := by
  cases x with
  | error e =>
    cases y with
    | error e' => exact h
    | ok b =>
      show RelE s S (.error e) (g b)
      cases g b with
      | ok d => exact h
      | error e' => exact fun hs => absurd hs h
  | ok a =>
    cases y with
    | error e' =>
      show RelE s S (f a) (.error e')
      cases f a with
      | ok d => exact h
      | error e => exact fun hs => absurd hs h
    | ok b => exact hf a b h

theorem RelE.refl {ε α : Type} {s : Prop} (x : Except ε α) : RelE s Eq x x := by
  cases x with
  | ok a => exact rfl
  | error e => exact fun _ => rfl

theorem RelE.mono {ε α β : Type} {s : Prop} {R S : α → β → Prop} (hRS : ∀ a b, R a b → S a b) {x : Except ε α} {y : Except ε β} (h : RelE s R x y) :
    RelE s S x y := by
  cases x <;> cases y
  · exact h
  · exact h
  · exact h
  · exact hRS _ _ h

theorem RelE.foldlM {ε α β γ : Type} {s : Prop} {R : α → β → Prop} {f : α → γ → Except ε α} {g : β → γ → Except ε β} :
    ∀ (l : List γ) (a : α) (b : β), R a b → (∀ c ∈ l, ∀ a b, R a b → RelE s R (f a c) (g b c)) → RelE s R (l.foldlM f a) (l.foldlM g b)
  | [], _, _, hab, _ => hab
  | c :: l, a, b, hab, h => by
    rw [List.foldlM_cons, List.foldlM_cons]
    exact (h c (by simp) a b hab).bind fun a' b' hab' => RelE.foldlM l a' b' hab' fun c hc => h c (by simp [hc])

variable {F : Type} [Flt F]

/-- The same namespace with the same features. -/
structure NsEqv (ns : Namespace) (n m : NsFeats F) : Prop where
  left : n.namespace_ = ns
  right : m.namespace_ = ns
  idx : n.idx.data = m.idx.data
  vals : n.vals.data = m.vals.data
  active : n.active = m.active
  lens : n.idx.data.length = n.vals.data.length

theorem NsEqv.add {ns : Namespace} {n m : NsFeats F} (h : NsEqv ns n m) (i : U32) (v : F) : NsEqv ns (n.addFeature i v) (m.addFeature i v) :=
  ⟨h.left, h.right, by simp [NsFeats.addFeature, RVec.push, h.idx], by simp [NsFeats.addFeature, RVec.push, h.vals], h.active,
    by simp [NsFeats.addFeature, RVec.push, h.lens]⟩

theorem getOrCreate_eqv {f g : SparseFeatures F} (h : Eqv f g) (ns : Namespace) : NsEqv ns (f.getOrCreate ns) (g.getOrCreate ns) := by
  obtain ⟨a1, a2, a3, a4⟩ := getOrCreate_spec h.left ns
  obtain ⟨b1, b2, b3, b4⟩ := getOrCreate_spec h.right ns
  exact ⟨a4, b4, by rw [a1, b1, h.view], by rw [a2, b2, h.view], a3.trans b3.symm, by rw [a1, a2]; exact vw_lens h.left ns⟩

theorem setNamespace_eqv {f g : SparseFeatures F} (h : Eqv f g) {ns : Namespace} {n m : NsFeats F} (hn : NsEqv ns n m) :
    Eqv (f.setNamespace ns n) (g.setNamespace ns m) :=
  ⟨setNamespace_inv0 h.left hn.lens hn.left, setNamespace_inv0 h.right (by rw [← hn.idx, ← hn.vals]; exact hn.lens) hn.right, fun k => by
    rw [vw_setNamespace, vw_setNamespace, hn.idx, hn.vals, hn.active, h.view]⟩

/-- The same objects are left. -/
def PoolsOk (p q : Pool (SparseFeatures F)) : Prop :=
  (∀ f ∈ p.objects, f.Inv0 ∧ ∀ ns, f.vw ns = ([], [], false)) ∧ ∀ f ∈ q.objects, f.Inv0 ∧ ∀ ns, f.vw ns = ([], [], false)

theorem pool_one {p : Pool (SparseFeatures F)} (h : ∀ f ∈ p.objects, f.Inv0 ∧ ∀ ns, f.vw ns = ([], [], false)) :
    ((p.getObject SparseFeatures.new).1.Inv0 ∧ ∀ ns, (p.getObject SparseFeatures.new).1.vw ns = ([], [], false)) ∧
    ∀ f ∈ (p.getObject SparseFeatures.new).2.objects, f.Inv0 ∧ ∀ ns, f.vw ns = ([], [], false) := by
  unfold Pool.getObject
  cases hp : p.objects with
  | nil => exact ⟨⟨new_inv0, fun _ => rfl⟩, by rw [hp]; simp⟩
  | cons a t =>
    rw [hp] at h
    exact ⟨h a (by simp), fun f hf => h f (by simp [hf])⟩

theorem pools_get {p q : Pool (SparseFeatures F)} (h : PoolsOk p q) :
    Eqv (p.getObject SparseFeatures.new).1 (q.getObject SparseFeatures.new).1 ∧
    PoolsOk (p.getObject SparseFeatures.new).2 (q.getObject SparseFeatures.new).2 := by
  obtain ⟨a, a'⟩ := pool_one h.1
  obtain ⟨b, b'⟩ := pool_one h.2
  exact ⟨⟨a.1, b.1, fun ns => by rw [a.2, b.2]⟩, a', b'⟩

/-- The results of two parses. -/
def ParsedEqv (x y : (Features F × Option (Label F)) × Pool (SparseFeatures F)) : Prop := x.1.2 = y.1.2 ∧ FtEqv x.1.1 y.1.1

namespace Vw

theorem featureStep_rel (pr : Parser F) (h : U32) (v : F) {ns : Namespace} (x y : NsFeats F × U32) (hxy : NsEqv ns x.1 y.1 ∧ x.2 = y.2) (t : Str) :
    RelE True (fun x y : NsFeats F × U32 => NsEqv ns x.1 y.1 ∧ x.2 = y.2) (featureStep pr h v x t) (featureStep pr h v y t) := by
  unfold featureStep
  rw [← hxy.2]
  refine (RelE.refl _).bind fun a b hab => ?_
  subst hab
  refine (RelE.refl _).bind fun c d hcd => ?_
  subst hcd
  exact ⟨hxy.1.add _ _, rfl⟩

theorem namespace_rel (pr : Parser F) (s : Str) {f g : SparseFeatures F} (h : Eqv f g) :
    RelE True Eqv (parseNamespaceInline pr s f) (parseNamespaceInline pr s g) := by
  unfold parseNamespaceInline
  refine (RelE.refl _).bind fun a b hab => ?_
  subst hab
  obtain ⟨name, value, tokens⟩ := a
  refine (RelE.foldlM (R := fun x y : NsFeats F × U32 => NsEqv (Namespace.fromName pr.hash name pr.hashSeed) x.1 y.1 ∧ x.2 = y.2) tokens
    (f.getOrCreate _, 0#32) (g.getOrCreate _, 0#32) ⟨getOrCreate_eqv h _, rfl⟩ fun c _ a b hab => featureStep_rel pr _ _ a b hab c).bind fun a b hab => ?_
  exact setNamespace_eqv h hab.1

theorem line_rel (pr : Parser F) (s : Str) {f g : SparseFeatures F} (h : Eqv f g) :
    RelE True (fun x y : TextParseResult F × SparseFeatures F => x.1 = y.1 ∧ Eqv x.2 y.2) (parseTextLine pr s f) (parseTextLine pr s g) := by
  unfold parseTextLine
  split
  · exact fun _ => rfl
  · refine (RelE.refl _).bind fun a b hab => ?_
    subst hab
    refine (RelE.foldlM _ f g h fun c _ a b hab => namespace_rel pr c hab).bind fun x y hxy => ?_
    exact ⟨rfl, hxy⟩

theorem lines_rel (pr : Parser F) : ∀ (ls : List Str) (p q : Pool (SparseFeatures F)), PoolsOk p q →
    RelE True (fun x y : List (SparseFeatures F) × List (Option (TextLabel F)) × Pool (SparseFeatures F) => List.Forall₂ Eqv x.1 y.1 ∧ x.2.1 = y.2.1)
      (parseLines pr ls p) (parseLines pr ls q)
  | [], p, q, _ => ⟨.nil, rfl⟩
  | l :: ls, p, q, h => by
    obtain ⟨h1, h2⟩ := pools_get h
    unfold parseLines
    refine (line_rel pr l h1).bind fun a b hab => ?_
    refine (lines_rel pr ls _ _ h2).bind fun x y hxy => ?_
    obtain ⟨r, d⟩ := a
    obtain ⟨r', d'⟩ := b
    obtain ⟨h3, h4⟩ := hab
    simp only at h3 h4
    subst h3
    exact ⟨.cons h4 hxy.1, by simp [hxy.2]⟩

theorem finalizeMultiline_rel (pr : Parser F) {fs gs : List (SparseFeatures F)} (h : List.Forall₂ Eqv fs gs) (ls : List (Option (TextLabel F))) :
    RelE True (fun x y : Features F × Option (Label F) => x.2 = y.2 ∧ FtEqv x.1 y.1) (finalizeMultiline pr fs ls) (finalizeMultiline pr gs ls) := by
  unfold finalizeMultiline
  split
  · split
    · exact fun _ => rfl
    · refine (RelE.refl _).bind fun a b hab => ?_
      subst hab
      refine (RelE.refl _).bind fun c d hcd => ?_
      subst hcd
      split
      · cases h with
        | nil => exact fun _ => rfl
        | cons h1 h2 =>
          refine (RelE.refl _).bind fun x y hxy => ?_
          subst hxy
          exact ⟨rfl, .cb ⟨.some h1, h2⟩⟩
      · refine (RelE.refl _).bind fun x y hxy => ?_
        subst hxy
        exact ⟨rfl, .cb ⟨.none, h⟩⟩
  · exact fun _ => rfl

theorem parseChunk_rel (pr : Parser F) {p q : Pool (SparseFeatures F)} (h : PoolsOk p q) (chunk : Str) :
    RelE True ParsedEqv (parseChunk pr p chunk) (parseChunk pr q chunk) := by
  unfold parseChunk
  split
  · refine (lines_rel pr _ p q h).bind fun x y hxy => ?_
    obtain ⟨fs, rs, p'⟩ := x
    obtain ⟨gs, rs', q'⟩ := y
    obtain ⟨h1, h2⟩ := hxy
    simp only at h1 h2
    subst h2
    exact (finalizeMultiline_rel pr h1 _).bind fun a b hab => hab
  · obtain ⟨h1, h2⟩ := pools_get h
    refine (line_rel pr chunk h1).bind fun a b hab => ?_
    obtain ⟨r, d⟩ := a
    obtain ⟨r', d'⟩ := b
    obtain ⟨h3, h4⟩ := hab
    simp only at h3 h4
    subst h3
    show RelE True ParsedEqv (finalizeSingleline r d >>= _) (finalizeSingleline r d' >>= _)
    unfold finalizeSingleline
    split
    · exact ⟨rfl, .simple h4⟩
    · exact fun _ => rfl
    · exact ⟨rfl, .simple h4⟩

end Vw

namespace Js
variable {N : Type}

theorem entryStep_rel {s : Prop} (pr : Parser F N) (h : U32) {ns : Namespace} {n m : NsFeats F} (hn : NsEqv ns n m) (e : Str × Json N) :
    RelE s (NsEqv ns) (entryStep pr h n e) (entryStep pr h m e) := by
  unfold entryStep
  split
  · refine (RelE.refl _).bind fun a b hab => ?_
    subst hab
    exact hn.add _ _
  · refine (RelE.refl _).bind fun a b hab => ?_
    subst hab
    exact hn.add _ _
  · refine (RelE.refl _).bind fun a b hab => ?_
    subst hab
    exact hn.add _ _
  · exact hn
  · exact fun _ => rfl

theorem stringStep_rel {s : Prop} (pr : Parser F N) (h : U32) {ns : Namespace} {n m : NsFeats F} (hn : NsEqv ns n m) (e : Json N) :
    RelE s (NsEqv ns) (stringStep pr h n e) (stringStep pr h m e) := by
  unfold stringStep
  refine (RelE.refl _).bind fun a b hab => ?_
  subst hab
  refine (RelE.refl _).bind fun a b hab => ?_
  subst hab
  exact hn.add _ _

theorem reserve_rel {ns : Namespace} {n m : NsFeats F} (hn : NsEqv ns n m) (k : Nat) : RelE False (NsEqv ns) (n.reserve k) (m.reserve k) := by
  unfold NsFeats.reserve
  by_cases h1 : k < n.idx.cap
  · rw [if_pos h1]
    split
    · exact fun h => h.elim
    · simp only
      split
      · exact fun h => h.elim
      · exact fun h => h
  · rw [if_neg h1]
    by_cases h2 : k < n.vals.cap
    · simp only [h2, if_true]
      split
      · exact fun h => h.elim
      · split
        · exact fun h => h.elim
        · exact fun h => h
    · simp only [h2, if_false]
      split
      · exact fun h => h
      · split
        · exact fun h => h
        · exact ⟨hn.left, hn.right, hn.idx, hn.vals, hn.active, hn.lens⟩

theorem addIter_rel {s : Prop} {ns : Namespace} {n m : NsFeats F} (hn : NsEqv ns n m) (is : List U32) (vs : List F) :
    RelE s (NsEqv ns) (n.addFeaturesWithIter is vs) (m.addFeaturesWithIter is vs) := by
  by_cases h : (n.idx.data ++ is).length = (n.vals.data ++ vs).length
  · have h' : (m.idx.data ++ is).length = (m.vals.data ++ vs).length := by rw [← hn.idx, ← hn.vals]; exact h
    have e1 : n.addFeaturesWithIter is vs = .ok { n with idx := n.idx.extend is, vals := n.vals.extend vs } := if_pos h
    have e2 : m.addFeaturesWithIter is vs = .ok { m with idx := m.idx.extend is, vals := m.vals.extend vs } := if_pos h'
    rw [e1, e2]
    exact ⟨hn.left, hn.right, by simp [RVec.extend, hn.idx], by simp [RVec.extend, hn.vals], hn.active, h⟩
  · have h' : ¬ (m.idx.data ++ is).length = (m.vals.data ++ vs).length := by rw [← hn.idx, ← hn.vals]; exact h
    have e1 : n.addFeaturesWithIter is vs = .error .assert := if_neg h
    have e2 : m.addFeaturesWithIter is vs = .error .assert := if_neg h'
    rw [e1, e2]
    exact fun _ => rfl

theorem contents_rel {s : Prop} (pr : Parser F N) {ns : Namespace} {n m : NsFeats F} (hn : NsEqv ns n m) (v : Json N) (hs : s → ∀ x rest, v ≠ .arr (.str x :: rest)) :
    RelE s (NsEqv ns) (contents pr n v) (contents pr m v) := by
  unfold contents
  rw [hn.left, hn.right]
  simp only
  split
  · exact fun _ => rfl
  · rename_i ar
    match ar, hs with
    | [], _ => exact fun _ => rfl
    | .num x :: rest, _ =>
      refine (RelE.refl _).bind fun a b hab => ?_
      subst hab
      refine (RelE.refl _).bind fun a b hab => ?_
      subst hab
      exact addIter_rel hn _ _
    | .str x :: rest, hs =>
      have hs' : s ↔ False := ⟨fun h => hs h x rest rfl, False.elim⟩
      rw [show s = False from propext hs']
      refine (reserve_rel hn _).bind fun a b hab => ?_
      exact RelE.foldlM _ a b hab fun c _ a b hab => stringStep_rel pr _ hab c
    | .null :: rest, _ => exact fun _ => rfl
    | .bool _ :: rest, _ => exact fun _ => rfl
    | .arr _ :: rest, _ => exact fun _ => rfl
    | .obj _ :: rest, _ => exact fun _ => rfl
  · exact RelE.foldlM _ n m hn fun c _ a b hab => entryStep_rel pr _ hab c
  · exact fun _ => rfl

theorem nsStep_rel {s : Prop} (pr : Parser F N) {f g : SparseFeatures F} (h : Eqv f g) (e : Str × Json N) (hs : s → ∀ x rest, e.2 ≠ .arr (.str x :: rest)) :
    RelE s Eqv (nsStep pr f e) (nsStep pr g e) := by
  unfold nsStep
  exact (contents_rel pr (getOrCreate_eqv h _) e.2 hs).bind fun a b hab => setNamespace_eqv h hab

theorem toFeatures_rel {s : Prop} (pr : Parser F N) {f g : SparseFeatures F} (h : Eqv f g) (v : Json N) (hs : s → NoStringLists v) :
    RelE s Eqv (toFeatures pr v f) (toFeatures pr v g) := by
  unfold toFeatures
  split
  · rename_i l
    exact RelE.foldlM l f g h fun c hc a b hab => nsStep_rel pr hab c fun h => hs h l rfl c hc
  · exact fun _ => rfl

theorem actions_rel {s : Prop} (pr : Parser F N) : ∀ (l : List (Json N)) (p q : Pool (SparseFeatures F)), PoolsOk p q → (s → ∀ v ∈ l, NoStringLists v) →
    RelE s (fun x y : List (SparseFeatures F) × Pool (SparseFeatures F) => List.Forall₂ Eqv x.1 y.1) (actions pr l p) (actions pr l q)
  | [], p, q, _, _ => .nil
  | v :: vs, p, q, h, hs => by
    obtain ⟨h1, h2⟩ := pools_get h
    unfold actions
    refine (toFeatures_rel pr h1 v fun h => hs h v (by simp)).bind fun a b hab => ?_
    refine (actions_rel pr vs _ _ h2 fun h w hw => hs h w (by simp [hw])).bind fun x y hxy => ?_
    exact .cons hab hxy

theorem shared_rel {s : Prop} (pr : Parser F N) (j : Json N) {p q : Pool (SparseFeatures F)} (h : PoolsOk p q) (hs : s → NoStringLists (getV "shared" j)) :
    RelE s (fun x y : Option (SparseFeatures F) × Pool (SparseFeatures F) => OptEqv x.1 y.1 ∧ PoolsOk x.2 y.2) (shared pr j p) (shared pr j q) := by
  obtain ⟨h1, h2⟩ := pools_get h
  unfold shared
  split
  · exact ⟨.none, h⟩
  · exact (toFeatures_rel pr h1 _ hs).bind fun a b hab => ⟨.some hab, h2⟩

theorem parseFeatures_rel {s : Prop} (pr : Parser F N) (j : Json N) {p q : Pool (SparseFeatures F)} (h : PoolsOk p q) (hs : s → DocNoStringLists j) :
    RelE s (fun x y : Features F × Pool (SparseFeatures F) => FtEqv x.1 y.1) (parseFeatures pr j p) (parseFeatures pr j q) := by
  unfold parseFeatures
  split
  · obtain ⟨h1, h2⟩ := pools_get h
    split
    · exact fun _ => rfl
    · exact (toFeatures_rel pr h1 _ fun h => valueOf_eq .. ▸ (hs h).features).bind fun a b hab => .simple hab
  · refine (shared_rel pr j h fun h => valueOf_eq .. ▸ (hs h).shared).bind fun a b hab => ?_
    obtain ⟨x, p'⟩ := a
    obtain ⟨y, q'⟩ := b
    simp only
    split
    · exact fun _ => rfl
    · rename_i l hl
      exact (actions_rel pr l p' q' hab.2 fun h => (hs h).actions l ((valueOf_eq ..).trans hl)).bind fun a b hab' => .cb ⟨hab.1, hab'⟩
    · exact fun _ => rfl

theorem parseChunk_rel {s : Prop} (pr : Parser F N) {p q : Pool (SparseFeatures F)} (h : PoolsOk p q) (chunk : Str)
    (hs : s → ∀ j, pr.parseJson chunk = some j → DocNoStringLists j) : RelE s ParsedEqv (parseChunk pr p chunk) (parseChunk pr q chunk) := by
  unfold parseChunk
  cases hj : pr.parseJson chunk with
  | none => exact fun _ => rfl
  | some j =>
    refine RelE.bind (R := fun x y : Json N => x = j ∧ y = j) ⟨rfl, rfl⟩ fun x y hxy => ?_
    rw [hxy.1, hxy.2]
    refine (parseFeatures_rel pr j h fun h => hs h j hj).bind fun a b hab => ?_
    obtain ⟨f, p'⟩ := a
    obtain ⟨g, q'⟩ := b
    refine (RelE.refl _).bind fun l l' hl => ?_
    exact ⟨hl, hab⟩

end Js

namespace Ds
open Js
variable {N : Type}

theorem addTo_rel (pr : Parser F N) (feat : ParsedFeature) (v : F) (ns : Namespace) {f g : SparseFeatures F} (h : Eqv f g) :
    RelE True Eqv (addTo pr feat v ns f) (addTo pr feat v ns g) := by
  unfold addTo
  refine (RelE.refl _).bind fun a b hab => ?_
  subst hab
  exact setNamespace_eqv h ((getOrCreate_eqv h ns).add _ _)

theorem addTop_rel (pr : Parser F N) (feat : ParsedFeature) (v : F) (stack : List Namespace) {f g : SparseFeatures F} (h : Eqv f g) :
    RelE True (fun x y : SparseFeatures F × List Namespace => Eqv x.1 y.1 ∧ x.2 = y.2) ((addTop pr feat v stack f).map (·, stack))
      ((addTop pr feat v stack g).map (·, stack)) := by
  cases stack with
  | nil => exact fun _ => rfl
  | cons ns st =>
    have := addTo_rel pr feat v ns h
    unfold addTop
    simp only
    generalize addTo pr feat v ns f = x at this ⊢
    generalize addTo pr feat v ns g = y at this ⊢
    cases x <;> cases y
    · exact this
    · exact this
    · exact this
    · exact ⟨this, rfl⟩

theorem pop_rel {x y : SparseFeatures F × List Namespace} (h : Eqv x.1 y.1 ∧ x.2 = y.2) :
    RelE True (fun x y : SparseFeatures F × List Namespace => Eqv x.1 y.1 ∧ x.2 = y.2) (pop x) (pop y) := by
  unfold pop
  rw [← h.2]
  split
  · exact fun _ => rfl
  · exact ⟨h.1, rfl⟩

mutual
theorem handle_rel (pr : Parser F N) (key : Str) (v : Json N) (stack : List Namespace) {f g : SparseFeatures F} (h : Eqv f g) :
    RelE True (fun x y : SparseFeatures F × List Namespace => Eqv x.1 y.1 ∧ x.2 = y.2) (handle pr key v stack f) (handle pr key v stack g) := by
  unfold handle
  split
  · exact ⟨h, rfl⟩
  · match v with
    | .null => exact fun _ => rfl
    | .bool true => exact addTop_rel pr _ _ stack h
    | .bool false => exact ⟨h, rfl⟩
    | .num x => exact addTop_rel pr _ _ stack h
    | .str s => exact addTop_rel pr _ _ stack h
    | .arr l => exact (handleArr_rel pr key _ 0 l _ h).bind fun a b hab => pop_rel hab
    | .obj l => exact (handleObj_rel pr l _ h).bind fun a b hab => pop_rel hab

theorem handleArr_rel (pr : Parser F N) (key : Str) (ns : Namespace) (i : Nat) (l : List (Json N)) (stack : List Namespace) {f g : SparseFeatures F}
    (h : Eqv f g) : RelE True (fun x y : SparseFeatures F × List Namespace => Eqv x.1 y.1 ∧ x.2 = y.2) (handleArr pr key ns i l stack f)
      (handleArr pr key ns i l stack g) := by
  match l with
  | [] => exact ⟨h, rfl⟩
  | .num x :: vs =>
    unfold handleArr
    exact (addTo_rel pr _ _ ns h).bind fun a b hab => handleArr_rel pr key ns (i + 1) vs stack hab
  | .obj o :: vs =>
    unfold handleArr
    refine (handle_rel pr key (.obj o) stack h).bind fun a b hab => ?_
    obtain ⟨f', st⟩ := a
    obtain ⟨g', st'⟩ := b
    obtain ⟨h1, h2⟩ := hab
    simp only at h1 h2
    subst h2
    exact handleArr_rel pr key ns (i + 1) vs st h1
  | .null :: vs =>
    unfold handleArr
    exact handleArr_rel pr key ns (i + 1) vs stack h
  | .bool b :: vs => exact fun _ => rfl
  | .str b :: vs => exact fun _ => rfl
  | .arr b :: vs => exact fun _ => rfl

theorem handleObj_rel (pr : Parser F N) (l : List (Str × Json N)) (stack : List Namespace) {f g : SparseFeatures F} (h : Eqv f g) :
    RelE True (fun x y : SparseFeatures F × List Namespace => Eqv x.1 y.1 ∧ x.2 = y.2) (handleObj pr l stack f) (handleObj pr l stack g) := by
  match l with
  | [] => exact ⟨h, rfl⟩
  | (k, v) :: vs =>
    unfold handleObj
    refine (handle_rel pr k v stack h).bind fun a b hab => ?_
    obtain ⟨f', st⟩ := a
    obtain ⟨g', st'⟩ := b
    obtain ⟨h1, h2⟩ := hab
    simp only at h1 h2
    subst h2
    exact handleObj_rel pr vs st h1
end

theorem example_rel (pr : Parser F N) (v : Json N) (stack : List Namespace) {p q : Pool (SparseFeatures F)} (h : PoolsOk p q) :
    RelE True (fun x y : SparseFeatures F × List Namespace × Pool (SparseFeatures F) => Eqv x.1 y.1 ∧ x.2.1 = y.2.1 ∧ PoolsOk x.2.2 y.2.2)
      (example_ pr v stack p) (example_ pr v stack q) := by
  obtain ⟨h1, h2⟩ := pools_get h
  unfold example_
  refine (handle_rel pr _ v stack h1).bind fun a b hab => ?_
  obtain ⟨f', st⟩ := a
  obtain ⟨g', st'⟩ := b
  obtain ⟨h3, h4⟩ := hab
  simp only at h3 h4
  subst h4
  exact (RelE.refl _).bind fun _ _ _ => ⟨h3, rfl, h2⟩

theorem actions_rel (pr : Parser F N) : ∀ (l : List (Json N)) (stack : List Namespace) (p q : Pool (SparseFeatures F)), PoolsOk p q →
    RelE True (fun x y : List (SparseFeatures F) × Pool (SparseFeatures F) => List.Forall₂ Eqv x.1 y.1) (actions pr l stack p) (actions pr l stack q)
  | [], _, p, q, _ => .nil
  | v :: vs, stack, p, q, h => by
    unfold actions
    refine (example_rel pr v stack h).bind fun a b hab => ?_
    obtain ⟨f', st, p'⟩ := a
    obtain ⟨g', st', q'⟩ := b
    obtain ⟨h3, h4, h5⟩ := hab
    simp only at h3 h4 h5
    subst h4
    exact (actions_rel pr vs st p' q' h5).bind fun x y hxy => .cons h3 hxy

theorem parseChunk_rel (pr : Parser F N) {p q : Pool (SparseFeatures F)} (h : PoolsOk p q) (chunk : Str) :
    RelE True ParsedEqv (parseChunk pr p chunk) (parseChunk pr q chunk) := by
  unfold parseChunk
  refine (RelE.refl _).bind fun j j' hj => ?_
  subst hj
  refine (example_rel pr _ [] h).bind fun a b hab => ?_
  obtain ⟨f', st, p'⟩ := a
  obtain ⟨g', st', q'⟩ := b
  obtain ⟨h3, h4, h5⟩ := hab
  simp only at h3 h4 h5
  subst h4
  refine (RelE.refl _).bind fun j j' hj => ?_
  subst hj
  refine (actions_rel pr _ st p' q' h5).bind fun x y hxy => ?_
  refine (RelE.refl _).bind fun l l' hl => ?_
  subst hl
  exact ⟨rfl, .cb ⟨.some h3, hxy⟩⟩

end Ds
end Rml
