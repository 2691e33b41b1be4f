import Verif.Lemmas.Parsed
import Verif.SpecSafe

/-! Lemmas for C80: parsed examples fit the model that the parser was made for. -/

set_option linter.unusedSectionVars false

namespace Rml
open Text SparseFeatures
variable {F : Type}

theorem maskIdx_fits (n : Nat) (x : U32) : (maskIdx n x).toNat < 2 ^ n := by
  by_cases h : n < 32
  · exact maskIdx_lt h x
  · exact Nat.lt_of_lt_of_le (maskIdx n x).isLt (Nat.pow_le_pow_right (by decide) (by omega))

/-- All indices of a namespace are small. -/
def NsFit (nb : Nat) (n : NsFeats F) : Prop := ∀ i ∈ n.idx.data, i.toNat < 2 ^ nb

/-- All indices of an object are small. -/
def Fit (nb : Nat) (f : SparseFeatures F) : Prop := ∀ e ∈ f.entries, NsFit nb e.2

theorem Fit.fits {nb : Nat} {f : SparseFeatures F} (h : Fit nb f) : f.Fits nb := by
  intro iv hiv
  obtain ⟨e, he, hiv⟩ := List.mem_flatMap.1 hiv
  exact h e he iv.1 (List.of_mem_zip hiv).1

theorem mem_insert_cases {l : List (Namespace × NsFeats F)} {ns : Namespace} {n : NsFeats F} {e : Namespace × NsFeats F}
    (h : e ∈ SparseFeatures.insert l ns n) : e = (ns, n) ∨ e ∈ l := by
  induction l with
  | nil => simp [SparseFeatures.insert] at h; exact .inl h
  | cons k t ih =>
    obtain ⟨k, v⟩ := k
    unfold SparseFeatures.insert at h
    split at h
    · rcases List.mem_cons.1 h with h | h
      · exact .inl h
      · exact .inr (List.mem_cons_of_mem _ h)
    · split at h
      · rcases List.mem_cons.1 h with h | h
        · exact .inl h
        · exact .inr h
      · rcases List.mem_cons.1 h with h | h
        · exact .inr (by rw [h]; simp)
        · rcases ih h with h | h
          · exact .inl h
          · exact .inr (List.mem_cons_of_mem _ h)

theorem NsFit.add {nb : Nat} {n : NsFeats F} (h : NsFit nb n) {i : U32} (hi : i.toNat < 2 ^ nb) (v : F) : NsFit nb (n.addFeature i v) := by
  intro k hk
  simp only [NsFeats.addFeature, RVec.push, List.mem_append, List.mem_singleton] at hk
  rcases hk with hk | rfl
  · exact h k hk
  · exact hi

theorem Fit.get {nb : Nat} {f : SparseFeatures F} (h : Fit nb f) (ns : Namespace) : NsFit nb (f.getOrCreate ns) := by
  unfold getOrCreate
  cases hl : lookup f.entries ns with
  | none => intro i hi; simp [NsFeats.new, RVec.new] at hi
  | some n => exact h _ (lookup_mem hl)

theorem Fit.set {nb : Nat} {f : SparseFeatures F} (h : Fit nb f) (ns : Namespace) {n : NsFeats F} (hn : NsFit nb n) : Fit nb (f.setNamespace ns n) := by
  intro e he
  rcases mem_insert_cases he with rfl | he
  · exact hn
  · exact h e he

/-- Every object of the pool has no features. -/
def PoolFit (nb : Nat) (p : Pool (SparseFeatures F)) : Prop := ∀ f ∈ p.objects, Fit nb f

theorem PoolOk.fit {p : Pool (SparseFeatures F)} (h : PoolOk p) (nb : Nat) : PoolFit nb p := by
  intro f hf e he i hi
  obtain ⟨h1, h2⟩ := h f hf
  have h3 := mem_lookup h1.sorted he
  have h4 := h2 e.1
  unfold vw at h4
  rw [h3] at h4
  simp only [Prod.mk.injEq] at h4
  rw [h4.1] at hi
  cases hi

theorem PoolFit.get [Flt F] {nb : Nat} {p : Pool (SparseFeatures F)} (h : PoolFit nb p) :
    Fit nb (p.getObject SparseFeatures.new).1 ∧ PoolFit nb (p.getObject SparseFeatures.new).2 := by
  unfold Pool.getObject
  split
  · exact ⟨fun e he => by simp [SparseFeatures.new] at he, h⟩
  · rename_i a t heq
    exact ⟨h a (by rw [heq]; simp), fun f hf => h f (by rw [heq]; simp [hf])⟩

/-- All objects of the example are small. -/
def FtFit (nb : Nat) (ft : Features F) : Prop := ∀ f ∈ ft.objects, Fit nb f

/-- A parsed example with the given types. -/
structure Fitting (nb : Nat) (ft : FeaturesType) (lt : LabelType) (x : Features F × Option (Label F)) : Prop where
  fit : FtFit nb x.1
  type : x.1.ty = ft
  label : ∀ l, x.2 = some l → l.ty = lt

variable [Flt F]

namespace Vw

theorem featureStep_fit (pr : Parser F) (h : U32) (v : F) (x : NsFeats F × U32) (hx : NsFit pr.numBits x.1) (t : Str) :
    OkE (fun y : NsFeats F × U32 => NsFit pr.numBits y.1) (featureStep pr h v x t) := by
  unfold featureStep
  refine (OkE.triv _).bind fun a _ => ?_
  refine (OkE.triv _).bind fun b _ => ?_
  exact OkE.ok (hx.add (maskIdx_fits _ _) _)

theorem namespace_fit (pr : Parser F) (s : Str) {f : SparseFeatures F} (h : Fit pr.numBits f) :
    OkE (Fit pr.numBits) (parseNamespaceInline pr s f) := by
  unfold parseNamespaceInline
  refine (OkE.triv _).bind fun a _ => ?_
  obtain ⟨name, value, tokens⟩ := a
  refine OkE.bind (Q := fun y : NsFeats F × U32 => NsFit pr.numBits y.1) ?_ fun y hy => OkE.ok (h.set _ hy)
  exact OkE.foldlM tokens _ (h.get _) fun c _ a ha => featureStep_fit pr _ _ a ha c

theorem line_fit (pr : Parser F) (s : Str) {f : SparseFeatures F} (h : Fit pr.numBits f) :
    OkE (fun x : TextParseResult F × SparseFeatures F => Fit pr.numBits x.2) (parseTextLine pr s f) := by
  unfold parseTextLine
  split
  · exact OkE.error _
  · rename_i i segs heq
    refine (OkE.triv _).bind fun a _ => ?_
    obtain ⟨tag, label⟩ := a
    exact (OkE.foldlM segs f h fun c hc a ha => namespace_fit pr c ha).bind fun x hx => OkE.ok hx

theorem lines_fit (pr : Parser F) : ∀ (ls : List Str) (p : Pool (SparseFeatures F)), PoolFit pr.numBits p →
    OkE (fun x : List (SparseFeatures F) × List (Option (TextLabel F)) × Pool (SparseFeatures F) => (∀ f ∈ x.1, Fit pr.numBits f) ∧
      x.2.1.length = x.1.length) (parseLines pr ls p)
  | [], p, hp => OkE.ok ⟨by simp, rfl⟩
  | l :: ls, p, h => by
    obtain ⟨h1, h2⟩ := h.get
    unfold parseLines
    refine (line_fit pr l h1).bind fun a ha => ?_
    refine (lines_fit pr ls _ h2).bind fun x hx => ?_
    refine OkE.ok ⟨fun f hf => ?_, by simp [hx.2]⟩
    rcases List.mem_cons.1 hf with rfl | hf
    · exact ha
    · exact hx.1 f hf

/-- What is known of a labelled contextual bandit example in VW text. -/
def LabelInside (x : Features F × Option (Label F)) : Prop := ∀ f cl, x.1 = .cbAdf f → x.2 = some (.cb cl) → cl.action < f.actions.length

theorem labels_inside (ls : List (Option (TextLabel F))) : ∀ s : Option (CBLabel F) × Nat, (∀ cl, s.1 = some cl → cl.action < s.2) →
    OkE (fun y : Option (CBLabel F) × Nat => y.2 = s.2 + ls.length ∧ ∀ cl, y.1 = some cl → cl.action < y.2) (ls.foldlM labelStep s) := by
  induction ls with
  | nil => intro s h; exact OkE.ok ⟨rfl, h⟩
  | cons l ls ih =>
    intro s h
    rw [List.foldlM_cons]
    refine OkE.bind (Q := fun y : Option (CBLabel F) × Nat => y.2 = s.2 + 1 ∧ ∀ cl, y.1 = some cl → cl.action < y.2) ?_ fun y hy => ?_
    · unfold labelStep
      refine (OkE.triv _).bind fun a _ => ?_
      refine (OkE.triv _).bind fun b _ => ?_
      split
      · split
        · exact OkE.error _
        · refine OkE.ok ⟨rfl, fun cl hcl => ?_⟩
          cases hcl
          exact Nat.lt_succ_self _
      · exact OkE.ok ⟨rfl, fun cl hcl => Nat.lt_succ_of_lt (h cl hcl)⟩
    · refine (ih y hy.2).mono fun z hz => ⟨?_, hz.2⟩
      rw [hz.1, hy.1, List.length_cons]
      omega

theorem finalizeMultiline_fit (pr : Parser F) {nb : Nat} {fs : List (SparseFeatures F)} (h : ∀ f ∈ fs, Fit nb f) (ls : List (Option (TextLabel F)))
    (hl : ls.length = fs.length) : OkE (fun x : Features F × Option (Label F) => Fitting nb pr.featuresType pr.labelType x ∧
      LabelInside x) (finalizeMultiline pr fs ls) := by
  unfold finalizeMultiline
  split
  · rename_i hlt hft
    split
    · exact OkE.error _
    · rename_i first rest
      refine (OkE.triv _).bind fun a _ => ?_
      refine (OkE.triv _).bind fun b _ => ?_
      split
      · cases fs with
        | nil => exact OkE.error _
        | cons f fs =>
          refine (labels_inside rest (none, 0) (by simp)).bind fun x hx => ?_
          refine OkE.ok ⟨⟨fun s hs => ?_, ?_, ?_⟩, ?_⟩
          · simp only [Features.objects, Option.toList_some, List.singleton_append] at hs
            exact h s hs
          · rw [hft]; rfl
          · intro l h1
            obtain ⟨cl, _, rfl⟩ := Option.map_eq_some_iff.1 h1
            rw [hlt]; rfl
          · intro g cl h1 h2
            cases h1
            simp only [Option.map_eq_some_iff, Label.cb.injEq, exists_eq_right] at h2
            have := hx.2 cl h2
            rw [hx.1] at this
            simp only [List.length_cons, Nat.add_right_cancel_iff] at hl
            simp only [Nat.zero_add] at this
            rw [← hl]
            exact this
      · refine (labels_inside (first :: rest) (none, 0) (by simp)).bind fun x hx => ?_
        refine OkE.ok ⟨⟨fun s hs => ?_, ?_, ?_⟩, ?_⟩
        · simp only [Features.objects, Option.toList_none, List.nil_append] at hs
          exact h s hs
        · rw [hft]; rfl
        · intro l h1
          obtain ⟨cl, _, rfl⟩ := Option.map_eq_some_iff.1 h1
          rw [hlt]; rfl
        · intro g cl h1 h2
          cases h1
          simp only [Option.map_eq_some_iff, Label.cb.injEq, exists_eq_right] at h2
          have := hx.2 cl h2
          rw [hx.1] at this
          simp only [Nat.zero_add] at this
          rw [← hl]
          exact this
  · exact OkE.error _

/-- No label is parsed for a binary model. -/
theorem parseLabel_noBinary (pr : Parser F) (hl : pr.labelType = .binary) (ts : List Str) (x) : parseLabel pr ts ≠ .ok x := by
  unfold parseLabel
  rw [hl]
  simp

theorem parseLabel_isSimple (pr : Parser F) (hl : pr.labelType ≠ .cb) (ts : List Str) :
    OkE (fun _ : Option (TextLabel F) => pr.labelType = .simple) (parseLabel pr ts) := by
  intro x hx
  cases h : pr.labelType with
  | simple => rfl
  | binary => exact absurd hx (parseLabel_noBinary pr h ts x)
  | cb => exact absurd h hl

theorem line_simple (pr : Parser F) (hl : pr.labelType ≠ .cb) (s : Str) (f : SparseFeatures F) :
    OkE (fun _ => pr.labelType = .simple) (parseTextLine pr s f) := by
  unfold parseTextLine
  split
  · exact OkE.error _
  · refine OkE.bind (Q := fun _ => pr.labelType = .simple) ?_ fun a ha => ?_
    · unfold parseInitialSegment
      exact (parseLabel_isSimple pr hl _).bind fun a ha => OkE.ok ha
    · exact (OkE.triv _).bind fun _ _ => OkE.ok ha

theorem parseChunk_fit (pr : Parser F) (ht : pr.featuresType = .sparseCBAdf ↔ pr.labelType = .cb) {p : Pool (SparseFeatures F)}
    (h : PoolFit pr.numBits p) (chunk : Str) :
    OkE (fun x : (Features F × Option (Label F)) × Pool (SparseFeatures F) => Fitting pr.numBits pr.featuresType pr.labelType x.1 ∧ LabelInside x.1)
      (parseChunk pr p chunk) := by
  unfold parseChunk
  split
  · refine (lines_fit pr _ p h).bind fun x hx => ?_
    obtain ⟨fs, rs, p'⟩ := x
    exact (finalizeMultiline_fit pr hx.1 rs hx.2).bind fun r hr => OkE.ok hr
  · rename_i hm
    have hl : pr.labelType ≠ .cb := by
      intro hl
      simp [Parser.isMultiline, hl, ht.2 hl] at hm
    have hf : pr.featuresType = .sparseSimple := by
      cases hf : pr.featuresType with
      | sparseSimple => rfl
      | sparseCBAdf => exact absurd (ht.1 hf) hl
    obtain ⟨h1, h2⟩ := h.get
    refine OkE.bind (Q := fun x : TextParseResult F × SparseFeatures F => Fit pr.numBits x.2 ∧ pr.labelType = .simple) ?_ fun a ha => ?_
    · intro a ha
      exact ⟨line_fit pr chunk h1 a ha, line_simple pr hl chunk _ a ha⟩
    obtain ⟨r, d⟩ := a
    refine OkE.bind (Q := fun x : Features F × Option (Label F) => Fitting pr.numBits pr.featuresType pr.labelType x ∧ LabelInside x) ?_ fun r hr => OkE.ok hr
    have hfit : FtFit pr.numBits (.simple d) := by
      intro f hf
      simp only [Features.objects, List.mem_singleton] at hf
      rw [hf]
      exact ha.1
    unfold finalizeSingleline
    split
    · refine OkE.ok ⟨⟨hfit, hf.symm, fun l hl => ?_⟩, fun f cl h => nomatch h⟩
      cases hl
      exact ha.2.symm
    · exact OkE.error _
    · exact OkE.ok ⟨⟨hfit, hf.symm, fun l hl => nomatch hl⟩, fun f cl h => nomatch h⟩

end Vw

namespace Js
variable {N : Type}

theorem entryStep_fit (pr : Parser F N) (h : U32) (n : NsFeats F) (hn : NsFit pr.numBits n) (e : Str × Json N) :
    OkE (NsFit pr.numBits) (entryStep pr h n e) := by
  unfold entryStep
  split
  · exact (OkE.triv _).bind fun a _ => OkE.ok (hn.add (maskIdx_fits _ _) _)
  · exact (OkE.triv _).bind fun a _ => OkE.ok (hn.add (maskIdx_fits _ _) _)
  · exact (OkE.triv _).bind fun a _ => OkE.ok (hn.add (maskIdx_fits _ _) _)
  · exact OkE.ok hn
  · exact OkE.error _

theorem stringStep_fit (pr : Parser F N) (h : U32) (n : NsFeats F) (hn : NsFit pr.numBits n) (e : Json N) :
    OkE (NsFit pr.numBits) (stringStep pr h n e) := by
  unfold stringStep
  refine (OkE.triv _).bind fun a _ => ?_
  exact (OkE.triv _).bind fun a _ => OkE.ok (hn.add (maskIdx_fits _ _) _)

theorem contents_fit (pr : Parser F N) {n : NsFeats F} (hn : NsFit pr.numBits n) (v : Json N) :
    OkE (NsFit pr.numBits) (contents pr n v) := by
  unfold contents
  simp only
  split
  · exact OkE.error _
  · rename_i ar
    match ar with
    | [] => exact OkE.error _
    | .num x :: rest =>
      refine OkE.bind (Q := fun is : List U32 => ∀ i ∈ is, i.toNat < 2 ^ pr.numBits) ?_ fun is his => ?_
      · unfold indexRange
        refine (OkE.triv _).bind fun a _ => OkE.ok fun i hi => ?_
        obtain ⟨k, _, rfl⟩ := List.mem_map.1 hi
        exact maskIdx_fits _ _
      · refine (OkE.triv _).bind fun vs _ => ?_
        intro m hm
        unfold NsFeats.addFeaturesWithIter at hm
        simp only at hm
        split at hm
        · cases hm
          intro i hi
          simp only [RVec.extend, List.mem_append] at hi
          rcases hi with hi | hi
          · exact hn i hi
          · exact his i hi
        · cases hm
    | .str x :: rest =>
      refine OkE.bind (Q := NsFit pr.numBits) ?_ fun m hm => ?_
      · intro m hm
        unfold NsFeats.reserve at hm
        split at hm
        · cases hm
        · simp only at hm
          split at hm
          · cases hm
          · cases hm
            exact hn
      · exact OkE.foldlM _ m hm fun c _ a ha => stringStep_fit pr _ a ha c
    | .null :: rest => exact OkE.error _
    | .bool _ :: rest => exact OkE.error _
    | .arr _ :: rest => exact OkE.error _
    | .obj _ :: rest => exact OkE.error _
  · exact OkE.foldlM _ n hn fun c _ a ha => entryStep_fit pr _ a ha c
  · exact OkE.error _

theorem toFeatures_fit (pr : Parser F N) {f : SparseFeatures F} (h : Fit pr.numBits f) (v : Json N) :
    OkE (Fit pr.numBits) (toFeatures pr v f) := by
  unfold toFeatures
  split
  · refine OkE.foldlM _ f h fun c hc a ha => ?_
    unfold nsStep
    exact (contents_fit pr (ha.get _) c.2).bind fun a' ha' => OkE.ok (ha.set _ ha')
  · exact OkE.error _

theorem actions_fit (pr : Parser F N) : ∀ (l : List (Json N)) (p : Pool (SparseFeatures F)), PoolFit pr.numBits p →
    OkE (fun x : List (SparseFeatures F) × Pool (SparseFeatures F) => ∀ f ∈ x.1, Fit pr.numBits f) (actions pr l p)
  | [], p, h => OkE.ok (by simp)
  | v :: vs, p, h => by
    obtain ⟨h1, h2⟩ := h.get
    unfold actions
    refine (toFeatures_fit pr h1 v).bind fun a ha => ?_
    refine (actions_fit pr vs _ h2).bind fun x hx => ?_
    refine OkE.ok fun f hf => ?_
    rcases List.mem_cons.1 hf with rfl | hf
    · exact ha
    · exact hx f hf

theorem shared_fit (pr : Parser F N) (j : Json N) {p : Pool (SparseFeatures F)} (h : PoolFit pr.numBits p) :
    OkE (fun x : Option (SparseFeatures F) × Pool (SparseFeatures F) => (∀ s, x.1 = some s → Fit pr.numBits s) ∧ PoolFit pr.numBits x.2) (shared pr j p) := by
  obtain ⟨h1, h2⟩ := h.get
  unfold shared
  split
  · exact OkE.ok ⟨(fun s hs => nomatch hs), h⟩
  · refine (toFeatures_fit pr h1 _).bind fun a ha => OkE.ok ⟨fun s hs => ?_, h2⟩
    cases hs
    exact ha

theorem parseFeatures_fit (pr : Parser F N) (j : Json N) {p : Pool (SparseFeatures F)} (h : PoolFit pr.numBits p) :
    OkE (fun x : Features F × Pool (SparseFeatures F) => FtFit pr.numBits x.1 ∧ x.1.ty = pr.featuresType) (parseFeatures pr j p) := by
  unfold parseFeatures
  split
  · rename_i hf
    obtain ⟨h1, h2⟩ := h.get
    split
    · exact OkE.error _
    · refine (toFeatures_fit pr h1 _).bind fun a ha => OkE.ok ⟨fun f hf => ?_, hf.symm⟩
      simp only [Features.objects, List.mem_singleton] at hf
      rw [hf]
      exact ha
  · rename_i hf
    refine (shared_fit pr j h).bind fun a ha => ?_
    obtain ⟨x, p'⟩ := a
    simp only
    split
    · exact OkE.error _
    · refine (actions_fit pr _ p' ha.2).bind fun b hb => OkE.ok ⟨fun f hf => ?_, hf.symm⟩
      simp only [Features.objects, List.mem_append, Option.mem_toList] at hf
      rcases hf with hf | hf
      · exact ha.1 f hf
      · exact hb f hf
    · exact OkE.error _

theorem parseLabel_ty (pr : Parser F N) (j : Json N) : OkE (fun x : Option (Label F) => pr.labelType ≠ .binary ∧ ∀ l, x = some l → l.ty = pr.labelType)
    (parseLabel pr j) := by
  unfold parseLabel
  split
  · rename_i hl
    split
    · exact OkE.ok ⟨by rw [hl]; simp, fun l h => nomatch h⟩
    · refine OkE.ok ⟨by rw [hl]; simp, fun l h => ?_⟩
      cases h
      exact hl.symm
    · refine (OkE.triv _).bind fun a _ => OkE.ok ⟨by rw [hl]; simp, fun l h => ?_⟩
      cases h
      exact hl.symm
  · exact OkE.error _
  · rename_i hl
    split
    · exact OkE.ok ⟨by rw [hl]; simp, fun l h => nomatch h⟩
    · refine (OkE.triv _).bind fun a _ => OkE.ok ⟨by rw [hl]; simp, fun l h => ?_⟩
      cases h
      exact hl.symm

theorem parseChunk_fit (pr : Parser F N) {p : Pool (SparseFeatures F)} (h : PoolFit pr.numBits p) (chunk : Str) :
    OkE (fun x : (Features F × Option (Label F)) × Pool (SparseFeatures F) => Fitting pr.numBits pr.featuresType pr.labelType x.1 ∧
      pr.labelType ≠ .binary) (parseChunk pr p chunk) := by
  unfold parseChunk
  refine (OkE.triv _).bind fun j _ => ?_
  refine (parseFeatures_fit pr j h).bind fun a ha => ?_
  obtain ⟨f, p'⟩ := a
  exact (parseLabel_ty pr j).bind fun l hl => OkE.ok ⟨⟨ha.1, ha.2, hl.2⟩, hl.1⟩

end Js

namespace Ds
open Js
variable {N : Type}

theorem addTo_fit (pr : Parser F N) (feat : ParsedFeature) (v : F) (ns : Namespace) {f : SparseFeatures F} (h : Fit pr.numBits f) :
    OkE (Fit pr.numBits) (addTo pr feat v ns f) := by
  unfold addTo
  exact (OkE.triv _).bind fun a _ => OkE.ok (h.set _ ((h.get ns).add (maskIdx_fits _ _) v))

theorem addTop_fit (pr : Parser F N) (feat : ParsedFeature) (v : F) (stack : List Namespace) {f : SparseFeatures F}
    (h : Fit pr.numBits f) : OkE (fun x : SparseFeatures F × List Namespace => Fit pr.numBits x.1) ((addTop pr feat v stack f).map (·, stack)) := by
  cases stack with
  | nil => exact OkE.error _
  | cons ns st =>
    have := addTo_fit pr feat v ns h
    unfold addTop
    simp only
    generalize addTo pr feat v ns f = x at this ⊢
    cases x with
    | error e => exact OkE.error _
    | ok g => exact OkE.ok (this g rfl)

theorem pop_fit {nb : Nat} {x : SparseFeatures F × List Namespace} (h : Fit nb x.1) :
    OkE (fun x : SparseFeatures F × List Namespace => Fit nb x.1) (pop x) := by
  obtain ⟨f, st⟩ := x
  unfold pop
  cases st with
  | nil => exact OkE.error _
  | cons a st => exact OkE.ok h

mutual
theorem handle_fit (pr : Parser F N) (key : Str) (v : Json N) (stack : List Namespace) {f : SparseFeatures F} (h : Fit pr.numBits f) :
    OkE (fun x : SparseFeatures F × List Namespace => Fit pr.numBits x.1) (handle pr key v stack f) := by
  unfold handle
  split
  · exact OkE.ok h
  · match v with
    | .null => exact OkE.error _
    | .bool true => exact addTop_fit pr _ _ _ h
    | .bool false => exact OkE.ok h
    | .num x => exact addTop_fit pr _ _ _ h
    | .str s => exact addTop_fit pr _ _ _ h
    | .arr l => exact (handleArr_fit pr key _ 0 l _ h).bind fun a ha => pop_fit ha
    | .obj l => exact (handleObj_fit pr l _ h).bind fun a ha => pop_fit ha

theorem handleArr_fit (pr : Parser F N) (key : Str) (ns : Namespace) (i : Nat) (l : List (Json N)) (stack : List Namespace)
    {f : SparseFeatures F} (h : Fit pr.numBits f) :
    OkE (fun x : SparseFeatures F × List Namespace => Fit pr.numBits x.1) (handleArr pr key ns i l stack f) := by
  match l with
  | [] => unfold handleArr; exact OkE.ok h
  | .num x :: vs =>
    unfold handleArr
    exact (addTo_fit pr _ _ _ h).bind fun a ha => handleArr_fit pr key ns (i + 1) vs stack ha
  | .obj o :: vs =>
    unfold handleArr
    refine (handle_fit pr key (.obj o) stack h).bind fun a ha => ?_
    obtain ⟨f', st⟩ := a
    exact handleArr_fit pr key ns (i + 1) vs st ha
  | .null :: vs =>
    unfold handleArr
    exact handleArr_fit pr key ns (i + 1) vs stack h
  | .bool b :: vs => unfold handleArr; exact OkE.error _
  | .str b :: vs => unfold handleArr; exact OkE.error _
  | .arr b :: vs => unfold handleArr; exact OkE.error _

theorem handleObj_fit (pr : Parser F N) (l : List (Str × Json N)) (stack : List Namespace) {f : SparseFeatures F}
    (h : Fit pr.numBits f) : OkE (fun x : SparseFeatures F × List Namespace => Fit pr.numBits x.1) (handleObj pr l stack f) := by
  match l with
  | [] => unfold handleObj; exact OkE.ok h
  | (k, v) :: vs =>
    unfold handleObj
    refine (handle_fit pr k v stack h).bind fun a ha => ?_
    obtain ⟨f', st⟩ := a
    exact handleObj_fit pr vs st ha
end

theorem example_fit (pr : Parser F N) (v : Json N) (stack : List Namespace) {p : Pool (SparseFeatures F)} (h : PoolFit pr.numBits p) :
    OkE (fun x : SparseFeatures F × List Namespace × Pool (SparseFeatures F) => Fit pr.numBits x.1 ∧ PoolFit pr.numBits x.2.2) (example_ pr v stack p) := by
  obtain ⟨h1, h2⟩ := h.get
  unfold example_
  refine (handle_fit pr _ v stack h1).bind fun a ha => ?_
  obtain ⟨f', st⟩ := a
  exact (OkE.triv _).bind fun _ _ => OkE.ok ⟨ha, h2⟩

theorem actions_fit (pr : Parser F N) : ∀ (l : List (Json N)) (stack : List Namespace) (p : Pool (SparseFeatures F)),
    PoolFit pr.numBits p → OkE (fun x : List (SparseFeatures F) × Pool (SparseFeatures F) => ∀ f ∈ x.1, Fit pr.numBits f) (actions pr l stack p)
  | [], _, p, h => OkE.ok (by simp)
  | v :: vs, stack, p, h => by
    unfold actions
    refine (example_fit pr v stack h).bind fun a ha => ?_
    obtain ⟨f', st, p'⟩ := a
    refine (actions_fit pr vs st p' ha.2).bind fun x hx => OkE.ok fun f hf => ?_
    rcases List.mem_cons.1 hf with rfl | hf
    · exact ha.1
    · exact hx f hf

theorem parseChunk_fit (pr : Parser F N) {p : Pool (SparseFeatures F)} (h : PoolFit pr.numBits p) (chunk : Str) :
    OkE (fun x : (Features F × Option (Label F)) × Pool (SparseFeatures F) => Fitting pr.numBits .sparseCBAdf .cb x.1 ∧
      ∃ f, x.1.1 = .cbAdf f ∧ f.shared.isSome = true) (parseChunk pr p chunk) := by
  unfold parseChunk
  refine (OkE.triv _).bind fun j _ => ?_
  refine (example_fit pr _ [] h).bind fun a ha => ?_
  obtain ⟨f', st, p'⟩ := a
  refine (OkE.triv _).bind fun items _ => ?_
  refine (actions_fit pr _ st p' ha.2).bind fun x hx => ?_
  refine (OkE.triv _).bind fun l _ => OkE.ok ⟨⟨fun s hs => ?_, rfl, fun l' hl => ?_⟩, _, rfl, rfl⟩
  · simp only [Features.objects, Option.toList_some, List.singleton_append, List.mem_cons] at hs
    rcases hs with rfl | hs
    · exact ha.1
    · exact hx s hs
  · obtain ⟨cl, _, rfl⟩ := Option.map_eq_some_iff.1 hl
    rfl

end Ds
end Rml
