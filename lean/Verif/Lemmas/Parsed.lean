import Verif.Lemmas.Recycle
import Verif.SpecTrain

/-! Lemmas for C67: what the parsers make is well-formed. -/

set_option linter.unusedSectionVars false

namespace Rml
open Text SparseFeatures
variable {F : Type}

/-- Every result of the computation satisfies `Q`. -/
def OkE {ε α : Type} (Q : α → Prop) (x : Except ε α) : Prop := ∀ a, x = .ok a → Q a

theorem OkE.ok {ε α : Type} {Q : α → Prop} {a : α} (h : Q a) : OkE (ε := ε) Q (.ok a) := fun b hb => by cases hb; exact h

theorem OkE.error {ε α : Type} {Q : α → Prop} (e : ε) : OkE Q (.error e) := fun _ hb => by cases hb

theorem OkE.bind {ε α β : Type} {Q : α → Prop} {R : β → Prop} {x : Except ε α} {f : α → Except ε β} (h : OkE Q x) (hf : ∀ a, Q a → OkE R (f a)) :
    OkE R (x >>= f) := by
  cases x with
  | error e => exact OkE.error e
  | ok a => exact hf a (h a rfl)

theorem OkE.triv {ε α : Type} (x : Except ε α) : OkE (fun _ => True) x := fun _ _ => trivial

theorem OkE.mono {ε α : Type} {Q R : α → Prop} {x : Except ε α} (h : OkE Q x) (hQ : ∀ a, Q a → R a) : OkE R x := fun a ha => hQ a (h a ha)

theorem OkE.foldlM {ε α γ : Type} {Q : α → Prop} {f : α → γ → Except ε α} : ∀ (l : List γ) (a : α), Q a → (∀ c ∈ l, ∀ a, Q a → OkE Q (f a c)) →
    OkE Q (l.foldlM f a)
  | [], _, ha, _ => OkE.ok ha
  | c :: l, a, ha, h => by
    rw [List.foldlM_cons]
    exact (h c (by simp) a ha).bind fun a' ha' => OkE.foldlM l a' ha' fun c hc => h c (by simp [hc])

/-- A loop with a step that establishes `R` and steps that keep it. -/
theorem OkE.foldlM_some {ε α γ : Type} {Q R : α → Prop} {f : α → γ → Except ε α} (p : γ → Prop) (hR : ∀ a, R a → Q a) : ∀ (l : List γ) (a : α), Q a →
    (∃ c ∈ l, p c) → (∀ c ∈ l, ∀ a, Q a → OkE Q (f a c)) → (∀ c ∈ l, p c → ∀ a, Q a → OkE R (f a c)) → (∀ c ∈ l, ∀ a, R a → OkE R (f a c)) →
    OkE R (l.foldlM f a)
  | [], _, _, he, _, _, _ => by obtain ⟨c, hc, _⟩ := he; cases hc
  | c :: l, a, ha, he, h1, h2, h3 => by
    rw [List.foldlM_cons]
    by_cases hp : p c
    · exact (h2 c (by simp) hp a ha).bind fun a' ha' => OkE.foldlM l a' ha' fun c hc => h3 c (by simp [hc])
    · refine (h1 c (by simp) a ha).bind fun a' ha' => OkE.foldlM_some p hR l a' ha' ?_ (fun c hc => h1 c (by simp [hc]))
        (fun c hc => h2 c (by simp [hc])) (fun c hc => h3 c (by simp [hc]))
      obtain ⟨d, hd, hpd⟩ := he
      rcases List.mem_cons.1 hd with rfl | hd
      · exact absurd hpd hp
      · exact ⟨d, hd, hpd⟩

/-- An object of parsed features. With `e`, it has no visible but empty namespaces. -/
structure Made (e : Prop) (f : SparseFeatures F) : Prop where
  inv : f.Inv0
  hidden : ∀ ns, (f.vw ns).2.2 = false → (f.vw ns).1 = []
  raw : ∀ ns, ns.isRaw = true → (f.vw ns).2.2 = false
  full : e → ∀ ns, (f.vw ns).2.2 = true → (f.vw ns).1 ≠ []

/-- A namespace while it is filled. -/
structure NsMade (ns : Namespace) (n : NsFeats F) : Prop where
  name : n.namespace_ = ns
  lens : n.idx.data.length = n.vals.data.length
  active : n.active = true

theorem Made.of_blank {e : Prop} {f : SparseFeatures F} (h : f.Inv0) (hv : ∀ ns, f.vw ns = ([], [], false)) : Made e f :=
  ⟨h, fun ns _ => by rw [hv], fun ns _ => by rw [hv], fun _ ns ha => by rw [hv] at ha; cases ha⟩

theorem Made.weak {e : Prop} {f : SparseFeatures F} (h : Made True f) : Made e f := ⟨h.inv, h.hidden, h.raw, fun _ => h.full trivial⟩

theorem Made.wf {e : Prop} {f : SparseFeatures F} (h : Made e f) : f.WF := ⟨h.inv, h.hidden⟩

theorem Made.noComposite {e : Prop} {f : SparseFeatures F} (h : Made e f) : f.NoComposite := by
  intro k
  have h1 := getNamespace_isSome_vw f (.rawHash k)
  rw [h.raw _ rfl] at h1
  exact Option.not_isSome_iff_eq_none.1 (by simp [h1])

theorem Made.noEmpty {e : Prop} (he : e) {f : SparseFeatures F} (h : Made e f) : f.NoEmpty := by
  intro ns n hn h0
  have h1 := getNamespace_isSome_vw f ns
  rw [hn] at h1
  have h2 := getNamespace_map_vw f ns
  rw [hn, ← h1] at h2
  simp at h2
  apply h.full he ns h1.symm
  rw [← h2.1]
  exact List.length_eq_zero_iff.1 h0

theorem NsMade.add {ns : Namespace} {n : NsFeats F} (h : NsMade ns n) (i : U32) (v : F) :
    NsMade ns (n.addFeature i v) ∧ (n.addFeature i v).idx.data ≠ [] :=
  ⟨⟨h.name, by simp [NsFeats.addFeature, RVec.push, h.lens], h.active⟩, by simp [NsFeats.addFeature, RVec.push]⟩

theorem Made.get {e : Prop} {f : SparseFeatures F} (h : Made e f) (ns : Namespace) : NsMade ns (f.getOrCreate ns) := by
  obtain ⟨a1, a2, a3, a4⟩ := getOrCreate_spec h.inv ns
  exact ⟨a4, by rw [a1, a2]; exact vw_lens h.inv ns, a3⟩

theorem Made.set {e : Prop} {f : SparseFeatures F} (h : Made e f) {ns : Namespace} (hr : ns.isRaw = false) {n : NsFeats F} (hn : NsMade ns n)
    (he : e → n.idx.data ≠ []) : Made e (f.setNamespace ns n) := by
  refine ⟨setNamespace_inv0 h.inv hn.lens hn.name, fun k => ?_, fun k hk => ?_, fun he' k => ?_⟩
  · rw [vw_setNamespace]
    split
    · intro ha
      simp only at ha
      rw [hn.active] at ha
      cases ha
    · exact h.hidden k
  · rw [vw_setNamespace]
    split
    · rename_i e
      subst e
      rw [hr] at hk
      cases hk
    · exact h.raw k hk
  · rw [vw_setNamespace]
    split
    · exact fun _ => he he'
    · exact h.full he' k

theorem fromName_raw (hash : HashFn) (s : Str) (k : U32) : (Namespace.fromName hash s k).isRaw = false := by
  unfold Namespace.fromName
  split
  · rfl
  · split <;> rfl

/-- Every object of the pool is blank. -/
def PoolOk (p : Pool (SparseFeatures F)) : Prop := ∀ f ∈ p.objects, f.Inv0 ∧ ∀ ns, f.vw ns = ([], [], false)

theorem PoolOk.get [Flt F] {p : Pool (SparseFeatures F)} (h : PoolOk p) (e : Prop) :
    Made e (p.getObject SparseFeatures.new).1 ∧ PoolOk (p.getObject SparseFeatures.new).2 :=
  ⟨Made.of_blank (pool_one h).1.1 (pool_one h).1.2, (pool_one h).2⟩

/-- The parsed features of an example. -/
def FtMade (e : Prop) : Features F → Prop
  | .simple f => Made e f
  | .cbAdf f => (∀ s, f.shared = some s → Made e s) ∧ ∀ a ∈ f.actions, Made e a

variable [Flt F]

namespace Vw

theorem featureStep_made (pr : Parser F) (h : U32) (v : F) {ns : Namespace} (x : NsFeats F × U32) (hx : NsMade ns x.1) (t : Str) :
    OkE (fun y : NsFeats F × U32 => NsMade ns y.1 ∧ y.1.idx.data ≠ []) (featureStep pr h v x t) := by
  unfold featureStep
  refine (OkE.triv _).bind fun a _ => ?_
  refine (OkE.triv _).bind fun b _ => ?_
  exact OkE.ok (hx.add _ _)

theorem namespace_made {e : Prop} (pr : Parser F) (s : Str) (hs : e → SegmentHasFeature s) {f : SparseFeatures F} (h : Made e f) :
    OkE (Made e) (parseNamespaceInline pr s f) := by
  unfold parseNamespaceInline
  have h0 : OkE (fun x : Str × F × List Str => e → x.2.2 ≠ []) (segmentHead pr s) := by
    unfold segmentHead
    simp only
    unfold SegmentHasFeature at hs
    split
    · rename_i h1
      rw [if_pos h1] at hs
      exact OkE.ok hs
    · rename_i h1
      rw [if_neg h1] at hs
      split
      · exact OkE.error _
      · rename_i info rest heq
        rw [heq] at hs
        have h2 : e → rest ≠ [] := fun he h0 => by have := hs he; rw [h0] at this; simp at this
        refine (OkE.triv _).bind fun a _ => ?_
        split
        · exact (OkE.triv _).bind fun b _ => OkE.ok h2
        · exact OkE.ok h2
  refine h0.bind fun a ha => ?_
  obtain ⟨name, value, tokens⟩ := a
  simp only at ha
  refine OkE.bind (Q := fun y : NsFeats F × U32 => NsMade (Namespace.fromName pr.hash name pr.hashSeed) y.1 ∧ (e → y.1.idx.data ≠ [])) ?_ fun y hy =>
    OkE.ok (h.set (fromName_raw _ _ _) hy.1 hy.2)
  cases tokens with
  | nil => exact OkE.ok ⟨h.get _, fun he => absurd rfl (ha he)⟩
  | cons t ts =>
    rw [List.foldlM_cons]
    refine (featureStep_made pr _ _ _ (h.get _) t).bind fun x hx => ?_
    refine (OkE.foldlM (Q := fun y : NsFeats F × U32 => NsMade (Namespace.fromName pr.hash name pr.hashSeed) y.1 ∧ y.1.idx.data ≠ []) ts x hx
      fun c _ a ha => featureStep_made pr _ _ a ha.1 c).mono fun a ha => ⟨ha.1, fun _ => ha.2⟩

theorem line_made {e : Prop} (pr : Parser F) (s : Str) (hs : e → ∀ g ∈ (split '|' s).tail, SegmentHasFeature g) {f : SparseFeatures F} (h : Made e f) :
    OkE (fun x : TextParseResult F × SparseFeatures F => Made e x.2) (parseTextLine pr s f) := by
  unfold parseTextLine
  split
  · exact OkE.error _
  · rename_i i segs heq
    rw [heq] at hs
    refine (OkE.triv _).bind fun a _ => ?_
    obtain ⟨tag, label⟩ := a
    exact (OkE.foldlM segs f h fun c hc a ha => namespace_made pr c (fun he => hs he c hc) ha).bind fun x hx => OkE.ok hx

theorem lines_made {e : Prop} (pr : Parser F) : ∀ (ls : List Str) (p : Pool (SparseFeatures F)), PoolOk p →
    (e → ∀ s ∈ ls, ∀ g ∈ (split '|' s).tail, SegmentHasFeature g) →
    OkE (fun x : List (SparseFeatures F) × List (Option (TextLabel F)) × Pool (SparseFeatures F) => (∀ f ∈ x.1, Made e f) ∧ PoolOk x.2.2) (parseLines pr ls p)
  | [], p, hp, _ => OkE.ok ⟨by simp, hp⟩
  | l :: ls, p, h, hs => by
    obtain ⟨h1, h2⟩ := h.get e
    unfold parseLines
    refine (line_made pr l (fun he => hs he l (by simp)) h1).bind fun a ha => ?_
    refine (lines_made pr ls _ h2 fun he s hm => hs he s (by simp [hm])).bind fun x hx => ?_
    refine OkE.ok ⟨fun f hf => ?_, hx.2⟩
    rcases List.mem_cons.1 hf with rfl | hf
    · exact ha
    · exact hx.1 f hf

theorem finalizeMultiline_made {e : Prop} (pr : Parser F) {fs : List (SparseFeatures F)} (h : ∀ f ∈ fs, Made e f) (ls : List (Option (TextLabel F))) :
    OkE (fun x : Features F × Option (Label F) => FtMade e x.1) (finalizeMultiline pr fs ls) := by
  unfold finalizeMultiline
  split
  · split
    · exact OkE.error _
    · refine (OkE.triv _).bind fun a _ => ?_
      refine (OkE.triv _).bind fun b _ => ?_
      split
      · cases fs with
        | nil => exact OkE.error _
        | cons f fs =>
          refine (OkE.triv _).bind fun x _ => ?_
          refine OkE.ok ⟨fun s hs => ?_, fun a ha => h a (by simp [ha])⟩
          simp only [Option.some.injEq] at hs
          subst hs
          exact h f (by simp)
      · refine (OkE.triv _).bind fun x _ => ?_
        exact OkE.ok ⟨(fun s hs => nomatch hs), fun a ha => h a ha⟩
  · exact OkE.error _

theorem parseChunk_made {e : Prop} (pr : Parser F) {p : Pool (SparseFeatures F)} (h : PoolOk p) (chunk : Str)
    (hs : e → ChunkFull pr chunk) :
    OkE (fun x : (Features F × Option (Label F)) × Pool (SparseFeatures F) => FtMade e x.1.1 ∧ PoolOk x.2) (parseChunk pr p chunk) := by
  unfold parseChunk
  have hiff : SpansLines pr ↔ pr.isMultiline = true := by simp [Parser.isMultiline, SpansLines]
  unfold ChunkFull chunkLines at hs
  simp only [hiff] at hs
  split
  · rename_i hm
    rw [if_pos hm] at hs
    refine (lines_made pr _ p h hs).bind fun x hx => ?_
    obtain ⟨fs, rs, p'⟩ := x
    exact (finalizeMultiline_made pr hx.1 rs).bind fun r hr => OkE.ok ⟨hr, hx.2⟩
  · rename_i hm
    rw [if_neg hm] at hs
    obtain ⟨h1, h2⟩ := h.get e
    refine (line_made pr chunk (fun he => hs he chunk (by simp)) h1).bind fun a ha => ?_
    obtain ⟨r, d⟩ := a
    refine OkE.bind (Q := fun x : Features F × Option (Label F) => FtMade e x.1) ?_ fun r hr => OkE.ok ⟨hr, h2⟩
    unfold finalizeSingleline
    split
    · exact OkE.ok ha
    · exact OkE.error _
    · exact OkE.ok ha

end Vw

namespace Js
variable {N : Type}

theorem entryStep_made (pr : Parser F N) (h : U32) {ns : Namespace} (n : NsFeats F) (hn : NsMade ns n) (e : Str × Json N) :
    OkE (NsMade ns) (entryStep pr h n e) := by
  unfold entryStep
  split
  · exact (OkE.triv _).bind fun a _ => OkE.ok (hn.add _ _).1
  · exact (OkE.triv _).bind fun a _ => OkE.ok (hn.add _ _).1
  · exact (OkE.triv _).bind fun a _ => OkE.ok (hn.add _ _).1
  · exact OkE.ok hn
  · exact OkE.error _

theorem entryStep_full (pr : Parser F N) (h : U32) {ns : Namespace} (n : NsFeats F) (hn : NsMade ns n) (e : Str × Json N)
    (he : e.2 ≠ .bool false ∨ n.idx.data ≠ []) : OkE (fun m => NsMade ns m ∧ m.idx.data ≠ []) (entryStep pr h n e) := by
  unfold entryStep
  split
  · exact (OkE.triv _).bind fun a _ => OkE.ok (hn.add _ _)
  · exact (OkE.triv _).bind fun a _ => OkE.ok (hn.add _ _)
  · exact (OkE.triv _).bind fun a _ => OkE.ok (hn.add _ _)
  · rename_i heq
    rcases he with he | he
    · exact absurd heq he
    · exact OkE.ok ⟨hn, he⟩
  · exact OkE.error _

theorem stringStep_made (pr : Parser F N) (h : U32) {ns : Namespace} (n : NsFeats F) (hn : NsMade ns n) (e : Json N) :
    OkE (fun m => NsMade ns m ∧ m.idx.data ≠ []) (stringStep pr h n e) := by
  unfold stringStep
  refine (OkE.triv _).bind fun a _ => ?_
  exact (OkE.triv _).bind fun a _ => OkE.ok (hn.add _ _)

theorem reserve_made {ns : Namespace} {n : NsFeats F} (hn : NsMade ns n) (k : Nat) : OkE (NsMade ns) (n.reserve k) := by
  intro m hm
  unfold NsFeats.reserve at hm
  split at hm
  · cases hm
  · simp only at hm
    split at hm
    · cases hm
    · cases hm
      exact ⟨hn.name, hn.lens, hn.active⟩

theorem contents_made {e : Prop} (pr : Parser F N) {ns : Namespace} {n : NsFeats F} (hn : NsMade ns n) (v : Json N) (hs : e → NotEmptyObject v) :
    OkE (fun m => NsMade ns m ∧ (e → m.idx.data ≠ [])) (contents pr n v) := by
  unfold contents
  simp only
  split
  · exact OkE.error _
  · rename_i ar
    match ar with
    | [] => exact OkE.error _
    | .num x :: rest =>
      refine (OkE.triv _).bind fun is _ => ?_
      refine OkE.bind (Q := fun vs : List F => vs ≠ []) ?_ fun vs hvs => ?_
      · intro vs hvs h0
        subst h0
        rw [List.mapM_cons] at hvs
        obtain ⟨y, _, h⟩ := bind_ok.1 hvs
        obtain ⟨ys, _, h⟩ := bind_ok.1 h
        cases h
      · intro m hm
        unfold NsFeats.addFeaturesWithIter at hm
        simp only at hm
        split at hm
        · rename_i hl
          cases hm
          refine ⟨⟨hn.name, hl, hn.active⟩, fun _ h0 => ?_⟩
          have h1 := congrArg List.length h0
          simp only at h1
          rw [hl] at h1
          simp [RVec.extend] at h1
          exact hvs h1.2
        · cases hm
    | .str x :: rest =>
      refine (reserve_made hn _).bind fun m hm => ?_
      rw [List.foldlM_cons]
      refine (stringStep_made pr _ m hm _).bind fun x hx => ?_
      exact (OkE.foldlM (Q := fun m => NsMade ns m ∧ m.idx.data ≠ []) rest x hx fun c _ a ha => stringStep_made pr _ a ha.1 c).mono
        fun a ha => ⟨ha.1, fun _ => ha.2⟩
    | .null :: rest => exact OkE.error _
    | .bool _ :: rest => exact OkE.error _
    | .arr _ :: rest => exact OkE.error _
    | .obj _ :: rest => exact OkE.error _
  · rename_i l
    by_cases he : e
    · exact (OkE.foldlM_some (R := fun m => NsMade ns m ∧ m.idx.data ≠ []) (fun c : Str × Json N => c.2 ≠ .bool false) (fun a ha => ha.1) l n hn (hs he l rfl)
        (fun c _ a ha => entryStep_made pr _ a ha c) (fun c _ hc a ha => entryStep_full pr _ a ha c (Or.inl hc))
        (fun c _ a ha => entryStep_full pr _ a ha.1 c (Or.inr ha.2))).mono fun a ha => ⟨ha.1, fun _ => ha.2⟩
    · exact (OkE.foldlM l n hn fun c _ a ha => entryStep_made pr _ a ha c).mono fun a ha => ⟨ha, fun h => absurd h he⟩
  · exact OkE.error _

theorem nsStep_made {e : Prop} (pr : Parser F N) {f : SparseFeatures F} (h : Made e f) (x : Str × Json N) (hs : e → NotEmptyObject x.2) :
    OkE (Made e) (nsStep pr f x) := by
  unfold nsStep
  exact (contents_made pr (h.get _) x.2 hs).bind fun a ha => OkE.ok (h.set (fromName_raw _ _ _) ha.1 ha.2)

theorem toFeatures_made {e : Prop} (pr : Parser F N) {f : SparseFeatures F} (h : Made e f) (v : Json N) (hs : e → AllFull v) :
    OkE (Made e) (toFeatures pr v f) := by
  unfold toFeatures
  split
  · rename_i l
    exact OkE.foldlM l f h fun c hc a ha => nsStep_made pr ha c fun h => hs h l rfl c hc
  · exact OkE.error _

theorem actions_made {e : Prop} (pr : Parser F N) : ∀ (l : List (Json N)) (p : Pool (SparseFeatures F)), PoolOk p → (e → ∀ v ∈ l, AllFull v) →
    OkE (fun x : List (SparseFeatures F) × Pool (SparseFeatures F) => (∀ f ∈ x.1, Made e f) ∧ PoolOk x.2) (actions pr l p)
  | [], p, h, _ => OkE.ok ⟨by simp, h⟩
  | v :: vs, p, h, hs => by
    obtain ⟨h1, h2⟩ := h.get e
    unfold actions
    refine (toFeatures_made pr h1 v fun he => hs he v (by simp)).bind fun a ha => ?_
    refine (actions_made pr vs _ h2 fun he w hw => hs he w (by simp [hw])).bind fun x hx => ?_
    refine OkE.ok ⟨fun f hf => ?_, hx.2⟩
    rcases List.mem_cons.1 hf with rfl | hf
    · exact ha
    · exact hx.1 f hf

theorem shared_made {e : Prop} (pr : Parser F N) (j : Json N) {p : Pool (SparseFeatures F)} (h : PoolOk p) (hs : e → AllFull (getV "shared" j)) :
    OkE (fun x : Option (SparseFeatures F) × Pool (SparseFeatures F) => (∀ s, x.1 = some s → Made e s) ∧ PoolOk x.2) (shared pr j p) := by
  obtain ⟨h1, h2⟩ := h.get e
  unfold shared
  split
  · exact OkE.ok ⟨(fun s hs => nomatch hs), h⟩
  · refine (toFeatures_made pr h1 _ hs).bind fun a ha => OkE.ok ⟨fun s hs => ?_, h2⟩
    cases hs
    exact ha

theorem parseFeatures_made {e : Prop} (pr : Parser F N) (j : Json N) {p : Pool (SparseFeatures F)} (h : PoolOk p) (hs : e → DocFull j) :
    OkE (fun x : Features F × Pool (SparseFeatures F) => FtMade e x.1 ∧ PoolOk x.2) (parseFeatures pr j p) := by
  unfold parseFeatures
  split
  · obtain ⟨h1, h2⟩ := h.get e
    split
    · exact OkE.error _
    · exact (toFeatures_made pr h1 _ fun h => valueOf_eq .. ▸ (hs h).features).bind fun a ha => OkE.ok ⟨ha, h2⟩
  · refine (shared_made pr j h fun h => valueOf_eq .. ▸ (hs h).shared).bind fun a ha => ?_
    obtain ⟨x, p'⟩ := a
    simp only
    split
    · exact OkE.error _
    · rename_i l hl
      exact (actions_made pr l p' ha.2 fun h => (hs h).actions l ((valueOf_eq ..).trans hl)).bind fun b hb => OkE.ok ⟨⟨ha.1, hb.1⟩, hb.2⟩
    · exact OkE.error _

theorem parseChunk_made {e : Prop} (pr : Parser F N) {p : Pool (SparseFeatures F)} (h : PoolOk p) (chunk : Str)
    (hs : e → ∀ j, pr.parseJson chunk = some j → DocFull j) :
    OkE (fun x : (Features F × Option (Label F)) × Pool (SparseFeatures F) => FtMade e x.1.1 ∧ PoolOk x.2) (parseChunk pr p chunk) := by
  unfold parseChunk
  cases hj : pr.parseJson chunk with
  | none => exact OkE.error _
  | some j =>
    refine OkE.bind (Q := fun x : Json N => x = j) (OkE.ok rfl) fun x hx => ?_
    rw [hx]
    refine (parseFeatures_made pr j h fun h => hs h j hj).bind fun a ha => ?_
    obtain ⟨f, p'⟩ := a
    exact (OkE.triv _).bind fun l _ => OkE.ok ha

end Js

namespace Ds
open Js
variable {N : Type}

/-- Namespaces with names. -/
def Named (st : List Namespace) : Prop := ∀ ns ∈ st, ns.isRaw = false

theorem addTo_made (pr : Parser F N) (feat : ParsedFeature) (v : F) {ns : Namespace} (hr : ns.isRaw = false) {f : SparseFeatures F} (h : Made True f) :
    OkE (Made True) (addTo pr feat v ns f) := by
  unfold addTo
  refine (OkE.triv _).bind fun a _ => OkE.ok ?_
  have := (h.get ns).add (maskIdx pr.numBits a) v
  exact h.set hr this.1 fun _ => this.2

theorem addTop_made (pr : Parser F N) (feat : ParsedFeature) (v : F) {stack : List Namespace} (hst : Named stack) {f : SparseFeatures F} (h : Made True f) :
    OkE (fun x : SparseFeatures F × List Namespace => Made True x.1 ∧ Named x.2) ((addTop pr feat v stack f).map (·, stack)) := by
  cases stack with
  | nil => exact OkE.error _
  | cons ns st =>
    have := addTo_made pr feat v (hst ns (by simp)) h
    unfold addTop
    simp only
    generalize addTo pr feat v ns f = x at this ⊢
    cases x with
    | error e => exact OkE.error _
    | ok g => exact OkE.ok ⟨this g rfl, hst⟩

theorem pop_made {x : SparseFeatures F × List Namespace} (h : Made True x.1 ∧ Named x.2) :
    OkE (fun x : SparseFeatures F × List Namespace => Made True x.1 ∧ Named x.2) (pop x) := by
  obtain ⟨f, st⟩ := x
  unfold pop
  cases st with
  | nil => exact OkE.error _
  | cons a st => exact OkE.ok ⟨h.1, fun ns hns => h.2 ns (by simp [hns])⟩

theorem Named.push {st : List Namespace} (h : Named st) {ns : Namespace} (hr : ns.isRaw = false) : Named (ns :: st) := fun k hk => by
  rcases List.mem_cons.1 hk with rfl | hk
  · exact hr
  · exact h k hk

mutual
theorem handle_made (pr : Parser F N) (key : Str) (v : Json N) (stack : List Namespace) (hst : Named stack) {f : SparseFeatures F} (h : Made True f) :
    OkE (fun x : SparseFeatures F × List Namespace => Made True x.1 ∧ Named x.2) (handle pr key v stack f) := by
  unfold handle
  split
  · exact OkE.ok ⟨h, hst⟩
  · match v with
    | .null => exact OkE.error _
    | .bool true => exact addTop_made pr _ _ hst h
    | .bool false => exact OkE.ok ⟨h, hst⟩
    | .num x => exact addTop_made pr _ _ hst h
    | .str s => exact addTop_made pr _ _ hst h
    | .arr l => exact (handleArr_made pr key _ (fromName_raw _ _ _) 0 l _ (hst.push (fromName_raw _ _ _)) h).bind fun a ha => pop_made ha
    | .obj l => exact (handleObj_made pr l _ (hst.push (fromName_raw _ _ _)) h).bind fun a ha => pop_made ha

theorem handleArr_made (pr : Parser F N) (key : Str) (ns : Namespace) (hr : ns.isRaw = false) (i : Nat) (l : List (Json N)) (stack : List Namespace)
    (hst : Named stack) {f : SparseFeatures F} (h : Made True f) :
    OkE (fun x : SparseFeatures F × List Namespace => Made True x.1 ∧ Named x.2) (handleArr pr key ns i l stack f) := by
  match l with
  | [] => unfold handleArr; exact OkE.ok ⟨h, hst⟩
  | .num x :: vs =>
    unfold handleArr
    exact (addTo_made pr _ _ hr h).bind fun a ha => handleArr_made pr key ns hr (i + 1) vs stack hst ha
  | .obj o :: vs =>
    unfold handleArr
    refine (handle_made pr key (.obj o) stack hst h).bind fun a ha => ?_
    obtain ⟨f', st⟩ := a
    exact handleArr_made pr key ns hr (i + 1) vs st ha.2 ha.1
  | .null :: vs =>
    unfold handleArr
    exact handleArr_made pr key ns hr (i + 1) vs stack hst h
  | .bool b :: vs => unfold handleArr; exact OkE.error _
  | .str b :: vs => unfold handleArr; exact OkE.error _
  | .arr b :: vs => unfold handleArr; exact OkE.error _

theorem handleObj_made (pr : Parser F N) (l : List (Str × Json N)) (stack : List Namespace) (hst : Named stack) {f : SparseFeatures F} (h : Made True f) :
    OkE (fun x : SparseFeatures F × List Namespace => Made True x.1 ∧ Named x.2) (handleObj pr l stack f) := by
  match l with
  | [] => unfold handleObj; exact OkE.ok ⟨h, hst⟩
  | (k, v) :: vs =>
    unfold handleObj
    refine (handle_made pr k v stack hst h).bind fun a ha => ?_
    obtain ⟨f', st⟩ := a
    exact handleObj_made pr vs st ha.2 ha.1
end

theorem example_made (pr : Parser F N) (v : Json N) (stack : List Namespace) (hst : Named stack) {p : Pool (SparseFeatures F)} (h : PoolOk p) :
    OkE (fun x : SparseFeatures F × List Namespace × Pool (SparseFeatures F) => Made True x.1 ∧ Named x.2.1 ∧ PoolOk x.2.2) (example_ pr v stack p) := by
  obtain ⟨h1, h2⟩ := h.get True
  unfold example_
  refine (handle_made pr _ v stack hst h1).bind fun a ha => ?_
  obtain ⟨f', st⟩ := a
  exact (OkE.triv _).bind fun _ _ => OkE.ok ⟨ha.1, ha.2, h2⟩

theorem actions_made (pr : Parser F N) : ∀ (l : List (Json N)) (stack : List Namespace) (p : Pool (SparseFeatures F)), Named stack → PoolOk p →
    OkE (fun x : List (SparseFeatures F) × Pool (SparseFeatures F) => (∀ f ∈ x.1, Made True f) ∧ PoolOk x.2) (actions pr l stack p)
  | [], _, p, _, h => OkE.ok ⟨by simp, h⟩
  | v :: vs, stack, p, hst, h => by
    unfold actions
    refine (example_made pr v stack hst h).bind fun a ha => ?_
    obtain ⟨f', st, p'⟩ := a
    refine (actions_made pr vs st p' ha.2.1 ha.2.2).bind fun x hx => OkE.ok ⟨fun f hf => ?_, hx.2⟩
    rcases List.mem_cons.1 hf with rfl | hf
    · exact ha.1
    · exact hx.1 f hf

theorem parseChunk_made (pr : Parser F N) {p : Pool (SparseFeatures F)} (h : PoolOk p) (chunk : Str) :
    OkE (fun x : (Features F × Option (Label F)) × Pool (SparseFeatures F) => FtMade True x.1.1 ∧ PoolOk x.2) (parseChunk pr p chunk) := by
  unfold parseChunk
  refine (OkE.triv _).bind fun j _ => ?_
  refine (example_made pr _ [] (fun _ h => by cases h) h).bind fun a ha => ?_
  obtain ⟨f', st, p'⟩ := a
  refine (OkE.triv _).bind fun items _ => ?_
  refine (actions_made pr _ st p' ha.2.1 ha.2.2).bind fun x hx => ?_
  refine (OkE.triv _).bind fun l _ => OkE.ok ⟨⟨fun s hs => ?_, hx.1⟩, hx.2⟩
  cases hs
  exact ha.1

end Ds
end Rml
