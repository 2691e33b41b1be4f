import Verif.Lemmas.Renaming
import Verif.Model.VwText
import Verif.Model.JsonParser

/-!
The parsers with fewer bits.
-/

set_option linter.unusedSectionVars false

namespace Rml

/-- A loop commutes with a map of its state. -/
theorem foldlM_map_state {ε α σ τ : Type} {φ : σ → τ} {step : σ → α → Except ε σ} {step' : τ → α → Except ε τ}
    (h : ∀ s x, step' (φ s) x = (step s x).map φ) (l : List α) (s : σ) : l.foldlM step' (φ s) = (l.foldlM step s).map φ := by
  induction l generalizing s with
  | nil => rfl
  | cons x l ih =>
    simp only [List.foldlM_cons, bind, Except.bind]
    rw [h]
    cases step s x with
    | error e => rfl
    | ok s' => exact ih s'

variable {F N : Type} [Flt F]

theorem lowBits_maskIdx {b nb : Nat} (h : b ≤ nb) (hn : nb < 32) (x : U32) : lowBits b (maskIdx nb x) = maskIdx b x := by
  rw [← maskIdx_maskIdx h hn x]
  apply BitVec.eq_of_toNat_eq
  rw [maskIdx_toNat (by omega), lowBits, BitVec.toNat_ofNat]
  exact Nat.mod_eq_of_lt (lt_of_le_of_lt (Nat.mod_le _ _) (BitVec.isLt _))

theorem addFeature_lowBits {b nb : Nat} (h : b ≤ nb) (hn : nb < 32) (n : NsFeats F) (x : U32) (v : F) :
    (n.lowBits b).addFeature (maskIdx b x) v = (n.addFeature (maskIdx nb x) v).lowBits b := by
  simp [NsFeats.lowBits, NsFeats.addFeature, RVec.push, lowBits_maskIdx h hn]

theorem insert_lowBits (b : Nat) (es : List (Namespace × NsFeats F)) (ns : Namespace) (n : NsFeats F) :
    SparseFeatures.insert (es.map fun e => (e.1, e.2.lowBits b)) ns (n.lowBits b) =
      (SparseFeatures.insert es ns n).map fun e => (e.1, e.2.lowBits b) := by
  induction es with
  | nil => rfl
  | cons e es ih =>
    obtain ⟨k, v⟩ := e
    simp only [List.map_cons, SparseFeatures.insert]
    split
    · rfl
    · split
      · rfl
      · simp [ih]

theorem setNamespace_lowBits (b : Nat) (f : SparseFeatures F) (ns : Namespace) (n : NsFeats F) :
    (f.lowBits b).setNamespace ns (n.lowBits b) = (f.setNamespace ns n).lowBits b := by
  simp [SparseFeatures.setNamespace, SparseFeatures.lowBits, insert_lowBits]

theorem getOrCreate_lowBits (b : Nat) (f : SparseFeatures F) (ns : Namespace) :
    (f.lowBits b).getOrCreate ns = (f.getOrCreate ns).lowBits b := by
  simp only [SparseFeatures.getOrCreate, SparseFeatures.lowBits, lookup_lowBits]
  cases SparseFeatures.lookup f.entries ns <;> rfl

/-- The objects of a pool with fewer bits. -/
def Pool.lowBits (b : Nat) (p : Pool (SparseFeatures F)) : Pool (SparseFeatures F) := ⟨p.objects.map (SparseFeatures.lowBits b)⟩

theorem getObject_lowBits (b : Nat) (p : Pool (SparseFeatures F)) :
    (p.lowBits b).getObject SparseFeatures.new = ((p.getObject SparseFeatures.new).1.lowBits b, (p.getObject SparseFeatures.new).2.lowBits b) := by
  obtain ⟨l⟩ := p
  cases l <;> rfl

namespace Vw
open Text

theorem featureStep_lowBits {b : Nat} {pr : Parser F} (h : b ≤ pr.numBits) (hn : pr.numBits < 32) (nsHash : U32) (v : F) (s : NsFeats F × U32) (t : Str) :
    featureStep { pr with numBits := b } nsHash v (s.1.lowBits b, s.2) t = (featureStep pr nsHash v s t).map fun s => (s.1.lowBits b, s.2) := by
  unfold featureStep
  have hp : parseFeature { pr with numBits := b } t s.2 = parseFeature pr t s.2 := rfl
  simp only [hp]
  cases parseFeature pr t s.2 with
  | error e => rfl
  | ok r =>
    obtain ⟨feat, value, counter⟩ := r
    simp only [bind, Except.bind]
    cases liftM (feat.hash pr.hash pr.dbg nsHash) with
    | error e => rfl
    | ok i => simp only [Except.map, addFeature_lowBits h hn]

theorem parseNamespaceInline_lowBits {b : Nat} {pr : Parser F} (h : b ≤ pr.numBits) (hn : pr.numBits < 32) (dest : SparseFeatures F) (t : Str) :
    parseNamespaceInline { pr with numBits := b } t (dest.lowBits b) = (parseNamespaceInline pr t dest).map (SparseFeatures.lowBits b) := by
  unfold parseNamespaceInline
  have hp : segmentHead { pr with numBits := b } t = segmentHead pr t := rfl
  simp only [hp]
  cases segmentHead pr t with
  | error e => rfl
  | ok r =>
    obtain ⟨name, value, tokens⟩ := r
    simp only [bind, Except.bind, getOrCreate_lowBits]
    have := foldlM_map_state (φ := fun s : NsFeats F × U32 => (s.1.lowBits b, s.2))
      (featureStep_lowBits h hn (Namespace.fromName pr.hash name pr.hashSeed).hash value) tokens
      (dest.getOrCreate (Namespace.fromName pr.hash name pr.hashSeed), 0#32)
    rw [this]
    cases tokens.foldlM (featureStep pr (Namespace.fromName pr.hash name pr.hashSeed).hash value) _ with
    | error e => rfl
    | ok s => simp only [Except.map, setNamespace_lowBits]

theorem parseTextLine_lowBits {b : Nat} {pr : Parser F} (h : b ≤ pr.numBits) (hn : pr.numBits < 32) (dest : SparseFeatures F) (t : Str) :
    parseTextLine { pr with numBits := b } t (dest.lowBits b) = (parseTextLine pr t dest).map fun r => (r.1, r.2.lowBits b) := by
  unfold parseTextLine
  cases split '|' t with
  | nil => rfl
  | cons i segs =>
    have hp : parseInitialSegment { pr with numBits := b } i = parseInitialSegment pr i := rfl
    simp only [hp]
    cases parseInitialSegment pr i with
    | error e => rfl
    | ok r =>
      simp only [bind, Except.bind]
      rw [foldlM_map_state (φ := SparseFeatures.lowBits b) (step := fun d s => parseNamespaceInline pr s d)
        (fun s x => parseNamespaceInline_lowBits h hn s x) segs dest]
      cases segs.foldlM (fun d s => parseNamespaceInline pr s d) dest <;> rfl

theorem parseLines_lowBits {b : Nat} {pr : Parser F} (h : b ≤ pr.numBits) (hn : pr.numBits < 32) (ls : List Str) (pool : Pool (SparseFeatures F)) :
    parseLines { pr with numBits := b } ls (pool.lowBits b) =
      (parseLines pr ls pool).map fun r => (r.1.map (SparseFeatures.lowBits b), r.2.1, r.2.2.lowBits b) := by
  induction ls generalizing pool with
  | nil => rfl
  | cons l ls ih =>
    simp only [parseLines, getObject_lowBits, parseTextLine_lowBits h hn]
    cases parseTextLine pr l (pool.getObject SparseFeatures.new).1 with
    | error e => rfl
    | ok r =>
      simp only [Except.map, bind, Except.bind, ih]
      cases parseLines pr ls (pool.getObject SparseFeatures.new).2 <;> rfl

theorem finalizeMultiline_lowBits (b : Nat) (pr : Parser F) (fs : List (SparseFeatures F)) (rs : List (Option (TextLabel F))) :
    finalizeMultiline { pr with numBits := b } (fs.map (SparseFeatures.lowBits b)) rs =
      (finalizeMultiline pr fs rs).map fun r => (r.1.lowBits b, r.2) := by
  unfold finalizeMultiline
  simp only
  split
  · cases rs with
    | nil => rfl
    | cons first rest =>
      simp only [bind, Except.bind]
      cases unwrapP first with
      | error e => rfl
      | ok l =>
        simp only
        cases asCb l with
        | error e => rfl
        | ok l =>
          simp only
          split
          · cases fs with
            | nil => rfl
            | cons f fs =>
              simp only [List.map_cons]
              cases rest.foldlM labelStep (none, 0) <;> rfl
          · cases (first :: rest).foldlM labelStep (none, 0) <;> rfl
  · rfl

/-- A VW text parser with fewer bits. -/
theorem parseChunk_lowBits {b : Nat} {pr : Parser F} (h : b ≤ pr.numBits) (hn : pr.numBits < 32) (pool : Pool (SparseFeatures F)) (chunk : Str) :
    parseChunk { pr with numBits := b } (pool.lowBits b) chunk =
      (parseChunk pr pool chunk).map fun r => ((r.1.1.lowBits b, r.1.2), r.2.lowBits b) := by
  unfold parseChunk
  have hm : Parser.isMultiline { pr with numBits := b } = pr.isMultiline := rfl
  rw [hm]
  split
  · simp only [parseLines_lowBits h hn]
    cases parseLines pr (lines [] chunk) pool with
    | error e => rfl
    | ok r =>
      simp only [Except.map, bind, Except.bind, finalizeMultiline_lowBits]
      cases finalizeMultiline pr r.1 r.2.1 <;> rfl
  · simp only [getObject_lowBits, parseTextLine_lowBits h hn]
    cases parseTextLine pr chunk (pool.getObject SparseFeatures.new).1 with
    | error e => rfl
    | ok r =>
      simp only [Except.map, bind, Except.bind]
      obtain ⟨r, d⟩ := r
      unfold finalizeSingleline
      simp only
      cases r.label with
      | none => rfl
      | some l => cases l <;> rfl

end Vw

namespace Js
open Text

theorem indexRange_lowBits {b : Nat} {pr : Parser F N} (h : b ≤ pr.numBits) (hn : pr.numBits < 32) (i : U32) (len : Nat) :
    indexRange { pr with numBits := b } i len = (indexRange pr i len).map (List.map (lowBits b)) := by
  unfold indexRange
  simp only [bind, Except.bind]
  cases addChecked pr.dbg i (BitVec.ofNat 32 len) with
  | error e => rfl
  | ok s => simp [Except.map, lowBits_maskIdx h hn]

theorem entryStep_lowBits {b : Nat} {pr : Parser F N} (h : b ≤ pr.numBits) (hn : pr.numBits < 32) (hs : U32) (n : NsFeats F) (e : Str × Json N) :
    entryStep { pr with numBits := b } hs (n.lowBits b) e = (entryStep pr hs n e).map (NsFeats.lowBits b) := by
  unfold entryStep
  split
  · simp only [bind, Except.bind]
    cases (ParsedFeature.simple e.1).hash pr.hash pr.dbg hs with
    | error e => rfl
    | ok i => simp only [Except.map, addFeature_lowBits h hn]
  · rename_i v _
    simp only [bind, Except.bind]
    cases (ParsedFeature.simpleWithStringValue e.1 v).hash pr.hash pr.dbg hs with
    | error e => rfl
    | ok i => simp only [Except.map, addFeature_lowBits h hn]
  · simp only [bind, Except.bind]
    cases (ParsedFeature.simple e.1).hash pr.hash pr.dbg hs with
    | error e => rfl
    | ok i => simp only [Except.map, addFeature_lowBits h hn]
  · rfl
  · rfl

theorem stringStep_lowBits {b : Nat} {pr : Parser F N} (h : b ≤ pr.numBits) (hn : pr.numBits < 32) (hs : U32) (n : NsFeats F) (s : Json N) :
    stringStep { pr with numBits := b } hs (n.lowBits b) s = (stringStep pr hs n s).map (NsFeats.lowBits b) := by
  unfold stringStep
  simp only [bind, Except.bind]
  cases asStr s with
  | error e => rfl
  | ok name =>
    simp only
    cases (ParsedFeature.simple name).hash pr.hash pr.dbg hs with
    | error e => rfl
    | ok i => simp only [Except.map, addFeature_lowBits h hn]

theorem reserve_lowBits (b : Nat) (n : NsFeats F) (k : Nat) : (n.lowBits b).reserve k = (n.reserve k).map (NsFeats.lowBits b) := by
  unfold NsFeats.reserve
  have h1 : (n.lowBits b).idx.cap = n.idx.cap := rfl
  have h2 : (n.lowBits b).vals = n.vals := rfl
  rw [h1, h2]
  split
  · rfl
  · simp only
    split
    · rfl
    · simp [NsFeats.lowBits, RVec.reserveExact, Except.map]

theorem addFeaturesWithIter_lowBits (b : Nat) (n : NsFeats F) (is : List U32) (vs : List F) :
    (n.lowBits b).addFeaturesWithIter (is.map (lowBits b)) vs = (n.addFeaturesWithIter is vs).map (NsFeats.lowBits b) := by
  unfold NsFeats.addFeaturesWithIter
  simp only [NsFeats.lowBits, RVec.extend, List.length_append, List.length_map]
  split
  · simp [Except.map, NsFeats.lowBits]
  · rfl

theorem contents_lowBits {b : Nat} {pr : Parser F N} (h : b ≤ pr.numBits) (hn : pr.numBits < 32) (n : NsFeats F) (v : Json N) :
    contents { pr with numBits := b } (n.lowBits b) v = (contents pr n v).map (NsFeats.lowBits b) := by
  have hns : (n.lowBits b).namespace_ = n.namespace_ := rfl
  have hf : asF32 { pr with numBits := b } = asF32 pr := by funext j; cases j <;> rfl
  cases v with
  | null => rfl
  | bool _ => rfl
  | num _ => rfl
  | str _ => rfl
  | obj l => exact foldlM_map_state (fun s e => entryStep_lowBits h hn n.namespace_.hash s e) l n
  | arr ar =>
    cases ar with
    | nil => rfl
    | cons x ar =>
      cases x with
      | null => rfl
      | bool _ => rfl
      | arr _ => rfl
      | obj _ => rfl
      | num x =>
        simp only [contents, hns, indexRange_lowBits h hn, hf, bind, Except.bind]
        cases indexRange pr n.namespace_.hash (Json.num x :: ar).length with
        | error e => rfl
        | ok is =>
          simp only [Except.map]
          cases (Json.num x :: ar).mapM (asF32 pr) with
          | error e => rfl
          | ok vs =>
            simp only
            exact addFeaturesWithIter_lowBits b n is vs
      | str x =>
        simp only [contents, hns, reserve_lowBits, bind, Except.bind]
        cases n.reserve (Json.str x :: ar : List (Json N)).length with
        | error e => rfl
        | ok n' => exact foldlM_map_state (fun s e => stringStep_lowBits h hn n.namespace_.hash s e) _ n'

theorem nsStep_lowBits {b : Nat} {pr : Parser F N} (h : b ≤ pr.numBits) (hn : pr.numBits < 32) (f : SparseFeatures F) (e : Str × Json N) :
    nsStep { pr with numBits := b } (f.lowBits b) e = (nsStep pr f e).map (SparseFeatures.lowBits b) := by
  unfold nsStep
  simp only [getOrCreate_lowBits, contents_lowBits h hn, bind, Except.bind]
  cases contents pr (f.getOrCreate (Namespace.fromName pr.hash e.1 pr.hashSeed)) e.2 with
  | error e => rfl
  | ok n => simp only [Except.map, setNamespace_lowBits]

theorem toFeatures_lowBits {b : Nat} {pr : Parser F N} (h : b ≤ pr.numBits) (hn : pr.numBits < 32) (v : Json N) (f : SparseFeatures F) :
    toFeatures { pr with numBits := b } v (f.lowBits b) = (toFeatures pr v f).map (SparseFeatures.lowBits b) := by
  cases v with
  | obj l => exact foldlM_map_state (fun s e => nsStep_lowBits h hn s e) l f
  | _ => rfl

theorem actions_lowBits {b : Nat} {pr : Parser F N} (h : b ≤ pr.numBits) (hn : pr.numBits < 32) (vs : List (Json N)) (pool : Pool (SparseFeatures F)) :
    actions { pr with numBits := b } vs (pool.lowBits b) =
      (actions pr vs pool).map fun r => (r.1.map (SparseFeatures.lowBits b), r.2.lowBits b) := by
  induction vs generalizing pool with
  | nil => rfl
  | cons v vs ih =>
    simp only [actions, getObject_lowBits, toFeatures_lowBits h hn]
    cases toFeatures pr v (pool.getObject SparseFeatures.new).1 with
    | error e => rfl
    | ok r =>
      simp only [Except.map, bind, Except.bind, ih]
      cases actions pr vs (pool.getObject SparseFeatures.new).2 <;> rfl

theorem shared_lowBits {b : Nat} {pr : Parser F N} (h : b ≤ pr.numBits) (hn : pr.numBits < 32) (j : Json N) (pool : Pool (SparseFeatures F)) :
    shared { pr with numBits := b } j (pool.lowBits b) =
      (shared pr j pool).map fun r => (r.1.map (SparseFeatures.lowBits b), r.2.lowBits b) := by
  unfold shared
  split
  · rfl
  · rename_i val _
    simp only [getObject_lowBits, toFeatures_lowBits h hn]
    cases toFeatures pr (getV "shared" j) (pool.getObject SparseFeatures.new).1 <;> rfl

theorem parseFeatures_lowBits {b : Nat} {pr : Parser F N} (h : b ≤ pr.numBits) (hn : pr.numBits < 32) (j : Json N) (pool : Pool (SparseFeatures F)) :
    parseFeatures { pr with numBits := b } j (pool.lowBits b) =
      (parseFeatures pr j pool).map fun r => (r.1.lowBits b, r.2.lowBits b) := by
  unfold parseFeatures
  simp only
  split
  · split
    · rfl
    · simp only [getObject_lowBits, toFeatures_lowBits h hn]
      cases toFeatures pr (getV "features" j) (pool.getObject SparseFeatures.new).1 <;> rfl
  · simp only [shared_lowBits h hn]
    cases shared pr j pool with
    | error e => rfl
    | ok r =>
      simp only [Except.map, bind, Except.bind]
      split
      · rfl
      · rename_i l _
        simp only [actions_lowBits h hn]
        cases actions pr l r.2 <;> rfl
      · rfl

/-- A JSON parser with fewer bits. -/
theorem parseChunk_lowBits {b : Nat} {pr : Parser F N} (h : b ≤ pr.numBits) (hn : pr.numBits < 32) (pool : Pool (SparseFeatures F)) (chunk : Str) :
    parseChunk { pr with numBits := b } (pool.lowBits b) chunk =
      (parseChunk pr pool chunk).map fun r => ((r.1.1.lowBits b, r.1.2), r.2.lowBits b) := by
  unfold parseChunk
  have hl : ∀ j, parseLabel { pr with numBits := b } j = parseLabel pr j := fun j => rfl
  simp only [bind, Except.bind]
  cases unwrapOpt (pr.parseJson chunk) with
  | error e => rfl
  | ok j =>
    simp only [parseFeatures_lowBits h hn, hl]
    cases parseFeatures pr j pool with
    | error e => rfl
    | ok r =>
      simp only [Except.map]
      cases parseLabel pr j <;> rfl

end Js

namespace Ds
open Text Js

theorem addTo_lowBits {b : Nat} {pr : Parser F N} (h : b ≤ pr.numBits) (hn : pr.numBits < 32) (feat : ParsedFeature) (v : F) (ns : Namespace)
    (f : SparseFeatures F) :
    addTo { pr with numBits := b } feat v ns (f.lowBits b) = (addTo pr feat v ns f).map (SparseFeatures.lowBits b) := by
  unfold addTo
  simp only [bind, Except.bind]
  cases feat.hash pr.hash pr.dbg ns.hash with
  | error e => rfl
  | ok i => simp only [Except.map, SparseFeatures.modifyOrCreate, getOrCreate_lowBits, addFeature_lowBits h hn, setNamespace_lowBits]

theorem addTop_lowBits {b : Nat} {pr : Parser F N} (h : b ≤ pr.numBits) (hn : pr.numBits < 32) (feat : ParsedFeature) (v : F) (st : List Namespace)
    (f : SparseFeatures F) :
    addTop { pr with numBits := b } feat v st (f.lowBits b) = (addTop pr feat v st f).map (SparseFeatures.lowBits b) := by
  cases st with
  | nil => rfl
  | cons ns _ => exact addTo_lowBits h hn feat v ns f

theorem pop_lowBits (b : Nat) (r : SparseFeatures F × List Namespace) :
    pop (r.1.lowBits b, r.2) = (pop r).map fun r => (r.1.lowBits b, r.2) := by
  obtain ⟨f, st⟩ := r
  cases st <;> rfl

mutual
theorem handle_lowBits {b : Nat} {pr : Parser F N} (h : b ≤ pr.numBits) (hn : pr.numBits < 32) (key : Str) (v : Json N) (st : List Namespace)
    (f : SparseFeatures F) :
    handle { pr with numBits := b } key v st (f.lowBits b) = (handle pr key v st f).map fun r => (r.1.lowBits b, r.2) := by
  have ht : ∀ (feat : ParsedFeature) (x : F), (addTop { pr with numBits := b } feat x st (f.lowBits b)).map (·, st) =
      ((addTop pr feat x st f).map (·, st)).map fun r => (r.1.lowBits b, r.2) := by
    intro feat x
    rw [addTop_lowBits h hn]
    cases addTop pr feat x st f <;> rfl
  match v with
  | .null => simp only [handle]; split <;> rfl
  | .bool true => simp only [handle]; split; · rfl
                  · exact ht _ _
  | .bool false => simp only [handle]; split <;> rfl
  | .num x => simp only [handle]; split; · rfl
              · exact ht _ _
  | .str s => simp only [handle]; split; · rfl
              · exact ht _ _
  | .arr l =>
    simp only [handle]
    split
    · rfl
    · simp only [handleArr_lowBits h hn key (Namespace.fromName pr.hash key pr.hashSeed) 0 l (Namespace.fromName pr.hash key pr.hashSeed :: st) f]
      cases handleArr pr key (Namespace.fromName pr.hash key pr.hashSeed) 0 l (Namespace.fromName pr.hash key pr.hashSeed :: st) f with
      | error e => rfl
      | ok r => exact pop_lowBits b r
  | .obj l =>
    simp only [handle]
    split
    · rfl
    · simp only [handleObj_lowBits h hn l (Namespace.fromName pr.hash key pr.hashSeed :: st) f]
      cases handleObj pr l (Namespace.fromName pr.hash key pr.hashSeed :: st) f with
      | error e => rfl
      | ok r => exact pop_lowBits b r

theorem handleArr_lowBits {b : Nat} {pr : Parser F N} (h : b ≤ pr.numBits) (hn : pr.numBits < 32) (key : Str) (ns : Namespace) (i : Nat)
    (l : List (Json N)) (st : List Namespace) (f : SparseFeatures F) :
    handleArr { pr with numBits := b } key ns i l st (f.lowBits b) = (handleArr pr key ns i l st f).map fun r => (r.1.lowBits b, r.2) := by
  match l with
  | [] => simp only [handleArr]; rfl
  | .num x :: vs =>
    simp only [handleArr, bind, Except.bind, addTo_lowBits h hn]
    cases addTo pr (.anonymous (BitVec.ofNat 32 i)) (pr.toF32 x) ns f with
    | error e => rfl
    | ok f' =>
      simp only [Except.map]
      exact handleArr_lowBits h hn key ns (i + 1) vs st f'
  | .obj o :: vs =>
    simp only [handleArr, bind, Except.bind, handle_lowBits h hn key (.obj o) st f]
    cases handle pr key (.obj o) st f with
    | error e => rfl
    | ok r =>
      simp only [Except.map]
      exact handleArr_lowBits h hn key ns (i + 1) vs r.2 r.1
  | .null :: vs =>
    simp only [handleArr]
    exact handleArr_lowBits h hn key ns (i + 1) vs st f
  | .bool _ :: _ => simp only [handleArr]; rfl
  | .str _ :: _ => simp only [handleArr]; rfl
  | .arr _ :: _ => simp only [handleArr]; rfl

theorem handleObj_lowBits {b : Nat} {pr : Parser F N} (h : b ≤ pr.numBits) (hn : pr.numBits < 32) (l : List (Str × Json N)) (st : List Namespace)
    (f : SparseFeatures F) :
    handleObj { pr with numBits := b } l st (f.lowBits b) = (handleObj pr l st f).map fun r => (r.1.lowBits b, r.2) := by
  match l with
  | [] => simp only [handleObj]; rfl
  | (k, v) :: vs =>
    simp only [handleObj, bind, Except.bind, handle_lowBits h hn k v st f]
    cases handle pr k v st f with
    | error e => rfl
    | ok r =>
      simp only [Except.map]
      exact handleObj_lowBits h hn vs r.2 r.1
end

theorem example_lowBits {b : Nat} {pr : Parser F N} (h : b ≤ pr.numBits) (hn : pr.numBits < 32) (v : Json N) (st : List Namespace)
    (pool : Pool (SparseFeatures F)) :
    example_ { pr with numBits := b } v st (pool.lowBits b) = (example_ pr v st pool).map fun r => (r.1.lowBits b, r.2.1, r.2.2.lowBits b) := by
  unfold example_
  simp only [getObject_lowBits, handle_lowBits h hn, bind, Except.bind]
  cases handle pr " ".toList v st (pool.getObject SparseFeatures.new).1 with
  | error e => rfl
  | ok r =>
    simp only [Except.map]
    cases massert r.2.isEmpty <;> rfl

theorem actions_lowBits {b : Nat} {pr : Parser F N} (h : b ≤ pr.numBits) (hn : pr.numBits < 32) (vs : List (Json N)) (st : List Namespace)
    (pool : Pool (SparseFeatures F)) :
    actions { pr with numBits := b } vs st (pool.lowBits b) =
      (actions pr vs st pool).map fun r => (r.1.map (SparseFeatures.lowBits b), r.2.lowBits b) := by
  induction vs generalizing st pool with
  | nil => rfl
  | cons v vs ih =>
    simp only [actions, example_lowBits h hn, bind, Except.bind]
    cases example_ pr v st pool with
    | error e => rfl
    | ok r =>
      simp only [Except.map, ih]
      cases actions pr vs r.2.1 r.2.2 <;> rfl

/-- A DsJson parser with fewer bits. -/
theorem parseChunk_lowBits {b : Nat} {pr : Parser F N} (h : b ≤ pr.numBits) (hn : pr.numBits < 32) (pool : Pool (SparseFeatures F)) (chunk : Str) :
    parseChunk { pr with numBits := b } (pool.lowBits b) chunk =
      (parseChunk pr pool chunk).map fun r => ((r.1.1.lowBits b, r.1.2), r.2.lowBits b) := by
  unfold parseChunk
  have hl : ∀ j, label { pr with numBits := b } j = label pr j := fun j => rfl
  simp only [bind, Except.bind]
  cases unwrapOpt (pr.parseJson chunk) with
  | error e => rfl
  | ok j =>
    simp only [example_lowBits h hn, hl]
    cases example_ pr (getV "c" j) [] pool with
    | error e => rfl
    | ok r =>
      simp only [Except.map]
      cases iterArray (getV "_multi" (getV "c" j)) with
      | error e => rfl
      | ok items =>
        simp only [actions_lowBits h hn]
        cases actions pr items r.2.1 r.2.2 with
        | error e => rfl
        | ok q =>
          simp only [Except.map]
          cases label pr j <;> rfl

end Ds
end Rml
