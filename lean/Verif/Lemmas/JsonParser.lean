import Verif.SpecJson
import Verif.Lemmas.VwText

/-! Lemmas about JSON and DsJson parsing. -/

set_option linter.unusedSectionVars false
namespace Rml
namespace Js
open Text SparseFeatures
open Vw (Recycled zip_fst_snd addChecked_ok)
variable {F N : Type} [Flt F]

theorem fromName_nsOf (pr : Parser F N) (name : Str) : Namespace.fromName pr.hash name pr.hashSeed = nsOf pr name := by
  unfold Namespace.fromName nsOf
  by_cases h1 : name = " ".toList
  · simp [h1]
  · by_cases h2 : name = ":default".toList
    · simp [h2]
    · rw [if_neg h1, if_neg h2, if_neg (by rintro (h | h) <;> [exact h2 h; exact h1 h])]

/-- A namespace has got more features. -/
structure Grown (n n' : NsFeats F) (l : List (U32 × F)) : Prop where
  ns : n'.namespace_ = n.namespace_
  active : n'.active = n.active
  idx : n'.idx.data = n.idx.data ++ l.map (·.1)
  vals : n'.vals.data = n.vals.data ++ l.map (·.2)

theorem Grown.refl (n : NsFeats F) : Grown n n [] := ⟨rfl, rfl, by simp, by simp⟩

theorem Grown.trans {n n' n'' : NsFeats F} {l l' : List (U32 × F)} (h : Grown n n' l) (h' : Grown n' n'' l') : Grown n n'' (l ++ l') :=
  ⟨h'.ns.trans h.ns, h'.active.trans h.active, by rw [h'.idx, h.idx]; simp, by rw [h'.vals, h.vals]; simp⟩

theorem grown_add (n : NsFeats F) (i : U32) (v : F) : Grown n (n.addFeature i v) [(i, v)] := ⟨rfl, rfl, rfl, rfl⟩

theorem entries_ok (pr : Parser F N) (h : U32) : ∀ (l : List (Str × JVal N)) (n : NsFeats F),
    ∃ n', (l.map fun e => (e.1, e.2.render)).foldlM (entryStep pr h) n = .ok n' ∧ Grown n n' (l.flatMap fun e => e.2.feature pr h e.1)
  | [], n => ⟨n, rfl, .refl n⟩
  | (k, v) :: l, n => by
    have hs : ∃ n', entryStep pr h n (k, v.render) = .ok n' ∧ Grown n n' (v.feature pr h k) := by
      cases v with
      | num x => exact ⟨_, rfl, by rw [JVal.feature, lowBits_eq]; exact grown_add _ _ _⟩
      | str x => exact ⟨_, rfl, by rw [JVal.feature, lowBits_eq]; exact grown_add _ _ _⟩
      | bool b => cases b <;> [exact ⟨_, rfl, .refl _⟩; exact ⟨_, rfl, by rw [JVal.feature, lowBits_eq]; exact grown_add _ _ _⟩]
    obtain ⟨n1, h1, h2⟩ := hs
    obtain ⟨n2, q1, q2⟩ := entries_ok pr h l n1
    refine ⟨n2, ?_, h2.trans q2⟩
    rw [List.map_cons, List.foldlM_cons, h1]
    exact q1

theorem strings_ok (pr : Parser F N) (h : U32) : ∀ (l : List Str) (n : NsFeats F),
    ∃ n', (l.map Json.str).foldlM (stringStep pr h) n = .ok n' ∧ Grown n n' (l.map fun s => (maskIdx pr.numBits (pr.hash s h), Flt.one))
  | [], n => ⟨n, rfl, .refl n⟩
  | s :: l, n => by
    obtain ⟨n2, q1, q2⟩ := strings_ok pr h l (n.addFeature (maskIdx pr.numBits (pr.hash s h)) Flt.one)
    refine ⟨n2, ?_, (grown_add _ _ _).trans q2⟩
    rw [List.map_cons, List.foldlM_cons]
    exact q1

theorem numbers_map (pr : Parser F N) : ∀ l : List N, (l.map Json.num).mapM (asF32 pr) = .ok (l.map pr.toF32)
  | [] => rfl
  | x :: l => by
    rw [List.map_cons, List.mapM_cons, numbers_map pr l]
    rfl

theorem indexRange_ok (pr : Parser F N) (h : U32) (len : Nat) (hl : h.toNat + len < 2 ^ 32) :
    indexRange pr h len = .ok ((List.range len).map fun i => maskIdx pr.numBits (h + BitVec.ofNat 32 i)) := by
  unfold indexRange
  have h1 : (BitVec.ofNat 32 len).toNat = len := by simp; omega
  rw [addChecked_ok (fun _ => by rw [h1]; exact hl)]
  simp only [bind, Except.bind]
  have : (h + BitVec.ofNat 32 len).toNat - h.toNat = len := by
    rw [BitVec.toNat_add, h1, Nat.mod_eq_of_lt hl]; omega
  rw [this]

theorem addIter_ok {n : NsFeats F} (hn : n.idx.data.length = n.vals.data.length) {is : List U32} {vs : List F} (hl : is.length = vs.length) :
    n.addFeaturesWithIter is vs = .ok { n with idx := n.idx.extend is, vals := n.vals.extend vs } := by
  simp [NsFeats.addFeaturesWithIter, RVec.extend, hn, hl]

theorem contents_ok (pr : Parser F N) (n : NsFeats F) (hn : n.idx.data.length = n.vals.data.length) (c : JCont N) (hv : c.Valid n.namespace_.hash)
    (hr : ∀ ss, c = .strings ss → n.idx.cap ≤ ss.length ∧ n.vals.cap ≤ ss.length) :
    ∃ n', contents pr n c.render = .ok n' ∧ Grown n n' (c.features pr n.namespace_.hash) := by
  cases c with
  | numbers l =>
    obtain ⟨h1, h2⟩ := hv
    obtain ⟨x, l, rfl⟩ := List.exists_cons_of_ne_nil h1
    have hm := numbers_map pr (x :: l)
    rw [List.map_cons] at hm
    simp only [contents, JCont.render, List.map_cons]
    rw [show (Json.num x :: List.map Json.num l).length = (x :: l).length from by simp, indexRange_ok pr _ _ h2, hm]
    simp only [bind, Except.bind]
    rw [addIter_ok hn (by simp)]
    refine ⟨_, rfl, ⟨rfl, rfl, ?_, ?_⟩⟩
    · simp only [JCont.features, RVec.extend]
      congr 1
      generalize x :: l = l
      apply List.ext_getElem
      · simp
      · intro i h1 h2; simp [lowBits_eq]
    · simp only [JCont.features, RVec.extend]
      congr 1
      generalize x :: l = l
      apply List.ext_getElem
      · simp
      · intro i h1 h2; simp
  | strings l =>
    obtain ⟨x, l, rfl⟩ := List.exists_cons_of_ne_nil hv
    obtain ⟨r1, r2⟩ := hr _ rfl
    simp only [contents, JCont.render, List.map_cons]
    have hlen : (Json.str (N := N) x :: List.map Json.str l).length = (x :: l).length := by simp
    rw [hlen]
    obtain ⟨n1, q1, q2⟩ := strings_ok pr n.namespace_.hash (x :: l)
      { n with idx := n.idx.reserveExact ((x :: l).length - n.idx.cap), vals := n.vals.reserve ((x :: l).length - n.vals.cap) }
    have hres : n.reserve (x :: l).length = .ok { n with idx := n.idx.reserveExact ((x :: l).length - n.idx.cap), vals := n.vals.reserve ((x :: l).length - n.vals.cap) } := by
      unfold NsFeats.reserve
      rw [if_neg (by omega), if_neg (by omega)]
    rw [hres]
    refine ⟨n1, q1, ⟨q2.ns, q2.active, ?_, ?_⟩⟩
    · rw [q2.idx, JCont.features, lowBits_eq]; rfl
    · rw [q2.vals, JCont.features, lowBits_eq]; rfl
  | named l =>
    obtain ⟨n1, q1, q2⟩ := entries_ok pr n.namespace_.hash l n
    exact ⟨n1, q1, q2⟩

theorem grown_set {d : SparseFeatures F} (hd : d.WF) {ns : Namespace} {n' : NsFeats F} {l : List (U32 × F)} (hg : Grown (d.getOrCreate ns) n' l) :
    (d.setNamespace ns n').WF ∧ (d.setNamespace ns n').report = d.report.put ns (some ((d.report ns).getD [] ++ l)) := by
  obtain ⟨g1, g2, g3, g4⟩ := getOrCreate_spec hd.toInv0 ns
  have hl := vw_lens hd.toInv0 ns
  constructor
  · refine wf_setNamespace hd ?_ (hg.ns.trans g4) (hg.active.trans g3)
    rw [hg.idx, hg.vals, g1, g2]
    simp [hl]
  · rw [report_setNamespace _ (hg.active.trans g3), hg.idx, hg.vals]
    congr 2
    rw [g1, g2, List.zip_append hl, report_eq_absV, getD_absV hd]
    congr 1
    exact zip_fst_snd _

theorem nsStep_ok (pr : Parser F N) (d : SparseFeatures F) (hd : d.WF) (name : Str) (c : JCont N) (hv : c.Valid (nsOf pr name).hash)
    (hr : ∀ ss, c = .strings ss → ∀ n, lookup d.entries (nsOf pr name) = some n → n.idx.cap ≤ ss.length ∧ n.vals.cap ≤ ss.length) :
    ∃ d', nsStep pr d (name, c.render) = .ok d' ∧ d'.WF ∧
      d'.report = d.report.put (nsOf pr name) (some ((d.report (nsOf pr name)).getD [] ++ c.features pr (nsOf pr name).hash)) ∧
      ∀ ns, ns ≠ nsOf pr name → lookup d'.entries ns = lookup d.entries ns := by
  obtain ⟨g1, g2, g3, g4⟩ := getOrCreate_spec hd.toInv0 (nsOf pr name)
  obtain ⟨n', h1, h2⟩ := contents_ok pr (d.getOrCreate (nsOf pr name)) (by rw [g1, g2]; exact vw_lens hd.toInv0 _) c (by rw [g4]; exact hv) (by
    intro ss hss
    unfold getOrCreate
    cases hl : lookup d.entries (nsOf pr name) with
    | none => simp [NsFeats.new, RVec.new]
    | some n => exact hr ss hss n hl)
  rw [g4] at h2
  obtain ⟨w1, w2⟩ := grown_set hd h2
  refine ⟨_, ?_, w1, w2, ?_⟩
  · unfold nsStep
    simp only [fromName_nsOf, h1, bind, Except.bind]
  · intro ns hns
    unfold setNamespace
    rw [lookup_insert, if_neg (fun h => hns h.symm)]

theorem meaning_step (pr : Parser F N) (l : List (Str × JCont N)) (e : Str × JCont N) :
    meaning pr (l ++ [e]) = (meaning pr l).put (nsOf pr e.1)
      (some ((meaning pr l (nsOf pr e.1)).getD [] ++ e.2.features pr (nsOf pr e.1).hash)) := by
  funext ns
  unfold meaning SMap.put
  rw [List.filter_append]
  by_cases h : nsOf pr e.1 = ns
  · subst h
    simp only [if_true, List.filter_cons, decide_true, List.filter_nil]
    cases l.filter (fun m => decide (nsOf pr m.1 = nsOf pr e.1)) with
    | nil => simp [seed_eq]
    | cons a l => simp [seed_eq]
  · simp only [h, if_false, List.filter_cons, decide_false, List.filter_nil, List.append_nil, Bool.false_eq_true]

theorem fold_ok (pr : Parser F N) (f : SparseFeatures F) (all : List (Str × JCont N)) (hs : NoSpare pr f all) :
    ∀ (l pre : List (Str × JCont N)) (d : SparseFeatures F), all = pre ++ l → (∀ e ∈ l, e.2.Valid (nsOf pr e.1).hash) → d.WF → d.report = meaning pr pre →
    (∀ ns, (∀ e ∈ pre, nsOf pr e.1 ≠ ns) → lookup d.entries ns = lookup f.entries ns) →
    ∃ d', (l.map fun e => (e.1, e.2.render)).foldlM (nsStep pr) d = .ok d' ∧ d'.WF ∧ d'.report = meaning pr all
  | [], pre, d, ha, _, hd, hr, _ => ⟨d, rfl, hd, by rw [ha, List.append_nil]; exact hr⟩
  | (name, c) :: l, pre, d, ha, hv, hd, hr, hl => by
    obtain ⟨d1, h1, h2, h3, h4⟩ := nsStep_ok pr d hd name c (hv (name, c) (by simp)) (by
      intro ss hss n hn
      subst hss
      obtain ⟨s1, s2⟩ := hs pre name ss l ha
      exact s2 n (by rw [← hl _ s1]; exact hn))
    obtain ⟨d2, q1, q2, q3⟩ := fold_ok pr f all hs l (pre ++ [(name, c)]) d1 (by simp [ha]) (fun e he => hv e (by simp [he])) h2
      (by rw [h3, hr, meaning_step]) (by
        intro ns hns
        rw [h4 ns (fun h => hns (name, c) (by simp) h.symm)]
        exact hl ns (fun e he => hns e (by simp [he])))
    refine ⟨d2, ?_, q2, q3⟩
    rw [List.map_cons, List.foldlM_cons, h1]
    exact q1

theorem toFeatures_ok (pr : Parser F N) (l : List (Str × JCont N)) (hv : ∀ e ∈ l, e.2.Valid (nsOf pr e.1).seed) (f : SparseFeatures F)
    (hf : Recycled f) (hs : NoSpare pr f l) :
    ∃ f', toFeatures pr (renderFeatures l) f = .ok f' ∧ f'.WF ∧ f'.report = meaning pr l :=
  fold_ok pr f l hs l [] f rfl (seed_eq ▸ hv) hf.1 (funext hf.2) (fun _ _ => rfl)

end Js

namespace Ds
open Text SparseFeatures Js
variable {F N : Type} [Flt F]

/-- One feature is added. -/
def add1 (f : SparseFeatures F) (e : Namespace × U32 × F) : SparseFeatures F := f.modifyOrCreate e.1 fun n => n.addFeature e.2.1 e.2.2

theorem addTo_spec (pr : Parser F N) (feat : ParsedFeature) (v : F) (ns : Namespace) (f : SparseFeatures F) :
    addTo pr feat v ns f = (feat.hash pr.hash pr.dbg ns.hash).map fun i => add1 f (ns, maskIdx pr.numBits i, v) := by
  unfold addTo add1
  cases feat.hash pr.hash pr.dbg ns.hash <;> rfl

theorem addChecked_iff (dbg : Bool) (a b : U32) :
    ((dbg = true → a.toNat + b.toNat < 2 ^ 32) → addChecked dbg a b = .ok (a + b)) ∧
    (¬ (dbg = true → a.toNat + b.toNat < 2 ^ 32) → ∃ e, addChecked dbg a b = .error e) := by
  refine ⟨Vw.addChecked_ok, fun h => ⟨.overflow, ?_⟩⟩
  unfold addChecked
  cases dbg <;> simp_all

/-- The result of a pass over a value: as described if it is accepted, a panic otherwise. -/
def Res (r : M (SparseFeatures F × List Namespace)) (ok : Prop) (f : SparseFeatures F) (l : List (Namespace × U32 × F)) (stack : List Namespace) : Prop :=
  (ok → r = .ok (l.foldl add1 f, stack)) ∧ (¬ ok → ∃ e, r = .error e)

theorem Res.pop {r : M (SparseFeatures F × List Namespace)} {ok : Prop} {f : SparseFeatures F} {l : List (Namespace × U32 × F)} {ns : Namespace}
    {stack : List Namespace} (h : Res r ok f l (ns :: stack)) : Res (r >>= Ds.pop) ok f l stack := by
  refine ⟨fun ho => ?_, fun ho => ?_⟩
  · rw [h.1 ho]; rfl
  · obtain ⟨e, he⟩ := h.2 ho
    exact ⟨e, by rw [he]; rfl⟩

theorem Res.seq {r : M (SparseFeatures F × List Namespace)} {ok ok' : Prop} {f : SparseFeatures F} {l l' : List (Namespace × U32 × F)}
    {stack : List Namespace} {k : SparseFeatures F × List Namespace → M (SparseFeatures F × List Namespace)} (h : Res r ok f l stack)
    (hk : Res (k (l.foldl add1 f, stack)) ok' (l.foldl add1 f) l' stack) : Res (r >>= k) (ok ∧ ok') f (l ++ l') stack := by
  refine ⟨fun ho => ?_, fun ho => ?_⟩
  · rw [h.1 ho.1, List.foldl_append]
    exact hk.1 ho.2
  · by_cases h1 : ok
    · rw [h.1 h1]
      exact hk.2 (fun h2 => ho ⟨h1, h2⟩)
    · obtain ⟨e, he⟩ := h.2 h1
      exact ⟨e, by rw [he]; rfl⟩

theorem Res.congr {r : M (SparseFeatures F × List Namespace)} {ok ok' : Prop} {f : SparseFeatures F} {l : List (Namespace × U32 × F)}
    {stack : List Namespace} (h : Res r ok f l stack) (ho : ok' ↔ ok) : Res r ok' f l stack := by rw [show ok' = ok from propext ho]; exact h

mutual
theorem handle_spec (pr : Parser F N) (key : Str) (v : Json N) (ns : Namespace) (stack : List Namespace) (f : SparseFeatures F) :
    Res (handle pr key v (ns :: stack) f) (Accepted pr key v) f (features pr ns key v) (ns :: stack) := by
  unfold handle features Accepted
  simp only [lowBits_eq, seed_eq]
  by_cases hk : key.head? = some '_'
  · have : startsWith '_' key = true := by simp [startsWith, hk]
    rw [this]
    simp only [hk, if_true, true_or]
    exact ⟨fun _ => rfl, fun h => absurd trivial h⟩
  · have : startsWith '_' key = false := by simpa [startsWith] using hk
    rw [this]
    simp only [hk, if_false, false_or, Bool.false_eq_true]
    match v with
    | .null => exact ⟨fun h => h.elim, fun _ => ⟨_, rfl⟩⟩
    | .bool true => exact ⟨fun _ => rfl, fun h => absurd trivial h⟩
    | .bool false => exact ⟨fun _ => rfl, fun h => absurd trivial h⟩
    | .num x => exact ⟨fun _ => rfl, fun h => absurd trivial h⟩
    | .str s => exact ⟨fun _ => rfl, fun h => absurd trivial h⟩
    | .arr l =>
      simp only [fromName_nsOf]
      exact (handleArr_spec pr key hk (nsOf pr key) rfl 0 l (ns :: stack) f).pop
    | .obj l =>
      simp only [fromName_nsOf]
      exact (handleObj_spec pr l (nsOf pr key) (ns :: stack) f).pop

theorem handleArr_spec (pr : Parser F N) (key : Str) (hk : key.head? ≠ some '_') (ns : Namespace) (hns : ns = nsOf pr key) (i : Nat) (l : List (Json N))
    (stack : List Namespace) (f : SparseFeatures F) :
    Res (handleArr pr key ns i l (ns :: stack) f) (AllElements pr ns i l) f (elements pr ns i l) (ns :: stack) := by
  match l with
  | [] =>
    unfold handleArr AllElements elements
    exact ⟨fun _ => rfl, fun h => absurd trivial h⟩
  | .num x :: vs =>
    unfold handleArr AllElements elements
    rw [addTo_spec]
    simp only [ParsedFeature.hash, lowBits_eq, seed_eq]
    obtain ⟨a1, a2⟩ := addChecked_iff pr.dbg ns.hash (BitVec.ofNat 32 i)
    refine ⟨fun ho => ?_, fun ho => ?_⟩
    · rw [a1 ho.1]
      exact (handleArr_spec pr key hk ns hns (i + 1) vs stack (add1 f (ns, _, _))).1 ho.2
    · by_cases h1 : pr.dbg = true → ns.hash.toNat + (BitVec.ofNat 32 i).toNat < 2 ^ 32
      · rw [a1 h1]
        exact (handleArr_spec pr key hk ns hns (i + 1) vs stack (add1 f (ns, _, _))).2 (fun h2 => ho ⟨h1, h2⟩)
      · obtain ⟨e, he⟩ := a2 h1
        exact ⟨e, by rw [he]; rfl⟩
  | .obj o :: vs =>
    unfold handleArr AllElements elements
    have h := handle_spec pr key (.obj o) ns stack f
    unfold features Accepted at h
    simp only [hk, if_false, false_or, ← hns] at h
    exact h.seq (handleArr_spec pr key hk ns hns (i + 1) vs stack _)
  | .null :: vs =>
    unfold handleArr AllElements elements
    exact handleArr_spec pr key hk ns hns (i + 1) vs stack f
  | .bool b :: vs =>
    unfold handleArr AllElements elements
    exact ⟨fun h => h.elim, fun _ => ⟨_, rfl⟩⟩
  | .str b :: vs =>
    unfold handleArr AllElements elements
    exact ⟨fun h => h.elim, fun _ => ⟨_, rfl⟩⟩
  | .arr b :: vs =>
    unfold handleArr AllElements elements
    exact ⟨fun h => h.elim, fun _ => ⟨_, rfl⟩⟩

theorem handleObj_spec (pr : Parser F N) (l : List (Str × Json N)) (ns : Namespace) (stack : List Namespace) (f : SparseFeatures F) :
    Res (handleObj pr l (ns :: stack) f) (AllEntries pr l) f (entries pr ns l) (ns :: stack) := by
  match l with
  | [] =>
    unfold handleObj AllEntries entries
    exact ⟨fun _ => rfl, fun h => absurd trivial h⟩
  | (k, v) :: vs =>
    unfold handleObj AllEntries entries
    exact (handle_spec pr k v ns stack f).seq (handleObj_spec pr vs ns stack _)
end

theorem handle_top (pr : Parser F N) (v : Json N) (f : SparseFeatures F) :
    Res (handle pr " ".toList v [] f) (ExampleAccepted pr v) f (exampleFeatures pr v) [] := by
  unfold handle exampleFeatures features ExampleAccepted Accepted
  have h1 : startsWith '_' " ".toList = false := rfl
  have h2 : ¬ (" ".toList.head? = some '_') := by decide
  rw [h1]
  simp only [h2, if_false, false_or, Bool.false_eq_true]
  cases v with
  | null => exact ⟨fun h => h.2.elim, fun _ => ⟨_, rfl⟩⟩
  | bool b =>
    cases b with
    | true => exact ⟨fun h => by simp at h, fun _ => ⟨_, rfl⟩⟩
    | false => exact ⟨fun _ => rfl, fun h => absurd (by simp) h⟩
  | num x => exact ⟨fun h => by simp at h, fun _ => ⟨_, rfl⟩⟩
  | str x => exact ⟨fun h => by simp at h, fun _ => ⟨_, rfl⟩⟩
  | arr l =>
    simp only [fromName_nsOf]
    exact ((handleArr_spec pr _ h2 (nsOf pr " ".toList) rfl 0 l [] f).pop).congr (by simp)
  | obj l =>
    simp only [fromName_nsOf]
    exact ((handleObj_spec pr l (nsOf pr " ".toList) [] f).pop).congr (by simp)

theorem add1_ok {f : SparseFeatures F} (hf : f.WF) (e : Namespace × U32 × F) :
    (add1 f e).WF ∧ (add1 f e).report = f.report.put e.1 (some ((f.report e.1).getD [] ++ [e.2])) :=
  grown_set hf (grown_add (f.getOrCreate e.1) e.2.1 e.2.2)

theorem group_step (l : List (Namespace × U32 × F)) (e : Namespace × U32 × F) :
    group (l ++ [e]) = (group l).put e.1 (some ((group l e.1).getD [] ++ [e.2])) := by
  funext ns
  unfold group SMap.put
  rw [List.filter_append]
  by_cases h : e.1 = ns
  · subst h
    simp only [if_true, List.filter_cons, decide_true, List.filter_nil]
    cases l.filter (fun m => decide (m.1 = e.1)) with
    | nil => simp [seed_eq]
    | cons a l => simp [seed_eq]
  · simp only [h, if_false, List.filter_cons, decide_false, List.filter_nil, List.append_nil, Bool.false_eq_true]

theorem fold_add : ∀ (l pre : List (Namespace × U32 × F)) (f : SparseFeatures F), f.WF → f.report = group pre →
    (l.foldl add1 f).WF ∧ (l.foldl add1 f).report = group (pre ++ l)
  | [], pre, f, hf, hr => ⟨hf, by rw [List.append_nil]; exact hr⟩
  | e :: l, pre, f, hf, hr => by
    obtain ⟨h1, h2⟩ := add1_ok hf e
    have := fold_add l (pre ++ [e]) (add1 f e) h1 (by rw [h2, hr, group_step])
    simpa using this

end Ds
end Rml
