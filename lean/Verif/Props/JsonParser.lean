import Verif.Lemmas.JsonParser
import Verif.Props.Vw

/-! C49, C50, C51: JSON and DsJson input. -/

set_option linter.unusedSectionVars false
namespace Rml
namespace Js
open Text SparseFeatures
open Vw (Recycled pool_get)
variable {F N : Type} [Flt F]

/-! ### C49 -/

theorem getV_some {k : String} {j v : Json N} (h : valueOf k j = v) : getV k j = v := by rw [← valueOf_eq]; exact h

theorem render_obj (l : List (Str × JCont N)) : ∃ o, renderFeatures l = .obj o := ⟨_, rfl⟩

theorem serdeF_ok {pr : Parser F N} {o : Option (Json N)} {x : F} : serdeF pr o = .ok x ↔ ∃ n, o = some (.num n) ∧ x = pr.serdeF32 n := by
  unfold serdeF
  split
  · rename_i n
    constructor
    · intro h; cases h; exact ⟨n, rfl, rfl⟩
    · rintro ⟨m, h, rfl⟩; cases h; rfl
  · rename_i hne
    constructor
    · intro h; cases h
    · rintro ⟨m, h, rfl⟩; exact absurd h (hne m)

theorem serdeU_ok {pr : Parser F N} {o : Option (Json N)} {i : Nat} : serdeU pr o = .ok i ↔ ∃ n, o = some (.num n) ∧ pr.toU64 n = some i := by
  unfold serdeU
  split
  · rename_i n
    constructor
    · intro h
      cases hu : pr.toU64 n with
      | none => rw [hu] at h; cases h
      | some k => rw [hu] at h; cases h; exact ⟨n, rfl, hu⟩
    · rintro ⟨m, h, h'⟩; cases h; rw [h']; rfl
  · rename_i hne
    constructor
    · intro h; cases h
    · rintro ⟨m, h, _⟩; exact absurd h (hne m)

theorem serdeSimple_ok {pr : Parser F N} {v : Json N} {l : SimpleLabel F} (h0 : ∀ n, v ≠ .num n) :
    serdeSimple pr v = .ok l ↔ SimpleLabelIs pr v (some l) := by
  constructor
  · intro h
    unfold serdeSimple at h
    split at h
    · obtain ⟨v, hv, h⟩ := bind_ok.1 h
      obtain ⟨w, hw, h⟩ := bind_ok.1 h
      obtain ⟨n, hn, rfl⟩ := serdeF_ok.1 hv
      obtain ⟨m, hm, rfl⟩ := serdeF_ok.1 hw
      cases h
      exact .object _ n m (by rw [lastValue_eq]; exact hn) (by rw [lastValue_eq]; exact hm)
    · obtain ⟨v, hv, h⟩ := bind_ok.1 h
      obtain ⟨w, hw, h⟩ := bind_ok.1 h
      obtain ⟨n, hn, rfl⟩ := serdeF_ok.1 hv
      obtain ⟨m, hm, rfl⟩ := serdeF_ok.1 hw
      cases h; cases hn; cases hm
      exact .array n m
    · cases h
  · intro h
    cases h with
    | number n => exact absurd rfl (h0 n)
    | object o v w h1 h2 =>
      rw [lastValue_eq] at h1 h2
      exact bind_ok.2 ⟨_, serdeF_ok.2 ⟨v, h1, rfl⟩, bind_ok.2 ⟨_, serdeF_ok.2 ⟨w, h2, rfl⟩, rfl⟩⟩
    | array v w => rfl

theorem serdeCb_ok {pr : Parser F N} {v : Json N} {l : CBLabel F} : serdeCb pr v = .ok l ↔ CbLabelIs pr v (some l) := by
  constructor
  · intro h
    unfold serdeCb at h
    split at h
    · obtain ⟨a, ha, h⟩ := bind_ok.1 h
      obtain ⟨v, hv, h⟩ := bind_ok.1 h
      obtain ⟨w, hw, h⟩ := bind_ok.1 h
      obtain ⟨k, hk, hk'⟩ := serdeU_ok.1 ha
      obtain ⟨n, hn, rfl⟩ := serdeF_ok.1 hv
      obtain ⟨m, hm, rfl⟩ := serdeF_ok.1 hw
      cases h
      exact .object _ k n m a (by rw [lastValue_eq]; exact hk) hk' (by rw [lastValue_eq]; exact hn) (by rw [lastValue_eq]; exact hm)
    · obtain ⟨a, ha, h⟩ := bind_ok.1 h
      obtain ⟨v, hv, h⟩ := bind_ok.1 h
      obtain ⟨w, hw, h⟩ := bind_ok.1 h
      obtain ⟨k, hk, hk'⟩ := serdeU_ok.1 ha
      obtain ⟨n, hn, rfl⟩ := serdeF_ok.1 hv
      obtain ⟨m, hm, rfl⟩ := serdeF_ok.1 hw
      cases h; cases hn; cases hm; cases hk
      exact .array k n m a hk'
    · cases h
  · intro h
    cases h with
    | object o a v w i h0 h1 h2 h3 =>
      rw [lastValue_eq] at h0 h2 h3
      exact bind_ok.2 ⟨_, serdeU_ok.2 ⟨a, h0, h1⟩, bind_ok.2 ⟨_, serdeF_ok.2 ⟨v, h2, rfl⟩, bind_ok.2 ⟨_, serdeF_ok.2 ⟨w, h3, rfl⟩, rfl⟩⟩⟩
    | array a v w i hi => exact bind_ok.2 ⟨_, serdeU_ok.2 ⟨a, rfl, hi⟩, rfl⟩

theorem simpleLabel_ok (pr : Parser F N) (hl : pr.labelType = .simple) (j : Json N) (l : Option (SimpleLabel F)) :
    parseLabel pr j = .ok (l.map .simple) ↔ SimpleLabelIs pr (valueOf "label" j) l := by
  unfold parseLabel
  rw [hl]
  simp only [valueOf_eq]
  generalize getV "label" j = v
  split
  · constructor
    · intro h; cases l with
      | none => exact .absent
      | some l => cases h
    · intro h; cases h; rfl
  · rename_i n
    constructor
    · intro h; cases l with
      | none => cases h
      | some l => cases h; exact .number n
    · intro h; cases h; rfl
  · rename_i h1 h2
    constructor
    · intro h
      obtain ⟨x, hx, h⟩ := bind_ok.1 h
      cases l with
      | none => cases h
      | some l => cases h; exact (serdeSimple_ok h2).1 hx
    · intro h
      cases l with
      | none => cases h; exact absurd rfl h1
      | some l => exact bind_ok.2 ⟨l, (serdeSimple_ok h2).2 h, rfl⟩

theorem cbLabel_ok (pr : Parser F N) (hl : pr.labelType = .cb) (j : Json N) (l : Option (CBLabel F)) :
    parseLabel pr j = .ok (l.map .cb) ↔ CbLabelIs pr (valueOf "label" j) l := by
  unfold parseLabel
  rw [hl]
  simp only [valueOf_eq]
  generalize getV "label" j = v
  split
  · constructor
    · intro h; cases l with
      | none => exact .absent
      | some l => cases h
    · intro h; cases h; rfl
  · rename_i h1
    constructor
    · intro h
      obtain ⟨x, hx, h⟩ := bind_ok.1 h
      cases l with
      | none => cases h
      | some l => cases h; exact serdeCb_ok.1 hx
    · intro h
      cases l with
      | none => cases h; exact absurd rfl h1
      | some l => exact bind_ok.2 ⟨l, serdeCb_ok.2 h, rfl⟩

/-- C49, regression. Every example in the documented feature format, with any label that is read (C50), is parsed to the features it means, whatever
recycled objects the pool holds, provided they have no spare room for lists of strings. Missing from the full property: that proviso
(`C49_recycled_false`), empty lists (`C49_empty_list_false`) and number lists that run over the end of the index space (`C49_number_overflow_false`),
where parsing panics. -/
theorem C49_features_partial (pr : Parser F N) (hf : pr.featuresType = .sparseSimple) (hl : pr.labelType = .simple) (pool : Pool (SparseFeatures F))
    (hpool : ∀ f ∈ pool.objects, Recycled f) (chunk : Str) (j : Json N) (hj : pr.parseJson chunk = some j) (l : List (Str × JCont N))
    (hfeat : valueOf "features" j = renderFeatures l) (hv : ∀ e ∈ l, e.2.Valid (nsOf pr e.1).seed)
    (hs : NoSpare pr (pool.getObject SparseFeatures.new).1 l) (lab : Option (SimpleLabel F)) (hlab : SimpleLabelIs pr (valueOf "label" j) lab) :
    ∃ f pool', parseChunk pr pool chunk = .ok ((.simple f, lab.map .simple), pool') ∧ f.Represents (meaning pr l) := by
  obtain ⟨p1, _⟩ := pool_get hpool
  obtain ⟨f', h1, h2, h3⟩ := toFeatures_ok pr l hv _ p1 hs
  refine ⟨f', (pool.getObject SparseFeatures.new).2, ?_, by rw [← h3]; exact represents_of_wf h2⟩
  unfold parseChunk parseFeatures
  obtain ⟨o, ho⟩ := render_obj l
  rw [ho] at h1 hfeat
  rw [hj, hf]
  simp only [unwrapOpt, bind, Except.bind, getV_some hfeat, (simpleLabel_ok pr hl j lab).2 hlab, h1]

theorem actions_ok (pr : Parser F N) : ∀ (ls : List (List (Str × JCont N))) (pool : Pool (SparseFeatures F)), (∀ f ∈ pool.objects, Recycled f) →
    (∀ l ∈ ls, ∀ e ∈ l, e.2.Valid (nsOf pr e.1).seed) → (∀ f, f = SparseFeatures.new ∨ f ∈ pool.objects → ∀ l ∈ ls, NoSpare pr f l) →
    ∃ fs pool', actions pr (ls.map renderFeatures) pool = .ok (fs, pool') ∧
      List.Forall₂ (fun l a => SparseFeatures.Represents a (meaning pr l)) ls fs
  | [], pool, _, _, _ => ⟨[], pool, rfl, .nil⟩
  | l :: ls, pool, hp, hv, hs => by
    obtain ⟨p1, p2⟩ := pool_get hp
    have hmem : (pool.getObject SparseFeatures.new).1 = SparseFeatures.new ∨ (pool.getObject SparseFeatures.new).1 ∈ pool.objects := by
      unfold Pool.getObject
      cases hpo : pool.objects <;> simp
    have hsub : ∀ f, f ∈ (pool.getObject SparseFeatures.new).2.objects → f ∈ pool.objects := by
      intro f
      unfold Pool.getObject
      cases hpo : pool.objects with
      | nil => simp [hpo]
      | cons a t => intro h; simp only at h; simp [h]
    obtain ⟨f', h1, h2, h3⟩ := toFeatures_ok pr l (hv l (by simp)) _ p1 (hs _ hmem l (by simp))
    obtain ⟨fs, pool', q1, q2⟩ := actions_ok pr ls _ p2 (fun l hl => hv l (by simp [hl]))
      (fun f hf l hl => hs f (hf.imp id (hsub f)) l (by simp [hl]))
    refine ⟨f' :: fs, pool', ?_, .cons (by rw [← h3]; exact represents_of_wf h2) q2⟩
    rw [List.map_cons, actions]
    simp only [bind, Except.bind, h1, q1]

/-- C49, contextual bandits: the same for the shared features, if there are any, and for every action in order. -/
theorem C49_cb_partial (pr : Parser F N) (hf : pr.featuresType = .sparseCBAdf) (hl : pr.labelType = .cb) (pool : Pool (SparseFeatures F))
    (hpool : ∀ f ∈ pool.objects, Recycled f) (chunk : Str) (j : Json N) (hj : pr.parseJson chunk = some j) (sh : Option (List (Str × JCont N)))
    (hsh : valueOf "shared" j = (sh.map renderFeatures).getD .null) (ls : List (List (Str × JCont N))) (hacts : valueOf "actions" j = (.arr (ls.map renderFeatures)))
    (hv : ∀ l, (sh = some l ∨ l ∈ ls) → ∀ e ∈ l, e.2.Valid (nsOf pr e.1).seed)
    (hs : ∀ f, f = SparseFeatures.new ∨ f ∈ pool.objects → ∀ l, (sh = some l ∨ l ∈ ls) → NoSpare pr f l)
    (lab : Option (CBLabel F)) (hlab : CbLabelIs pr (valueOf "label" j) lab) :
    ∃ f pool', parseChunk pr pool chunk = .ok ((.cbAdf f, lab.map .cb), pool') ∧
      (match sh, f.shared with
        | some l, some s => s.Represents (meaning pr l)
        | none, none => True
        | _, _ => False) ∧
      List.Forall₂ (fun l a => SparseFeatures.Represents a (meaning pr l)) ls f.actions := by
  have hlab' := (cbLabel_ok pr hl j lab).2 hlab
  unfold parseChunk parseFeatures
  rw [hj, hf]
  simp only [unwrapOpt, bind, Except.bind, getV_some hacts, hlab']
  cases sh with
  | none =>
    have hg : getV "shared" j = .null := getV_some hsh
    obtain ⟨fs, pool', q1, q2⟩ := actions_ok pr ls pool hpool (fun l hl => hv l (.inr hl)) (fun f hf l hl => hs f hf l (.inr hl))
    refine ⟨⟨none, fs⟩, pool', ?_, trivial, q2⟩
    simp only [shared, hg, q1]
  | some l =>
    have hg : getV "shared" j = renderFeatures l := getV_some hsh
    obtain ⟨p1, p2⟩ := pool_get hpool
    have hmem : (pool.getObject SparseFeatures.new).1 = SparseFeatures.new ∨ (pool.getObject SparseFeatures.new).1 ∈ pool.objects := by
      unfold Pool.getObject
      cases hpo : pool.objects <;> simp
    have hsub : ∀ f, f ∈ (pool.getObject SparseFeatures.new).2.objects → f ∈ pool.objects := by
      intro f
      unfold Pool.getObject
      cases hpo : pool.objects with
      | nil => simp [hpo]
      | cons a t => intro h; simp only at h; simp [h]
    obtain ⟨f', h1, h2, h3⟩ := toFeatures_ok pr l (hv l (.inl rfl)) _ p1 (hs _ hmem l (.inl rfl))
    obtain ⟨fs, pool', q1, q2⟩ := actions_ok pr ls _ p2 (fun l hl => hv l (.inr hl)) (fun f hf l hl => hs f (hf.imp id (hsub f)) l (.inr hl))
    refine ⟨⟨some f', fs⟩, pool', ?_, ?_, q2⟩
    · obtain ⟨o, ho⟩ := render_obj l
      rw [ho] at h1 hg
      simp only [shared, hg, bind, Except.bind, h1, q1]
    · simp only
      rw [← h3]; exact represents_of_wf h2

/-- A new object has no spare room, so in a parser whose pool is empty the proviso says only that a namespace with a list of strings has no other entry
before. -/
theorem noSpare_new (pr : Parser F N) (l : List (Str × JCont N))
    (h : ∀ pre name ss post, l = pre ++ (name, .strings ss) :: post → ∀ e ∈ pre, nsOf pr e.1 ≠ nsOf pr name) : NoSpare pr (SparseFeatures.new : SparseFeatures F) l :=
  fun pre name ss post hl => ⟨h pre name ss post hl, fun n hn => by simp [SparseFeatures.new, SparseFeatures.lookup] at hn⟩

/-- Examples without lists of strings have no proviso. -/
theorem noSpare_no_strings (pr : Parser F N) (f : SparseFeatures F) (l : List (Str × JCont N)) (h : ∀ e ∈ l, ∀ ss, e.2 ≠ .strings ss) : NoSpare pr f l :=
  fun pre name ss post hl => absurd rfl (h (name, .strings ss) (by simp [hl]) ss)

/-- C49 fails for empty lists: a namespace whose contents are an empty list makes the parser panic, whatever else is in the document. -/
theorem C49_empty_list_false (pr : Parser F N) (hf : pr.featuresType = .sparseSimple) (pool : Pool (SparseFeatures F)) (chunk : Str) (j : Json N)
    (hj : pr.parseJson chunk = some j) (name : Str) (rest : List (Str × Json N)) (hfeat : valueOf "features" j = (.obj ((name, .arr []) :: rest))) :
    ∃ p, parseChunk pr pool chunk = .error p := by
  refine ⟨.todo, ?_⟩
  unfold parseChunk parseFeatures
  rw [hj, hf]
  simp only [unwrapOpt, bind, Except.bind, getV_some hfeat, toFeatures, List.foldlM_cons]
  rfl

/-- C49 fails on objects that were used before: after an example with two strings in a namespace, an example with one string there makes the parser
panic in the debug profile, although it is parsed without complaint when it comes first. -/
theorem C49_recycled_false (toF : N → F) (toU : N → Option Nat) : ∃ (pr : Parser F N) (first second : Str) (f : SparseFeatures F) (l : Option (Label F))
    (pool : Pool (SparseFeatures F)), pr.parseJson first = some (.obj [("features".toList, renderFeatures [("a".toList, .strings ["x".toList, "y".toList])])]) ∧
      pr.parseJson second = some (.obj [("features".toList, renderFeatures [("a".toList, .strings ["x".toList])])]) ∧
      (∃ r, parseChunk pr ⟨[]⟩ second = .ok r) ∧ parseChunk pr ⟨[]⟩ first = .ok ((.simple f, l), pool) ∧
      ∃ p, parseChunk pr (f.clearAndReturn pool) second = .error p :=
  ⟨⟨.sparseSimple, .simple, 0#32, 4, fun s k => BitVec.ofNat 32 s.length + k, fun s =>
      if s = ['1'] then some (.obj [("features".toList, renderFeatures [("a".toList, .strings ["x".toList, "y".toList])])])
      else some (.obj [("features".toList, renderFeatures [("a".toList, .strings ["x".toList])])]), toF, toU, toF, true⟩,
    ['1'], ['2'], _, _, _, rfl, rfl, ⟨_, rfl⟩, rfl, ⟨_, rfl⟩⟩

/-- C49 fails for number lists that reach the end of the 32-bit index space, in both profiles. -/
theorem C49_number_overflow_false (pr : Parser F N) (n : NsFeats F) (hn : n.idx.data.length = n.vals.data.length) (l : List N) (hne : l ≠ [])
    (hlen : l.length < 2 ^ 32) (ho : 2 ^ 32 ≤ n.namespace_.hash.toNat + l.length) : ∃ p, contents pr n (.arr (l.map .num)) = .error p := by
  obtain ⟨x, l, rfl⟩ := List.exists_cons_of_ne_nil hne
  have hm := numbers_map pr (x :: l)
  rw [List.map_cons] at hm
  simp only [contents, List.map_cons, hm]
  rw [show (Json.num x :: List.map Json.num l).length = (x :: l).length from by simp]
  have h1 : (BitVec.ofNat 32 (x :: l).length).toNat = (x :: l).length := by rw [BitVec.toNat_ofNat, Nat.mod_eq_of_lt hlen]
  unfold indexRange addChecked
  cases hd : pr.dbg with
  | true =>
    refine ⟨.overflow, ?_⟩
    rw [if_pos (by rw [h1]; simpa using ho)]
    rfl
  | false =>
    refine ⟨.assert, ?_⟩
    simp only [Bool.false_and, Bool.false_eq_true, if_false, bind, Except.bind]
    have hz : (n.namespace_.hash + BitVec.ofNat 32 (x :: l).length).toNat - n.namespace_.hash.toNat = 0 := by
      rw [BitVec.toNat_add, h1]
      have := n.namespace_.hash.isLt
      omega
    rw [hz]
    simp [NsFeats.addFeaturesWithIter, RVec.extend, hn]

/-! ### C50 -/

/-- C50, regression: whenever an example is parsed, its label is the one of the document: none if there is none, value and weight of a label object (or
array), value and weight 1 of a bare number. Missing from the full property: the default weight (`C50_weight_false`). -/
theorem C50_simple_partial (pr : Parser F N) (hl : pr.labelType = .simple) (pool : Pool (SparseFeatures F)) (chunk : Str) (j : Json N)
    (hj : pr.parseJson chunk = some j) (f : Features F) (l : Option (Label F)) (pool' : Pool (SparseFeatures F))
    (h : parseChunk pr pool chunk = .ok ((f, l), pool')) : ∃ l', l = l'.map .simple ∧ SimpleLabelIs pr (valueOf "label" j) l' := by
  unfold parseChunk at h
  rw [hj] at h
  simp only [unwrapOpt, bind, Except.bind] at h
  split at h
  · cases h
  · split at h
    · cases h
    · rename_i l0 hl0
      cases h
      have : ∃ l' : Option (SimpleLabel F), l = l'.map .simple := by
        unfold parseLabel at hl0
        rw [hl] at hl0
        simp only at hl0
        split at hl0
        · cases hl0; exact ⟨none, rfl⟩
        · cases hl0; exact ⟨some _, rfl⟩
        · simp only [bind, Except.bind] at hl0
          split at hl0
          · cases hl0
          · cases hl0; exact ⟨some _, rfl⟩
      obtain ⟨l', rfl⟩ := this
      exact ⟨l', rfl, (simpleLabel_ok pr hl j l').1 hl0⟩

/-- C50, contextual bandits. -/
theorem C50_cb (pr : Parser F N) (hl : pr.labelType = .cb) (pool : Pool (SparseFeatures F)) (chunk : Str) (j : Json N)
    (hj : pr.parseJson chunk = some j) (f : Features F) (l : Option (Label F)) (pool' : Pool (SparseFeatures F))
    (h : parseChunk pr pool chunk = .ok ((f, l), pool')) : ∃ l', l = l'.map .cb ∧ CbLabelIs pr (valueOf "label" j) l' := by
  unfold parseChunk at h
  rw [hj] at h
  simp only [unwrapOpt, bind, Except.bind] at h
  split at h
  · cases h
  · split at h
    · cases h
    · rename_i l0 hl0
      cases h
      have : ∃ l' : Option (CBLabel F), l = l'.map .cb := by
        unfold parseLabel at hl0
        rw [hl] at hl0
        simp only at hl0
        split at hl0
        · cases hl0; exact ⟨none, rfl⟩
        · simp only [bind, Except.bind] at hl0
          split at hl0
          · cases hl0
          · cases hl0; exact ⟨some _, rfl⟩
      obtain ⟨l', rfl⟩ := this
      exact ⟨l', rfl, (cbLabel_ok pr hl j l').1 hl0⟩

/-- C50 fails for a label without a weight, which is documented to be 1: the parser panics on every such document. -/
theorem C50_weight_false (pr : Parser F N) (hl : pr.labelType = .simple) (pool : Pool (SparseFeatures F)) (chunk : Str) (j : Json N)
    (hj : pr.parseJson chunk = some j) (o : List (Str × Json N)) (hlab : valueOf "label" j = .obj o) (hw : lastValue "weight" o = none) :
    ∃ p, parseChunk pr pool chunk = .error p := by
  cases hc : parseChunk pr pool chunk with
  | error p => exact ⟨p, rfl⟩
  | ok r =>
    obtain ⟨⟨f, l⟩, pool'⟩ := r
    obtain ⟨l', _, h⟩ := C50_simple_partial pr hl pool chunk j hj f l pool' hc
    rw [hlab] at h
    cases h with
    | object _ v w h1 h2 => rw [hw] at h2; cases h2

/-! ### C62 -/

theorem readLine_spec : ∀ s : Str, s ≠ [] → (FullLine (readLine s).1 ∨ ('\n' ∉ (readLine s).1 ∧ (readLine s).1 ≠ [] ∧ (readLine s).2 = [])) ∧
    (readLine s).1 ++ (readLine s).2 = s
  | [], h => absurd rfl h
  | x :: s, _ => by
    unfold readLine
    split
    · rename_i hx
      subst hx
      exact ⟨.inl ⟨[], by simp, rfl⟩, rfl⟩
    · rename_i hx
      by_cases hs : s = []
      · subst hs
        refine ⟨.inr ⟨?_, by simp [readLine], rfl⟩, rfl⟩
        simp [readLine, Ne.symm hx]
      · obtain ⟨h1, h2⟩ := readLine_spec s hs
        refine ⟨?_, congrArg (x :: ·) h2⟩
        rcases h1 with ⟨l, h3, h4⟩ | ⟨h3, h4, h5⟩
        · exact .inl ⟨x :: l, by simp [h3, Ne.symm hx], congrArg (x :: ·) h4⟩
        · refine .inr ⟨?_, by simp, h5⟩
          simp [h3, Ne.symm hx]

/-- C62. Asking for chunks of JSON or DsJson input until there is none delivers every line of the input once and in order, blank ones too: the chunks
together are the input, and every chunk is a line with its newline, except that the last one may have none. -/
theorem C62_lines (input : Str) : ∃ cs, Reads input cs ∧ cs.flatten = input ∧
    ((∀ c ∈ cs, FullLine c) ∨ ∃ init last, cs = init ++ [last] ∧ (∀ c ∈ init, FullLine c) ∧ last ≠ [] ∧ '\n' ∉ last) := by
  induction hn : input.length using Nat.strong_induction_on generalizing input with
  | _ n ih =>
    by_cases hi : input = []
    · subst hi
      exact ⟨[], .stop rfl, rfl, .inl (by simp)⟩
    · obtain ⟨h1, h2⟩ := readLine_spec input hi
      have hne : (readLine input).1 ≠ [] := by
        rcases h1 with ⟨l, _, h⟩ | h
        · rw [h]; simp
        · exact h.2.1
      have hg : getNextChunk input = (some (readLine input).1, (readLine input).2) := by
        unfold getNextChunk
        have : (readLine input).1.isEmpty = false := by simpa using hne
        simp [this]
      have hl : (readLine input).2.length < n := by
        have := congrArg List.length h2
        have h0 := List.length_pos_iff.2 hne
        rw [List.length_append] at this
        omega
      obtain ⟨cs, q1, q2, q3⟩ := ih _ hl (readLine input).2 rfl
      refine ⟨(readLine input).1 :: cs, .chunk hg q1, by rw [List.flatten_cons, q2, h2], ?_⟩
      rcases h1 with h | ⟨h3, _, h5⟩
      · rcases q3 with q3 | ⟨init, last, e, q3, q4⟩
        · exact .inl fun c hc => by rcases List.mem_cons.1 hc with rfl | hc; exacts [h, q3 c hc]
        · refine .inr ⟨(readLine input).1 :: init, last, by rw [e]; rfl, fun c hc => ?_, q4⟩
          rcases List.mem_cons.1 hc with rfl | hc; exacts [h, q3 c hc]
      · have : cs = [] := by
          rw [h5] at q1
          cases q1 with
          | stop _ => rfl
          | chunk h _ => cases h
        subst this
        exact .inr ⟨[], _, rfl, by simp, hne, h3⟩

section examples
attribute [local instance] intFlt

/-- C62: a blank line is a chunk of its own and the last line needs no newline. -/
example : Reads "{}\n\n[]".toList ["{}\n".toList, "\n".toList, "[]".toList] := .chunk rfl (.chunk rfl (.chunk rfl (.stop rfl)))

/-- `{"label": {"value": 3, "weight": 2}, "features": {":default": [7, 8], "a": ["x", "yy"], "bb": {"k": 5, "l": "mm", "t": true, "u": false}, " ": [9]}}` -/
def exFeatures : List (Str × JCont Int) :=
  [(":default".toList, .numbers [7, 8]), ("a".toList, .strings ["x".toList, "yy".toList]),
    ("bb".toList, .named [("k".toList, .num 5), ("l".toList, .str "mm".toList), ("t".toList, .bool true), ("u".toList, .bool false)]),
    (" ".toList, .numbers [9])]
def exDoc : Json Int := .obj [("label".toList, .obj [("value".toList, .num 3), ("weight".toList, .num 2)]), ("features".toList, renderFeatures exFeatures)]
def exJs : Parser Int Int := ⟨.sparseSimple, .simple, 0#32, 4, fun s k => BitVec.ofNat 32 s.length + k, fun _ => some exDoc, id,
  fun n => some n.toNat, id, true⟩

theorem exFeatures_valid : ∀ e ∈ exFeatures, e.2.Valid (nsOf exJs e.1).seed := by
  intro e he
  simp only [exFeatures, List.mem_cons, List.not_mem_nil, or_false] at he
  rcases he with rfl | rfl | rfl | rfl
  · exact ⟨by decide, by decide⟩
  · exact (by decide : ["x".toList, "yy".toList] ≠ [])
  · trivial
  · exact ⟨by decide, by decide⟩

/-- C49, C50: the hypotheses hold for an example with all forms of contents and a label, and this is what it means. -/
example : exJs.parseJson "..".toList = some exDoc ∧ valueOf "features" exDoc = renderFeatures exFeatures ∧
    (∀ e ∈ exFeatures, e.2.Valid (nsOf exJs e.1).seed) ∧ SimpleLabelIs exJs (valueOf "label" exDoc) (some ⟨3, 2⟩) ∧
    meaning exJs exFeatures .default = some [(0#32, 7), (1#32, 8), (0#32, 9)] ∧
    meaning exJs exFeatures (.named 1#32) = some [(2#32, 1), (3#32, 1)] ∧
    meaning exJs exFeatures (.named 2#32) = some [(3#32, 5), (5#32, 1), (3#32, 1)] ∧ meaning exJs exFeatures (.named 3#32) = none :=
  ⟨rfl, rfl, exFeatures_valid, .object _ 3 2 rfl rfl, by decide +kernel, by decide +kernel, by decide +kernel, by decide +kernel⟩

/-- The proviso on spare room holds for a new object as long as every list of strings has a namespace of its own. -/
example : ∃ f pool', parseChunk exJs ⟨[]⟩ "..".toList = .ok ((.simple f, some (.simple ⟨3, 2⟩)), pool') ∧ f.Represents (meaning exJs exFeatures) := by
  refine C49_features_partial exJs rfl rfl ⟨[]⟩ (by simp) _ exDoc rfl exFeatures rfl exFeatures_valid ?_ (some ⟨3, 2⟩) (.object _ 3 2 rfl rfl)
  refine noSpare_new exJs exFeatures fun pre name ss post h => ?_
  have hp : pre = exFeatures.take pre.length := by rw [h]; simp
  have hg : exFeatures[pre.length]? = some (name, .strings ss) := by rw [h]; simp
  match hlen : pre.length with
  | 0 => rw [hlen] at hg; simp [exFeatures] at hg
  | 1 =>
    rw [hlen] at hg hp
    have : name = "a".toList := by
      simp only [exFeatures, List.getElem?_cons_succ, List.getElem?_cons_zero, Option.some.injEq, Prod.mk.injEq] at hg
      exact hg.1.symm
    subst this
    rw [hp]
    intro e he
    have he : e = (":default".toList, .numbers [7, 8]) := by simpa [exFeatures] using he
    subst he
    decide
  | 2 => rw [hlen] at hg; simp [exFeatures] at hg
  | 3 => rw [hlen] at hg; simp [exFeatures] at hg
  | k + 4 => rw [hlen] at hg; simp [exFeatures] at hg

/-- C50: bare numbers, missing labels and labels of bandits. -/
example : SimpleLabelIs exJs (.num 4) (some ⟨4, 1⟩) ∧ SimpleLabelIs exJs .null none ∧
    CbLabelIs exJs (.obj [("action".toList, .num 1), ("cost".toList, .num (-1)), ("probability".toList, .num 2)]) (some ⟨1, -1, 2⟩) :=
  ⟨.number 4, .absent, .object _ 1 (-1) 2 1 rfl rfl rfl rfl⟩

/-- C49, bandits, and C50: an example end to end. -/
def exCbDoc : Json Int := .obj [("label".toList, .obj [("probability".toList, .num 2), ("action".toList, .num 1), ("cost".toList, .num 5)]),
  ("actions".toList, .arr [renderFeatures [("a".toList, .strings ["x".toList])], renderFeatures [("a".toList, .numbers [4])]]),
  ("shared".toList, renderFeatures [("bb".toList, .numbers [6, 7])])]
def exCbJs : Parser Int Int := { exJs with featuresType := .sparseCBAdf, labelType := .cb, parseJson := fun _ => some exCbDoc }
example : (parseChunk exCbJs ⟨[]⟩ "..".toList).toOption.map (fun r => (match r.1.2 with | some (.cb l) => some (l.action, l.cost, l.probability) | _ => none,
    match r.1.1 with
    | .cbAdf f => (f.shared.map fun s => s.report (.named 2#32), f.actions.map fun a => a.report (.named 1#32))
    | _ => (none, []))) =
    some (some (1, 5, 2), some (some [(2#32, 6), (3#32, 7)]), [some [(2#32, 1)], some [(1#32, 4)]]) := rfl

end examples

end Js

namespace Ds
open Text SparseFeatures Js
open Vw (Recycled pool_get)
variable {F N : Type} [Flt F]

/-! ### C51 -/

theorem example_ok (pr : Parser F N) (v : Json N) (pool : Pool (SparseFeatures F)) (hpool : ∀ f ∈ pool.objects, Recycled f) :
    (ExampleAccepted pr v → ∃ f, example_ pr v [] pool = .ok (f, [], (pool.getObject SparseFeatures.new).2) ∧
      f.Represents (group (exampleFeatures pr v))) ∧
    (¬ ExampleAccepted pr v → ∃ e, example_ pr v [] pool = .error e) := by
  obtain ⟨p1, _⟩ := pool_get hpool
  obtain ⟨h1, h2⟩ := handle_top pr v (pool.getObject SparseFeatures.new).1
  unfold example_
  constructor
  · intro ha
    obtain ⟨w, hr⟩ := fold_add (exampleFeatures pr v) [] (pool.getObject SparseFeatures.new).1 p1.1 (funext p1.2)
    refine ⟨_, ?_, by rw [List.nil_append] at hr; rw [← hr]; exact represents_of_wf w⟩
    simp only [h1 ha, bind, Except.bind, massert, List.isEmpty_nil, if_true]
  · intro ha
    obtain ⟨e, he⟩ := h2 ha
    exact ⟨e, by simp only [he, bind, Except.bind]⟩

theorem actions_ok (pr : Parser F N) : ∀ (items : List (Json N)) (pool : Pool (SparseFeatures F)), (∀ f ∈ pool.objects, Recycled f) →
    ((∀ v ∈ items, ExampleAccepted pr v) → ∃ fs pool', actions pr items [] pool = .ok (fs, pool') ∧
      List.Forall₂ (fun v a => SparseFeatures.Represents a (group (exampleFeatures pr v))) items fs) ∧
    (¬ (∀ v ∈ items, ExampleAccepted pr v) → ∃ e, actions pr items [] pool = .error e)
  | [], pool, _ => ⟨fun _ => ⟨[], pool, rfl, .nil⟩, fun h => absurd (by simp) h⟩
  | v :: vs, pool, hp => by
    obtain ⟨_, p2⟩ := pool_get hp
    obtain ⟨a1, a2⟩ := example_ok pr v pool hp
    obtain ⟨b1, b2⟩ := actions_ok pr vs _ p2
    unfold actions
    by_cases ha : ExampleAccepted pr v
    · obtain ⟨f, hf, hr⟩ := a1 ha
      simp only [hf, bind, Except.bind]
      constructor
      · intro h
        obtain ⟨fs, pool', q1, q2⟩ := b1 (fun w hw => h w (by simp [hw]))
        exact ⟨f :: fs, pool', by rw [q1], .cons hr q2⟩
      · intro h
        obtain ⟨e, he⟩ := b2 (fun hc => h (by intro w hw; rcases List.mem_cons.1 hw with rfl | hw; exacts [ha, hc w hw]))
        exact ⟨e, by rw [he]⟩
    · obtain ⟨e, he⟩ := a2 ha
      simp only [he, bind, Except.bind]
      exact ⟨fun h => absurd (h v (by simp)) ha, fun _ => ⟨e, rfl⟩⟩

theorem label_ok (pr : Parser F N) (j : Json N) :
    (∀ l, labelOf pr j = some l → label pr j = .ok l) ∧ (labelOf pr j = none → ∃ e, label pr j = .error e) := by
  unfold labelOf label
  simp only [valueOf_eq]
  generalize getV "_label_cost" j = a
  generalize getV "_label_probability" j = b
  generalize getV "_labelIndex" j = c
  cases a <;> cases b <;> cases c <;>
    first
    | exact ⟨fun l h => (by cases h), fun _ => ⟨_, rfl⟩⟩
    | exact ⟨fun l h => (by cases h; rfl), fun h => (by cases h)⟩
    | skip
  rename_i x y z
  cases hz : pr.toU64 z with
  | none => simp [hz, unwrapOpt, bind, Except.bind]
  | some i => simp [hz, unwrapOpt, bind, Except.bind]

/-- C51. A DsJson document is accepted exactly if its context `c` and every action in `c._multi` are accepted as examples and it has a label with all
three parts or none; then the shared features are those described by the context, there is one action for every element of `_multi` with the features
described by it, and the label is the one of the document. -/
theorem C51_dsjson (pr : Parser F N) (pool : Pool (SparseFeatures F)) (hpool : ∀ f ∈ pool.objects, Recycled f) (chunk : Str) (j : Json N)
    (hj : pr.parseJson chunk = some j) :
    ((∃ r, parseChunk pr pool chunk = .ok r) ↔ ExampleAccepted pr (valueOf "c" j) ∧ (labelOf pr j).isSome = true ∧
      ∃ items, valueOf "_multi" (valueOf "c" j) = .arr items ∧ ∀ v ∈ items, ExampleAccepted pr v) ∧
    ∀ f l pool', parseChunk pr pool chunk = .ok ((f, l), pool') →
      ∃ s acts items lab, f = .cbAdf ⟨some s, acts⟩ ∧ valueOf "_multi" (valueOf "c" j) = .arr items ∧ labelOf pr j = some lab ∧ l = lab.map .cb ∧
        s.Represents (group (exampleFeatures pr (valueOf "c" j))) ∧
        List.Forall₂ (fun v a => SparseFeatures.Represents a (group (exampleFeatures pr v))) items acts := by
  obtain ⟨_, p2⟩ := pool_get hpool
  simp only [valueOf_eq]
  obtain ⟨a1, a2⟩ := example_ok pr (getV "c" j) pool hpool
  have hl := label_ok pr j
  unfold parseChunk
  rw [hj]
  simp only [unwrapOpt, bind, Except.bind]
  by_cases ha : ExampleAccepted pr (getV "c" j)
  · obtain ⟨s, hs, hr⟩ := a1 ha
    rw [hs]
    simp only
    cases hm : getV "_multi" (getV "c" j) with
    | arr items =>
      simp only [iterArray]
      obtain ⟨b1, b2⟩ := actions_ok pr items _ p2
      by_cases hi : ∀ v ∈ items, ExampleAccepted pr v
      · obtain ⟨fs, pool', q1, q2⟩ := b1 hi
        rw [q1]
        simp only
        cases hlab : labelOf pr j with
        | none =>
          obtain ⟨e, he⟩ := hl.2 hlab
          rw [he]
          simp
        | some lab =>
          rw [hl.1 lab hlab]
          refine ⟨⟨fun _ => ⟨ha, rfl, items, rfl, hi⟩, fun _ => ⟨_, rfl⟩⟩, ?_⟩
          intro f l pool'' h
          cases h
          exact ⟨s, fs, items, lab, rfl, rfl, rfl, rfl, hr, q2⟩
      · obtain ⟨e, he⟩ := b2 hi
        rw [he]
        refine ⟨⟨fun h => (by obtain ⟨_, h⟩ := h; cases h), fun h => ?_⟩, fun _ _ _ h => by cases h⟩
        obtain ⟨_, _, items', h1, h2⟩ := h
        cases h1
        exact absurd h2 hi
    | null => simp [iterArray]
    | bool b => simp [iterArray]
    | num b => simp [iterArray]
    | str b => simp [iterArray]
    | obj b => simp [iterArray]
  · obtain ⟨e, he⟩ := a2 ha
    rw [he]
    refine ⟨⟨fun h => (by obtain ⟨_, h⟩ := h; cases h), fun h => absurd h.1 ha⟩, fun _ _ _ h => by cases h⟩

/-- C51: whenever a value has been handled, the namespace stack is what it was before. -/
theorem C51_balanced (pr : Parser F N) (key : Str) (v : Json N) (stack : List Namespace) (f : SparseFeatures F) (r : SparseFeatures F × List Namespace)
    (h : handle pr key v stack f = .ok r) : r.2 = stack := by
  cases stack with
  | cons ns st =>
    obtain ⟨h1, h2⟩ := handle_spec pr key v ns st f
    by_cases ha : Accepted pr key v
    · rw [h1 ha] at h; cases h; rfl
    · obtain ⟨e, he⟩ := h2 ha
      rw [he] at h; cases h
  | nil =>
    unfold handle at h
    split at h
    · cases h; rfl
    · rename_i hk
      have hk : key.head? ≠ some '_' := by simpa [startsWith] using hk
      match v, h with
      | .bool false, h => cases h; rfl
      | .arr l, h =>
        simp only [fromName_nsOf] at h
        obtain ⟨h1, h2⟩ := (handleArr_spec pr key hk (nsOf pr key) rfl 0 l [] f).pop
        by_cases ha : AllElements pr (nsOf pr key) 0 l
        · rw [h1 ha] at h; cases h; rfl
        · obtain ⟨e, he⟩ := h2 ha
          rw [he] at h; cases h
      | .obj l, h =>
        simp only [fromName_nsOf] at h
        obtain ⟨h1, h2⟩ := (handleObj_spec pr l (nsOf pr key) [] f).pop
        by_cases ha : AllEntries pr l
        · rw [h1 ha] at h; cases h; rfl
        · obtain ⟨e, he⟩ := h2 ha
          rw [he] at h; cases h

/-- The namespace at the end of a list of keys. -/
private def topNs (pr : Parser F N) : List Str → Namespace
  | [] => .default
  | e :: _ => nsOf pr e

private theorem mem_elements_num (pr : Parser F N) (ns : Namespace) : ∀ (l : List (Json N)) (i j : Nat) (x : N), l[j]? = some (.num x) →
    (ns, lowBits pr.numBits (ns.seed + BitVec.ofNat 32 (i + j)), pr.toF32 x) ∈ elements pr ns i l
  | [], _, _, _, h => by simp at h
  | v :: vs, i, 0, x, h => by
    simp only [List.getElem?_cons_zero, Option.some.injEq] at h
    subst h
    simp [elements]
  | v :: vs, i, j + 1, x, h => by
    have := mem_elements_num pr ns vs (i + 1) j x (by simpa using h)
    rw [Nat.add_assoc, Nat.add_comm 1 j] at this
    cases v <;> simp [elements, this]

private theorem mem_elements_obj (pr : Parser F N) (ns : Namespace) (o : List (Str × Json N)) (m : Namespace × U32 × F) (hm : m ∈ entries pr ns o) :
    ∀ (l : List (Json N)) (i : Nat), .obj o ∈ l → m ∈ elements pr ns i l
  | [], _, h => by simp at h
  | v :: vs, i, h => by
    rcases List.mem_cons.1 h with h | h
    · subst h; simp [elements, hm]
    · have := mem_elements_obj pr ns o m hm vs (i + 1) h
      cases v <;> simp [elements, this]

private theorem mem_entries (pr : Parser F N) (ns : Namespace) (m : Namespace × U32 × F) {k : Str} {w : Json N} (hm : m ∈ features pr ns k w) :
    ∀ (l : List (Str × Json N)), (k, w) ∈ l → m ∈ entries pr ns l
  | [], h => by simp at h
  | (k', v) :: vs, h => by
    rcases List.mem_cons.1 h with h | h
    · cases h; simp [entries, hm]
    · simp [entries, mem_entries pr ns m hm vs h]

private theorem at_features (pr : Parser F N) (root : Json N) {ks : List Str} {v : Json N} (h : At [" ".toList] root ks v) :
    ∃ k rest, ks = k :: rest ∧ ((∀ x ∈ ks, x.head? ≠ some '_') →
      ∀ m ∈ features pr (topNs pr rest) k v, m ∈ exampleFeatures pr root) := by
  induction h with
  | here => exact ⟨_, _, rfl, fun _ m hm => hm⟩
  | entry h1 h2 ih =>
    obtain ⟨k, rest, e, ih⟩ := ih
    subst e
    refine ⟨_, _, rfl, fun hu m hm => ?_⟩
    refine ih (fun x hx => hu x (by simp [hx])) m ?_
    unfold features
    rw [if_neg (hu k (by simp))]
    exact mem_entries pr _ m hm _ h2
  | element h1 h2 ih =>
    obtain ⟨k, rest, rfl, ih⟩ := ih
    refine ⟨k, rest, rfl, fun hu m hm => ?_⟩
    refine ih hu m ?_
    unfold features at hm ⊢
    rw [if_neg (hu k (by simp))] at hm ⊢
    exact mem_elements_obj pr _ _ m hm _ 0 h2

mutual
private theorem features_at (pr : Parser F N) (root : Json N) (m : Namespace × U32 × F) (k e : Str) (ks : List Str) (v : Json N)
    (h : At [" ".toList] root (k :: e :: ks) v) (hu : ∀ x ∈ e :: ks, x.head? ≠ some '_') (hm : m ∈ features pr (nsOf pr e) k v) :
    Described pr root m := by
  unfold features at hm
  split at hm
  · simp at hm
  · rename_i hk
    have hu' : ∀ x ∈ k :: e :: ks, x.head? ≠ some '_' := by
      intro x hx
      rcases List.mem_cons.1 hx with rfl | hx
      exacts [hk, hu x hx]
    match v, h, hm with
    | .null, h, hm => simp at hm
    | .bool true, h, hm =>
      simp only [List.mem_singleton] at hm
      subst hm
      exact .flag h hu'
    | .bool false, h, hm => simp at hm
    | .num x, h, hm =>
      simp only [List.mem_singleton] at hm
      subst hm
      exact .number h hu'
    | .str s, h, hm =>
      simp only [List.mem_singleton] at hm
      subst hm
      exact .text h hu'
    | .arr l, h, hm => exact elements_at pr root m k (e :: ks) l l 0 h (by simp) hu' hm
    | .obj l, h, hm => exact entries_at pr root m k (e :: ks) l l h (fun _ h => h) hu' hm

private theorem elements_at (pr : Parser F N) (root : Json N) (m : Namespace × U32 × F) (k : Str) (ks : List Str) (l0 l : List (Json N)) (i : Nat)
    (h : At [" ".toList] root (k :: ks) (.arr l0)) (hl : l0.drop i = l) (hu : ∀ x ∈ k :: ks, x.head? ≠ some '_')
    (hm : m ∈ elements pr (nsOf pr k) i l) : Described pr root m := by
  match l, hl, hm with
  | [], _, hm => simp [elements] at hm
  | v :: vs, hl, hm =>
    have h0 : l0[i]? = some v := by
      have := congrArg (·[0]?) hl
      simpa using this
    have hvs : l0.drop (i + 1) = vs := by
      rw [← List.drop_drop, hl]; rfl
    match v, h0, hm with
    | .num x, h0, hm =>
      unfold elements at hm
      rcases List.mem_cons.1 hm with rfl | hm
      · exact .item h h0 hu
      · exact elements_at pr root m k ks l0 vs (i + 1) h hvs hu hm
    | .obj o, h0, hm =>
      unfold elements at hm
      rcases List.mem_append.1 hm with hm | hm
      · exact entries_at pr root m k ks o o (.element h (List.mem_of_getElem? h0)) (fun _ h => h) hu hm
      · exact elements_at pr root m k ks l0 vs (i + 1) h hvs hu hm
    | .null, h0, hm => exact elements_at pr root m k ks l0 vs (i + 1) h hvs hu (by simpa [elements] using hm)
    | .bool b, h0, hm => exact elements_at pr root m k ks l0 vs (i + 1) h hvs hu (by simpa [elements] using hm)
    | .str b, h0, hm => exact elements_at pr root m k ks l0 vs (i + 1) h hvs hu (by simpa [elements] using hm)
    | .arr b, h0, hm => exact elements_at pr root m k ks l0 vs (i + 1) h hvs hu (by simpa [elements] using hm)

private theorem entries_at (pr : Parser F N) (root : Json N) (m : Namespace × U32 × F) (k : Str) (ks : List Str) (l0 l : List (Str × Json N))
    (h : At [" ".toList] root (k :: ks) (.obj l0)) (hl : ∀ e ∈ l, e ∈ l0) (hu : ∀ x ∈ k :: ks, x.head? ≠ some '_')
    (hm : m ∈ entries pr (nsOf pr k) l) : Described pr root m := by
  match l, hl, hm with
  | [], _, hm => simp [entries] at hm
  | (k', v) :: vs, hl, hm =>
    unfold entries at hm
    rcases List.mem_append.1 hm with hm | hm
    · exact features_at pr root m k' k ks v (.entry h (hl _ (by simp))) hu hm
    · exact entries_at pr root m k ks l0 vs h (fun e he => hl e (by simp [he])) hu hm
end

/-- C51. The features of an example are exactly those described somewhere in it, however deep, under keys none of which starts with an underscore: every
number, string and `true` value is a feature of the namespace named by the nearest enclosing key. -/
theorem C51_paths (pr : Parser F N) (v : Json N) (hv : (∃ l, v = .obj l) ∨ ∃ l, v = .arr l) (m : Namespace × U32 × F) :
    m ∈ exampleFeatures pr v ↔ Described pr v m := by
  have hsp : (" ".toList : Str).head? ≠ some '_' := by decide
  have hsp' : ∀ x ∈ [(" ".toList : Str)], x.head? ≠ some '_' := by
    intro x hx
    rw [List.mem_singleton.1 hx]
    exact hsp
  constructor
  · intro hm
    unfold exampleFeatures features at hm
    rw [if_neg hsp] at hm
    rcases hv with ⟨l, rfl⟩ | ⟨l, rfl⟩
    · exact entries_at pr _ m _ [] l l (.here _ _) (fun _ h => h) hsp' hm
    · exact elements_at pr _ m _ [] l l 0 (.here _ _) (by simp) hsp' hm
  · intro hd
    cases hd with
    | flag h hu =>
      obtain ⟨k, rest, e, h'⟩ := at_features pr v h
      cases e
      refine h' hu _ ?_
      unfold features
      rw [if_neg (hu _ (by simp))]
      exact List.mem_singleton.2 rfl
    | number h hu =>
      obtain ⟨k, rest, e, h'⟩ := at_features pr v h
      cases e
      refine h' hu _ ?_
      unfold features
      rw [if_neg (hu _ (by simp))]
      exact List.mem_singleton.2 rfl
    | text h hu =>
      obtain ⟨k, rest, e, h'⟩ := at_features pr v h
      cases e
      refine h' hu _ ?_
      unfold features
      rw [if_neg (hu _ (by simp))]
      exact List.mem_singleton.2 rfl
    | @item k ks l i x h h0 hu =>
      obtain ⟨k', rest, e, h'⟩ := at_features pr v h
      cases e
      refine h' hu _ ?_
      unfold features
      rw [if_neg (hu _ (by simp))]
      have := mem_elements_num pr (nsOf pr k) _ 0 _ _ h0
      rwa [Nat.zero_add] at this

section examples
attribute [local instance] intFlt

/-- `{"_label_cost": -1, "_label_probability": 2, "_labelIndex": 1, "c": {"u": {"n": 3, "s": "tt", "_skip": {"x": null}, "l": [4, null, {"m": true}]},
"_multi": [{"q": {"r": 5}}, {"q": {"r": "s", "f": false}}]}}` -/
def exContext : Json Int := .obj [("u".toList, .obj [("n".toList, .num 3), ("s".toList, .str "tt".toList),
    ("_skip".toList, .obj [("x".toList, .null)]), ("lll".toList, .arr [.num 4, .null, .obj [("m".toList, .bool true)]])]),
  ("_multi".toList, .arr [.obj [("q".toList, .obj [("r".toList, .num 5)])], .obj [("q".toList, .obj [("r".toList, .str "s".toList), ("f".toList, .bool false)])]])]
def exDs : Json Int := .obj [("_label_cost".toList, .num (-1)), ("_label_probability".toList, .num 2), ("_labelIndex".toList, .num 1), ("c".toList, exContext)]
def exDsParser : Parser Int Int := { exJs with featuresType := .sparseCBAdf, labelType := .cb, parseJson := fun _ => some exDs }

/-- C51: the document is accepted, with a part that is ignored, an array with an object inside and a label. -/
example : exDsParser.parseJson "..".toList = some exDs ∧ valueOf "c" exDs = exContext ∧ ExampleAccepted exDsParser exContext ∧
    labelOf exDsParser exDs = some (some ⟨1, -1, 2⟩) ∧
    exampleFeatures exDsParser exContext = [(.named 1#32, 2#32, 3), (.named 1#32, 4#32, 1), (.named 3#32, 3#32, 4), (.named 3#32, 4#32, 1)] := by
  refine ⟨rfl, rfl, ⟨.inl ⟨_, rfl⟩, ?_⟩, rfl, by decide +kernel⟩
  simp [exContext, Accepted, AllEntries, AllElements, exDsParser, exJs, nsOf, Namespace.seed]

/-- C51: the document end to end. -/
example : (parseChunk exDsParser ⟨[]⟩ "..".toList).toOption.map (fun r => (match r.1.2 with | some (.cb l) => some (l.action, l.cost, l.probability) | _ => none,
    match r.1.1 with
    | .cbAdf f => (f.shared.map fun s => (s.report (.named 1#32), s.report (.named 3#32)), f.actions.map fun a => a.report (.named 1#32))
    | _ => (none, []))) =
    some (some (1, -1, 2), some (some [(2#32, 3), (4#32, 1)], some [(3#32, 4), (4#32, 1)]), [some [(2#32, 5)], some [(3#32, 1)]]) := rfl

/-- C51: a feature that is described deep inside. -/
example : Described exDsParser exContext (.named 3#32, 4#32, 1) :=
  .flag (k := "m".toList) (e := "lll".toList) (ks := ["u".toList, " ".toList])
    (.entry (l := [("m".toList, .bool true)]) (.element (l := [.num 4, .null, .obj [("m".toList, .bool true)]])
      (.entry (.entry (.here _ _) (List.mem_cons_self ..)) (by simp)) (by simp)) (List.mem_cons_self ..)) (by decide)

end examples

end Ds
end Rml
