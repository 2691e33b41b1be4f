import Verif.Lemmas.VwNames
import Verif.Props.Vw

/-! C74: the names of features in VW text. -/

namespace Rml
namespace Vw
open Text
variable {F : Type} [Flt F]

/-- C74. For every example written in VW text, in one line, in which a space follows each namespace name: extracting the feature names succeeds and
gives for each namespace the names of the features in its last occurrence, in order, and nothing else.
Missing from the full property (`AllNames`): the names in earlier occurrences of a namespace, which are lost (`C74_repeated_false`), and namespaces
whose name is not followed by a space (`C74_no_space_fails`, `C74_tab_false`). -/
theorem C74_names_partial (pr : Parser F) (hm : ¬ (pr.featuresType = .sparseCBAdf ∧ pr.labelType = .cb)) (h : VwHead) (hv : h.Valid)
    (nss : List VwNs) (hn : ∀ n ∈ nss, n.Valid pr.parseFloat ∧ n.NoOverflow pr ∧ n.Spaced) :
    ∃ m, extractFeatureNames pr (h.render ++ nss.flatMap VwNs.render) = .ok m ∧ LastNames nss m := by
  have hml : pr.isMultiline = false := by
    unfold Parser.isMultiline
    rw [← Bool.decide_and, decide_eq_false_iff_not]
    exact hm
  obtain ⟨m, h1, h2⟩ := extracts_ok pr nss [] [] hn (fun i => rfl)
  refine ⟨m, ?_, h2⟩
  unfold extractFeatureNames
  simp only [hml, Bool.false_eq_true, if_false]
  rw [segments_ok hv nss (fun n hm => (hn n hm).1)]
  exact h1

/-- C74 for contextual bandit examples: the namespaces of all lines go into one map, so that only the last line that has a namespace counts. -/
theorem C74_names_lines_partial (pr : Parser F) (hf : pr.featuresType = .sparseCBAdf) (hl : pr.labelType = .cb) (ls : List CbLine)
    (hv : ∀ l ∈ ls, l.Valid pr) (hs : ∀ l ∈ ls, ∀ n ∈ l.nss, n.Spaced) :
    ∃ m, extractFeatureNames pr (['\n'].intercalate (ls.map CbLine.render)) = .ok m ∧ LastNames (ls.flatMap (·.nss)) m := by
  have hml : pr.isMultiline = true := by simp [Parser.isMultiline, hf, hl]
  have hlines : lines [] (['\n'].intercalate (ls.map CbLine.render)) = ls.map CbLine.render := by
    apply lines_intercalate
    intro t ht
    obtain ⟨l, hl, rfl⟩ := List.mem_map.1 ht
    have := (hv l hl).line
    exact ⟨this.2.1, this.2.2, this.1⟩
  obtain ⟨m, h1, h2⟩ := extracts_ok pr (ls.flatMap (·.nss)) [] [] (by
    intro n hn
    obtain ⟨l, hl, hn⟩ := List.mem_flatMap.1 hn
    exact ⟨((hv l hl).nss n hn).1, ((hv l hl).nss n hn).2, hs l hl n hn⟩) (fun i => rfl)
  refine ⟨m, ?_, h2⟩
  unfold extractFeatureNames
  simp only [hml, if_true]
  rw [hlines, List.flatMap_map]
  have : ls.flatMap (fun a => namespaceSegments a.render) = (ls.flatMap (·.nss)).map (fun n => n.head ++ n.body) := by
    rw [List.map_flatMap]
    apply List.flatMap_congr
    intro l hl
    exact segments_ok (hv l hl).head l.nss (fun n hn => ((hv l hl).nss n hn).1)
  rw [this]
  exact h1

/-- C74. If no namespace occurs twice, the names are all there, and hashing the names of a namespace one by one gives exactly the indices that parsing
the same text gives for this namespace, in the same order. -/
theorem C74_indices (pr : Parser F) (hf : pr.featuresType = .sparseSimple) (hl : pr.labelType = .simple) (pool : Pool (SparseFeatures F))
    (hpool : ∀ f ∈ pool.objects, Recycled f) (h : VwHead) (hv : h.Valid) (l : Option (SimpleLabel F))
    (hlab : simpleLabel pr.parseFloat h.labelTokens = some l)
    (nss : List VwNs) (hn : ∀ n ∈ nss, n.Valid pr.parseFloat ∧ n.NoOverflow pr ∧ n.Spaced)
    (hd : nss.Pairwise (fun a b => a.ns pr.hash pr.hashSeed ≠ b.ns pr.hash pr.hashSeed)) :
    ∃ f pool' m, parseChunk pr pool (h.render ++ nss.flatMap VwNs.render) = .ok ((.simple f, l.map .simple), pool') ∧
      extractFeatureNames pr (h.render ++ nss.flatMap VwNs.render) = .ok m ∧ AllNames nss m ∧
      ∀ n ∈ nss, ∃ feats hs, m.lookup n.info = some n.names ∧ f.getNamespace (n.ns pr.hash pr.hashSeed) = some feats ∧
        n.names.mapM (fun x => x.hash pr.hash pr.dbg (n.ns pr.hash pr.hashSeed).seed) = .ok hs ∧
        feats.idx.data = hs.map (lowBits pr.numBits) := by
  obtain ⟨f, pool', p1, p2⟩ := C46_features pr hf hl pool hpool h hv l hlab nss (fun n hm => ⟨(hn n hm).1, (hn n hm).2.1⟩)
  obtain ⟨m, m1, m2⟩ := C74_names_partial pr (by rw [hf]; simp) h hv nss hn
  have hinfo : ∀ a b : VwNs, a.info = b.info → a.ns pr.hash pr.hashSeed = b.ns pr.hash pr.hashSeed := by
    intro a b hab
    unfold VwNs.info at hab
    unfold VwNs.ns
    rcases ha : a.name with _ | ⟨s, _⟩ <;> rcases hb : b.name with _ | ⟨t, _⟩ <;> rw [ha, hb] at hab <;> simp_all
  have hone : ∀ {l : List VwNs} (p : VwNs → Bool), l.Pairwise (fun a b => a.ns pr.hash pr.hashSeed ≠ b.ns pr.hash pr.hashSeed) →
      (∀ a b, p a = true → p b = true → a.ns pr.hash pr.hashSeed = b.ns pr.hash pr.hashSeed) → l.filter p = [] ∨ ∃ a, l.filter p = [a] := by
    intro l p hp hpp
    have hfp : (l.filter p).Pairwise (fun a b => a.ns pr.hash pr.hashSeed ≠ b.ns pr.hash pr.hashSeed) := hp.filter _
    have hpm : ∀ a ∈ l.filter p, p a = true := fun a ha => (List.mem_filter.1 ha).2
    match hl : l.filter p with
    | [] => exact Or.inl rfl
    | [a] => exact Or.inr ⟨a, rfl⟩
    | a :: b :: t =>
      rw [hl] at hfp hpm
      exact absurd (hpp a b (hpm a (by simp)) (hpm b (by simp))) ((List.pairwise_cons.1 hfp).1 b (by simp))
  refine ⟨f, pool', m, p1, m1, ?_, ?_⟩
  · intro i
    rw [m2 i]
    rcases hone (fun n => decide (n.info = i)) hd (fun a b ha hb => hinfo a b (by
      simp only [decide_eq_true_eq] at ha hb; rw [ha, hb])) with he | ⟨a, he⟩ <;> rw [he] <;> simp
  · intro n hm
    obtain ⟨hs, q1, q2⟩ := names_hash pr.hash pr.dbg pr.numBits pr.parseFloat (n.ns pr.hash pr.hashSeed).seed (n.scale pr.parseFloat)
      (n.feats.map (·.2)) 0 (fun hdb => by have := (hn n hm).2.1 hdb; omega)
    have hsingle : ∀ (p : VwNs → Bool), p n = true →
        (∀ a b, p a = true → p b = true → a.ns pr.hash pr.hashSeed = b.ns pr.hash pr.hashSeed) → nss.filter p = [n] := by
      intro p hpn hpp
      rcases hone p hd hpp with he | ⟨a, he⟩
      · exact absurd (List.mem_filter.2 ⟨hm, hpn⟩) (by rw [he]; simp)
      · have : n ∈ nss.filter p := List.mem_filter.2 ⟨hm, hpn⟩
        rw [he] at this ⊢
        rw [List.mem_singleton.1 this]
    have hg := p2.1 (n.ns pr.hash pr.hashSeed)
    unfold meaning at hg
    rw [hsingle _ (by simp) (fun a b ha hb => by simp only [decide_eq_true_eq] at ha hb; rw [ha, hb])] at hg
    cases hgn : f.getNamespace (n.ns pr.hash pr.hashSeed) with
    | none => rw [hgn] at hg; simp at hg
    | some feats =>
    rw [hgn] at hg
    simp only [Option.map_some, List.flatMap_cons, List.flatMap_nil, List.append_nil, Option.some.injEq, List.unzip_eq_map, Prod.mk.injEq] at hg
    refine ⟨feats, hs, ?_, rfl, q1, hg.1.trans q2.symm⟩
    · rw [m2, hsingle _ (by simp) (fun a b ha hb => hinfo a b (by simp only [decide_eq_true_eq] at ha hb; rw [ha, hb]))]
      rfl

/-- C74: a named namespace without any space after the name (for instance one without features at the end of the line) makes the extraction fail,
although parsing accepts it. -/
theorem C74_no_space_fails (pr : Parser F) (hf : pr.featuresType = .sparseSimple) (hl : pr.labelType = .simple) (pool : Pool (SparseFeatures F))
    (hpool : ∀ f ∈ pool.objects, Recycled f) (h : VwHead) (hv : h.Valid) (l : Option (SimpleLabel F))
    (hlab : simpleLabel pr.parseFloat h.labelTokens = some l)
    (nss : List VwNs) (hn : ∀ n ∈ nss, n.Valid pr.parseFloat ∧ n.NoOverflow pr) (n : VwNs) (hmem : n ∈ nss) (hname : n.name ≠ none)
    (hb : ' ' ∉ n.body) :
    (∃ r, parseChunk pr pool (h.render ++ nss.flatMap VwNs.render) = .ok r) ∧
    ∃ e, extractFeatureNames pr (h.render ++ nss.flatMap VwNs.render) = .error e := by
  obtain ⟨f, pool', p1, _⟩ := C46_features pr hf hl pool hpool h hv l hlab nss hn
  refine ⟨⟨_, p1⟩, ?_⟩
  have hml : pr.isMultiline = false := by simp [Parser.isMultiline, hf]
  unfold extractFeatureNames
  simp only [hml, Bool.false_eq_true, if_false]
  rw [segments_ok hv nss (fun n hm => (hn n hm).1)]
  refine foldlM_fails _ _ _ ⟨n.head ++ n.body, List.mem_map.2 ⟨n, hmem, rfl⟩, fun b => ⟨.panic .unwrap, ?_⟩⟩
  rw [extract_noSpace pr n (hn n hmem).1 hname hb]
  rfl

section examples
attribute [local instance] intFlt

instance (f : VwFeat) : Decidable (f.Valid exSimple.parseFloat) := inferInstanceAs (Decidable (f.Valid exFloat))

theorem exNss_spaced : ∀ n ∈ [exUser, exDefault, exUser2], n.Valid exSimple.parseFloat ∧ n.NoOverflow exSimple ∧ n.Spaced := by
  intro n hn
  refine ⟨(exNss_valid n hn).1, (exNss_valid n hn).2, ?_⟩
  simp only [List.mem_cons, List.not_mem_nil, or_false] at hn
  rcases hn with rfl | rfl | rfl <;> exact rfl

/-- C74 is false as a whole: of a namespace that occurs twice only the names of the second occurrence are given. -/
theorem C74_repeated_false : ¬ ∀ (pr : Parser Int) (h : VwHead) (nss : List VwNs), pr.featuresType = .sparseSimple → pr.labelType = .simple → h.Valid →
    (∀ n ∈ nss, n.Valid pr.parseFloat ∧ n.NoOverflow pr ∧ n.Spaced) →
    ∀ m, extractFeatureNames pr (h.render ++ nss.flatMap VwNs.render) = .ok m → AllNames nss m := by
  intro h
  have h1 := C74_names_partial exSimple (by decide) exHead exHead_valid [exUser, exDefault, exUser2] exNss_spaced
  obtain ⟨m, h1, h2⟩ := h1
  have h3 := h exSimple exHead [exUser, exDefault, exUser2] rfl rfl exHead_valid exNss_spaced m h1 (.named "user".toList)
  rw [h2] at h3
  exact absurd h3 (by decide)

/-- C74 is false for a namespace name followed by a tab: it and the first feature are taken for the name. -/
theorem C74_tab_false : ∃ n : VwNs, n.Valid exSimple.parseFloat ∧ n.NoOverflow exSimple ∧ n.info = .named "user".toList ∧
    (∃ r, parseChunk exSimple ⟨[]⟩ ("1 ".toList ++ n.render) = .ok r) ∧
    ∃ m, extractFeatureNames exSimple ("1 ".toList ++ n.render) = .ok m ∧ m.lookup n.info = none :=
  ⟨⟨some ("user".toList, none), [("\t".toList, .name "x".toList), (" ".toList, .name "y".toList)], []⟩,
    ⟨⟨by decide, by decide⟩, by decide, by decide⟩, fun _ => by decide, rfl, ⟨_, rfl⟩, ⟨_, rfl, rfl⟩⟩

/-- C74: the hypotheses hold for an example with a scale, all forms of features and the default namespace; these are its names. -/
example : (∀ n ∈ [exUser, exDefault], n.Valid exSimple.parseFloat ∧ n.NoOverflow exSimple ∧ n.Spaced) ∧
    [exUser, exDefault].Pairwise (fun a b => a.ns exSimple.hash exSimple.hashSeed ≠ b.ns exSimple.hash exSimple.hashSeed) ∧
    simpleLabel exFloat exHead.labelTokens = some (some ⟨1, 2⟩) ∧
    extractFeatureNames exSimple " 1\t 2  tag|user:3 age:2\tcity:paris  :7 :8 | x".toList =
      .ok [(.default, [.simple "x".toList]),
        (.named "user".toList, [.simple "age".toList, .simpleWithStringValue "city".toList "paris".toList, .anonymous 0#32, .anonymous 1#32])] :=
  ⟨fun n hn => exNss_spaced n (by revert hn; simp; tauto), by decide, rfl, rfl⟩

/-- C74: lines of a contextual bandit example; the names of `user` in the shared line are lost because an action has the same namespace. -/
example : (∀ l ∈ exLines, l.Valid exCb) ∧ (∀ l ∈ exLines, ∀ n ∈ l.nss, n.Spaced) ∧
    (extractFeatureNames exCb (['\n'].intercalate (exLines.map CbLine.render))).toOption.map (List.lookup (.named "user".toList)) =
      some (some [.simple "y".toList]) := by
  refine ⟨exLines_valid, ?_, rfl⟩
  intro l hl n hn
  simp only [exLines, List.mem_cons, List.not_mem_nil, or_false] at hl
  rcases hl with rfl | rfl | rfl <;> exact (exNss_spaced n (by revert hn; simp; tauto)).2.2

/-- C74: `1 |user` is accepted by the parser, and the hypotheses of `C74_no_space_fails` hold. -/
example : (⟨some ("user".toList, none), [], []⟩ : VwNs).Valid exSimple.parseFloat ∧ ' ' ∉ (⟨some ("user".toList, none), [], []⟩ : VwNs).body ∧
    extractFeatureNames exSimple "1 |user".toList = .error (.panic .unwrap) :=
  ⟨⟨⟨by decide, by decide⟩, by decide, by decide⟩, by decide, rfl⟩

end examples
end Vw
end Rml
