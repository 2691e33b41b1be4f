import Verif.Lemmas.VwText
import Verif.Props.Read

/-! C46, C47: examples and labels in VW text. -/

set_option linter.unusedSectionVars false
namespace Rml
namespace Vw
open Text SparseFeatures
variable {F : Type} [Flt F]

theorem pool_get {pool : Pool (SparseFeatures F)} (h : ∀ f ∈ pool.objects, Recycled f) :
    Recycled (pool.getObject SparseFeatures.new).1 ∧ ∀ f ∈ (pool.getObject SparseFeatures.new).2.objects, Recycled f := by
  unfold Pool.getObject
  cases hp : pool.objects with
  | nil =>
    refine ⟨⟨⟨new_inv0, fun ns _ => rfl⟩, fun ns => rfl⟩, ?_⟩
    rw [hp]; simp
  | cons a t =>
    rw [hp] at h
    exact ⟨h a (by simp), fun f hf => h f (by simp [hf])⟩

theorem parseLabel_simple (pr : Parser F) (hl : pr.labelType = .simple) (ts : List Str) :
    match simpleLabel pr.parseFloat ts with
    | some none => parseLabel pr ts = .ok none
    | some (some l) => ∃ w, parseLabel pr ts = .ok (some (.simple l.value w)) ∧ w.getD Flt.one = l.weight
    | none => ∃ p, parseLabel pr ts = .error (.panic p) := by
  unfold parseLabel
  rw [hl]
  match ts with
  | [] => rfl
  | [v] =>
    simp only [simpleLabel]
    cases hv : pr.parseFloat v with
    | none => exact ⟨.unwrap, by simp [unwrapP, hv, bind, Except.bind]⟩
    | some x => exact ⟨none, by simp [unwrapP, hv, bind, Except.bind], rfl⟩
  | [v, w] =>
    simp only [simpleLabel]
    cases hv : pr.parseFloat v with
    | none => exact ⟨.unwrap, by simp [unwrapP, hv, bind, Except.bind]⟩
    | some x =>
      cases hw : pr.parseFloat w with
      | none => exact ⟨.unwrap, by simp [unwrapP, hv, hw, bind, Except.bind]⟩
      | some y => exact ⟨some y, by simp [unwrapP, hv, hw, bind, Except.bind], rfl⟩
  | v :: w :: x :: t => exact ⟨.todo, rfl⟩

/-- C46. Every regression example written in VW text, with any namespaces, scales, features and separators and any label, is parsed to the
features it means, whatever recycled objects the pool holds. -/
theorem C46_features (pr : Parser F) (hf : pr.featuresType = .sparseSimple) (hl : pr.labelType = .simple) (pool : Pool (SparseFeatures F))
    (hpool : ∀ f ∈ pool.objects, Recycled f) (h : VwHead) (hv : h.Valid) (l : Option (SimpleLabel F))
    (hlab : simpleLabel pr.parseFloat h.labelTokens = some l)
    (nss : List VwNs) (hn : ∀ n ∈ nss, n.Valid pr.parseFloat ∧ n.NoOverflow pr) :
    ∃ f pool', parseChunk pr pool (h.render ++ nss.flatMap VwNs.render) = .ok ((.simple f, l.map .simple), pool') ∧
      f.Represents (meaning pr nss) := by
  have hm : pr.isMultiline = false := by simp [Parser.isMultiline, hf]
  obtain ⟨hp1, _⟩ := pool_get hpool
  obtain ⟨d, h1, h2, h3⟩ := line_ok pr hv nss hn _ hp1
  refine ⟨d, (pool.getObject SparseFeatures.new).2, ?_, by rw [← h2]; exact represents_of_wf h1⟩
  have hsl := parseLabel_simple pr hl h.labelTokens
  rw [hlab] at hsl
  unfold parseChunk
  rw [hm]
  simp only [Bool.false_eq_true, if_false]
  cases l with
  | none =>
    obtain ⟨tag, ht⟩ := h3 none hsl
    simp only [bind, Except.bind, ht]
    rfl
  | some l =>
    obtain ⟨w, hw, hw'⟩ := hsl
    obtain ⟨tag, ht⟩ := h3 _ hw
    simp only [bind, Except.bind, ht, finalizeSingleline, hw']
    rfl

/-! ### C47 -/

/-- The first segment of a line. -/
theorem split_head {s rest : Str} (hs : '|' ∉ s) (hr : rest = [] ∨ rest.head? = some '|') :
    ∃ segs, split '|' (s ++ rest) = s :: segs := by
  rcases hr with rfl | hr
  · exact ⟨[], by rw [List.append_nil, split_none _ _ hs]⟩
  · cases rest with
    | nil => simp at hr
    | cons a r =>
      simp only [List.head?_cons, Option.some.injEq] at hr
      subst hr
      exact ⟨_, split_append _ _ _ hs⟩

/-- C47. Whatever follows the first bar, the label of a parsed regression example is the one written before it: no label token, a value with weight 1,
or a value and a weight. The last token is not a label token if no space separates it from the bar or if it starts with a quote. Any other text
before the bar is rejected with a panic. -/
theorem C47_labels (pr : Parser F) (hf : pr.featuresType = .sparseSimple) (hl : pr.labelType = .simple) (pool : Pool (SparseFeatures F))
    (h : VwHead) (hv : h.Valid) (rest : Str) (hr : rest = [] ∨ rest.head? = some '|') :
    (∀ f l pool', parseChunk pr pool (h.render ++ rest) = .ok ((f, l), pool') →
      ∃ l', simpleLabel pr.parseFloat h.labelTokens = some l' ∧ l = l'.map .simple) ∧
    (simpleLabel pr.parseFloat h.labelTokens = none → ∃ p, parseChunk pr pool (h.render ++ rest) = .error (.panic p)) := by
  have hm : pr.isMultiline = false := by simp [Parser.isMultiline, hf]
  obtain ⟨segs, hsegs⟩ := split_head (head_bar hv) hr
  obtain ⟨tag, ht⟩ := head_ok pr hv
  have hsl := parseLabel_simple pr hl h.labelTokens
  unfold parseChunk
  rw [hm]
  simp only [Bool.false_eq_true, if_false]
  unfold parseTextLine
  rw [hsegs]
  simp only [ht]
  cases hs : simpleLabel pr.parseFloat h.labelTokens with
  | none =>
    rw [hs] at hsl
    obtain ⟨p, hp⟩ := hsl
    refine ⟨?_, ?_⟩
    · intro f l pool' hc
      simp [bind, Except.bind, hp, Except.map] at hc
    · intro _
      exact ⟨p, by simp [bind, Except.bind, hp, Except.map]⟩
  | some l' =>
    rw [hs] at hsl
    refine ⟨?_, by simp⟩
    intro f l pool' hc
    refine ⟨l', rfl, ?_⟩
    cases l' with
    | none =>
      have hsl : parseLabel pr h.labelTokens = .ok none := hsl
      simp only [bind, Except.bind, hsl, Except.map] at hc
      split at hc
      · simp at hc
      · rename_i r hr
        split at hr
        · simp at hr
        · injection hr with hr
          subst hr
          simp only [finalizeSingleline] at hc
          injection hc with hc
          simp only [Prod.mk.injEq] at hc
          exact hc.1.2.symm
    | some l' =>
      obtain ⟨w, hw, hw'⟩ := hsl
      simp only [bind, Except.bind, hw, Except.map] at hc
      split at hc
      · simp at hc
      · rename_i r hr
        split at hr
        · simp at hr
        · injection hr with hr
          subst hr
          simp only [finalizeSingleline] at hc
          injection hc with hc
          simp only [Prod.mk.injEq, hw'] at hc
          exact hc.1.2.symm

/-- C47 covers every text: whatever stands before the first bar has the form the theorem speaks of. -/
theorem C47_every_text (s : Str) (hs : '|' ∉ s) : ∃ h : VwHead, h.Valid ∧ h.render = s := by
  suffices H : ∀ s : Str, '|' ∉ s → (∃ h : VwHead, h.Valid ∧ h.render = s) ∧
      ∀ c, isSpace c = false → c ≠ '|' → ∃ (t : Str) (h : VwHead), t ≠ [] ∧ (∀ x ∈ t, isSpace x = false ∧ x ≠ '|') ∧ h.Valid ∧ (h.toks ≠ [] → h.lead ≠ []) ∧
        c :: s = t ++ h.render from (H s hs).1
  clear hs s
  intro s
  induction s with
  | nil =>
    intro _
    refine ⟨⟨⟨[], []⟩, ⟨by simp, by simp, by simp⟩, rfl⟩, ?_⟩
    intro c hc hb
    exact ⟨[c], ⟨[], []⟩, by simp, by simp [hc, hb], ⟨by simp, by simp, by simp⟩, by simp, by simp [VwHead.render]⟩
  | cons a s ih =>
    intro hs
    simp only [List.mem_cons, not_or] at hs
    obtain ⟨⟨h, hv, hr⟩, ih2⟩ := ih hs.2
    have key : ∀ (t : Str) (h : VwHead), t ≠ [] → (∀ x ∈ t, isSpace x = false ∧ x ≠ '|') → h.Valid → (h.toks ≠ [] → h.lead ≠ []) →
        ∃ h' : VwHead, h'.Valid ∧ h'.render = t ++ h.render := by
      intro t h ht htc hv hne
      refine ⟨⟨[], (t, h.lead) :: h.toks⟩, ⟨by simp, ?_, ?_⟩, by simp [VwHead.render]⟩
      · intro u hu
        rcases List.mem_cons.1 hu with rfl | hu
        · exact ⟨ht, htc, hv.lead⟩
        · exact hv.toks u hu
      · intro u hu
        by_cases hq : h.toks = []
        · rw [hq] at hu; simp at hu
        · rw [List.dropLast_cons_of_ne_nil hq] at hu
          rcases List.mem_cons.1 hu with rfl | hu
          · exact hne hq
          · exact hv.seps u hu
    cases ha : isSpace a with
    | true =>
      have hlead : ∃ h' : VwHead, h'.Valid ∧ h'.lead ≠ [] ∧ h'.render = a :: s := by
        refine ⟨⟨a :: h.lead, h.toks⟩, ⟨?_, hv.toks, hv.seps⟩, by simp, by rw [← hr]; simp [VwHead.render]⟩
        intro c hc
        rcases List.mem_cons.1 hc with rfl | hc
        · exact ha
        · exact hv.lead c hc
      obtain ⟨h', v', n', r'⟩ := hlead
      refine ⟨⟨h', v', r'⟩, ?_⟩
      intro c hc hb
      exact ⟨[c], h', by simp, by simp [hc, hb], v', fun _ => n', by simp [r']⟩
    | false =>
      obtain ⟨t, h', q1, q2, q3, q4, q5⟩ := ih2 a ha (Ne.symm hs.1)
      obtain ⟨h'', v'', r''⟩ := key t h' q1 q2 q3 q4
      refine ⟨⟨h'', v'', by rw [r'', q5]⟩, ?_⟩
      intro c hc hb
      refine ⟨c :: t, h', by simp, ?_, q3, q4, by simp [q5]⟩
      intro x hx
      rcases List.mem_cons.1 hx with rfl | hx
      · exact ⟨hc, hb⟩
      · exact q2 x hx

/-! ### C48 -/

/-- The label of a line as the parser sees it. -/
def kindLabel (pr : Parser F) (l : CbLine) : Option (Nat × F × F) :=
  match l.kind with
  | .labelled a c p => some ((parseU32 a).getD 0, (pr.parseFloat c).getD Flt.zero, (pr.parseFloat p).getD Flt.zero)
  | _ => none

/-- The line is marked as shared. -/
def CbLine.isShared (l : CbLine) : Bool :=
  match l.kind with
  | .shared => true
  | _ => false

theorem trim_noWs {s : Str} (h : ∀ c ∈ s, isWs c = false) : trim s = s := by
  unfold trim
  have : s.dropWhile isWs = s := by
    cases s with
    | nil => rfl
    | cons a t => simp [List.dropWhile_cons, h a (by simp)]
  rw [this]
  exact trimEnd_id _ (fun x hx => h x (List.mem_of_getLast? hx))

theorem labelTokens_mem {h : VwHead} {t : Str} (ht : t ∈ h.labelTokens) : ∃ u ∈ h.toks, u.1 = t := by
  unfold VwHead.labelTokens at ht
  split at ht
  · simp at ht
  · split at ht
    · obtain ⟨u, hu, rfl⟩ := List.mem_map.1 ht
      exact ⟨u, List.dropLast_subset _ hu, rfl⟩
    · obtain ⟨u, hu, rfl⟩ := List.mem_map.1 ht
      exact ⟨u, hu, rfl⟩

theorem parseLabel_cb (pr : Parser F) (hl : pr.labelType = .cb) {l : CbLine} (hv : l.Valid pr) :
    parseLabel pr l.head.labelTokens = .ok (some (.cb ⟨l.isShared, kindLabel pr l⟩)) := by
  have hk := hv.kind
  unfold CbLine.isShared kindLabel parseLabel
  rw [hl]
  cases hkind : l.kind with
  | unlabelled =>
    rw [hkind] at hk
    have hk : l.head.labelTokens = [] := hk
    rw [hk]
  | shared =>
    rw [hkind] at hk
    have hk : l.head.labelTokens.head? = some "shared".toList := hk
    cases ht : l.head.labelTokens with
    | nil => rw [ht] at hk; simp at hk
    | cons t ts =>
      rw [ht] at hk
      simp only [List.head?_cons, Option.some.injEq] at hk
      subst hk
      simp only
      rw [if_pos (by decide)]
  | labelled a c p =>
    rw [hkind] at hk
    obtain ⟨h1, h2, h3, h4, h5, h6, h7⟩ := hk
    cases ht : l.head.labelTokens with
    | nil => rw [ht] at h1; simp at h1
    | cons t ts =>
      rw [ht] at h1
      simp only [List.head?_cons, Option.some.injEq] at h1
      obtain ⟨u, hu, hu'⟩ := labelTokens_mem (h := l.head) (t := t) (by rw [ht]; simp)
      have hws : ∀ x ∈ t, isWs x = false := by
        intro x hx
        rw [← hu'] at hx
        rw [← isSpace_eq]
        exact ((hv.head.toks u hu).2.1 x hx).1
      simp only
      rw [trim_noWs hws, if_neg]
      · rw [h1, split_append _ _ _ h2, split_append _ _ _ h3, split_none _ _ h4]
        obtain ⟨a', ha⟩ := Option.isSome_iff_exists.1 ((parseU32_iff a).2 h5)
        obtain ⟨c', hc⟩ := Option.isSome_iff_exists.1 h6
        obtain ⟨p', hp⟩ := Option.isSome_iff_exists.1 h7
        simp [unwrapP, ha, hc, hp, bind, Except.bind]
      · rw [h1]
        intro hc
        have : ':' ∈ "shared".toList := by rw [← hc]; simp
        exact absurd this (by decide)

theorem parseLines_ok (pr : Parser F) (hl : pr.labelType = .cb) : ∀ (ls : List CbLine) (pool : Pool (SparseFeatures F)), (∀ l ∈ ls, l.Valid pr) →
    (∀ f ∈ pool.objects, Recycled f) →
    ∃ fs pool', parseLines pr (ls.map CbLine.render) pool =
        .ok (fs, ls.map (fun l => some (.cb ⟨l.isShared, kindLabel pr l⟩)), pool') ∧
      List.Forall₂ (fun l a => SparseFeatures.Represents a (meaning pr l.nss)) ls fs
  | [], pool, _, _ => ⟨[], pool, rfl, .nil⟩
  | l :: ls, pool, hv, hp => by
    obtain ⟨p1, p2⟩ := pool_get hp
    have hvl := hv l (by simp)
    obtain ⟨d, h1, h2, h3⟩ := line_ok pr hvl.head l.nss hvl.nss _ p1
    obtain ⟨tag, ht⟩ := h3 _ (parseLabel_cb pr hl hvl)
    obtain ⟨fs, pool', q1, q2⟩ := parseLines_ok pr hl ls _ (fun l hl => hv l (by simp [hl])) p2
    refine ⟨d :: fs, pool', ?_, .cons (by rw [← h2]; exact represents_of_wf h1) q2⟩
    rw [List.map_cons, parseLines]
    simp only [bind, Except.bind]
    rw [show l.render = l.head.render ++ l.nss.flatMap VwNs.render from rfl, ht]
    simp only [q1]
    rfl

/-- The labels of the action lines. -/
theorem labels_none (pr : Parser F) : ∀ (ls : List CbLine) (s : Option (CBLabel F)) (k : Nat), (∀ l ∈ ls, l.label pr = none) →
    (ls.map (fun l => (some (.cb ⟨l.isShared, kindLabel pr l⟩) : Option (TextLabel F)))).foldlM labelStep (s, k) = .ok (s, k + ls.length)
  | [], s, k, _ => rfl
  | l :: ls, s, k, h => by
    have hl := h l (by simp)
    have hk : kindLabel pr l = none := by
      unfold CbLine.label at hl; unfold kindLabel
      split <;> simp_all
    rw [List.map_cons, List.foldlM_cons]
    simp only [labelStep, unwrapP, asCb, hk, bind, Except.bind]
    have := labels_none pr ls s (k + 1) (fun l hl => h l (by simp [hl]))
    rw [this]
    simp; omega

theorem kindLabel_some {pr : Parser F} {l : CbLine} {c p : F} (h : l.label pr = some (c, p)) : ∃ a, kindLabel pr l = some (a, c, p) := by
  unfold CbLine.label at h; unfold kindLabel
  split at h
  · rename_i a c' p' hk
    simp only [Option.some.injEq, Prod.mk.injEq] at h
    refine ⟨(parseU32 a).getD 0, ?_⟩
    rw [hk, ← h.1, ← h.2]
  · simp at h

theorem labels_twice (pr : Parser F) : ∀ (ls : List CbLine) (s : CBLabel F) (k : Nat), (∃ l ∈ ls, l.label pr ≠ none) →
    (ls.map (fun l => (some (.cb ⟨l.isShared, kindLabel pr l⟩) : Option (TextLabel F)))).foldlM labelStep (some s, k) = .error .err
  | [], s, k, h => by simp at h
  | l :: ls, s, k, h => by
    rw [List.map_cons, List.foldlM_cons]
    cases hl : l.label pr with
    | some e =>
      obtain ⟨a, ha⟩ := kindLabel_some (c := e.1) (p := e.2) hl
      simp [labelStep, unwrapP, asCb, ha, bind, Except.bind]
    | none =>
      have hk : kindLabel pr l = none := by
        unfold CbLine.label at hl; unfold kindLabel
        split <;> simp_all
      simp only [labelStep, unwrapP, asCb, hk, bind, Except.bind]
      refine labels_twice pr ls s (k + 1) ?_
      obtain ⟨m, hm, hm'⟩ := h
      rcases List.mem_cons.1 hm with rfl | hm
      · exact absurd hl hm'
      · exact ⟨m, hm, hm'⟩

theorem labels_one (pr : Parser F) : ∀ (ls : List CbLine) (k i : Nat) (c p : F), (ls[i]?.bind (CbLine.label pr)) = some (c, p) →
    (∀ j l, ls[j]? = some l → j ≠ i → l.label pr = none) →
    (ls.map (fun l => (some (.cb ⟨l.isShared, kindLabel pr l⟩) : Option (TextLabel F)))).foldlM labelStep (none, k) =
      .ok (some ⟨k + i, c, p⟩, k + ls.length)
  | [], k, i, c, p, h, _ => by simp at h
  | l :: ls, k, 0, c, p, h, ho => by
    obtain ⟨a, ha⟩ := kindLabel_some (pr := pr) (l := l) (c := c) (p := p) (by simpa using h)
    rw [List.map_cons, List.foldlM_cons]
    simp only [labelStep, unwrapP, asCb, ha, bind, Except.bind, Option.isSome_none, Bool.false_eq_true, if_false]
    have := labels_none pr ls (some ⟨k, c, p⟩) (k + 1) (by
      intro m hm
      obtain ⟨j, hj⟩ := List.mem_iff_getElem?.1 hm
      exact ho (j + 1) m (by simpa using hj) (by omega))
    rw [this]
    simp; omega
  | l :: ls, k, i + 1, c, p, h, ho => by
    have hl : l.label pr = none := ho 0 l (by simp) (by omega)
    have hk : kindLabel pr l = none := by
      unfold CbLine.label at hl; unfold kindLabel
      split <;> simp_all
    rw [List.map_cons, List.foldlM_cons]
    simp only [labelStep, unwrapP, asCb, hk, bind, Except.bind]
    have := labels_one pr ls (k + 1) i c p (by simpa using h) (by
      intro j m hj hne
      exact ho (j + 1) m (by simpa using hj) (by omega))
    rw [this]
    simp; omega

theorem labels_two (pr : Parser F) : ∀ (ls : List CbLine) (k i j : Nat) (l m : CbLine), i < j → ls[i]? = some l → ls[j]? = some m →
    l.label pr ≠ none → m.label pr ≠ none →
    (ls.map (fun l => (some (.cb ⟨l.isShared, kindLabel pr l⟩) : Option (TextLabel F)))).foldlM labelStep (none, k) = .error .err
  | [], k, i, j, l, m, _, h, _, _, _ => by simp at h
  | x :: ls, k, i, j, l, m, hij, hi, hj, hl, hm => by
    obtain ⟨j, rfl⟩ : ∃ j', j = j' + 1 := ⟨j - 1, by omega⟩
    rw [List.map_cons, List.foldlM_cons]
    cases hx : x.label pr with
    | some e =>
      obtain ⟨a, ha⟩ := kindLabel_some (c := e.1) (p := e.2) hx
      simp only [labelStep, unwrapP, asCb, ha, bind, Except.bind, Option.isSome_none, Bool.false_eq_true, if_false]
      exact labels_twice pr ls _ _ ⟨m, List.mem_iff_getElem?.2 ⟨j, by simpa using hj⟩, hm⟩
    | none =>
      have hk : kindLabel pr x = none := by
        unfold CbLine.label at hx; unfold kindLabel
        split <;> simp_all
      simp only [labelStep, unwrapP, asCb, hk, bind, Except.bind]
      cases i with
      | zero =>
        simp only [List.getElem?_cons_zero, Option.some.injEq] at hi
        rw [hi] at hx
        exact absurd hx hl
      | succ i => exact labels_two pr ls (k + 1) i j l m (by omega) (by simpa using hi) (by simpa using hj) hl hm

/-- What the parser does with the lines of a chunk. -/
theorem assemble (pr : Parser F) (hf : pr.featuresType = .sparseCBAdf) (hl : pr.labelType = .cb) (pool : Pool (SparseFeatures F))
    (hpool : ∀ f ∈ pool.objects, Recycled f) (ls : List CbLine) (hne : ls ≠ []) (hv : ∀ l ∈ ls, l.Valid pr) :
    ∃ f pool', Assembled pr ls f ∧ parseChunk pr pool (['\n'].intercalate (ls.map CbLine.render)) =
      (((actionLines ls).map (fun l => (some (.cb ⟨l.isShared, kindLabel pr l⟩) : Option (TextLabel F)))).foldlM labelStep (none, 0)).map
        (fun r => ((.cbAdf f, r.1.map .cb), pool')) := by
  have hm : pr.isMultiline = true := by simp [Parser.isMultiline, hf, hl]
  obtain ⟨fs, pool', h1, h2⟩ := parseLines_ok pr hl ls pool hv hpool
  have hlines : lines [] (['\n'].intercalate (ls.map CbLine.render)) = ls.map CbLine.render := by
    apply lines_intercalate
    intro t ht
    obtain ⟨l, hl, rfl⟩ := List.mem_map.1 ht
    have := (hv l hl).line
    exact ⟨this.2.1, this.2.2, this.1⟩
  obtain ⟨l, ls, rfl⟩ := List.exists_cons_of_ne_nil hne
  cases h2 with
  | cons ha hrest =>
    rename_i a fs
    cases hs : l.isShared with
    | true =>
      have hsl : sharedLine (l :: ls) = some l := by
        unfold CbLine.isShared at hs
        unfold sharedLine
        split at hs
        · rename_i hk; simp [hk]
        · cases hs
      have hal : actionLines (l :: ls) = ls := by simp [actionLines, hsl]
      refine ⟨⟨some a, fs⟩, pool', ⟨by rw [hsl]; exact ha, by rw [hal]; exact hrest⟩, ?_⟩
      unfold parseChunk
      rw [hm, if_pos rfl, hlines, h1, hal]
      simp only [bind, Except.bind, finalizeMultiline, hl, hf, List.map_cons, unwrapP, asCb, hs, if_true]
      generalize (ls.map (fun l => (some (.cb ⟨l.isShared, kindLabel pr l⟩) : Option (TextLabel F)))).foldlM labelStep (none, 0) = r
      cases r <;> rfl
    | false =>
      have hsl : sharedLine (l :: ls) = none := by
        unfold CbLine.isShared at hs
        unfold sharedLine
        split at hs
        · cases hs
        · rename_i hk; simp
      have hal : actionLines (l :: ls) = l :: ls := by simp [actionLines, hsl]
      refine ⟨⟨none, a :: fs⟩, pool', ⟨by rw [hsl]; trivial, by rw [hal]; exact .cons ha hrest⟩, ?_⟩
      unfold parseChunk
      rw [hm, if_pos rfl, hlines, h1, hal]
      simp only [bind, Except.bind, finalizeMultiline, hl, hf, List.map_cons, unwrapP, asCb, hs, Bool.false_eq_true, if_false]
      rw [← hs]
      generalize (List.foldlM labelStep (none, 0) _ : P (Option (CBLabel F) × Nat)) = r
      cases r <;> rfl

/-- C48. A contextual bandit example of any number of lines: a leading shared line becomes the shared features and every other line one action, in
order. If no action line is labelled there is no label; if exactly one is, the label is its cost and probability with its position among the
actions; if two are, the example is rejected with an error. -/
theorem C48_assembly (pr : Parser F) (hf : pr.featuresType = .sparseCBAdf) (hl : pr.labelType = .cb) (pool : Pool (SparseFeatures F))
    (hpool : ∀ f ∈ pool.objects, Recycled f) (ls : List CbLine) (hne : ls ≠ []) (hv : ∀ l ∈ ls, l.Valid pr) :
    ((∀ l ∈ actionLines ls, l.label pr = none) →
      ∃ f pool', parseChunk pr pool (['\n'].intercalate (ls.map CbLine.render)) = .ok ((.cbAdf f, none), pool') ∧ Assembled pr ls f) ∧
    (∀ i c p, ((actionLines ls)[i]?.bind (CbLine.label pr)) = some (c, p) → (∀ j l, (actionLines ls)[j]? = some l → j ≠ i → l.label pr = none) →
      ∃ f pool', parseChunk pr pool (['\n'].intercalate (ls.map CbLine.render)) = .ok ((.cbAdf f, some (.cb ⟨i, c, p⟩)), pool') ∧
        Assembled pr ls f) ∧
    (∀ (i j : Nat) (l m : CbLine), i ≠ j → (actionLines ls)[i]? = some l → (actionLines ls)[j]? = some m → l.label pr ≠ none → m.label pr ≠ none →
      parseChunk pr pool (['\n'].intercalate (ls.map CbLine.render)) = .error .err) := by
  obtain ⟨f, pool', h1, h2⟩ := assemble pr hf hl pool hpool ls hne hv
  refine ⟨?_, ?_, ?_⟩
  · intro h
    refine ⟨f, pool', ?_, h1⟩
    rw [h2, labels_none pr _ _ _ h]
    rfl
  · intro i c p hi ho
    refine ⟨f, pool', ?_, h1⟩
    rw [h2, labels_one pr _ 0 i c p hi ho]
    simp [Except.map]
  · intro i j l m hij hi hj hl hm
    rw [h2]
    rcases Nat.lt_or_gt_of_ne hij with hlt | hlt
    · rw [labels_two pr _ 0 i j l m hlt hi hj hl hm]; rfl
    · rw [labels_two pr _ 0 j i m l hlt hj hi hm hl]; rfl

/-! ### Where an example is not accepted -/

theorem bind_no_err {α β : Type} {x : P α} {f : α → P β} (h : x ≠ .error .err) (hf : ∀ a, f a ≠ .error .err) : (x >>= f) ≠ .error .err := by
  cases x with
  | error e => exact fun hc => h (by cases hc; rfl)
  | ok a => exact hf a

theorem unwrap_no_err {α : Type} (o : Option α) : unwrapP o ≠ .error .err := by
  cases o <;> exact fun h => by cases h

theorem initial_no_err (pr : Parser F) (s : Str) : parseInitialSegment pr s ≠ .error .err := by
  have h : ∀ ts, parseLabel pr ts ≠ .error .err := by
    intro ts
    unfold parseLabel
    split
    · split
      · exact fun h => by cases h
      · exact bind_no_err (unwrap_no_err _) fun _ h => by cases h
      · exact bind_no_err (unwrap_no_err _) fun _ => bind_no_err (unwrap_no_err _) fun _ h => by cases h
      · exact fun h => by cases h
    · exact fun h => by cases h
    · split
      · exact fun h => by cases h
      · split
        · exact fun h => by cases h
        · exact bind_no_err (unwrap_no_err _) fun _ => bind_no_err (unwrap_no_err _) fun _ => bind_no_err (unwrap_no_err _) fun _ =>
            bind_no_err (unwrap_no_err _) fun _ => bind_no_err (unwrap_no_err _) fun _ => bind_no_err (unwrap_no_err _) fun _ h => by cases h
  unfold parseInitialSegment
  exact bind_no_err (h _) fun _ h => by cases h

/-- A bar with nothing after it is not an empty default namespace: the parser panics, whatever stands before. Note that the reader strips trailing
white space, so the line `1 | ` is such an example. -/
theorem C46_empty_namespace_panics (pr : Parser F) (hf : pr.featuresType = .sparseSimple) (pool : Pool (SparseFeatures F)) (s : Str)
    (hs : '|' ∉ s) : ∃ p, parseChunk pr pool (s ++ ['|']) = .error (.panic p) := by
  have hm : pr.isMultiline = false := by simp [Parser.isMultiline, hf]
  unfold parseChunk
  rw [hm]
  simp only [Bool.false_eq_true, if_false]
  unfold parseTextLine
  rw [split_append _ _ _ hs, split_none _ _ (by simp)]
  simp only [bind, Except.bind]
  cases hi : parseInitialSegment pr s with
  | error e =>
    cases e with
    | panic p => exact ⟨p, rfl⟩
    | err => exact absurd hi (initial_no_err pr s)
  | ok v => exact ⟨_, rfl⟩

theorem split_three (s : Str) : ∀ a c p : Str, (split ':' s)[0]? = some a → (split ':' s)[1]? = some c → (split ':' s)[2]? = some p →
    ∃ r, s = a ++ ':' :: (c ++ ':' :: (p ++ r)) ∧ ':' ∉ a ∧ ':' ∉ c ∧ ':' ∉ p ∧ (r = [] ∨ r.head? = some ':') := by
  have one : ∀ s : Str, (split ':' s = [s] ∧ ':' ∉ s) ∨ ∃ a r, s = a ++ ':' :: r ∧ ':' ∉ a ∧ split ':' s = a :: split ':' r := by
    intro s
    by_cases h : ':' ∈ s
    · obtain ⟨a, r, h1, h2⟩ := List.eq_append_cons_of_mem h
      exact Or.inr ⟨a, r, h1, h2, by rw [h1, split_append _ _ _ h2]⟩
    · exact Or.inl ⟨split_none _ _ h, h⟩
  intro a c p ha hc hp
  rcases one s with ⟨e, _⟩ | ⟨a', r, rfl, h1, e⟩
  · rw [e] at hc; simp at hc
  · rw [e] at ha hc hp
    simp only [List.getElem?_cons_zero, Option.some.injEq, List.getElem?_cons_succ] at ha hc hp
    subst ha
    rcases one r with ⟨e, _⟩ | ⟨c', r', rfl, h2, e⟩
    · rw [e] at hp; simp at hp
    · rw [e] at hc hp
      simp only [List.getElem?_cons_zero, Option.some.injEq, List.getElem?_cons_succ] at hc hp
      subst hc
      rcases one r' with ⟨e, h3⟩ | ⟨p', r'', rfl, h3, e⟩
      · rw [e] at hp
        simp only [List.getElem?_cons_zero, Option.some.injEq] at hp
        subst hp
        exact ⟨[], by simp, h1, h2, h3, Or.inl rfl⟩
      · rw [e] at hp
        simp only [List.getElem?_cons_zero, Option.some.injEq] at hp
        subst hp
        exact ⟨':' :: r'', by simp, h1, h2, h3, Or.inr rfl⟩

theorem parseLabel_bad (pr : Parser F) (hl : pr.labelType = .cb) {t : Str} (ts : List Str) (hs : trim t ≠ "shared".toList)
    (hb : ¬ IsCbLabel pr.parseFloat t) : ∃ e, parseLabel pr (t :: ts) = .error e := by
  unfold parseLabel
  rw [hl]
  simp only
  rw [if_neg hs]
  cases h0 : (split ':' t)[0]? with
  | none => exact ⟨_, rfl⟩
  | some a =>
    cases ha : parseU32 a with
    | none => exact ⟨.panic .unwrap, by simp only [unwrapP, ha, bind, Except.bind]⟩
    | some a' =>
      cases h1 : (split ':' t)[1]? with
      | none => exact ⟨.panic .unwrap, by simp only [unwrapP, ha, bind, Except.bind]⟩
      | some c =>
        cases hc : pr.parseFloat c with
        | none => exact ⟨.panic .unwrap, by simp only [unwrapP, ha, hc, bind, Except.bind]⟩
        | some c' =>
          cases h2 : (split ':' t)[2]? with
          | none => exact ⟨.panic .unwrap, by simp only [unwrapP, ha, hc, bind, Except.bind]⟩
          | some p =>
            cases hp : pr.parseFloat p with
            | none => exact ⟨.panic .unwrap, by simp only [unwrapP, ha, hc, hp, bind, Except.bind]⟩
            | some p' =>
              obtain ⟨r, q1, q2, q3, q4, q5⟩ := split_three t a c p h0 h1 h2
              exact absurd ⟨a, c, p, r, q1, q2, q3, q4, q5, (parseU32_iff a).1 (by rw [ha]; rfl), by rw [hc]; rfl, by rw [hp]; rfl⟩ hb

theorem parseLines_bad (pr : Parser F) : ∀ (ls : List Str) (pool : Pool (SparseFeatures F)), (∃ l ∈ ls, ∀ d, ∃ e, parseTextLine pr l d = .error e) →
    ∃ e, parseLines pr ls pool = .error e
  | [], _, h => by obtain ⟨l, hl, _⟩ := h; cases hl
  | l :: ls, pool, h => by
    rw [parseLines]
    simp only [bind, Except.bind]
    cases hx : parseTextLine pr l (pool.getObject SparseFeatures.new).1 with
    | error e => exact ⟨e, rfl⟩
    | ok x =>
      obtain ⟨e, he⟩ := parseLines_bad pr ls (pool.getObject SparseFeatures.new).2 (by
        obtain ⟨m, hm, hm'⟩ := h
        rcases List.mem_cons.1 hm with rfl | hm
        · obtain ⟨e, he⟩ := hm' (pool.getObject SparseFeatures.new).1
          rw [hx] at he
          cases he
        · exact ⟨m, hm, hm'⟩)
      exact ⟨e, by simp only [he]⟩

/-- C48: an example with a line that is labelled with anything else than `shared` or `action:cost:probability` is not accepted. -/
theorem C48_other_labels (pr : Parser F) (hf : pr.featuresType = .sparseCBAdf) (hl : pr.labelType = .cb) (pool : Pool (SparseFeatures F))
    (ls : List Str) (hls : ∀ t ∈ ls, t ≠ [] ∧ '\n' ∉ t ∧ t.getLast? ≠ some '\r') (h : VwHead) (hv : h.Valid) (rest : Str)
    (hr : rest = [] ∨ rest.head? = some '|') (hmem : h.render ++ rest ∈ ls) (t : Str) (ht : h.labelTokens.head? = some t)
    (hs : t ≠ "shared".toList) (hb : ¬ IsCbLabel pr.parseFloat t) :
    ∃ e, parseChunk pr pool (['\n'].intercalate ls) = .error e := by
  have hm : pr.isMultiline = true := by simp [Parser.isMultiline, hf, hl]
  obtain ⟨segs, hsegs⟩ := split_head (head_bar hv) hr
  obtain ⟨tag, htag⟩ := head_ok pr hv
  obtain ⟨ts, hts⟩ : ∃ ts, h.labelTokens = t :: ts := by
    cases hx : h.labelTokens with
    | nil => rw [hx] at ht; cases ht
    | cons a ts => rw [hx] at ht; cases ht; exact ⟨ts, rfl⟩
  have hws : ∀ x ∈ t, isWs x = false := by
    obtain ⟨u, hu, hu'⟩ := labelTokens_mem (h := h) (t := t) (by rw [hts]; simp)
    intro x hx
    rw [← hu'] at hx
    rw [← isSpace_eq]
    exact ((hv.toks u hu).2.1 x hx).1
  obtain ⟨e, he⟩ := parseLabel_bad pr hl ts (by rwa [trim_noWs hws]) hb
  obtain ⟨e', he'⟩ := parseLines_bad pr ls pool ⟨_, hmem, fun d => ⟨e, by
    unfold parseTextLine
    rw [hsegs]
    simp only [htag, hts, he, bind, Except.bind, Except.map]⟩⟩
  refine ⟨e', ?_⟩
  unfold parseChunk
  rw [hm, if_pos rfl, lines_intercalate ls (fun t ht => ⟨(hls t ht).2.1, (hls t ht).2.2, (hls t ht).1⟩), he']
  rfl

section examples
attribute [local instance] intFlt

/-- `1 2 tag` with an odd amount of white space. -/
def exHead : VwHead := ⟨" ".toList, [("1".toList, "\t ".toList), ("2".toList, "  ".toList), ("tag".toList, [])]⟩
/-- `|user:3 age:2 city:paris :7 :8`. -/
def exUser : VwNs := ⟨some ("user".toList, some "3".toList),
  [(" ".toList, .number "age".toList "2".toList), ("\t".toList, .text "city".toList "paris".toList), ("  ".toList, .anon "7".toList),
    (" ".toList, .anon "8".toList)], " ".toList⟩
/-- `| x`. -/
def exDefault : VwNs := ⟨none, [(" ".toList, .name "x".toList)], []⟩
/-- `|user y`: the same namespace again. -/
def exUser2 : VwNs := ⟨some ("user".toList, none), [(" ".toList, .name "y".toList)], []⟩

instance (s : Str) : Decidable (Plain s) := inferInstanceAs (Decidable (∀ c ∈ s, _))
instance (s : Str) : Decidable (Sep s) := inferInstanceAs (Decidable (_ ∧ _))
instance (f : VwFeat) : Decidable (f.Valid exFloat) := by
  cases f <;> unfold VwFeat.Valid <;> infer_instance

theorem exHead_valid : exHead.Valid := ⟨by decide, by decide, by decide⟩
theorem exUser_valid : exUser.Valid exFloat := ⟨⟨by decide, by decide, by decide, by decide⟩, by decide, by decide⟩
theorem exDefault_valid : exDefault.Valid exFloat := ⟨rfl, by decide, by decide⟩
theorem exUser2_valid : exUser2.Valid exFloat := ⟨⟨by decide, by decide⟩, by decide, by decide⟩

theorem exNss_valid : ∀ n ∈ [exUser, exDefault, exUser2], n.Valid exSimple.parseFloat ∧ n.NoOverflow exSimple := by
  intro n hn
  simp only [List.mem_cons, List.not_mem_nil, or_false] at hn
  rcases hn with rfl | rfl | rfl
  · exact ⟨exUser_valid, fun _ => by decide⟩
  · exact ⟨exDefault_valid, fun _ => by decide⟩
  · exact ⟨exUser2_valid, fun _ => by decide⟩

/-- C46, C47: the hypotheses hold for an example with a label, a weight, a tag, a repeated namespace and all forms of features, and this is what it
looks like and means. -/
example : exHead.Valid ∧ simpleLabel exFloat exHead.labelTokens = some (some ⟨1, 2⟩) ∧
    (∀ n ∈ [exUser, exDefault, exUser2], n.Valid exSimple.parseFloat ∧ n.NoOverflow exSimple) ∧
    exHead.render ++ [exUser, exDefault, exUser2].flatMap VwNs.render = " 1\t 2  tag|user:3 age:2\tcity:paris  :7 :8 | x|user y".toList ∧
    meaning exSimple [exUser, exDefault, exUser2] (.named 4#32) = some [(7#32, 6), (13#32, 3), (4#32, 21), (5#32, 24), (5#32, 1)] ∧
    meaning exSimple [exUser, exDefault, exUser2] .default = some [(1#32, 1)] :=
  ⟨exHead_valid, rfl, exNss_valid, by decide +kernel, by decide +kernel, by decide +kernel⟩

/-- A recycled object: one that was used and cleared. -/
example : ∀ f ∈ (⟨[SparseFeatures.new]⟩ : Pool (SparseFeatures Int)).objects, Recycled f := by
  intro f hf
  simp only [List.mem_singleton] at hf
  subst hf
  exact ⟨⟨new_inv0, fun ns _ => rfl⟩, fun ns => rfl⟩

/-- The parsed label and the feature indices and values of an example of the real syntax, end to end. -/
example : (parseChunk exSimple ⟨[]⟩ " 1\t 2  tag|user:3 age:2\tcity:paris  :7 :8 | x|user y".toList).toOption.map (fun r => (r.1.2.isSome,
    match r.1.1 with
    | .simple f => (f.report (.named 4#32), f.report .default)
    | _ => (none, none))) =
    some (true, some [(7#32, 6), (13#32, 3), (4#32, 21), (5#32, 24), (5#32, 1)], some [(1#32, 1)]) := rfl

/-- A tab does not separate a token from the bar: here `1` is a tag and the example has no label. -/
example : (VwHead.mk [] [("1".toList, "\t".toList)]).Valid ∧ (VwHead.mk [] [("1".toList, "\t".toList)]).labelTokens = [] ∧
    (parseChunk exSimple ⟨[]⟩ "1\t|a b".toList).toOption.map (fun r => r.1.2.isSome) = some false ∧
    (parseChunk exSimple ⟨[]⟩ "1 |a b".toList).toOption.map (fun r => r.1.2.isSome) = some true :=
  ⟨⟨by decide, by decide, by decide⟩, by decide, by decide +kernel, by decide +kernel⟩

/-- A shared line and two actions of which the second is labelled. -/
def exLines : List CbLine :=
  [⟨⟨[], [("shared".toList, " ".toList)]⟩, .shared, [exUser]⟩, ⟨⟨[], []⟩, .unlabelled, [exDefault]⟩,
    ⟨⟨[], [("7:2:1".toList, " ".toList)]⟩, .labelled "7".toList "2".toList "1".toList, [exUser2, exDefault]⟩]

theorem exNss_valid_cb : ∀ n ∈ [exUser, exDefault, exUser2], n.Valid exCb.parseFloat ∧ n.NoOverflow exCb := exNss_valid

theorem exLines_valid : ∀ l ∈ exLines, l.Valid exCb := by
  intro l hl
  simp only [exLines, List.mem_cons, List.not_mem_nil, or_false] at hl
  rcases hl with rfl | rfl | rfl
  · exact ⟨⟨by decide, by decide, by decide⟩, rfl, fun n hn => exNss_valid_cb n (by revert hn; simp; tauto), by decide⟩
  · exact ⟨⟨by decide, by decide, by decide⟩, rfl, fun n hn => exNss_valid_cb n (by revert hn; simp; tauto), by decide⟩
  · exact ⟨⟨by decide, by decide, by decide⟩, ⟨rfl, by decide, by decide, by decide, ⟨[7], by decide, by decide, by decide⟩, by decide, by decide⟩,
      fun n hn => exNss_valid_cb n (by revert hn; simp; tauto), by decide⟩

/-- C48: `oops |a x` is not accepted as a line of a contextual bandit example. -/
example : (⟨[], [("oops".toList, [' '])]⟩ : VwHead).Valid ∧ (⟨[], [("oops".toList, [' '])]⟩ : VwHead).labelTokens.head? = some "oops".toList ∧
    (⟨[], [("oops".toList, [' '])]⟩ : VwHead).render = "oops ".toList ∧ ¬ IsCbLabel exCb.parseFloat "oops".toList := by
  refine ⟨⟨by decide, by decide, by decide⟩, by decide, by decide, ?_⟩
  rintro ⟨a, c, p, r, h, _⟩
  have : ':' ∈ "oops".toList := by rw [h]; simp
  exact absurd this (by decide)

/-- C48: the label is the position among the actions (1), not the number that is written (7). -/
example : (∀ l ∈ exLines, l.Valid exCb) ∧ ((actionLines exLines)[1]?.bind (CbLine.label exCb)) = some (2, 1) ∧
    (∀ j l, (actionLines exLines)[j]? = some l → j ≠ 1 → l.label exCb = none) ∧
    ∃ f pool', parseChunk exCb ⟨[]⟩ ("shared |user:3 age:2\tcity:paris  :7 :8 \n| x\n7:2:1 |user y| x".toList) =
      .ok ((.cbAdf f, some (.cb ⟨1, 2, 1⟩)), pool') ∧ Assembled exCb exLines f := by
  have h1 : ((actionLines exLines)[1]?.bind (CbLine.label exCb)) = some (2, 1) := by decide
  have h2 : ∀ j l, (actionLines exLines)[j]? = some l → j ≠ 1 → l.label exCb = none := by
    intro j l hj hne
    match j with
    | 0 =>
      simp only [actionLines, exLines, sharedLine, List.tail_cons, List.getElem?_cons_zero, Option.some.injEq] at hj
      subst hj; rfl
    | 1 => exact absurd rfl hne
    | j + 2 => simp [actionLines, exLines, sharedLine] at hj
  refine ⟨exLines_valid, h1, h2, ?_⟩
  have := (C48_assembly exCb rfl rfl ⟨[]⟩ (by simp) exLines (by simp [exLines]) exLines_valid).2.1 1 2 1 h1 h2
  rw [show ['\n'].intercalate (exLines.map CbLine.render) =
    "shared |user:3 age:2\tcity:paris  :7 :8 \n| x\n7:2:1 |user y| x".toList from by decide +kernel] at this
  exact this

end examples

end Vw
end Rml
