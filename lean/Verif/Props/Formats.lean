import Verif.Lemmas.Formats

/-! C91: the input formats agree. The same data written as VW text, as JSON and as DsJson is the same example with the same label, whatever the pools of
recycled objects hold. -/

set_option linter.unusedSectionVars false

namespace Rml
namespace Formats
open Text Vw Js
variable {F N : Type} [Flt F]

theorem sameParse_of_eqv {x y : (Features F × Option (Label F)) × Pool (SparseFeatures F)} (h : x.1.2 = y.1.2) (h' : FtEqv x.1.1 y.1.1) :
    SameParse (ε := Panic) (.ok x) (.ok y) := sameParse_of_rel ⟨h, h'⟩

theorem wf_vw {pv : Vw.Parser F} {p : Pool (SparseFeatures F)} (hp : PoolReach p) {chunk : Str}
    {r : (Features F × Option (Label F)) × Pool (SparseFeatures F)} (h : Vw.parseChunk pv p chunk = .ok r) : FtMade False r.1.1 :=
  (Vw.parseChunk_made (e := False) pv (pool_objects hp) chunk (fun h => h.elim) r h).1

theorem wf_js {pj : Js.Parser F N} {p : Pool (SparseFeatures F)} (hp : PoolReach p) {chunk : Str}
    {r : (Features F × Option (Label F)) × Pool (SparseFeatures F)} (h : Js.parseChunk pj p chunk = .ok r) : FtMade False r.1.1 :=
  (Js.parseChunk_made (e := False) pj (pool_objects hp) chunk (fun h => h.elim) r h).1

theorem wf_ds {pj : Js.Parser F N} {p : Pool (SparseFeatures F)} (hp : PoolReach p) {chunk : Str}
    {r : (Features F × Option (Label F)) × Pool (SparseFeatures F)} (h : Ds.parseChunk pj p chunk = .ok r) : FtMade True r.1.1 :=
  (Ds.parseChunk_made pj (pool_objects hp) chunk r h).1

theorem simpleJson_features (l : Option (DSimple N)) (nss : List (DNs N)) : valueOf "features" (jsSimple l nss) = renderFeatures (nss.map DNs.js) := by
  unfold jsSimple
  rcases l with _ | ⟨v, _ | w⟩ <;> simp [valueOf, List.find?_cons]

/-- The head of a VW line with these tokens, each followed by a blank. -/
def headOf (toks : List Str) : VwHead := ⟨[], toks.map fun t => (t, [' '])⟩

theorem headOf_valid {toks : List Str} (h : ∀ t ∈ toks, t ≠ [] ∧ ∀ c ∈ t, isSpace c = false ∧ c ≠ '|') : (headOf toks).Valid := by
  refine ⟨by simp [headOf], fun t ht => ?_, fun t ht => ?_⟩
  · obtain ⟨s, hs, rfl⟩ := List.mem_map.1 ht
    exact ⟨(h s hs).1, (h s hs).2, by simp; decide⟩
  · obtain ⟨s, hs, rfl⟩ := List.mem_map.1 (List.dropLast_subset _ ht)
    simp

theorem headOf_tokens {toks : List Str} (h : ∀ t ∈ toks, t.head? ≠ some '\'') : (headOf toks).labelTokens = toks := by
  unfold VwHead.labelTokens VwHead.touches
  cases hl : (headOf toks).toks.getLast? with
  | none =>
    have : toks = [] := by simpa [headOf] using hl
    rw [this]
  | some t =>
    obtain ⟨s, hs, rfl⟩ := List.mem_map.1 (List.mem_of_getLast? hl)
    simp [h s hs, headOf, Function.comp_def]

theorem number_tok {pv : Vw.Parser F} {pj : Js.Parser F N} {t : Str} {n : N} (h : NumberIs pv pj t n) :
    t ≠ [] ∧ (∀ c ∈ t, isSpace c = false ∧ c ≠ '|') ∧ t.head? ≠ some '\'' :=
  ⟨h.start.1, fun c hc => ⟨(h.plain c hc).1, (h.plain c hc).2.2⟩, h.start.2⟩

/-- C91, regression: the VW line and the JSON document of the same data are parsed to the same example with the same label; every model predicts the
same for both and learns the same from both. -/
theorem C91_simple (pv : Vw.Parser F) (pj : Js.Parser F N) (ag : Agree pv pj)
    (hvf : pv.featuresType = .sparseSimple) (hvl : pv.labelType = .simple) (hjf : pj.featuresType = .sparseSimple) (hjl : pj.labelType = .simple)
    (l : Option (DSimple N)) (hl : ∀ x, l = some x → x.Valid pv pj) (nss : List (DNs N)) (hn : ∀ d ∈ nss, d.Valid pv pj)
    (p q : Pool (SparseFeatures F)) (hp : PoolReach p) (hq : PoolReach q) (json : Str) (hj : pj.parseJson json = some (jsSimple l nss)) :
    ∃ r r', Vw.parseChunk pv p (vwSimple l nss) = .ok r ∧ Js.parseChunk pj q json = .ok r' ∧ SameParse (ε := Panic) (.ok r) (.ok r') ∧
      r.1.2 = l.map fun x => Label.simple ⟨pj.toF32 x.value.2, (x.weight.map fun w => pj.toF32 w.2).getD Flt.one⟩ := by
  -- the label
  obtain ⟨toks, lab, ht1, ht2, ht3, ht4, ht5, ht6⟩ : ∃ (toks : List Str) (lab : Option (SimpleLabel F)),
      vwSimple l nss = (headOf toks).render ++ (nss.map DNs.vw).flatMap VwNs.render ∧
      (∀ t ∈ toks, t ≠ [] ∧ ∀ c ∈ t, isSpace c = false ∧ c ≠ '|') ∧ (∀ t ∈ toks, t.head? ≠ some '\'') ∧
      simpleLabel pv.parseFloat toks = some lab ∧ SimpleLabelIs pj (valueOf "label" (jsSimple l nss)) lab ∧
      lab = l.map fun x => ⟨pj.toF32 x.value.2, (x.weight.map fun w => pj.toF32 w.2).getD Flt.one⟩ := by
    have hnss : (nss.map DNs.vw).flatMap VwNs.render = nss.flatMap fun d => d.vw.render := by rw [List.flatMap_map]
    rw [hnss]
    rcases l with _ | ⟨v, _ | w⟩
    · refine ⟨[], none, rfl, by simp, by simp, rfl, ?_, rfl⟩
      have : valueOf "label" (jsSimple none nss) = .null := by simp [jsSimple, valueOf]
      rw [this]
      exact .absent
    · obtain ⟨h1, _⟩ := hl _ rfl
      have k1 := number_tok h1
      refine ⟨[v.1], _, by simp [vwSimple, headOf, VwHead.render], by simpa using ⟨k1.1, k1.2.1⟩, by simpa using k1.2.2,
        by simp [simpleLabel, h1.same], ?_, rfl⟩
      have : valueOf "label" (jsSimple (some ⟨v, none⟩) nss) = .num v.2 := by simp [jsSimple, valueOf]
      rw [this]
      exact .number v.2
    · obtain ⟨h1, h2⟩ := hl _ rfl
      have k1 := number_tok h1
      have k2 := number_tok (h2 w rfl)
      refine ⟨[v.1, w.1], some ⟨pj.toF32 v.2, pj.toF32 w.2⟩, by simp [vwSimple, headOf, VwHead.render], ?_, ?_, ?_, ?_, rfl⟩
      · simpa using ⟨⟨k1.1, k1.2.1⟩, k2.1, k2.2.1⟩
      · simpa using ⟨k1.2.2, k2.2.2⟩
      · simp [simpleLabel, h1.same, (h2 w rfl).same]
      · have : valueOf "label" (jsSimple (some ⟨v, some w⟩) nss) = .obj [("value".toList, .num v.2), ("weight".toList, .num w.2)] := by
          simp [jsSimple, valueOf]
        rw [this]
        have h3 := SimpleLabelIs.object (pr := pj) [("value".toList, .num v.2), ("weight".toList, .num w.2)] v.2 w.2
          (by simp [lastValue]) (by simp [lastValue])
        rw [h1.label, (h2 w rfl).label] at h3
        exact h3
  obtain ⟨f, p', h1, h2⟩ := Vw.C46_features pv hvf hvl p (recycled_of_reach hp) (headOf toks) (headOf_valid ht2) lab
    (by rw [headOf_tokens ht3]; exact ht4) (nss.map DNs.vw) (by
      intro n hm
      obtain ⟨d, hd, rfl⟩ := List.mem_map.1 hm
      exact vw_valid ag d (hn d hd))
  obtain ⟨g, q', h3, h4⟩ := Js.C49_features_partial pj hjf hjl q (recycled_of_reach hq) json _ hj (nss.map DNs.js) (simpleJson_features l nss) (by
      intro e hm
      obtain ⟨d, hd, rfl⟩ := List.mem_map.1 hm
      exact js_valid d (hn d hd)) (js_noSpare _ _ _) lab ht5
  rw [← ht1] at h1
  refine ⟨_, _, h1, h3, sameParse_of_eqv rfl (.simple (eqv_of_represents (m := Js.meaning pj (nss.map DNs.js)) (wf_vw hp h1).wf (wf_js hq h3).wf ?_ h4)), ?_⟩
  · rw [← meaning_eq ag nss hn]
    exact h2
  · subst ht6
    cases l <;> rfl

theorem forall₂_join {α β γ δ : Type} {R : α → γ → Prop} {S : β → δ → Prop} {T : α → β → Prop} {U : γ → δ → Prop}
    (hU : ∀ a b c d, T a b → R a c → S b d → U c d) : ∀ {l : List α} {m : List β} {xs : List γ} {ys : List δ},
    List.Forall₂ T l m → List.Forall₂ R l xs → List.Forall₂ S m ys → List.Forall₂ U xs ys
  | _, _, _, _, .nil, .nil, .nil => .nil
  | _, _, _, _, .cons h1 t1, .cons h2 t2, .cons h3 t3 => .cons (hU _ _ _ _ h1 h2 h3) (forall₂_join hU t1 t2 t3)

theorem forall₂_and {α β : Type} {R : α → β → Prop} {P : β → Prop} : ∀ {l : List α} {xs : List β}, List.Forall₂ R l xs → (∀ x ∈ xs, P x) →
    List.Forall₂ (fun a x => R a x ∧ P x) l xs
  | _, _, .nil, _ => .nil
  | _, _, .cons h t, hp => .cons ⟨h, hp _ List.mem_cons_self⟩ (forall₂_and t fun x hx => hp x (List.mem_cons_of_mem _ hx))

/-- The line of an action. -/
def actionLine (d : DCb N) (i : Nat) (nss : List (DNs N)) : CbLine :=
  match d.label with
  | some l =>
    if l.index = i then ⟨headOf ['0' :: ':' :: (l.cost.1 ++ ':' :: l.prob.1)], .labelled ['0'] l.cost.1 l.prob.1, nss.map DNs.vw⟩
    else ⟨headOf [], .unlabelled, nss.map DNs.vw⟩
  | none => ⟨headOf [], .unlabelled, nss.map DNs.vw⟩

theorem actionLine_nss (d : DCb N) (i : Nat) (nss : List (DNs N)) : (actionLine d i nss).nss = nss.map DNs.vw := by
  unfold actionLine
  split
  · split <;> rfl
  · rfl

theorem actionLine_render (d : DCb N) (i : Nat) (nss : List (DNs N)) : (actionLine d i nss).render = d.vwAction i nss := by
  unfold actionLine DCb.vwAction CbLine.render
  cases hl : d.label with
  | none => simp [headOf, VwHead.render, List.flatMap_map]
  | some l =>
    simp only
    split <;> simp [headOf, VwHead.render, List.flatMap_map]

/-- The line of the shared features. -/
def sharedCbLine (d : DCb N) : CbLine := ⟨headOf ["shared".toList], .shared, d.shared.map DNs.vw⟩

/-- All lines. -/
def cbLines (d : DCb N) : List CbLine := sharedCbLine d :: d.actions.mapIdx (actionLine d)

theorem cbLines_text (d : DCb N) : d.vwText = ['\n'].intercalate ((cbLines d).map CbLine.render) := by
  unfold DCb.vwText cbLines
  have h : (d.actions.mapIdx (actionLine d)).map CbLine.render = d.actions.mapIdx d.vwAction := by
    apply List.ext_getElem
    · simp
    · intro i h1 h2
      simp [actionLine_render]
  rw [List.map_cons, h]
  congr 2
  simp [sharedCbLine, CbLine.render, headOf, VwHead.render, List.flatMap_map]

theorem cbLines_shared (d : DCb N) : sharedLine (cbLines d) = some (sharedCbLine d) := rfl

theorem cbLines_actions (d : DCb N) : actionLines (cbLines d) = d.actions.mapIdx (actionLine d) := rfl

theorem nss_valid {pv : Vw.Parser F} {pj : Js.Parser F N} (ag : Agree pv pj) {nss : List (DNs N)} (h : ∀ d ∈ nss, d.Valid pv pj) :
    ∀ n ∈ nss.map DNs.vw, n.Valid pv.parseFloat ∧ n.NoOverflow pv := by
  intro n hm
  obtain ⟨d, hd, rfl⟩ := List.mem_map.1 hm
  exact vw_valid ag d (h d hd)

theorem quiet_nss {pv : Vw.Parser F} {pj : Js.Parser F N} (ag : Agree pv pj) {nss : List (DNs N)} (h : ∀ d ∈ nss, d.Valid pv pj) :
    Quiet ((nss.map DNs.vw).flatMap VwNs.render) := .flatMap fun n hm => by
  obtain ⟨d, hd, rfl⟩ := List.mem_map.1 hm
  exact quiet_ns ag d (h d hd)

theorem nss_ne {nss : List (DNs N)} (h : nss ≠ []) : (nss.map DNs.vw).flatMap VwNs.render ≠ [] := by
  cases nss with
  | nil => exact absurd rfl h
  | cons d l => simp [VwNs.render]

theorem shared_valid {pv : Vw.Parser F} {pj : Js.Parser F N} (ag : Agree pv pj) (d : DCb N) (hv : d.Valid pv pj) : (sharedCbLine d).Valid pv := by
  refine ⟨headOf_valid (by simp; decide), ?_, nss_valid ag hv.shared, ?_⟩
  · simp only [sharedCbLine]
    rw [headOf_tokens (by simp)]
    rfl
  · have hq : Quiet (sharedCbLine d).render := by
      refine Quiet.append ?_ (quiet_nss ag hv.shared)
      show Quiet "shared ".toList
      unfold Quiet
      decide
    exact ⟨by simp [sharedCbLine, CbLine.render, headOf, VwHead.render], hq.line⟩

theorem action_valid {pv : Vw.Parser F} {pj : Js.Parser F N} (ag : Agree pv pj) (d : DCb N) (hv : d.Valid pv pj) (i : Nat) (nss : List (DNs N))
    (hm : nss ∈ d.actions) : (actionLine d i nss).Valid pv := by
  obtain ⟨hne, hn⟩ := hv.actions nss hm
  have hplain : (⟨headOf [], .unlabelled, nss.map DNs.vw⟩ : CbLine).Valid pv := by
    refine ⟨headOf_valid (by simp), rfl, nss_valid ag hn, ?_⟩
    have hq : Quiet (⟨headOf [], .unlabelled, nss.map DNs.vw⟩ : CbLine).render := (quiet_nss ag hn)
    exact ⟨nss_ne hne, hq.line⟩
  unfold actionLine
  cases hl : d.label with
  | none => exact hplain
  | some l =>
    simp only
    obtain ⟨_, _, hc, hp⟩ := hv.label l hl
    have hc' : ∀ t ∈ [('0' :: ':' :: (l.cost.1 ++ ':' :: l.prob.1))], t ≠ [] ∧ ∀ c ∈ t, isSpace c = false ∧ c ≠ '|' := by
      intro t ht
      rw [List.mem_singleton.1 ht]
      refine ⟨by simp, fun c hm => ?_⟩
      simp only [List.mem_cons, List.mem_append] at hm
      rcases hm with rfl | rfl | hm | rfl | hm
      · decide
      · decide
      · exact ⟨(hc.plain c hm).1, (hc.plain c hm).2.2⟩
      · decide
      · exact ⟨(hp.plain c hm).1, (hp.plain c hm).2.2⟩
    split
    · refine ⟨headOf_valid hc', ?_, nss_valid ag hn, ?_⟩
      · simp only
        rw [headOf_tokens (by simp)]
        refine ⟨by simp, by decide, fun h => (hc.plain _ h).2.1 rfl, fun h => (hp.plain _ h).2.1 rfl, ⟨[0], by simp, by decide, .inl rfl⟩, ?_, ?_⟩
        · rw [hc.same]; rfl
        · rw [hp.same]; rfl
      · have hq : Quiet (⟨headOf ['0' :: ':' :: (l.cost.1 ++ ':' :: l.prob.1)], .labelled ['0'] l.cost.1 l.prob.1, nss.map DNs.vw⟩ : CbLine).render := by
          refine Quiet.append ?_ (quiet_nss ag hn)
          intro c hm
          simp only [headOf, VwHead.render, List.map_cons, List.map_nil, List.flatMap_cons, List.flatMap_nil, List.append_nil, List.nil_append,
            List.mem_append, List.mem_singleton] at hm
          rcases hm with hm | rfl
          · exact .inr ((hc' _ List.mem_cons_self).2 c hm).1
          · exact .inl rfl
        exact ⟨by simp [CbLine.render, headOf, VwHead.render], hq.line⟩
    · exact hplain

/-- The label that the example has. -/
def DCb.labelOf (pj : Js.Parser F N) (d : DCb N) : Option (CBLabel F) := d.label.map fun l => ⟨l.index, pj.toF32 l.cost.2, pj.toF32 l.prob.2⟩

/-- C91, contextual bandits: the VW text, the JSON document and the DsJson document of the same data are parsed to the same example with the same label;
every model predicts the same for all of them and learns the same from all of them. -/
theorem C91_cb (pv : Vw.Parser F) (pj : Js.Parser F N) (ag : Agree pv pj)
    (hvf : pv.featuresType = .sparseCBAdf) (hvl : pv.labelType = .cb) (hjf : pj.featuresType = .sparseCBAdf) (hjl : pj.labelType = .cb)
    (d : DCb N) (hd : d.Valid pv pj) (p q t : Pool (SparseFeatures F)) (hp : PoolReach p) (hq : PoolReach q) (ht : PoolReach t)
    (json dsjson : Str) (hj : pj.parseJson json = some d.jsDoc) (hds : pj.parseJson dsjson = some d.dsDoc) :
    ∃ r r' r'', Vw.parseChunk pv p d.vwText = .ok r ∧ Js.parseChunk pj q json = .ok r' ∧ Ds.parseChunk pj t dsjson = .ok r'' ∧
      SameParse (ε := Panic) (.ok r) (.ok r') ∧ SameParse (ε := Panic) (.ok r') (.ok r'') ∧
      r.1.2 = d.label.map fun l => Label.cb ⟨l.index, pj.toF32 l.cost.2, pj.toF32 l.prob.2⟩ := by
  -- VW
  have hlines : ∀ l ∈ cbLines d, l.Valid pv := by
    intro l hl
    rcases List.mem_cons.1 hl with rfl | hl
    · exact shared_valid ag d hd
    · obtain ⟨i, hi, rfl⟩ := List.mem_mapIdx.1 hl
      exact action_valid ag d hd i _ (List.getElem_mem hi)
  have hvw : ∃ f p', Vw.parseChunk pv p d.vwText = .ok ((.cbAdf f, (d.labelOf pj).map .cb), p') ∧ Assembled pv (cbLines d) f := by
    obtain ⟨h1, h2, _⟩ := Vw.C48_assembly pv hvf hvl p (recycled_of_reach hp) (cbLines d) (by simp [cbLines]) hlines
    rw [cbLines_text]
    rw [cbLines_actions] at h1 h2
    cases hl : d.label with
    | none =>
      simp only [DCb.labelOf, hl, Option.map_none]
      refine h1 fun l hm => ?_
      obtain ⟨i, hi, rfl⟩ := List.mem_mapIdx.1 hm
      simp [actionLine, hl, CbLine.label]
    | some l =>
      simp only [DCb.labelOf, hl, Option.map_some]
      obtain ⟨k1, _, k3, k4⟩ := hd.label l hl
      refine h2 l.index _ _ ?_ ?_
      · rw [List.getElem?_mapIdx, List.getElem?_eq_getElem k1]
        simp [actionLine, hl, CbLine.label, k3.same, k4.same]
      · intro j m hm hne
        rw [List.getElem?_mapIdx] at hm
        cases ha : d.actions[j]? with
        | none => rw [ha] at hm; cases hm
        | some a =>
          rw [ha] at hm
          cases hm
          simp [actionLine, hl, CbLine.label, Ne.symm hne]
  obtain ⟨f, p', h1, h2, h3⟩ := hvw
  -- JSON
  have hlab : CbLabelIs pj (valueOf "label" d.jsDoc) (d.labelOf pj) := by
    unfold DCb.labelOf
    cases hl : d.label with
    | none =>
      have : valueOf "label" d.jsDoc = .null := by simp [DCb.jsDoc, hl, valueOf]
      rw [this]
      exact .absent
    | some l =>
      have : valueOf "label" d.jsDoc =
          .obj [("action".toList, .num l.indexNum), ("cost".toList, .num l.cost.2), ("probability".toList, .num l.prob.2)] := by
        simp [DCb.jsDoc, hl, valueOf]
      rw [this]
      obtain ⟨_, k2, k3, k4⟩ := hd.label l hl
      have h5 := CbLabelIs.object (pr := pj) [("action".toList, .num l.indexNum), ("cost".toList, .num l.cost.2), ("probability".toList, .num l.prob.2)]
        l.indexNum l.cost.2 l.prob.2 l.index (by simp [lastValue]) k2 (by simp [lastValue]) (by simp [lastValue])
      rw [k3.label, k4.label] at h5
      exact h5
  obtain ⟨g, q', h4, h5, h6⟩ := Js.C49_cb_partial pj hjf hjl q (recycled_of_reach hq) json _ hj (some (d.shared.map DNs.js)) (by
      cases hl : d.label <;> simp [DCb.jsDoc, hl, valueOf]) (d.actions.map fun a => a.map DNs.js) (by
      cases hl : d.label <;> simp [DCb.jsDoc, hl, valueOf, Function.comp_def]) (by
      rintro l (hl | hl) e he
      · cases hl
        obtain ⟨n, hn, rfl⟩ := List.mem_map.1 he
        exact js_valid n (hd.shared n hn)
      · obtain ⟨a, ha, rfl⟩ := List.mem_map.1 hl
        obtain ⟨n, hn, rfl⟩ := List.mem_map.1 he
        exact js_valid n ((hd.actions a ha).2 n hn)) (by
      rintro f _ l (hl | hl)
      · cases hl
        exact js_noSpare _ _ _
      · obtain ⟨a, ha, rfl⟩ := List.mem_map.1 hl
        exact js_noSpare _ _ _) _ hlab
  -- DsJson
  have hc : valueOf "c" d.dsDoc = .obj (d.shared.flatMap DNs.ds ++ [("_multi".toList, .arr (d.actions.map fun a => .obj (a.flatMap DNs.ds)))]) := by
    cases hl : d.label <;> simp [DCb.dsDoc, hl, valueOf]
  have hmulti : valueOf "_multi" (valueOf "c" d.dsDoc) = .arr (d.actions.map fun a => .obj (a.flatMap DNs.ds)) := by
    rw [hc]
    have hkeys : ∀ e ∈ d.shared.flatMap (DNs.ds (N := N)), e.1 ≠ "_multi".toList := by
      intro e he h0
      obtain ⟨n, hn, he⟩ := List.mem_flatMap.1 he
      have hv := hd.shared n hn
      have hk := key_ok hv.name
      have hhead : e.1.head? ≠ some '_' := by
        unfold DNs.ds at he
        split at he
        · rename_i l _ hl
          obtain ⟨x, hx, rfl⟩ := List.mem_map.1 he
          have hc := hv.cont
          rw [hl] at hc
          exact (hc.2 x hx).1.2.2
        · rw [List.mem_singleton.1 he]
          exact hk
      rw [h0] at hhead
      exact hhead rfl
    have hnone : (d.shared.flatMap (DNs.ds (N := N))).find? (fun e => decide (e.1 = "_multi".toList)) = none := by
      rw [List.find?_eq_none]
      intro e he
      simpa using hkeys e he
    simp only [valueOf]
    rw [List.find?_append, hnone]
    simp
  have hdlab : Ds.labelOf pj d.dsDoc = some (d.labelOf pj) := by
    unfold Ds.labelOf DCb.labelOf
    cases hl : d.label with
    | none => simp [DCb.dsDoc, hl, valueOf]
    | some l =>
      obtain ⟨_, k2, _, _⟩ := hd.label l hl
      simp [DCb.dsDoc, hl, valueOf, k2]
  have hex : ∀ e ∈ ([("_multi".toList, .arr (d.actions.map fun a => .obj (a.flatMap DNs.ds)))] : List (Str × Json N)), e.1.head? = some '_' := by
    intro e he
    rw [List.mem_singleton.1 he]
    rfl
  obtain ⟨e1, e2⟩ := Ds.C51_dsjson pj t (recycled_of_reach ht) dsjson _ hds
  obtain ⟨r'', hr⟩ := e1.2 ⟨by rw [hc]; exact accepted_example _ hex d.shared hd.shared, by rw [hdlab]; rfl, _, hmulti, by
    intro v hv
    obtain ⟨a, ha, rfl⟩ := List.mem_map.1 hv
    have := accepted_example (pj := pj) [] (by simp) a (hd.actions a ha).2
    rwa [List.append_nil] at this⟩
  obtain ⟨⟨f'', l''⟩, t'⟩ := r''
  obtain ⟨s'', acts, items, lab, rfl, hi, hlab', rfl, hs, hacts⟩ := e2 _ _ _ hr
  rw [hmulti] at hi
  cases hi
  rw [hdlab] at hlab'
  cases hlab'
  rw [hc, example_features _ hex d.shared hd.shared, group_eq d.shared hd.shared] at hs
  have w1 := wf_vw hp h1
  have w2 := wf_js hq h4
  have w3 := wf_ds ht hr
  obtain ⟨fs, fa⟩ := f
  obtain ⟨gs, ga⟩ := g
  cases gs with
  | none => exact h5.elim
  | some gs =>
  cases fs with
  | none => exact h2.elim
  | some fs =>
  refine ⟨_, _, _, h1, h4, hr, sameParse_of_eqv rfl (.cb ⟨?_, ?_⟩), sameParse_of_eqv rfl (.cb ⟨?_, ?_⟩), ?_⟩
  · refine .some (eqv_of_represents (m := Js.meaning pj (d.shared.map DNs.js)) (w1.1 fs rfl).wf (w2.1 gs rfl).wf ?_ h5)
    rw [← meaning_eq ag _ hd.shared]
    exact h2
  · refine forall₂_join (T := fun (l : CbLine) (x : List (Str × JCont N)) => Vw.meaning pv l.nss = Js.meaning pj x) (fun a b c d h1 h2 h3 => ?_) ?_
      (forall₂_and h3 fun x hx => (w1.2 x hx).wf) (forall₂_and h6 fun x hx => (w2.2 x hx).wf)
    · exact eqv_of_represents h2.2 h3.2 h2.1 (h1 ▸ h3.1)
    · rw [cbLines_actions, List.forall₂_iff_get]
      refine ⟨by simp, fun i hi hi' => ?_⟩
      simp only [List.get_eq_getElem, List.getElem_mapIdx, List.getElem_map, actionLine_nss]
      exact meaning_eq ag _ (hd.actions _ (List.getElem_mem _)).2
  · exact .some (eqv_of_represents (w2.1 gs rfl).wf (w3.1 s'' rfl).wf h5 hs)
  · refine forall₂_join (T := fun (x : List (Str × JCont N)) (v : Json N) => Js.meaning pj x = Ds.group (Ds.exampleFeatures pj v))
      (fun a b c d h1 h2 h3 => ?_) ?_
      (forall₂_and h6 fun x hx => (w2.2 x hx).wf) (forall₂_and hacts fun x hx => (w3.2 x hx).wf)
    · exact eqv_of_represents h2.2 h3.2 h2.1 (h1 ▸ h3.1)
    · rw [List.forall₂_iff_get]
      refine ⟨by simp, fun i hi hi' => ?_⟩
      simp only [List.get_eq_getElem, List.getElem_map]
      have hv := (hd.actions (d.actions[i]'(by simpa using hi)) (List.getElem_mem _)).2
      have := example_features (pj := pj) [] (by simp) _ hv
      rw [List.append_nil] at this
      rw [this, group_eq _ hv]
  · simp only [DCb.labelOf, Option.map_map]
    rfl

/-! ### A case that meets the hypotheses: `shared |u young age:3 | x` and two actions, the second one taken with cost 3 and probability 1. -/

attribute [local instance] intFlt

def exNum : Str → Option Int := fun s => if s = ['3'] then some 3 else if s = ['1'] then some 1 else none

def exCb : DCb Int where
  shared := [⟨some "u".toList, .named [("young".toList, .flag), ("age".toList, .num ['3'] 3)]⟩, ⟨none, .named [("x".toList, .flag)]⟩]
  actions := [[⟨some "a".toList, .named [("colour".toList, .text "red".toList)]⟩], [⟨some "a".toList, .numbers [(['3'], 3), (['1'], 1)]⟩]]
  label := some ⟨1, 1, (['3'], 3), (['1'], 1)⟩

def exVw (ft : FeaturesType) (lt : LabelType) : Vw.Parser Int := ⟨ft, lt, 0#32, 18, fun s k => BitVec.ofNat 32 s.length + k, exNum, true⟩

def exJs (ft : FeaturesType) (lt : LabelType) : Js.Parser Int Int :=
  ⟨ft, lt, 0#32, 18, fun s k => BitVec.ofNat 32 s.length + k, fun s =>
    if s = ['j'] then some exCb.jsDoc else if s = ['d'] then some exCb.dsDoc
    else if s = ['s'] then some (jsSimple (some ⟨(['3'], 3), none⟩) exCb.shared) else none, id, fun n => some n.toNat, id, true⟩

theorem exAgree (ft : FeaturesType) (lt : LabelType) : Agree (exVw ft lt) (exJs ft lt) := ⟨rfl, rfl, rfl, rfl⟩

theorem exThree (ft : FeaturesType) (lt : LabelType) : NumberIs (exVw ft lt) (exJs ft lt) ['3'] 3 :=
  ⟨by unfold Plain; decide, by decide, rfl, rfl, rfl⟩

theorem exOne (ft : FeaturesType) (lt : LabelType) : NumberIs (exVw ft lt) (exJs ft lt) ['1'] 1 :=
  ⟨by unfold Plain; decide, by decide, rfl, rfl, rfl⟩

theorem exShared (ft : FeaturesType) (lt : LabelType) : ∀ n ∈ exCb.shared, n.Valid (exVw ft lt) (exJs ft lt) := by
  intro n hn
  simp only [exCb, List.mem_cons, List.not_mem_nil, or_false] at hn
  rcases hn with rfl | rfl
  · refine ⟨?_, by simp, ?_⟩
    · rintro s ⟨⟩
      exact ⟨by decide, by unfold Plain; decide, by decide⟩
    · intro e he
      simp only [List.mem_cons, List.not_mem_nil, or_false] at he
      rcases he with rfl | rfl
      · exact ⟨⟨by decide, by unfold Plain; decide, by decide⟩, trivial⟩
      · exact ⟨⟨by decide, by unfold Plain; decide, by decide⟩, exThree ft lt⟩
  · refine ⟨by simp, by simp, ?_⟩
    intro e he
    rw [List.mem_singleton.1 he]
    exact ⟨⟨by decide, by unfold Plain; decide, by decide⟩, trivial⟩

theorem exCb_valid : exCb.Valid (exVw .sparseCBAdf .cb) (exJs .sparseCBAdf .cb) := by
  refine ⟨exShared _ _, ?_, ?_⟩
  · intro a ha
    simp only [exCb, List.mem_cons, List.not_mem_nil, or_false] at ha
    rcases ha with rfl | rfl
    · refine ⟨by simp, fun n hn => ?_⟩
      rw [List.mem_singleton.1 hn]
      refine ⟨?_, by simp, ?_⟩
      · rintro s ⟨⟩
        exact ⟨by decide, by unfold Plain; decide, by decide⟩
      · intro e he
        rw [List.mem_singleton.1 he]
        exact ⟨⟨by decide, by unfold Plain; decide, by decide⟩, by unfold Plain; decide, by decide⟩
    · refine ⟨by simp, fun n hn => ?_⟩
      rw [List.mem_singleton.1 hn]
      refine ⟨?_, by simp, by decide, ?_⟩
      · rintro s ⟨⟩
        exact ⟨by decide, by unfold Plain; decide, by decide⟩
      · intro e he
        simp only [List.mem_cons, List.not_mem_nil, or_false] at he
        rcases he with rfl | rfl
        · exact exThree _ _
        · exact exOne _ _
  · rintro l ⟨⟩
    exact ⟨by decide, rfl, exThree _ _, exOne _ _⟩

example : exCb.vwText = "shared |u young age:3| x\n|a colour:red\n0:3:1 |a :3 :1".toList := by decide

example : ∃ r r' r'', Vw.parseChunk (exVw .sparseCBAdf .cb) ⟨[]⟩ "shared |u young age:3| x\n|a colour:red\n0:3:1 |a :3 :1".toList = .ok r ∧
    Js.parseChunk (exJs .sparseCBAdf .cb) ⟨[]⟩ ['j'] = .ok r' ∧ Ds.parseChunk (exJs .sparseCBAdf .cb) ⟨[]⟩ ['d'] = .ok r'' ∧
    SameParse (ε := Panic) (.ok r) (.ok r') ∧ SameParse (ε := Panic) (.ok r') (.ok r'') ∧ r.1.2 = some (.cb ⟨1, 3, 1⟩) :=
  C91_cb _ _ (exAgree _ _) rfl rfl rfl rfl exCb exCb_valid ⟨[]⟩ ⟨[]⟩ ⟨[]⟩ .empty .empty .empty ['j'] ['d'] rfl rfl

example : ∃ r r', Vw.parseChunk (exVw .sparseSimple .simple) ⟨[]⟩ "3 |u young age:3| x".toList = .ok r ∧
    Js.parseChunk (exJs .sparseSimple .simple) ⟨[]⟩ ['s'] = .ok r' ∧ SameParse (ε := Panic) (.ok r) (.ok r') ∧ r.1.2 = some (.simple ⟨3, 1⟩) :=
  C91_simple _ _ (exAgree _ _) rfl rfl rfl rfl (some ⟨(['3'], 3), none⟩) (by
    rintro x ⟨⟩
    exact ⟨exThree _ _, by simp⟩) exCb.shared (exShared _ _) ⟨[]⟩ ⟨[]⟩ .empty .empty ['s'] rfl

end Formats
end Rml
