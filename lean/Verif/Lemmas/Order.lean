import Verif.Props.ExplorePolicies
import Verif.Props.CbAdf
import Verif.Props.Wrap
import Mathlib.Data.List.Sort

/-! Lemmas for C88: the exploration functions do not see the position of an action. -/

set_option linter.unusedSectionVars false

namespace Rml

section field
variable {K : Type} [Field K] [LinearOrder K] [IsStrictOrderedRing K] [Trans K]
local instance : Flt K := fieldFlt K

theorem sortDesc_congr {l l' : List K} (h : l.Perm l') : sortDesc l = sortDesc l' :=
  (((sortDesc_perm l).trans h).trans (sortDesc_perm l').symm).eq_of_pairwise
    (fun _ _ _ _ h1 h2 => le_antisymm h2 h1) (sortDesc_sorted l) (sortDesc_sorted l')

theorem supportCount_congr {els els' : List (Nat × K)} (h : (els.map (·.2)).Perm (els'.map (·.2))) :
    (els.filter (fun e => Flt.eq e.2 Flt.zero)).length = (els'.filter (fun e => Flt.eq e.2 Flt.zero)).length := by
  have := (h.filter (fun x => Flt.eq x Flt.zero)).length_eq
  simpa [List.filter_map, Function.comp_def] using this

/-- With the same probabilities in another order, the floor is applied in the same way. -/
theorem enforce_congr (eps : K) (cz : Bool) {els els' : List (Nat × K)} (h : (els.map (·.2)).Perm (els'.map (·.2))) {out out' : List (Nat × K)}
    (h1 : enforceMinProb eps cz els = .ok (some out)) (h2 : enforceMinProb eps cz els' = .ok (some out')) :
    ∃ φ : K → K, out = els.map (fun e => (e.1, φ e.2)) ∧ out' = els'.map (fun e => (e.1, φ e.2)) := by
  have hlen : els.length = els'.length := by simpa using h.length_eq
  have hany : (els.map (·.2)).any Flt.isNaN = (els'.map (·.2)).any Flt.isNaN := by
    rw [Bool.eq_iff_iff]
    simp only [List.any_eq_true]
    exact ⟨fun ⟨x, hx, hy⟩ => ⟨x, h.mem_iff.1 hx, hy⟩, fun ⟨x, hx, hy⟩ => ⟨x, h.mem_iff.2 hx, hy⟩⟩
  unfold enforceMinProb at h1 h2
  rw [hlen, sortDesc_congr h, supportCount_congr h] at h1
  have hchk : cmpCheck (els.map (·.2)) = cmpCheck (els'.map (·.2)) := by
    unfold cmpCheck
    simp only [List.length_map, hlen, hany]
  rw [hchk] at h1
  by_cases a1 : els'.length = 0
  · rw [if_pos a1] at h1; simp at h1
  rw [if_neg a1] at h1 h2
  by_cases a2 : Flt.eq eps Flt.zero = true
  · rw [if_pos a2] at h1 h2
    simp only [Except.ok.injEq, Option.some.injEq] at h1 h2
    exact ⟨id, by simp [h1], by simp [h2]⟩
  rw [if_neg a2] at h1 h2
  by_cases a3 : (Flt.lt eps Flt.zero || Flt.lt Flt.one eps) = true
  · rw [if_pos a3] at h1; simp at h1
  rw [if_neg a3] at h1 h2
  generalize (if cz = true then els'.length else els'.length - (els'.filter (fun e => Flt.eq e.2 Flt.zero)).length) = support at h1 h2
  simp only at h1 h2
  by_cases a4 : Flt.lt (Flt.lit 999 1000) eps = true
  · rw [if_pos a4] at h1 h2
    simp only [Except.ok.injEq, Option.some.injEq] at h1 h2
    refine ⟨fun x => if (cz || Flt.lt Flt.zero x) = true then Flt.div Flt.one (Flt.ofNat support) else x, ?_, ?_⟩
    · rw [← h1]; exact List.map_congr_left fun e _ => by by_cases hz : (cz || Flt.lt Flt.zero e.2) = true <;> simp only [hz, if_true, if_false, Bool.false_eq_true]
    · rw [← h2]; exact List.map_congr_left fun e _ => by by_cases hz : (cz || Flt.lt Flt.zero e.2) = true <;> simp only [hz, if_true, if_false, Bool.false_eq_true]
  rw [if_neg a4] at h1 h2
  obtain ⟨u, _, h1⟩ := bind_ok.1 h1
  obtain ⟨u', _, h2⟩ := bind_ok.1 h2
  cases hs : sortDesc (els'.map (·.2)) with
  | nil => rw [hs] at h1; simp at h1
  | cons p0 ps =>
    rw [hs] at h1 h2
    simp only at h1 h2
    obtain ⟨s, g1, h1⟩ := bind_ok.1 h1
    obtain ⟨s', g2, h2⟩ := bind_ok.1 h2
    rw [g1] at g2
    simp only [Except.ok.injEq] at g2
    subst g2
    simp only [Except.ok.injEq, Option.some.injEq] at h1 h2
    generalize Flt.div (Flt.sub (Flt.add (Flt.mul (Flt.sub (Flt.sub (Flt.ofNat support) (Flt.ofNat s.rhoIdx)) Flt.one)
      (Flt.div eps (Flt.ofNat support))) s.rhoSum) Flt.one) (Flt.add (Flt.ofNat s.rhoIdx) Flt.one) = tau at h1 h2
    refine ⟨fun x => if (cz || Flt.lt Flt.zero x) = true then Flt.fmax (Flt.sub x tau) (Flt.div eps (Flt.ofNat support)) else x, ?_, ?_⟩
    · rw [← h1]; exact List.map_congr_left fun e _ => by by_cases hz : (cz || Flt.lt Flt.zero e.2) = true <;> simp only [hz, if_true, if_false, Bool.false_eq_true]
    · rw [← h2]; exact List.map_congr_left fun e _ => by by_cases hz : (cz || Flt.lt Flt.zero e.2) = true <;> simp only [hz, if_true, if_false, Bool.false_eq_true]

theorem enforceUnwrap_congr (eps : K) {els els' : List (Nat × K)} (h : (els.map (·.2)).Perm (els'.map (·.2))) {out out' : List (Nat × K)}
    (h1 : enforceUnwrap eps els = .ok out) (h2 : enforceUnwrap eps els' = .ok out') :
    ∃ φ : K → K, out = els.map (fun e => (e.1, φ e.2)) ∧ out' = els'.map (fun e => (e.1, φ e.2)) := by
  unfold enforceUnwrap at h1 h2
  obtain ⟨o, k1, g1⟩ := bind_ok.1 h1
  obtain ⟨o', k2, g2⟩ := bind_ok.1 h2
  cases o with
  | none => simp [unwrapOpt] at g1
  | some x =>
    cases o' with
    | none => simp [unwrapOpt] at g2
    | some y =>
      simp only [unwrapOpt, Except.ok.injEq] at g1 g2
      subst g1 g2
      exact enforce_congr eps false h k1 k2

/-- The lowest value does not depend on the order. -/
theorem lowest_congr {l l' : List K} (h : l.Perm l') {b b' : Nat} (hb : IsFirstLowest l b) (hb' : IsFirstLowest l' b') : l[b]? = l'[b']? := by
  obtain ⟨v, h1, h2⟩ := hb
  obtain ⟨v', h1', h2'⟩ := hb'
  rw [h1, h1']
  obtain ⟨j, hj⟩ := List.mem_iff_getElem?.1 (h.mem_iff.1 (List.mem_of_getElem? h1))
  obtain ⟨i, hi⟩ := List.mem_iff_getElem?.1 (h.mem_iff.2 (List.mem_of_getElem? h1'))
  exact congrArg some (le_antisymm (h2 i v' hi).1 (h2' j v hj).1)

end field

/-! ### Layers above a reduction -/

section layers
variable {F : Type} [Flt F]

theorem asScores_adapt {p : Prediction F} {sc : List (Nat × F)} : p.asScores = .ok sc ↔ p = .actionScores sc := by
  cases p <;> simp [Prediction.asScores]

/-- A layer that translates the scores of the reduction below into probabilities. -/
theorem layer_predict {dbg : Bool} {m : Meta} {r : Red F} {s : r.State} {ft ft' : Features F} {p : Prediction F}
    {probs : List (Nat × F) → M (List (Nat × F))} {body : Features F → Depth → M (Prediction F × Features F × Depth)}
    (hb : body = fun ft d => adapt (fun q => q.asScores >>= fun sc => probs sc >>= fun o => .ok (.actionProbs o))
      (wrapCall dbg r.meta ft d 0 (r.predictImpl dbg s)))
    (h : (wrapCall dbg m ft 0 0 body >>= fun x => (.ok (x.1, x.2.1) : M (Prediction F × Features F))) = .ok (p, ft')) :
    ∃ sc o, Workspace.predict dbg ⟨r, s⟩ ft = .ok (.actionScores sc, ft') ∧ probs sc = .ok o ∧ p = .actionProbs o := by
  subst hb
  rw [wrapCall_inner] at h
  obtain ⟨⟨q, f1, d1⟩, h1, h2⟩ := bind_ok.1 h
  simp only [Except.ok.injEq, Prod.mk.injEq] at h2
  obtain ⟨rfl, rfl⟩ := h2
  unfold adapt at h1
  obtain ⟨⟨q', f2, d2⟩, h3, h4⟩ := bind_ok.1 h1
  obtain ⟨b, h5, h6⟩ := bind_ok.1 h4
  obtain ⟨sc, h7, h8⟩ := bind_ok.1 h5
  obtain ⟨o, h9, h10⟩ := bind_ok.1 h8
  simp only [Except.ok.injEq, Prod.mk.injEq] at h6 h10
  obtain ⟨rfl, rfl, rfl⟩ := h6
  rw [asScores_adapt] at h7
  subst h7
  refine ⟨sc, o, ?_, h9, h10.symm⟩
  unfold Workspace.predict Red.predict
  simp only
  rw [h3, ok_bind]

theorem greedy_predict {dbg : Bool} {m : Meta} {eps : F} {r : Red F} {s : r.State} {ft ft' : Features F} {p : Prediction F}
    (h : Workspace.predict dbg ⟨.greedy m eps r, s⟩ ft = .ok (p, ft')) :
    ∃ sc o, Workspace.predict dbg ⟨r, s⟩ ft = .ok (.actionScores sc, ft') ∧ greedyProbs eps sc = .ok o ∧ p = .actionProbs o :=
  layer_predict (m := (Red.greedy m eps r).meta) (probs := greedyProbs eps) (by
    funext ft d
    simp only [Red.predictImpl, adapt, bind_assoc, ok_bind]) h

theorem softmax_predict {dbg : Bool} {m : Meta} {eps lm : F} {r : Red F} {s : Nat × r.State} {ft ft' : Features F} {p : Prediction F}
    (h : Workspace.predict dbg ⟨.softmax m eps lm r, s⟩ ft = .ok (p, ft')) :
    ∃ sc o, Workspace.predict dbg ⟨r, s.2⟩ ft = .ok (.actionScores sc, ft') ∧ softmaxProbs lm eps sc = .ok o ∧ p = .actionProbs o :=
  layer_predict (m := (Red.softmax m eps lm r).meta) (probs := softmaxProbs lm eps) (by
    funext ft d
    simp only [Red.predictImpl, adapt, bind_assoc, ok_bind]) h

theorem squareCb_predict {dbg : Bool} {m : Meta} {eps gs ge : F} {r : Red F} {s : Nat × r.State} {ft ft' : Features F} {p : Prediction F}
    (h : Workspace.predict dbg ⟨.squareCb m eps gs ge r, s⟩ ft = .ok (p, ft')) :
    ∃ sc o, Workspace.predict dbg ⟨r, s.2⟩ ft = .ok (.actionScores sc, ft') ∧ squareCbProbs (squareCbGamma gs ge s.1) eps sc = .ok o ∧
      p = .actionProbs o :=
  layer_predict (m := (Red.squareCb m eps gs ge r).meta) (probs := squareCbProbs (squareCbGamma gs ge s.1) eps) (by
    funext ft d
    simp only [Red.predictImpl, adapt, bind_assoc, ok_bind]) h

theorem checkTypes_intro {t b : TypeDesc} (h : t.checkOk b = true) : checkTypes t b = .ok () := by
  unfold checkTypes; rw [if_pos h]

theorem create_of_built {hash : HashFn} {g : GlobalConfig} {nma : Nat} {c : RedConfig F} {x : (r : Red F) × r.State}
    (h : Built hash g nma c x) : create hash g nma c = .ok x := by
  induction h with
  | coin h => unfold create; rw [h]; rfl
  | binary _ h ih => unfold create; rw [ih]; simp only [bind, Except.bind, checkTypes_intro h]
  | cbAdf _ h ih => unfold create; rw [ih]; simp only [bind, Except.bind, checkTypes_intro h]
  | greedy _ h ih => unfold create; rw [ih]; simp only [bind, Except.bind, checkTypes_intro h]
  | softmax _ h ih => unfold create; rw [ih]; simp only [bind, Except.bind, checkTypes_intro h]
  | squareCb hs _ h ih => unfold create; rw [ih, if_pos hs]; simp only [bind, Except.bind, checkTypes_intro h]
  | debug _ h ih => unfold create; rw [ih]; simp only [bind, Except.bind, checkTypes_intro h]
  | elementwise _ h ih => unfold create; rw [ih]; simp only [bind, Except.bind, checkTypes_intro h]

theorem built_from {hash : HashFn} {g : GlobalConfig} {c : RedConfig F} {x : (r : Red F) × r.State} (h : Built hash g 1 c x) {r : Red F}
    (hr : r = x.1) (s : r.State) : Workspace.FromConfig ⟨r, s⟩ :=
  ⟨hash, g, c, ⟨x.1, x.2⟩, by unfold Workspace.new; rw [create_of_built h]; rfl, hr⟩

theorem base_greedy {m : Meta} {eps : F} {r : Red F} {s : r.State} (h : Workspace.FromConfig ⟨.greedy m eps r, s⟩) (s' : r.State) :
    Workspace.FromConfig ⟨r, s'⟩ := by
  obtain ⟨hash, g, c, ⟨w, st⟩, h1, h2⟩ := h
  have hb := built_of_new h1
  simp only at h2
  subst h2
  cases hb with
  | greedy hb _ => exact built_from hb rfl s'

theorem base_softmax {m : Meta} {eps lm : F} {r : Red F} {s : Nat × r.State} (h : Workspace.FromConfig ⟨.softmax m eps lm r, s⟩) (s' : r.State) :
    Workspace.FromConfig ⟨r, s'⟩ := by
  obtain ⟨hash, g, c, ⟨w, st⟩, h1, h2⟩ := h
  have hb := built_of_new h1
  simp only at h2
  subst h2
  cases hb with
  | softmax hb _ => exact built_from hb rfl s'

theorem base_squareCb {m : Meta} {eps gs ge : F} {r : Red F} {s : Nat × r.State} (h : Workspace.FromConfig ⟨.squareCb m eps gs ge r, s⟩)
    (s' : r.State) : Workspace.FromConfig ⟨r, s'⟩ := by
  obtain ⟨hash, g, c, ⟨w, st⟩, h1, h2⟩ := h
  have hb := built_of_new h1
  simp only at h2
  subst h2
  cases hb with
  | squareCb _ hb _ => exact built_from hb rfl s'

/-- A layer that hands the example down when learning. -/
theorem layer_learn {dbg : Bool} {m : Meta} {r : Red F} {s : r.State} {ft ft' : Features F} {l : Label F} {S : Type} {up : r.State → S} {s' : S}
    {body : Features F → Depth → M (S × Features F × Depth)} {d' : Depth}
    (hb : body = fun ft d => adapt (fun q => .ok (up q)) (wrapCall dbg r.meta ft d 0 (fun ft d => r.learnImpl dbg s ft l d)))
    (h : wrapCall dbg m ft 0 0 body = .ok (s', ft', d')) : ∃ s1, Workspace.learn dbg ⟨r, s⟩ ft l = .ok (⟨r, s1⟩, ft') ∧ s' = up s1 := by
  subst hb
  rw [wrapCall_inner] at h
  unfold adapt at h
  obtain ⟨⟨q, f2, d2⟩, h3, h4⟩ := bind_ok.1 h
  obtain ⟨b, h5, h6⟩ := bind_ok.1 h4
  simp only [Except.ok.injEq, Prod.mk.injEq] at h5 h6
  obtain ⟨rfl, rfl, rfl⟩ := h6
  refine ⟨q, ?_, h5.symm⟩
  unfold Workspace.learn Red.learn
  simp only
  rw [h3, ok_bind]

theorem greedy_learn {dbg : Bool} {m : Meta} {eps : F} {r : Red F} {s : r.State} {ft ft' : Features F} {l : Label F} {w' : Workspace F}
    (h : Workspace.learn dbg ⟨.greedy m eps r, s⟩ ft l = .ok (w', ft')) :
    ∃ s1, Workspace.learn dbg ⟨r, s⟩ ft l = .ok (⟨r, s1⟩, ft') ∧ w' = ⟨.greedy m eps r, s1⟩ := by
  unfold Workspace.learn Red.learn at h
  obtain ⟨⟨s', f1, d1⟩, h1, h2⟩ := bind_ok.1 h
  simp only [Except.ok.injEq, Prod.mk.injEq] at h2
  obtain ⟨rfl, rfl⟩ := h2
  obtain ⟨s1, h3, h4⟩ := layer_learn (r := r) (s := s) (l := l) (up := fun q : r.State => q) (by
    funext ft d
    simp only [Red.learnImpl, adapt_ok]) h1
  exact ⟨s1, h3, by rw [h4]⟩

theorem softmax_learn {dbg : Bool} {m : Meta} {eps lm : F} {r : Red F} {s : Nat × r.State} {ft ft' : Features F} {l : Label F} {w' : Workspace F}
    (h : Workspace.learn dbg ⟨.softmax m eps lm r, s⟩ ft l = .ok (w', ft')) :
    ∃ s1, Workspace.learn dbg ⟨r, s.2⟩ ft l = .ok (⟨r, s1⟩, ft') ∧ w' = ⟨.softmax m eps lm r, (s.1, s1)⟩ := by
  unfold Workspace.learn Red.learn at h
  obtain ⟨⟨s', f1, d1⟩, h1, h2⟩ := bind_ok.1 h
  simp only [Except.ok.injEq, Prod.mk.injEq] at h2
  obtain ⟨rfl, rfl⟩ := h2
  obtain ⟨s1, h3, rfl⟩ := layer_learn (r := r) (s := s.2) (l := l) (up := fun q => (s.1, q)) (by
    funext ft d
    simp only [Red.learnImpl, adapt, ok_bind]) h1
  exact ⟨s1, h3, rfl⟩

theorem squareCb_learn {dbg : Bool} {m : Meta} {eps gs ge : F} {r : Red F} {s : Nat × r.State} {ft ft' : Features F} {l : CBLabel F}
    {w' : Workspace F} (h : Workspace.learn dbg ⟨.squareCb m eps gs ge r, s⟩ ft (.cb l) = .ok (w', ft')) :
    ∃ s1, Workspace.learn dbg ⟨r, s.2⟩ ft (.cb { l with probability := Flt.one }) = .ok (⟨r, s1⟩, ft') ∧
      w' = ⟨.squareCb m eps gs ge r, (s.1 + 1, s1)⟩ := by
  unfold Workspace.learn Red.learn at h
  obtain ⟨⟨s', f1, d1⟩, h1, h2⟩ := bind_ok.1 h
  simp only [Except.ok.injEq, Prod.mk.injEq] at h2
  obtain ⟨rfl, rfl⟩ := h2
  obtain ⟨s1, h3, rfl⟩ := layer_learn (r := r) (s := s.2) (l := .cb { l with probability := Flt.one }) (up := fun q => (s.1 + 1, q)) (by
    funext ft d
    simp only [Red.learnImpl, Label.asCb, adapt, ok_bind]) h1
  exact ⟨s1, h3, rfl⟩

end layers

end Rml
