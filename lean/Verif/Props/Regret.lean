import Verif.Props.Declines

/-!
C93: the guarantee that SquareCB is used for. Whatever the true costs of the actions are, the expected cost of the chosen action exceeds the cost of any
fixed action by at most `2 * (n - 1) / gamma` plus `gamma / 4` times the expected squared error of the scores.
-/

set_option linter.unusedSectionVars false

namespace Rml
open scoped BigOperators

noncomputable local instance fltRealRegret : Flt ℝ := fieldFlt ℝ

/-- The inequality for any distribution that gives every action but one its SquareCB weight. -/
theorem square_regret {n : Nat} (gamma : ℝ) (hg : 0 < gamma) (p s c : Fin n → ℝ) (b : Fin n) (hpos : ∀ i, 0 < p i) (hsum : ∑ i, p i = 1)
    (hb : ∀ i, s b ≤ s i) (hw : ∀ i, i ≠ b → p i = 1 / ((n : ℝ) + gamma * (s i - s b))) (hpb : 1 / (n : ℝ) ≤ p b) (a : Fin n) :
    ∑ i, p i * c i - c a ≤ 2 * ((n : ℝ) - 1) / gamma + gamma / 4 * ∑ i, p i * (s i - c i) ^ 2 := by
  have hn : (0 : ℝ) < n := by
    have : 0 < n := a.pos
    exact_mod_cast this
  -- the part from errors of the scores
  have h1 : ∑ i, p i * (c i - s i) + (s a - c a) ≤ 1 / (gamma * p a) - 1 / gamma + gamma / 4 * ∑ i, p i * (s i - c i) ^ 2 := by
    have hsplit : ∀ f : Fin n → ℝ, ∑ i, f i = f a + ∑ i ∈ Finset.univ.erase a, f i := fun f => (Finset.add_sum_erase _ f (Finset.mem_univ a)).symm
    have hrest : ∑ i ∈ Finset.univ.erase a, (p i * (c i - s i) - gamma / 4 * (p i * (s i - c i) ^ 2)) ≤ ∑ i ∈ Finset.univ.erase a, p i * (1 / gamma) := by
      apply Finset.sum_le_sum
      intro i _
      have hsq : 0 ≤ (gamma * (s i - c i) / 2 + 1) ^ 2 / gamma := div_nonneg (sq_nonneg _) hg.le
      have he : (gamma * (s i - c i) / 2 + 1) ^ 2 / gamma = gamma / 4 * (s i - c i) ^ 2 + (s i - c i) + 1 / gamma := by
        field_simp
        ring
      rw [he] at hsq
      have := mul_le_mul_of_nonneg_left (show (c i - s i) - gamma / 4 * (s i - c i) ^ 2 ≤ 1 / gamma by linarith) (hpos i).le
      linarith [this]
    have hpa : ∑ i ∈ Finset.univ.erase a, p i = 1 - p a := by
      have := hsplit p
      rw [hsum] at this
      linarith
    rw [← Finset.sum_mul, hpa, Finset.sum_sub_distrib, ← Finset.mul_sum] at hrest
    have hself : (1 - p a) * (s a - c a) - gamma / 4 * (p a * (s a - c a) ^ 2) ≤ (1 - p a) ^ 2 / (gamma * p a) := by
      have hsq : 0 ≤ (gamma * p a * (s a - c a) / 2 - (1 - p a)) ^ 2 / (gamma * p a) := div_nonneg (sq_nonneg _) (mul_pos hg (hpos a)).le
      have hp := (hpos a).ne'
      have he : (gamma * p a * (s a - c a) / 2 - (1 - p a)) ^ 2 / (gamma * p a) =
          gamma / 4 * (p a * (s a - c a) ^ 2) - (1 - p a) * (s a - c a) + (1 - p a) ^ 2 / (gamma * p a) := by
        field_simp
        ring
      rw [he] at hsq
      linarith
    have hval : (1 - p a) * (1 / gamma) + (1 - p a) ^ 2 / (gamma * p a) = 1 / (gamma * p a) - 1 / gamma := by
      have hp := (hpos a).ne'
      field_simp
      ring
    rw [hsplit (fun i => p i * (c i - s i)), hsplit (fun i => p i * (s i - c i) ^ 2)]
    rw [mul_add]
    linarith
  -- the cost of exploring, by the scores
  have h2 : ∑ i, p i * (s i - s b) ≤ ((n : ℝ) - 1) / gamma := by
    have : ∑ i, p i * (s i - s b) ≤ ∑ i, (if i = b then 0 else 1 / gamma) := by
      apply Finset.sum_le_sum
      intro i _
      split
      · rename_i h
        subst h
        simp
      · rename_i h
        rw [hw i h, one_div_mul_eq_div]
        have hd : 0 ≤ gamma * (s i - s b) := mul_nonneg hg.le (sub_nonneg.2 (hb i))
        rw [div_le_div_iff₀ (by linarith) hg]
        nlinarith
    refine this.trans (le_of_eq ?_)
    rw [Finset.sum_ite]
    simp only [Finset.sum_const_zero, zero_add, Finset.sum_const, nsmul_eq_mul]
    rw [Finset.filter_ne' Finset.univ b, Finset.card_erase_of_mem (Finset.mem_univ b), Finset.card_univ, Fintype.card_fin, Nat.cast_pred a.pos]
    ring
  -- the probability of the action compared with
  have h3 : 1 / (gamma * p a) + (s b - s a) ≤ (n : ℝ) / gamma := by
    by_cases h : a = b
    · subst h
      rw [sub_self, add_zero, div_le_div_iff₀ (mul_pos hg (hpos a)) hg]
      have := (div_le_iff₀ hn).1 hpb
      nlinarith
    · rw [hw a h]
      have hd : 0 ≤ gamma * (s a - s b) := mul_nonneg hg.le (sub_nonneg.2 (hb a))
      have hne : (n : ℝ) + gamma * (s a - s b) ≠ 0 := by linarith
      apply le_of_eq
      field_simp
      ring
  have h4 : ∑ i, p i * c i - c a = (∑ i, p i * (c i - s i) + (s a - c a)) + ∑ i, p i * (s i - s b) + (s b - s a) := by
    have e1 : ∑ i, p i * (c i - s i) = ∑ i, p i * c i - ∑ i, p i * s i := by
      rw [← Finset.sum_sub_distrib]
      exact Finset.sum_congr rfl fun i _ => mul_sub _ _ _
    have e2 : ∑ i, p i * (s i - s b) = ∑ i, p i * s i - s b := by
      have : ∑ i, p i * s b = s b := by rw [← Finset.sum_mul, hsum, one_mul]
      conv_rhs => rw [← this]
      rw [← Finset.sum_sub_distrib]
      exact Finset.sum_congr rfl fun i _ => mul_sub _ _ _
    rw [e1, e2]
    ring
  rw [h4]
  have h5 : 2 * ((n : ℝ) - 1) / gamma = (n : ℝ) / gamma - 1 / gamma + ((n : ℝ) - 1) / gamma := by ring
  rw [h5]
  linarith

theorem sum_zip {α β : Type} (f : α × β → ℝ) : ∀ (l : List α) (l' : List β) (h : l'.length = l.length),
    ((l.zip l').map f).sum = ∑ i : Fin l.length, f (l[i], l'[i.val]'(by omega)) := by
  intro l
  induction l with
  | nil => intro l' _; simp
  | cons a l ih =>
    intro l' h
    cases l' with
    | nil => simp at h
    | cons a' l' =>
      rw [List.zip_cons_cons, List.map_cons, List.sum_cons, ih l' (by simpa using h)]
      exact (Fin.sum_univ_succ (fun i : Fin (l.length + 1) => f ((a :: l)[i.val]'(i.2), (a' :: l')[i.val]'(by rw [h]; exact i.2)))).symm

/-- What an action distribution costs on average, when action `a` costs `c a`. -/
def expectedCost (out : List (Nat × ℝ)) (c : Nat → ℝ) : ℝ := (out.map fun e => e.2 * c e.1).sum

/-- How wrong scores are on average, for actions drawn from a distribution. -/
def expectedError (out scores : List (Nat × ℝ)) (c : Nat → ℝ) : ℝ := ((out.zip scores).map fun e => e.1.2 * (e.2.2 - c e.1.1) ^ 2).sum

/-- C93: SquareCB without a uniform floor. Whatever the costs `c` of the actions are and whichever action `a` is compared with. -/
theorem C93_squarecb (gamma : ℝ) (hg : 0 < gamma) (scores : List (Nat × ℝ)) (hne : scores ≠ []) (hnd : (scores.map (·.1)).Nodup) :
    ∃ out, squareCbProbs gamma 0 scores = .ok out ∧ ∀ (c : Nat → ℝ), ∀ a ∈ scores.map (·.1),
      expectedCost out c - c a ≤ 2 * ((scores.length : ℝ) - 1) / gamma + gamma / 4 * expectedError out scores c := by
  obtain ⟨b, v, ps, hf, hv, heq, hids, hd, hpos, hw, _, hbest⟩ := squareCb_eq gamma 0 hg.le scores hne hnd
  have hout : squareCbProbs gamma 0 scores = .ok ps := by
    rw [heq]
    have _ : LawfulCmp ℝ := lawfulCmp_field ℝ
    refine enforce_zero (by simp) ?_
    rintro rfl
    simp only [List.map_nil] at hids
    exact hne (by simpa using hids.symm)
  have hlen : ps.length = scores.length := by simpa using congrArg List.length hids
  refine ⟨ps, hout, fun c a ha => ?_⟩
  unfold squareWeight at hw
  have hc : (scores.length : ℝ) = (ps.length : ℝ) := by rw [hlen]
  simp only [hc] at hw hbest ⊢
  obtain ⟨v0, hv0, hmin⟩ := hf
  rw [hv] at hv0
  simp only [Option.some.injEq] at hv0
  subst hv0
  have hblt : b < scores.length := by
    by_contra h
    rw [List.getElem?_eq_none (by simpa using h)] at hv
    simp at hv
  have hvb : scores[b].2 = v := by
    rw [List.getElem?_map, List.getElem?_eq_getElem hblt] at hv
    simpa using hv
  rw [← hids] at ha
  obtain ⟨k, hk, hka⟩ := List.mem_iff_getElem.1 ha
  rw [List.length_map] at hk
  rw [List.getElem_map] at hka
  have key := square_regret (n := ps.length) gamma hg (fun i => ps[i].2) (fun i => (scores[i.val]'(hlen ▸ i.2)).2) (fun i => c ps[i].1) ⟨b, by omega⟩
    (fun i => hpos _ (List.getElem_mem _)) (by rw [← sum_fin (fun e : Nat × ℝ => e.2)]; exact hd.2)
    (fun i => by
      simp only [hvb]
      exact (hmin i _ (by rw [List.getElem?_map, List.getElem?_eq_getElem (hlen ▸ i.2)]; rfl)).1)
    (fun i hi => by
      simp only [hvb]
      exact hw i _ _ (List.getElem?_eq_getElem (hlen ▸ i.2)) (List.getElem?_eq_getElem i.2) (fun h => hi (Fin.ext h)))
    (hbest _ (List.getElem?_eq_getElem (by omega)))
    ⟨k, by omega⟩
  unfold expectedCost expectedError
  rw [sum_fin, sum_zip _ _ _ hlen.symm]
  simp only [Fin.getElem_fin, hka] at key ⊢
  exact key

/-- The floor is the last step. -/
theorem squareCb_eps (gamma eps : ℝ) (scores : List (Nat × ℝ)) : squareCbProbs gamma eps scores = (squareCbProbs gamma 0 scores >>= enforceUnwrap eps) := by
  have _ : LawfulCmp ℝ := lawfulCmp_field ℝ
  unfold squareCbProbs
  cases h1 : cmpCheck (scores.map (·.2)) with
  | error e => rfl
  | ok u =>
    cases h2 : unwrapOpt (argMin (scores.map (·.2))) with
    | error e => rfl
    | ok best =>
      simp only [ok_bind]
      split
      · rfl
      · rename_i be hbe
        split
        · rfl
        · rename_i e he
          rw [enforce_zero (e := (0 : ℝ)) (by simp), ok_bind]
          intro h
          rw [List.set_eq_nil_iff] at h
          rw [h] at he
          simp at he

/-- C93: a uniform floor costs at most epsilon more, if costs are between 0 and 1. -/
theorem C93_floor (gamma eps : ℝ) (hg : 0 ≤ gamma) (h0 : 0 ≤ eps) (h1 : eps ≤ 999 / 1000) (scores : List (Nat × ℝ)) (hne : scores ≠ [])
    (hnd : (scores.map (·.1)).Nodup) :
    ∃ out out0, squareCbProbs gamma eps scores = .ok out ∧ squareCbProbs gamma 0 scores = .ok out0 ∧
      ∀ c : Nat → ℝ, (∀ a, 0 ≤ c a ∧ c a ≤ 1) → expectedCost out c ≤ expectedCost out0 c + eps := by
  obtain ⟨b, v, ps, _, _, heq, hids, hd, hpos, _, _, _⟩ := squareCb_eq gamma 0 hg scores hne hnd
  have hpne : ps ≠ [] := by
    rintro rfl
    simp only [List.map_nil] at hids
    exact hne (by simpa using hids.symm)
  have _ : LawfulCmp ℝ := lawfulCmp_field ℝ
  rw [enforce_zero (by simp) hpne] at heq
  have heps := squareCb_eps gamma eps scores
  rw [heq, ok_bind] at heps
  obtain ⟨t, ht, hwater, _⟩ := enforce_water eps h0 (by linarith) ps hd hpos
  refine ⟨_, ps, by rw [heps, hwater], heq, fun c hc => ?_⟩
  have hm : floorOf eps ps.length = eps / ps.length := by rw [floorOf, if_pos h1]
  have hn : (0 : ℝ) < (ps.length : ℝ) := by
    have := List.length_pos_iff.2 hpne
    exact_mod_cast this
  have hm0 : 0 ≤ floorOf eps ps.length := by rw [hm]; exact div_nonneg h0 hn.le
  have gen : ∀ (m : ℝ) (l : List (Nat × ℝ)), 0 ≤ m → (∀ e ∈ l, 0 < e.2) →
      expectedCost (l.map fun e => (e.1, max (e.2 - t) m)) c ≤ expectedCost l c + l.length * m := by
    intro m l hm hl
    unfold expectedCost
    induction l with
    | nil => simp
    | cons a l ih =>
      have hi := ih fun e he => hl e (List.mem_cons_of_mem _ he)
      have ha := hl a (by simp)
      have h2 := hc a.1
      simp only [List.map_cons, List.sum_cons, List.length_cons, Nat.cast_add, Nat.cast_one]
      have h3 : max (a.2 - t) m ≤ a.2 + m := max_le (by linarith) (by linarith)
      have h4 := mul_le_mul_of_nonneg_right h3 h2.1
      have h5 : m * c a.1 ≤ m := mul_le_of_le_one_right hm h2.2
      linarith
  have := gen _ ps hm0 hpos
  rw [hm, mul_div_cancel₀ _ hn.ne'] at this
  rw [hm]
  exact this

/-- C93 for the reduction as it is used: a SquareCB workspace without uniform floor, after any history with at least one update. The scores are those of
the stack below in its current state, and gamma is the scheduled one. -/
theorem C93_guarantee (dbg : Bool) (hash : HashFn) (g : GlobalConfig) (gs ge : ℝ) (hgs : 0 < gs) (rc : RedConfig ℝ) (w : Workspace ℝ)
    (hw : Workspace.new hash g (.squareCb 0 gs ge rc) = .ok w) (ex : Nat → Features ℝ) (calls : List (Call ℝ)) (S : Session ℝ)
    (outs : List (Call ℝ × Option (Prediction ℝ))) (hrun : Session.run dbg ⟨w, ex⟩ calls = .ok (S, outs)) (hcalls : 0 < calls.countP Call.isUpdate)
    (ft ft' : Features ℝ) (p : Prediction ℝ) (hp : S.w.predict dbg ft = .ok (p, ft')) :
    ∃ (m : Meta) (n : Nat) (base : Workspace ℝ) (scores probs : List (Nat × ℝ)) (ft1 : Features ℝ),
      S.w = ⟨.squareCb m 0 gs ge base.red, (n, base.st)⟩ ∧ base.predict dbg ft = .ok (.actionScores scores, ft1) ∧ p = .actionProbs probs ∧
      ∀ (c : Nat → ℝ) (a : Nat), a < scores.length →
        expectedCost probs c - c a ≤ 2 * ((scores.length : ℝ) - 1) / (gs * (calls.countP Call.isUpdate : ℝ) ^ ge) +
          gs * (calls.countP Call.isUpdate : ℝ) ^ ge / 4 * expectedError probs scores c := by
  obtain ⟨m, n, base, scores, probs, ft1, h1, h2, h3, h4⟩ := C23_schedule dbg hash g 0 gs ge rc w hw ex calls S outs hrun ft ft' p hp
  refine ⟨m, n, base, scores, probs, ft1, h1, h2, h4, fun c a ha => ?_⟩
  have hids : scores.map (·.1) = List.range scores.length := by
    unfold Workspace.predict Red.predict at h2
    obtain ⟨⟨p1, f1, d1⟩, k1, k2⟩ := bind_ok.1 h2
    simp only [Except.ok.injEq, Prod.mk.injEq] at k2
    obtain ⟨rfl, rfl⟩ := k2
    obtain ⟨_, _, _, h', _, _⟩ := wrapCall_ok k1
    exact predictImpl_scores_ids dbg base.red _ _ _ _ _ _ h'
  have hgam : 0 < gs * (calls.countP Call.isUpdate : ℝ) ^ ge := mul_pos hgs (Real.rpow_pos_of_pos (by exact_mod_cast hcalls) _)
  obtain ⟨out, k1, k2⟩ := C93_squarecb _ hgam scores (by rintro rfl; simp at ha) (by rw [hids]; exact List.nodup_range)
  have : out = probs := by
    have h3' : squareCbProbs (gs * (calls.countP Call.isUpdate : ℝ) ^ ge) 0 scores = .ok probs := h3
    rw [k1] at h3'
    simpa using h3'
  subst this
  exact k2 c a (by rw [hids]; exact List.mem_range.2 ha)

section Examples

/-- Three actions with scores 3, 1 and 2, costs 1, 0 and 1/2, and the action with cost 0: the hypotheses of C93_squarecb and C93_floor are met. -/
example : (0 : ℝ) < 10 ∧ exDecline ≠ [] ∧ (exDecline.map (·.1)).Nodup ∧ 1 ∈ exDecline.map (·.1) ∧
    ∀ a : Nat, (0 : ℝ) ≤ (if a = 0 then 1 else if a = 1 then 0 else 1 / 2) ∧ (if a = 0 then 1 else if a = 1 then 0 else 1 / 2 : ℝ) ≤ 1 := by
  refine ⟨by norm_num, by simp [exDecline], by simp [exDecline], by simp [exDecline], fun a => ?_⟩
  split
  · norm_num
  · split <;> norm_num

/-- SquareCB without a floor, over CbAdf (mtr) over Coin. -/
noncomputable def realSquare0 : RedConfig ℝ := .squareCb 0 10 (1 / 2) (.cbAdf .mtr (.coin CoinConfig.dflt))

/-- A history that C93_guarantee speaks about: a new model learns once and predicts. -/
example : ∃ (w : Workspace ℝ) (S : Session ℝ) (outs : List (Call ℝ × Option (Prediction ℝ))) (p : Prediction ℝ) (ft1 : Features ℝ),
    Workspace.new tinyHash tinyGlobal realSquare0 = .ok w ∧
    Session.run false ⟨w, fun _ => realCb⟩ [.learn 0 (.cb ⟨1, 3, 1 / 2⟩)] = .ok (S, outs) ∧ S.w.predict false (S.ex 0) = .ok (p, ft1) := by
  obtain ⟨w, hw⟩ : ∃ w, Workspace.new tinyHash tinyGlobal realSquare0 = .ok w := ⟨_, rfl⟩
  have hall : ∀ f ∈ realCb.objects, ∀ iv ∈ f.allFeatures, iv.1.toNat < 2 ^ 2 := by
    intro f hf iv hiv
    simp only [realCb, Features.objects, Option.toList, List.cons_append, List.nil_append, List.mem_cons, List.not_mem_nil, or_false] at hf
    rcases hf with rfl | rfl | rfl <;> rw [realFeat_all] at hiv <;> simp only [List.mem_singleton] at hiv <;> subst hiv <;> decide
  have hex : SafeExample false 2 ⟨.cb, .sparseCBAdf, .actionProbs⟩ realCb := ⟨realCb_formed, fun h => (Bool.noConfusion h), rfl, hall, fun h => (Bool.noConfusion h)⟩
  obtain ⟨r, hr⟩ := C79_exact false tinyHash tinyGlobal realSquare0 w hw ⟨.cb, .sparseCBAdf, .actionProbs⟩ rfl trivial
    ⟨by norm_num, by norm_num, by norm_num, trivial⟩ (fun _ => realCb) [.learn 0 (.cb ⟨1, 3, 1 / 2⟩), .predict 0] (by
      intro call hcall
      simp only [List.mem_cons, List.not_mem_nil, or_false] at hcall
      rcases hcall with rfl | rfl
      · refine ⟨hex, rfl, fun h => (Bool.noConfusion h), ?_⟩
        rintro _ f cl h1 h2
        simp only [Label.cb.injEq] at h2
        simp only [realCb, Features.cbAdf.injEq] at h1
        subst h1 h2
        exact ⟨rfl, by decide⟩
      · exact ⟨hex, fun _ => by simp [realCb, Features.actionList]⟩)
  unfold Session.run at hr
  obtain ⟨⟨S1, o⟩, h1, hr⟩ := bind_ok.1 hr
  obtain ⟨⟨S2, os⟩, h2, _⟩ := bind_ok.1 hr
  unfold Session.run at h2
  obtain ⟨⟨S3, o3⟩, h3, _⟩ := bind_ok.1 h2
  simp only [Session.step] at h3
  obtain ⟨⟨p, ft1⟩, h4, _⟩ := bind_ok.1 h3
  refine ⟨w, S1, [(Call.learn 0 (.cb ⟨1, 3, 1 / 2⟩), o)], p, ft1, hw, ?_, h4⟩
  unfold Session.run
  rw [h1, ok_bind]
  rfl

end Examples

end Rml
