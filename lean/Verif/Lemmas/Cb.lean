import Verif.Lemmas.Create

/-! Helper lemmas: what CbAdf asks of its base. -/

set_option linter.unusedSectionVars false

namespace Rml
open SparseFeatures
variable {F : Type}

variable [Flt F]

theorem zip_inj {α β : Type} {a a' : List α} {b b' : List β} (h : a.length = b.length) (h' : a'.length = b'.length)
    (hz : a.zip b = a'.zip b') : a = a' ∧ b = b' := by
  have h1 := congrArg (List.map Prod.fst) hz
  have h2 := congrArg (List.map Prod.snd) hz
  rw [List.map_fst_zip (by omega), List.map_fst_zip (by omega)] at h1
  rw [List.map_snd_zip (by omega), List.map_snd_zip (by omega)] at h2
  exact ⟨h1, h2⟩

theorem eqv_of_report {f g : SparseFeatures F} (hf : f.WF) (hg : g.WF) (h : ∀ ns, f.report ns = g.report ns) : Eqv f g := by
  refine ⟨hf.toInv0, hg.toInv0, fun ns => ?_⟩
  have h := h ns
  rw [report_eq_absV, report_eq_absV] at h
  unfold absV at h
  have e1 := hf.inactive_empty ns
  have e2 := hg.inactive_empty ns
  have l1 := vw_lens hf.toInv0 ns
  have l2 := vw_lens hg.toInv0 ns
  revert h e1 e2 l1 l2
  generalize f.vw ns = v
  generalize g.vw ns = w
  intro h e1 e2 l1 l2
  obtain ⟨i, x, b⟩ := v
  obtain ⟨j, y, c⟩ := w
  cases b <;> cases c <;> simp at h e1 e2 l1 l2 ⊢
  · subst e1 e2
    simp at l1 l2
    exact ⟨rfl, by rw [List.length_eq_zero_iff.1 l1.symm, List.length_eq_zero_iff.1 l2.symm]⟩
  · exact zip_inj l1 l2 h

theorem SparseFeatures.MergeOf.eqv {m m' a : SparseFeatures F} {s : Option (SparseFeatures F)} (h : m.MergeOf a s) (h' : m'.MergeOf a s) : Eqv m m' :=
  eqv_of_report h.wf h'.wf (fun ns => by rw [h.report, h'.report])

theorem append_merge {a s : SparseFeatures F} (ha : a.WF) (hs : s.WF) : ∃ m, a.append s = .ok m ∧ m.MergeOf a (some s) := by
  obtain ⟨m, h1, h2, h3⟩ := FOp.step ha (.append s) hs
  refine ⟨m, h1, h2, fun ns => ?_⟩
  rw [h3]
  simp only [Option.bind_some]
  cases s.report ns <;> cases a.report ns <;> rfl

theorem appendShared_merge {a : SparseFeatures F} {shared : Option (SparseFeatures F)} (ha : a.WF) (hs : ∀ s, shared = some s → s.WF) :
    ∃ m, appendShared shared a = .ok m ∧ m.MergeOf a shared := by
  cases shared with
  | none =>
    refine ⟨a, rfl, ha, fun ns => ?_⟩
    cases a.report ns <;> rfl
  | some s => exact append_merge ha (hs s rfl)

/-- Merging depends only on what is observable. -/
theorem SparseFeatures.MergeOf.congr {m a a' : SparseFeatures F} {s s' : Option (SparseFeatures F)} (h : m.MergeOf a s) (ha : a.SameAs a')
    (hs : SharedSame s s') : m.MergeOf a' s' := by
  have key : ∀ {x y : SparseFeatures F}, x.SameAs y → x.report = y.report := by
    intro x y h
    funext ns
    have := h.1 ns
    unfold SparseFeatures.report
    cases hx : x.getNamespace ns <;> cases hy : y.getNamespace ns <;> simp [hx, hy, NsFeats.iter] at this ⊢
    rw [this.1, this.2]
  refine ⟨h.wf, fun ns => ?_⟩
  rw [h.report ns, key ha]
  cases s <;> cases s' <;> simp_all [SharedSame]
  rw [key hs]

theorem increment_zero {dbg : Bool} {n d1 : Nat} (h : Depth.increment dbg 0 n 0 = .ok d1) : d1 = 0 := by
  obtain ⟨p, hp, rfl⟩ := increment_ok h
  unfold u8Mul at hp
  split at hp <;> simp at hp
  subst hp
  rfl

theorem cbPredictLoop_scores {childP : Features F → Depth → M (Prediction F × Features F × Depth)} (h : Nice childP)
    {shared : Option (SparseFeatures F)} (hs : ∀ s, shared = some s → s.Clean) (as : List (SparseFeatures F)) : ∀ (i : Nat) (d : Depth)
    {r : List (Nat × F) × List (SparseFeatures F) × Depth}, d < 256 → (∀ a ∈ as, a.Clean) → cbPredictLoop childP shared i as d = .ok r →
    ∀ k a, as[k]? = some a → ∃ a1 pr raw ft', appendShared shared a = .ok a1 ∧ childP (.simple a1) d = .ok (.scalar pr raw, ft', d) ∧
      r.1[k]? = some (i + k, raw) := by
  induction as with
  | nil => intro i d r _ _ _ k a hk; simp at hk
  | cons a as ih =>
    intro i d r hd hc hr k b hk
    unfold cbPredictLoop at hr
    obtain ⟨a1, h1, hr⟩ := bind_ok.1 hr
    obtain ⟨⟨p, ft, d1⟩, h2, hr⟩ := bind_ok.1 hr
    obtain ⟨⟨p0, raw⟩, h3, hr⟩ := bind_ok.1 hr
    obtain ⟨a2, h4, hr⟩ := bind_ok.1 hr
    obtain ⟨a3, h5, hr⟩ := bind_ok.1 hr
    obtain ⟨⟨ps, as', d2⟩, h6, hr⟩ := bind_ok.1 hr
    simp only [Except.ok.injEq] at hr
    subst hr
    obtain ⟨a1', g1, g2, g3, _⟩ := shared_step hs (hc a (by simp))
    rw [h1] at g1
    simp only [Except.ok.injEq] at g1
    subst g1
    have hd1 := (h.restore g2 g3 hd h2).1
    subst hd1
    have := asScalar_ok h3
    simp only at this
    subst this
    cases k with
    | zero =>
      simp at hk
      subst hk
      exact ⟨a1, p0, raw, ft, h1, h2, rfl⟩
    | succ k =>
      simp only [List.getElem?_cons_succ] at hk
      obtain ⟨a1', pr, raw', ft', e1, e2, e3⟩ := ih (i + 1) d1 hd (fun x hx => hc x (by simp [hx])) h6 k b hk
      refine ⟨a1', pr, raw', ft', e1, e2, ?_⟩
      simp only [List.getElem?_cons_succ]
      rw [e3]
      congr 2
      omega

theorem learn_congr {dbg : Bool} {w w' : Workspace F} (hp : w.red.PairsOk) {f g : SparseFeatures F} {l : Label F} {ft' : Features F}
    (hf : OkEx (.simple f)) (he : Eqv f g) (h : w.learn dbg (.simple f) l = .ok (w', ft')) :
    ∃ gt', w.learn dbg (.simple g) l = .ok (w', gt') := by
  obtain ⟨_, _, gt', h1, _⟩ := ws_learn hp hf (FtEqv.simple he) h
  exact ⟨gt', h1⟩

theorem ipsLabel_eq {dbg : Bool} {l : CBLabel F} {i : Nat} {x : SimpleLabel F} (h : ipsLabel dbg l i = .ok x) :
    x = ⟨if i = l.action then Flt.div l.cost l.probability else Flt.zero, Flt.one⟩ := by
  unfold ipsLabel at h
  split at h
  · obtain ⟨_, _, h⟩ := bind_ok.1 h
    simp only [Except.ok.injEq] at h
    subst h
    simp [SimpleLabel.ofF, *]
  · simp only [Except.ok.injEq] at h
    subst h
    simp [SimpleLabel.ofF, *]

theorem cbIpsLoop_trains {dbg : Bool} {r : Red F} (hp : r.PairsOk) {shared : Option (SparseFeatures F)} {label : CBLabel F}
    (hs : ∀ s, shared = some s → s.Clean ∧ s.WF) (as : List (SparseFeatures F)) : ∀ (i : Nat) (s : r.State)
    {res : r.State × List (SparseFeatures F) × Depth}, (∀ a ∈ as, a.Clean ∧ a.WF) →
    cbIpsLoop dbg (fun s ft l d => wrapCall dbg r.meta ft d 0 (fun ft d => r.learnImpl dbg s ft l d)) shared label i as s 0 = .ok res →
    ∀ ms : List (SparseFeatures F), List.Forall₂ (fun m a => m.MergeOf a shared) ms as →
      learnAll dbg ⟨r, s⟩ (ms.mapIdx (fun k m => (.simple m,
        .simple ⟨if i + k = label.action then Flt.div label.cost label.probability else Flt.zero, Flt.one⟩))) = .ok ⟨r, res.1⟩ ∧
      res.2.2 = 0 := by
  induction as with
  | nil =>
    intro i s res _ h ms hms
    cases hms
    simp [cbIpsLoop] at h
    subst h
    exact ⟨rfl, rfl⟩
  | cons a as ih =>
    intro i s res hc h ms hms
    cases hms with
    | @cons m _ ms _ hm hms =>
    unfold cbIpsLoop at h
    obtain ⟨a1, h1, h⟩ := bind_ok.1 h
    obtain ⟨l, h2, h⟩ := bind_ok.1 h
    obtain ⟨⟨s1, ft, d1⟩, h3, h⟩ := bind_ok.1 h
    obtain ⟨a2, h4, h⟩ := bind_ok.1 h
    obtain ⟨a3, h5, h⟩ := bind_ok.1 h
    obtain ⟨⟨s2, as', d2⟩, h6, h⟩ := bind_ok.1 h
    simp only [Except.ok.injEq] at h
    subst h
    have hl := ipsLabel_eq h2
    subst hl
    obtain ⟨a1', g1, g2, g3, _⟩ := shared_step (fun s h => (hs s h).1) (hc a (by simp)).1
    rw [h1] at g1
    simp only [Except.ok.injEq] at g1
    subst g1
    have hn := (learnImpl_nice dbg r hp s (.simple ⟨if i = label.action then Flt.div label.cost label.probability else Flt.zero, Flt.one⟩)).wrap
      dbg r.meta 0
    have hd := (hn.restore g2 g3 (by decide : (0 : Nat) < 256) h3).1
    subst hd
    obtain ⟨m', e1, e2⟩ := appendShared_merge (hc a (by simp)).2 (fun s h => (hs s h).2)
    rw [h1] at e1
    simp only [Except.ok.injEq] at e1
    subst e1
    have hlearn : Workspace.learn dbg ⟨r, s⟩ (.simple a1)
        (.simple ⟨if i = label.action then Flt.div label.cost label.probability else Flt.zero, Flt.one⟩) = .ok (⟨r, s1⟩, ft) := by
      unfold Workspace.learn Red.learn
      simp only
      rw [h3, ok_bind]
    obtain ⟨gt', hlearn'⟩ := learn_congr hp (g := m) ⟨g2, g3⟩ (e2.eqv hm) hlearn
    rw [List.mapIdx_cons]
    simp only [learnAll, Nat.add_zero]
    rw [hlearn', ok_bind]
    have := ih (i + 1) s1 (fun x hx => hc x (by simp [hx])) h6 ms hms
    simp only at this ⊢
    refine ⟨?_, this.2⟩
    rw [← this.1]
    congr 2
    funext k m
    have : i + 1 + k = i + (k + 1) := by omega
    rw [this]

end Rml
