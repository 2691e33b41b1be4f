import Verif.Props.Wrap
import Verif.Props.Types

/-! C35: the Debug reduction is transparent. -/

set_option linter.unusedSectionVars false

namespace Rml
open SparseFeatures
variable {F : Type} [Flt F]

/-- The configuration without its Debug reductions. -/
def RedConfig.withoutDebug : RedConfig F → RedConfig F
  | .coin c => .coin c
  | .binary r => .binary r.withoutDebug
  | .cbAdf ty r => .cbAdf ty r.withoutDebug
  | .greedy e r => .greedy e r.withoutDebug
  | .softmax e l r => .softmax e l r.withoutDebug
  | .squareCb e a b r => .squareCb e a b r.withoutDebug
  | .debug r => r.withoutDebug
  | .elementwise o t k r => .elementwise o t k r.withoutDebug
  | .unknown n => .unknown n

/-- Wrapper fields have no effect at offset 0, so the core of a stack has fixed ones. -/
def coreMeta : Meta := ⟨"", coinTypes, 1⟩

/-- The stack without Debug reductions and wrapper fields. -/
def Red.core : Red F → Red F
  | .coin _ => .coin coreMeta
  | .binary _ r => .binary coreMeta r.core
  | .cbAdf _ ty r => .cbAdf coreMeta ty r.core
  | .greedy _ e r => .greedy coreMeta e r.core
  | .softmax _ e l r => .softmax coreMeta e l r.core
  | .squareCb _ e a b r => .squareCb coreMeta e a b r.core
  | .debug _ r => r.core
  | .elementwise _ p k n r => .elementwise coreMeta p k n r.core

/-- The state of the core. -/
def Red.coreState : (r : Red F) → r.State → r.core.State
  | .coin _, s => s
  | .binary _ r, s => r.coreState s
  | .cbAdf _ _ r, s => (s.1, r.coreState s.2)
  | .greedy _ _ r, s => r.coreState s
  | .softmax _ _ _ r, s => (s.1, r.coreState s.2)
  | .squareCb _ _ _ _ r, s => (s.1, r.coreState s.2)
  | .debug _ r, s => r.coreState s
  | .elementwise _ _ _ _ r, s => r.coreState s

/-- Core of a workspace. -/
def Workspace.core (w : Workspace F) : Workspace F := ⟨w.red.core, w.red.coreState w.st⟩

theorem predictImpl_core (dbg : Bool) (r : Red F) : ∀ (s : r.State) (m m' : Meta) (ft : Features F) (d : Depth),
    wrapCall dbg m ft d 0 (r.predictImpl dbg s) = wrapCall dbg m' ft d 0 (r.core.predictImpl dbg (r.coreState s)) := by
  induction r with
  | coin m0 => intro s m m' ft d; exact wrapCall_meta dbg m m' ft d _
  | debug m0 r ih =>
    intro s m m' ft d
    have h1 : (Red.debug m0 r).predictImpl dbg s = fun ft d => wrapCall dbg r.meta ft d 0 (r.predictImpl dbg s) := by
      funext ft d; simp only [Red.predictImpl]
    rw [h1, wrapCall_inner']
    exact ih s r.meta m' ft d
  | binary m0 r ih =>
    intro s m m' ft d
    rw [wrapCall_meta dbg m m']
    congr 1
    funext ft d
    simp only [Red.core, Red.coreState, Red.predictImpl]
    rw [ih s r.meta r.core.meta ft d]
  | cbAdf m0 ty r ih =>
    intro s m m' ft d
    rw [wrapCall_meta dbg m m']
    congr 1
    funext ft d
    simp only [Red.core, Red.coreState, Red.predictImpl]
    simp only [ih s.2 r.meta r.core.meta]
  | greedy m0 e r ih =>
    intro s m m' ft d
    rw [wrapCall_meta dbg m m']
    congr 1
    funext ft d
    simp only [Red.core, Red.coreState, Red.predictImpl]
    rw [ih s r.meta r.core.meta ft d]
  | softmax m0 e l r ih =>
    intro s m m' ft d
    rw [wrapCall_meta dbg m m']
    congr 1
    funext ft d
    simp only [Red.core, Red.coreState, Red.predictImpl]
    rw [ih s.2 r.meta r.core.meta ft d]
  | squareCb m0 e a b r ih =>
    intro s m m' ft d
    rw [wrapCall_meta dbg m m']
    congr 1
    funext ft d
    simp only [Red.core, Red.coreState, Red.predictImpl]
    rw [ih s.2 r.meta r.core.meta ft d]
  | elementwise m0 p k n r ih =>
    intro s m m' ft d
    rw [wrapCall_meta dbg m m']
    congr 1
    funext ft d
    simp only [Red.core, Red.coreState, Red.predictImpl]
    simp only [ih s r.meta r.core.meta]

/-- Change the state in the result of a call. -/
def mapRes {α β : Type} (φ : α → β) (x : M (α × Features F × Depth)) : M (β × Features F × Depth) :=
  x >>= fun r => .ok (φ r.1, r.2.1, r.2.2)

theorem mapRes_wrap {α β : Type} (φ : α → β) (dbg : Bool) (m m' : Meta) (ft : Features F) (d : Depth)
    (body : Features F → Depth → M (α × Features F × Depth)) :
    mapRes φ (wrapCall dbg m ft d 0 body) = wrapCall dbg m' ft d 0 (fun ft d => mapRes φ (body ft d)) := by
  rw [wrapCall_def, wrapCall_def]
  unfold mapRes
  by_cases hd : (dbg && decide (256 ≤ d)) = true
  · rw [if_pos hd]; rfl
  · rw [if_neg hd, ok_bind, ok_bind]
    cases body ft (d % 256) with
    | error e => rfl
    | ok r =>
      simp only [ok_bind]
      cases debugAssert dbg (r.2.1.absDiffEq ft Flt.epsilon) <;> rfl

theorem mapRes_elementwise {α β : Type} (φ : α → β) (dbg : Bool) (n : Nat) (pair : Namespace × Namespace) (keep : Bool)
    (body : Features F → Depth → M (α × Features F × Depth)) (ft : Features F) (d : Depth) :
    mapRes φ (elementwiseWith dbg n pair keep body ft d) = elementwiseWith dbg n pair keep (fun ft d => mapRes φ (body ft d)) ft d := by
  cases ft with
  | cbAdf f => rfl
  | simple f =>
    rw [elementwiseWith_eq, elementwiseWith_eq]
    unfold mapRes
    cases elementwisePrep dbg n pair keep f with
    | error e => rfl
    | ok x =>
      simp only [ok_bind]
      cases body (.simple x.1) d with
      | error e => rfl
      | ok y =>
        simp only [ok_bind]
        cases y.2.1.asSimple <;> rfl

theorem cbIpsLoop_map {S T : Type} (φ : S → T) (dbg : Bool) (cS : S → Features F → Label F → Depth → M (S × Features F × Depth))
    (cT : T → Features F → Label F → Depth → M (T × Features F × Depth))
    (h : ∀ s ft l d, mapRes φ (cS s ft l d) = cT (φ s) ft l d) (shared : Option (SparseFeatures F)) (label : CBLabel F)
    (as : List (SparseFeatures F)) : ∀ i s d,
    (cbIpsLoop dbg cS shared label i as s d >>= fun r => .ok (φ r.1, r.2.1, r.2.2)) = cbIpsLoop dbg cT shared label i as (φ s) d := by
  induction as with
  | nil => intro i s d; rfl
  | cons a as ih =>
    intro i s d
    unfold cbIpsLoop
    cases appendShared shared a with
    | error e => rfl
    | ok a1 =>
      simp only [ok_bind]
      cases ipsLabel dbg label i with
      | error e => rfl
      | ok l =>
        simp only [ok_bind]
        rw [← h]
        unfold mapRes
        cases cS s (.simple a1) (.simple l) d with
        | error e => rfl
        | ok r =>
          simp only [ok_bind]
          cases r.2.1.asSimple with
          | error e => rfl
          | ok a2 =>
            simp only [ok_bind]
            cases removeShared shared a2 with
            | error e => rfl
            | ok a3 =>
              simp only [ok_bind]
              rw [← ih]
              cases cbIpsLoop dbg cS shared label (i + 1) as r.1 r.2.2 <;> rfl

theorem cbMtr_map {S T : Type} (φ : S → T) (cS : S → Features F → Label F → Depth → M (S × Features F × Depth))
    (cT : T → Features F → Label F → Depth → M (T × Features F × Depth))
    (h : ∀ s ft l d, mapRes φ (cS s ft l d) = cT (φ s) ft l d) (f : CBAdfFeatures F) (label : CBLabel F) (mt : MtrState) (s : S) (d : Depth) :
    (cbMtrLearn cS f label mt s d >>= fun r => .ok ((r.1.1, φ r.1.2), r.2.1, r.2.2)) = cbMtrLearn cT f label mt (φ s) d := by
  unfold cbMtrLearn
  simp only
  cases f.shared with
  | none => rfl
  | some sh =>
    simp only
    cases unwrapOpt f.actions[label.action]? with
    | error e => rfl
    | ok a =>
      simp only [ok_bind]
      cases sh.append a with
      | error e => rfl
      | ok sh1 =>
        simp only [ok_bind]
        rw [← h]
        unfold mapRes
        generalize cS s _ _ d = x
        cases x with
        | error e => rfl
        | ok r =>
          simp only [ok_bind]
          cases r.2.1.asSimple with
          | error e => rfl
          | ok a2 =>
            simp only [ok_bind]
            cases a2.remove a <;> rfl

theorem learnImpl_core (dbg : Bool) (r : Red F) : ∀ (s : r.State) (l : Label F) (m m' : Meta) (ft : Features F) (d : Depth),
    mapRes r.coreState (wrapCall dbg m ft d 0 (fun ft d => r.learnImpl dbg s ft l d)) =
      wrapCall dbg m' ft d 0 (fun ft d => r.core.learnImpl dbg (r.coreState s) ft l d) := by
  induction r with
  | coin m0 =>
    intro s l m m' ft d
    rw [mapRes_wrap _ dbg m m']
    congr 1
    funext ft d
    have : ∀ x : M (Coin F × Features F × Depth), mapRes (Red.coreState (.coin m0)) x = x := by
      intro x; cases x <;> rfl
    rw [this]
    rfl
  | debug m0 r ih =>
    intro s l m m' ft d
    have h1 : (fun ft d => (Red.debug m0 r).learnImpl dbg s ft l d) = fun ft d => wrapCall dbg r.meta ft d 0 (fun ft d => r.learnImpl dbg s ft l d) := by
      funext ft d; simp only [Red.learnImpl]
    rw [h1, wrapCall_inner']
    exact ih s l r.meta m' ft d
  | binary m0 r ih =>
    intro s l m m' ft d
    rw [mapRes_wrap _ dbg m m']
    congr 1
    funext ft d
    simp only [Red.core, Red.learnImpl]
    cases l.asBinary with
    | error e => rfl
    | ok b =>
      simp only [ok_bind]
      exact ih s (.simple (binaryToSimple b)) r.meta r.core.meta ft d
  | cbAdf m0 ty r ih =>
    intro s l m m' ft d
    rw [mapRes_wrap _ dbg m m']
    congr 1
    funext ft d
    simp only [Red.core, Red.learnImpl]
    cases ft.asCb with
    | error e => rfl
    | ok f =>
      simp only [ok_bind]
      cases l.asCb with
      | error e => rfl
      | ok l =>
        simp only [ok_bind]
        cases ty with
        | ips =>
          simp only [Red.coreState]
          rw [← cbIpsLoop_map r.coreState dbg (fun s ft l d => wrapCall dbg r.meta ft d 0 (fun ft d => r.learnImpl dbg s ft l d))
            (fun s ft l d => wrapCall dbg r.core.meta ft d 0 (fun ft d => r.core.learnImpl dbg s ft l d))
            (fun s ft l d => ih s l r.meta r.core.meta ft d)]
          unfold mapRes
          generalize cbIpsLoop (F := F) _ _ _ _ _ _ _ _ = x
          cases x <;> rfl
        | mtr =>
          simp only [Red.coreState]
          rw [← cbMtr_map r.coreState (fun s ft l d => wrapCall dbg r.meta ft d 0 (fun ft d => r.learnImpl dbg s ft l d))
            (fun s ft l d => wrapCall dbg r.core.meta ft d 0 (fun ft d => r.core.learnImpl dbg s ft l d))
            (fun s ft l d => ih s l r.meta r.core.meta ft d)]
          unfold mapRes
          generalize cbMtrLearn (F := F) _ _ _ _ _ _ = x
          cases x <;> rfl
  | greedy m0 e r ih =>
    intro s l m m' ft d
    rw [mapRes_wrap _ dbg m m']
    congr 1
    funext ft d
    simp only [Red.core, Red.learnImpl]
    exact ih s l r.meta r.core.meta ft d
  | softmax m0 e lm r ih =>
    intro s l m m' ft d
    rw [mapRes_wrap _ dbg m m']
    congr 1
    funext ft d
    simp only [Red.core, Red.learnImpl, Red.coreState]
    rw [← ih s.2 l r.meta r.core.meta ft d]
    unfold mapRes
    cases wrapCall dbg r.meta ft d 0 (fun ft d => r.learnImpl dbg s.2 ft l d) <;> rfl
  | squareCb m0 e a b r ih =>
    intro s l m m' ft d
    rw [mapRes_wrap _ dbg m m']
    congr 1
    funext ft d
    simp only [Red.core, Red.learnImpl, Red.coreState]
    cases l.asCb with
    | error e => rfl
    | ok l =>
      simp only [ok_bind]
      rw [← ih s.2 (.cb { l with probability := Flt.one }) r.meta r.core.meta ft d]
      unfold mapRes
      cases wrapCall dbg r.meta ft d 0 (fun ft d => r.learnImpl dbg s.2 ft (.cb { l with probability := Flt.one }) d) <;> rfl
  | elementwise m0 p k n r ih =>
    intro s l m m' ft d
    rw [mapRes_wrap _ dbg m m']
    congr 1
    funext ft d
    simp only [Red.core, Red.learnImpl]
    refine (mapRes_elementwise r.coreState dbg n p k _ ft d).trans ?_
    congr 1
    funext ft d
    exact ih s l r.meta r.core.meta ft d

theorem mapRes_default {S T : Type} (φ : S → T) (pred : Features F → Depth → M (Prediction F × Features F × Depth))
    (lrn : Features F → Depth → M (S × Features F × Depth)) (ft : Features F) (d : Depth) :
    mapRes (fun x : Prediction F × S => (x.1, φ x.2)) (defaultPredictThenLearn pred lrn ft d) =
      defaultPredictThenLearn pred (fun ft d => mapRes φ (lrn ft d)) ft d := by
  unfold defaultPredictThenLearn mapRes
  cases pred ft d with
  | error e => rfl
  | ok x =>
    simp only [ok_bind]
    cases lrn x.2.1 x.2.2 with
    | error e => rfl
    | ok y =>
      simp only [ok_bind]
      cases massert (decide (y.2.2 = d)) <;> rfl

/-- Keep the prediction, change the state. -/
def mapPtl {S T : Type} (φ : S → T) (x : Prediction F × S) : Prediction F × T := (x.1, φ x.2)

/-- `defaultPredictThenLearn` with both parts replaced by equal ones (up to the wrapper check, which is done around both). -/
theorem default_core {dbg : Bool} {r : Red F} (s : r.State) (l : Label F) (m m' : Meta) (ft : Features F) (d : Depth)
    (hp : ∀ ft d, r.predictImpl dbg s ft d = r.core.predictImpl dbg (r.coreState s) ft d)
    (hl : ∀ ft d, mapRes r.coreState (r.learnImpl dbg s ft l d) = r.core.learnImpl dbg (r.coreState s) ft l d) :
    mapRes (mapPtl r.coreState) (wrapCall dbg m ft d 0 (fun ft d => defaultPredictThenLearn (r.predictImpl dbg s) (fun ft d => r.learnImpl dbg s ft l d) ft d)) =
      wrapCall dbg m' ft d 0 (fun ft d => defaultPredictThenLearn (r.core.predictImpl dbg (r.coreState s))
        (fun ft d => r.core.learnImpl dbg (r.coreState s) ft l d) ft d) := by
  rw [mapRes_wrap _ dbg m m']
  congr 1
  funext ft d
  have hp' : r.predictImpl dbg s = r.core.predictImpl dbg (r.coreState s) := by funext ft d; exact hp ft d
  rw [hp']
  refine (mapRes_default r.coreState _ _ ft d).trans ?_
  simp only [hl]

/-- Reductions other than Debug: own functions, without the wrapper. -/
def Red.isDebug : Red F → Bool
  | .debug _ _ => true
  | _ => false

theorem predictImpl_core' (dbg : Bool) (r : Red F) (h : r.isDebug = false) (s : r.State) (ft : Features F) (d : Depth) :
    r.predictImpl dbg s ft d = r.core.predictImpl dbg (r.coreState s) ft d := by
  cases r with
  | coin m0 => rfl
  | debug m0 r => simp [Red.isDebug] at h
  | binary m0 r =>
    simp only [Red.core, Red.coreState, Red.predictImpl]
    rw [predictImpl_core dbg r s r.meta r.core.meta ft d]
  | cbAdf m0 ty r =>
    simp only [Red.core, Red.coreState, Red.predictImpl]
    simp only [predictImpl_core dbg r s.2 r.meta r.core.meta]
  | greedy m0 e r =>
    simp only [Red.core, Red.coreState, Red.predictImpl]
    rw [predictImpl_core dbg r s r.meta r.core.meta ft d]
  | softmax m0 e l r =>
    simp only [Red.core, Red.coreState, Red.predictImpl]
    rw [predictImpl_core dbg r s.2 r.meta r.core.meta ft d]
  | squareCb m0 e a b r =>
    simp only [Red.core, Red.coreState, Red.predictImpl]
    rw [predictImpl_core dbg r s.2 r.meta r.core.meta ft d]
  | elementwise m0 p k n r =>
    simp only [Red.core, Red.coreState, Red.predictImpl]
    simp only [predictImpl_core dbg r s r.meta r.core.meta]

theorem learnImpl_core' (dbg : Bool) (r : Red F) (h : r.isDebug = false) (s : r.State) (l : Label F) (ft : Features F) (d : Depth) :
    mapRes r.coreState (r.learnImpl dbg s ft l d) = r.core.learnImpl dbg (r.coreState s) ft l d := by
  cases r with
  | coin m0 =>
    have : ∀ x : M (Coin F × Features F × Depth), mapRes (Red.coreState (.coin m0)) x = x := by
      intro x; cases x <;> rfl
    rw [this]
    rfl
  | debug m0 r => simp [Red.isDebug] at h
  | binary m0 r =>
    simp only [Red.core, Red.learnImpl]
    cases l.asBinary with
    | error e => rfl
    | ok b =>
      simp only [ok_bind]
      exact learnImpl_core dbg r s (.simple (binaryToSimple b)) r.meta r.core.meta ft d
  | cbAdf m0 ty r =>
    simp only [Red.core, Red.learnImpl]
    cases ft.asCb with
    | error e => rfl
    | ok f =>
      simp only [ok_bind]
      cases l.asCb with
      | error e => rfl
      | ok l =>
        simp only [ok_bind]
        cases ty with
        | ips =>
          simp only [Red.coreState]
          rw [← cbIpsLoop_map r.coreState dbg (fun s ft l d => wrapCall dbg r.meta ft d 0 (fun ft d => r.learnImpl dbg s ft l d))
            (fun s ft l d => wrapCall dbg r.core.meta ft d 0 (fun ft d => r.core.learnImpl dbg s ft l d))
            (fun s ft l d => learnImpl_core dbg r s l r.meta r.core.meta ft d)]
          unfold mapRes
          generalize cbIpsLoop (F := F) _ _ _ _ _ _ _ _ = x
          cases x <;> rfl
        | mtr =>
          simp only [Red.coreState]
          rw [← cbMtr_map r.coreState (fun s ft l d => wrapCall dbg r.meta ft d 0 (fun ft d => r.learnImpl dbg s ft l d))
            (fun s ft l d => wrapCall dbg r.core.meta ft d 0 (fun ft d => r.core.learnImpl dbg s ft l d))
            (fun s ft l d => learnImpl_core dbg r s l r.meta r.core.meta ft d)]
          unfold mapRes
          generalize cbMtrLearn (F := F) _ _ _ _ _ _ = x
          cases x <;> rfl
  | greedy m0 e r =>
    simp only [Red.core, Red.learnImpl]
    exact learnImpl_core dbg r s l r.meta r.core.meta ft d
  | softmax m0 e lm r =>
    simp only [Red.core, Red.learnImpl, Red.coreState]
    rw [← learnImpl_core dbg r s.2 l r.meta r.core.meta ft d]
    unfold mapRes
    cases wrapCall dbg r.meta ft d 0 (fun ft d => r.learnImpl dbg s.2 ft l d) <;> rfl
  | squareCb m0 e a b r =>
    simp only [Red.core, Red.learnImpl, Red.coreState]
    cases l.asCb with
    | error e => rfl
    | ok l =>
      simp only [ok_bind]
      rw [← learnImpl_core dbg r s.2 (.cb { l with probability := Flt.one }) r.meta r.core.meta ft d]
      unfold mapRes
      cases wrapCall dbg r.meta ft d 0 (fun ft d => r.learnImpl dbg s.2 ft (.cb { l with probability := Flt.one }) d) <;> rfl
  | elementwise m0 p k n r =>
    simp only [Red.core, Red.learnImpl]
    refine (mapRes_elementwise r.coreState dbg n p k _ ft d).trans ?_
    congr 1
    funext ft d
    exact learnImpl_core dbg r s l r.meta r.core.meta ft d

theorem ptlImpl_core (dbg : Bool) (r : Red F) : ∀ (s : r.State) (l : Label F) (m m' : Meta) (ft : Features F) (d : Depth),
    mapRes (mapPtl r.coreState) (wrapCall dbg m ft d 0 (fun ft d => r.predictThenLearnImpl dbg s ft l d 0)) =
      wrapCall dbg m' ft d 0 (fun ft d => r.core.predictThenLearnImpl dbg (r.coreState s) ft l d 0) := by
  induction r with
  | coin m0 =>
    intro s l m m' ft d
    exact default_core (r := .coin m0) s l m m' ft d (predictImpl_core' dbg _ rfl s) (fun ft d => learnImpl_core' dbg _ rfl s l ft d)
  | cbAdf m0 ty r ih =>
    intro s l m m' ft d
    exact default_core (r := .cbAdf m0 ty r) s l m m' ft d (predictImpl_core' dbg _ rfl s) (fun ft d => learnImpl_core' dbg _ rfl s l ft d)
  | greedy m0 e r ih =>
    intro s l m m' ft d
    exact default_core (r := .greedy m0 e r) s l m m' ft d (predictImpl_core' dbg _ rfl s) (fun ft d => learnImpl_core' dbg _ rfl s l ft d)
  | softmax m0 e lm r ih =>
    intro s l m m' ft d
    exact default_core (r := .softmax m0 e lm r) s l m m' ft d (predictImpl_core' dbg _ rfl s) (fun ft d => learnImpl_core' dbg _ rfl s l ft d)
  | squareCb m0 e a b r ih =>
    intro s l m m' ft d
    exact default_core (r := .squareCb m0 e a b r) s l m m' ft d (predictImpl_core' dbg _ rfl s) (fun ft d => learnImpl_core' dbg _ rfl s l ft d)
  | debug m0 r ih =>
    intro s l m m' ft d
    have h1 : (fun ft d => (Red.debug m0 r).predictThenLearnImpl dbg s ft l d 0) =
        fun ft d => wrapCall dbg r.meta ft d 0 (fun ft d => r.predictThenLearnImpl dbg s ft l d 0) := by
      funext ft d; simp only [Red.predictThenLearnImpl]
    rw [h1, wrapCall_inner']
    exact ih s l r.meta m' ft d
  | binary m0 r ih =>
    intro s l m m' ft d
    rw [mapRes_wrap _ dbg m m']
    congr 1
    funext ft d
    simp only [Red.core, Red.predictThenLearnImpl]
    cases l.asBinary with
    | error e => rfl
    | ok b =>
      simp only [ok_bind]
      have := ih s (.simple (binaryToSimple b)) r.meta r.core.meta ft d
      simp only [Red.coreState]
      rw [← this]
      unfold mapRes
      cases wrapCall dbg r.meta ft d 0 (fun ft d => r.predictThenLearnImpl dbg s ft (.simple (binaryToSimple b)) d 0) with
      | error e => rfl
      | ok x =>
        simp only [ok_bind, mapPtl]
        cases x.1.1.asScalar <;> rfl
  | elementwise m0 p k n r ih =>
    intro s l m m' ft d
    rw [mapRes_wrap _ dbg m m']
    congr 1
    funext ft d
    simp only [Red.core, Red.predictThenLearnImpl]
    refine (mapRes_elementwise (mapPtl r.coreState) dbg n p k _ ft d).trans ?_
    congr 1
    funext ft d
    exact ih s l r.meta r.core.meta ft d

/-! ### Workspaces and histories -/

theorem predict_core (dbg : Bool) (w : Workspace F) (ft : Features F) : w.predict dbg ft = w.core.predict dbg ft := by
  unfold Workspace.predict Red.predict
  rw [predictImpl_core dbg w.red w.st w.red.meta w.core.red.meta]
  rfl

theorem learn_core (dbg : Bool) (w : Workspace F) (ft : Features F) (l : Label F) :
    (w.learn dbg ft l >>= fun r => .ok (r.1.core, r.2)) = w.core.learn dbg ft l := by
  unfold Workspace.learn Red.learn
  have h := learnImpl_core dbg w.red w.st l w.red.meta w.core.red.meta ft 0
  change _ = ((wrapCall dbg w.core.red.meta ft 0 0 fun ft d => w.red.core.learnImpl dbg (w.red.coreState w.st) ft l d) >>= _)
  rw [← h]
  unfold mapRes
  generalize wrapCall dbg w.red.meta ft 0 0 (fun ft d => w.red.learnImpl dbg w.st ft l d) = x
  cases x <;> rfl

theorem ptl_core (dbg : Bool) (w : Workspace F) (ft : Features F) (l : Label F) :
    (w.predictThenLearn dbg ft l >>= fun r => .ok (r.1, r.2.1.core, r.2.2)) = w.core.predictThenLearn dbg ft l := by
  unfold Workspace.predictThenLearn Red.predictThenLearn
  have h := ptlImpl_core dbg w.red w.st l w.red.meta w.core.red.meta ft 0
  change _ = ((wrapCall dbg w.core.red.meta ft 0 0 fun ft d => w.red.core.predictThenLearnImpl dbg (w.red.coreState w.st) ft l d 0) >>= _)
  rw [← h]
  unfold mapRes
  generalize wrapCall dbg w.red.meta ft 0 0 (fun ft d => w.red.predictThenLearnImpl dbg w.st ft l d 0) = x
  cases x <;> rfl

/-- What the client gets from a history: its examples and the returned predictions, or the panic. -/
def Session.observe (dbg : Bool) (S : Session F) (calls : List (Call F)) :
    M ((Nat → Features F) × List (Call F × Option (Prediction F))) :=
  (S.run dbg calls).map (fun r => (r.1.ex, r.2))

theorem step_core (dbg : Bool) (w : Workspace F) (ex : Nat → Features F) (c : Call F) :
    (Session.step dbg ⟨w, ex⟩ c >>= fun r => .ok ((⟨r.1.w.core, r.1.ex⟩ : Session F), r.2)) = Session.step dbg ⟨w.core, ex⟩ c := by
  cases c with
  | predict i =>
    simp only [Session.step]
    rw [← predict_core]
    cases w.predict dbg (ex i) <;> rfl
  | learn i l =>
    simp only [Session.step]
    rw [← learn_core]
    cases w.learn dbg (ex i) l <;> rfl
  | predictThenLearn i l =>
    simp only [Session.step]
    rw [← ptl_core]
    cases w.predictThenLearn dbg (ex i) l <;> rfl

theorem run_core (dbg : Bool) (calls : List (Call F)) : ∀ (w : Workspace F) (ex : Nat → Features F),
    (Session.run dbg ⟨w, ex⟩ calls >>= fun r => .ok ((⟨r.1.w.core, r.1.ex⟩ : Session F), r.2)) = Session.run dbg ⟨w.core, ex⟩ calls := by
  induction calls with
  | nil => intro w ex; rfl
  | cons c cs ih =>
    intro w ex
    unfold Session.run
    rw [← step_core]
    cases Session.step dbg ⟨w, ex⟩ c with
    | error e => rfl
    | ok r =>
      simp only [ok_bind]
      have := ih r.1.w r.1.ex
      rw [← this]
      cases Session.run dbg ⟨r.1.w, r.1.ex⟩ cs <;> rfl

theorem observe_core (dbg : Bool) (calls : List (Call F)) (w : Workspace F) (ex : Nat → Features F) :
    Session.observe dbg ⟨w, ex⟩ calls = Session.observe dbg ⟨w.core, ex⟩ calls := by
  unfold Session.observe
  rw [← run_core]
  cases Session.run dbg ⟨w, ex⟩ calls <;> rfl

/-- The core of the stack made for a configuration, given the Coin regressor at the bottom. -/
def coreOf (hash : HashFn) (g : GlobalConfig) (coin : Coin F) : RedConfig F → Workspace F
  | .coin _ => ⟨.coin coreMeta, coin⟩
  | .binary r => let w := coreOf hash g coin r; ⟨.binary coreMeta w.red, w.st⟩
  | .cbAdf ty r => let w := coreOf hash g coin r; ⟨.cbAdf coreMeta ty w.red, (⟨0, 0⟩, w.st)⟩
  | .greedy e r => let w := coreOf hash g coin r; ⟨.greedy coreMeta e w.red, w.st⟩
  | .softmax e l r => let w := coreOf hash g coin r; ⟨.softmax coreMeta e l w.red, (0, w.st)⟩
  | .squareCb e a b r => let w := coreOf hash g coin r; ⟨.squareCb coreMeta e a b w.red, (0, w.st)⟩
  | .debug r => coreOf hash g coin r
  | .elementwise o t k r =>
    let w := coreOf hash g coin r
    ⟨.elementwise coreMeta (o.toNamespace hash g.hashSeed, t.toNamespace hash g.hashSeed) k g.numBits w.red, w.st⟩
  | .unknown _ => ⟨.coin coreMeta, coin⟩

theorem coreOf_withoutDebug (hash : HashFn) (g : GlobalConfig) (coin : Coin F) (c : RedConfig F) :
    coreOf hash g coin c.withoutDebug = coreOf hash g coin c := by
  induction c <;> simp only [RedConfig.withoutDebug, coreOf] <;>
    first
    | done
    | (rename_i ih; exact ih)
    | (rename_i ih; rw [ih])

/-- The Coin configuration at the bottom. -/
def RedConfig.coinCfg : RedConfig F → Option (CoinConfig F)
  | .coin c => some c
  | .binary r | .cbAdf _ r | .greedy _ r | .softmax _ _ r | .squareCb _ _ _ r | .debug r | .elementwise _ _ _ r => r.coinCfg
  | .unknown _ => none

theorem coinCfg_withoutDebug (c : RedConfig F) : c.withoutDebug.coinCfg = c.coinCfg := by
  induction c <;> simp_all [RedConfig.withoutDebug, RedConfig.coinCfg]

theorem Built.core {hash : HashFn} {g : GlobalConfig} {nma : Nat} {c : RedConfig F} {x : (r : Red F) × r.State} (h : Built hash g nma c x) :
    ∃ cc coin, c.coinCfg = some cc ∧ Coin.new hash cc g nma = .ok coin ∧ Workspace.core ⟨x.1, x.2⟩ = coreOf hash g coin c := by
  induction h with
  | @coin cc coin h => exact ⟨cc, coin, rfl, h, rfl⟩
  | binary _ _ ih => obtain ⟨cc, coin, h1, h2, h3⟩ := ih; exact ⟨cc, coin, h1, h2, by simp only [coreOf]; rw [← h3]; rfl⟩
  | cbAdf _ _ ih => obtain ⟨cc, coin, h1, h2, h3⟩ := ih; exact ⟨cc, coin, h1, h2, by simp only [coreOf]; rw [← h3]; rfl⟩
  | greedy _ _ ih => obtain ⟨cc, coin, h1, h2, h3⟩ := ih; exact ⟨cc, coin, h1, h2, by simp only [coreOf]; rw [← h3]; rfl⟩
  | softmax _ _ ih => obtain ⟨cc, coin, h1, h2, h3⟩ := ih; exact ⟨cc, coin, h1, h2, by simp only [coreOf]; rw [← h3]; rfl⟩
  | squareCb _ _ _ ih => obtain ⟨cc, coin, h1, h2, h3⟩ := ih; exact ⟨cc, coin, h1, h2, by simp only [coreOf]; rw [← h3]; rfl⟩
  | debug _ _ ih => obtain ⟨cc, coin, h1, h2, h3⟩ := ih; exact ⟨cc, coin, h1, h2, by simp only [coreOf]; rw [← h3]; rfl⟩
  | elementwise _ _ ih => obtain ⟨cc, coin, h1, h2, h3⟩ := ih; exact ⟨cc, coin, h1, h2, by simp only [coreOf]; rw [← h3]; rfl⟩

/-- C35: two configurations that differ only in Debug reductions, anywhere in the stack, cannot be told apart by any history of calls:
the same predictions, the same examples afterwards, the same panics. -/
theorem C35_debug_transparent (dbg : Bool) (hash : HashFn) (g : GlobalConfig) (c c' : RedConfig F) (hc : c.withoutDebug = c'.withoutDebug)
    (w w' : Workspace F) (hw : Workspace.new hash g c = .ok w) (hw' : Workspace.new hash g c' = .ok w') (ex : Nat → Features F)
    (calls : List (Call F)) : Session.observe dbg ⟨w, ex⟩ calls = Session.observe dbg ⟨w', ex⟩ calls := by
  obtain ⟨cc, coin, h1, h2, h3⟩ := (built_of_new hw).core
  obtain ⟨cc', coin', h1', h2', h3'⟩ := (built_of_new hw').core
  rw [← coinCfg_withoutDebug, hc, coinCfg_withoutDebug, h1'] at h1
  simp only [Option.some.injEq] at h1
  subst h1
  rw [h2] at h2'
  simp only [Except.ok.injEq] at h2'
  subst h2'
  have h3 : w.core = coreOf hash g coin c := h3
  have h3' : w'.core = coreOf hash g coin c' := h3'
  rw [observe_core, observe_core dbg calls w', h3, h3', ← coreOf_withoutDebug hash g coin c, hc, coreOf_withoutDebug]

theorem typeOf_withoutDebug (c : RedConfig F) : c.withoutDebug.typeOf = c.typeOf := by
  induction c <;> simp_all [RedConfig.withoutDebug, RedConfig.typeOf]

theorem bottom_withoutDebug (c : RedConfig F) : c.withoutDebug.bottom = c.bottom := by
  induction c <;> simp_all [RedConfig.withoutDebug, RedConfig.bottom]

theorem overMtr_withoutDebug (c : RedConfig F) (h : c.withoutDebug.SquareCbOverMtr) : c.SquareCbOverMtr := by
  induction c with
  | squareCb e a b c ih =>
    simp only [RedConfig.withoutDebug, RedConfig.SquareCbOverMtr] at h ⊢
    refine ⟨?_, ih h.2⟩
    rintro c' rfl
    exact h.1 _ rfl
  | _ => simp_all [RedConfig.withoutDebug, RedConfig.SquareCbOverMtr]

/-- C35: a configuration that is accepted stays accepted when Debug reductions are inserted anywhere. -/
theorem C35_create (hash : HashFn) (g : GlobalConfig) (c : RedConfig F) (h : ∃ w, Workspace.new hash g c.withoutDebug = .ok w) :
    ∃ w, Workspace.new hash g c = .ok w := by
  rw [C29_accepted_iff] at h ⊢
  obtain ⟨h1, h2, h3⟩ := h
  refine ⟨?_, overMtr_withoutDebug c h2, ?_⟩
  · rwa [typeOf_withoutDebug] at h1
  · rwa [bottom_withoutDebug] at h3

section examples
attribute [local instance] intFlt

/-- The hypotheses of C35 are met by a stack with three Debug reductions, and the history has observable output. -/
example : ∃ w w' : Workspace Int,
    Workspace.new tinyHash tinyGlobal (.debug (.squareCb 0 1 1 (.cbAdf .mtr (.debug (.debug (.coin CoinConfig.dflt)))))) = .ok w ∧
    Workspace.new tinyHash tinyGlobal tinySquare = .ok w' ∧
    (RedConfig.debug (.squareCb 0 1 1 (.cbAdf .mtr (.debug (.debug (.coin CoinConfig.dflt))))) : RedConfig Int).withoutDebug =
      tinySquare.withoutDebug ∧
    returned (Session.observe true ⟨w, fun _ => tinyCb⟩ [.learn 0 (.cb ⟨1, 3, 1⟩), .predictThenLearn 1 (.cb ⟨0, 2, 1⟩)]) = true :=
  ⟨_, _, rfl, rfl, rfl, by decide +kernel⟩

end examples

end Rml
