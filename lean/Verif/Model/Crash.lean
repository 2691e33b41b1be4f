import Verif.Model.Reductions

/-
What a call leaves behind when it panics. The functions of `Model/Reductions.lean` say what a call returns, and nothing about the objects of a call that
does not return. Here the same functions change objects as they go, so that a panic leaves them as they are at that point: in Python a panic is an
exception (`PanicException`), after which the workspace and the features can be used again. `Lemmas/Crash.lean` shows that the two versions return the same.
-/

namespace Rml
variable {F : Type} [Flt F]

/-- A computation on a mutable object of type `σ`: what it returns, or the panic, and the object afterwards. -/
def Cr (σ α : Type) := σ → M α × σ

namespace Cr
variable {σ τ α β : Type}

/-- Returns without a change. -/
def pure (a : α) : Cr σ α := fun s => (.ok a, s)

/-- One after the other; a panic ends the computation. -/
def bind (x : Cr σ α) (f : α → Cr σ β) : Cr σ β := fun s =>
  match x s with
  | (.ok a, s') => f a s'
  | (.error e, s') => (.error e, s')

instance : Monad (Cr σ) where
  pure := Cr.pure
  bind := Cr.bind

/-- A computation that changes nothing. -/
def lift (m : M α) : Cr σ α := fun s => (m, s)

/-- Reads the object. -/
def get : Cr σ σ := fun s => (.ok s, s)

/-- Replaces the object. -/
def set (s : σ) : Cr σ Unit := fun _ => (.ok (), s)

/-- A computation on a part of the object. -/
def on (part : σ → τ) (put : τ → σ → σ) (x : Cr τ α) : Cr σ α := fun s =>
  ((x (part s)).1, put (x (part s)).2 s)

/-- A loop over a list. -/
def forEach (step : β → Cr σ Unit) : List β → Cr σ Unit
  | [] => pure ()
  | b :: bs => do
    step b
    forEach step bs

end Cr

namespace SparseFeatures

/-- One iteration of the loop of `append` (`sparse_namespaced_features.rs:402-407`): the namespace is made or made visible, then `add_features` compares the
lengths. -/
def appendStepCr (e : Namespace × NsFeats F) : Cr (SparseFeatures F) Unit :=
  if e.2.active then do
    let f ← Cr.get
    let c := f.getOrCreateWithCapacity e.1 e.2.size
    Cr.set (f.setNamespace e.1 c)
    let c ← Cr.lift (c.addFeatures e.2.idx.data e.2.vals.data)
    Cr.set (f.setNamespace e.1 c)
  else Cr.pure ()

/-- `append` (`sparse_namespaced_features.rs:401-408`). -/
def appendCr (other : SparseFeatures F) : Cr (SparseFeatures F) Unit := Cr.forEach appendStepCr other.entries

/-- One iteration of the loop of `remove` (`sparse_namespaced_features.rs:413-424`). -/
def removeStepCr (e : Namespace × NsFeats F) : Cr (SparseFeatures F) Unit :=
  if e.2.active then do
    let f ← Cr.get
    let c := f.getOrCreate e.1
    Cr.set (f.setNamespace e.1 c)
    let size := c.size
    if size < e.2.size then Cr.lift (.error .overflow)
    else
      let c := { c with idx := c.idx.truncate (size - e.2.size), vals := c.vals.truncate (size - e.2.size) }
      let c := if c.size = 0 then { c with active := false } else c
      Cr.set (f.setNamespace e.1 c)
  else Cr.pure ()

/-- `remove` (`sparse_namespaced_features.rs:412-426`). -/
def removeCr (other : SparseFeatures F) : Cr (SparseFeatures F) Unit := Cr.forEach removeStepCr other.entries

end SparseFeatures

/-- `foreach_feature_with_state_mut` with a closure without a result (`weights.rs:97-102`). A closure that panics has not written to the slice. -/
def foreachMutCr (dbg : Bool) (model : Nat) (f : SparseFeatures F) (c : PassCfg) (func : F → List F → M (List F)) : Cr (DenseWeights F) Unit :=
  Cr.forEach (fun (iv : U32 × F) => do
    let w ← Cr.get
    let st ← Cr.lift (w.stateAt dbg iv.1.toNat model)
    let st' ← Cr.lift (func iv.2 st)
    let w' ← Cr.lift (w.setStateAt dbg iv.1.toNat model st')
    Cr.set w') (visited c f)

namespace Coin

/-- `coin_betting_predict` (`coin.rs:302-351`). -/
def bettingPredictCr (dbg : Bool) (f : SparseFeatures F) (weight : F) : Cr (Coin F) F := do
  let c ← Cr.get
  let (pred, nsn) ← Cr.lift (foreachFeatureWithState dbg 0 f c.weights c.pass
    (fun acc x st => do
      let s ← WState.ofList st
      .ok (innerPredict c.config.alpha acc x s)) (Flt.zero, Flt.zero))
  match c.modelStates with
  | [] => Cr.lift (.error .index)
  | ms :: rest => do
    let nsum := Flt.add ms.normalizedSumNormX (Flt.mul nsn weight)
    let tw := Flt.add ms.totalWeight weight
    let avg := Flt.div (Flt.add nsum (Flt.lit 1 1000000)) tw
    Cr.set { c with modelStates := ⟨nsum, tw⟩ :: rest, averageSquaredNormX := avg }
    Cr.lift (Flt.clamp (Flt.div pred avg) c.minLabel c.maxLabel)

/-- `coin_betting_update_after_predict` (`coin.rs:353-418`). -/
def updateAfterPredictCr (dbg : Bool) (f : SparseFeatures F) (prediction label weight : F) : Cr (Coin F) Unit := do
  let c ← Cr.get
  let update := c.updateOf prediction label weight
  Cr.on (fun c => c.weights) (fun w c => { c with weights := w })
    (foreachMutCr dbg 0 f c.pass (fun x st => do
      let s ← WState.ofList st
      .ok (innerUpdate c.config.alpha c.config.beta c.averageSquaredNormX update x s).toList))

/-- `learn` (`coin.rs:221-240`): the range of labels comes first. -/
def learnCr (dbg : Bool) (f : SparseFeatures F) (label weight : F) : Cr (Coin F) Unit := do
  let c ← Cr.get
  Cr.set { c with minLabel := Flt.fmin label c.minLabel, maxLabel := Flt.fmax label c.maxLabel }
  let p ← bettingPredictCr dbg f weight
  updateAfterPredictCr dbg f p label weight

end Coin

/-- A call that gets a feature object as `&mut Features` (`types.rs:303-333`), on the object itself. -/
def onSimple {σ α : Type} (x : Cr (σ × Features F) α) : Cr (σ × SparseFeatures F) α := fun p =>
  match x (p.1, .simple p.2) with
  | (r, (s, .simple f)) => (r, (s, f))
  | (.ok _, (s, .cbAdf _)) => (.error .typeMismatch, (s, p.2))
  | (.error e, (s, .cbAdf _)) => (.error e, (s, p.2))

/-- The common part of `ReductionWrapper::{predict, predict_then_learn, learn}` (`reduction.rs:33-111`). The depth is an object of the call and does not
outlive it. -/
def wrapCr {α σ : Type} (dbg : Bool) (m : Meta) (d : Depth) (off : Nat) (body : Depth → Cr (σ × Features F) (α × Depth)) :
    Cr (σ × Features F) (α × Depth) := do
  let (_, ft) ← Cr.get
  let d1 ← Cr.lift (d.increment dbg m.numModelsBelow off)
  let (a, d2) ← body d1
  let d3 ← Cr.lift (d2.decrement dbg m.numModelsBelow off)
  let (_, ft') ← Cr.get
  Cr.lift (debugAssert dbg (ft'.absDiffEq ft Flt.epsilon))
  Cr.pure (a, d3)

/-- ElementwiseInteraction (`elementwise_interaction.rs:179-280`). The namespaces that were taken out are local variables, lost in a panic. -/
def elementwiseCr {α σ : Type} (dbg : Bool) (numBits : Nat) (pair : Namespace × Namespace) (keep : Bool)
    (body : Depth → Cr (σ × Features F) (α × Depth)) (d : Depth) : Cr (σ × Features F) (α × Depth) := do
  let (s, ft) ← Cr.get
  let f ← Cr.lift ft.asSimple
  let (cns, dest) ← Cr.lift (elementwiseMultiply dbg numBits f pair.1 pair.2)
  let f := f.setNamespace cns dest
  Cr.set (s, .simple f)
  if keep then do
    let r ← body d
    let (s', ft') ← Cr.get
    let f' ← Cr.lift ft'.asSimple
    Cr.set (s', .simple (f'.removeNamespace cns).2)
    Cr.pure r
  else do
    let n1 := (f.removeNamespace pair.1).1
    let f := (f.removeNamespace pair.1).2
    Cr.set (s, .simple f)
    let n1 ← Cr.lift (unwrapOpt n1)
    let n2 := (f.removeNamespace pair.2).1
    let f := (f.removeNamespace pair.2).2
    Cr.set (s, .simple f)
    let n2 ← Cr.lift (unwrapOpt n2)
    let r ← body d
    let (s', ft') ← Cr.get
    let f' ← Cr.lift ft'.asSimple
    Cr.set (s', .simple (((f'.removeNamespace cns).2.setNamespace pair.1 n1).setNamespace pair.2 n2))
    Cr.pure r

/-- `if let Some(shared) = .. { action.append(shared) }` (`cb_adf.rs:148-150, 178-180`). -/
def appendSharedCr {σ : Type} (shared : Option (SparseFeatures F)) : Cr (σ × SparseFeatures F) Unit :=
  match shared with
  | some s => Cr.on (·.2) (fun f p => (p.1, f)) s.appendCr
  | none => Cr.pure ()

/-- `if let Some(shared) = .. { action.remove(shared) }` (`cb_adf.rs:157-159, 188-190`). -/
def removeSharedCr {σ : Type} (shared : Option (SparseFeatures F)) : Cr (σ × SparseFeatures F) Unit :=
  match shared with
  | some s => Cr.on (·.2) (fun f p => (p.1, f)) s.removeCr
  | none => Cr.pure ()

/-- The body of the loop of CbAdf `predict` (`cb_adf.rs:147-159`). -/
def cbPredictStepCr {σ : Type} (childP : Depth → Cr (σ × Features F) (Prediction F × Depth)) (shared : Option (SparseFeatures F)) (d : Depth) :
    Cr (σ × SparseFeatures F) (F × Depth) := do
  appendSharedCr shared
  let (p, d1) ← onSimple (childP d)
  let (_, raw) ← Cr.lift p.asScalar
  removeSharedCr shared
  Cr.pure (raw, d1)

/-- An iteration of a loop over the actions, and the rest of the loop: after a panic the actions that were not reached are as they were. -/
def nextAction {σ α β : Type} (q : M α × (σ × SparseFeatures F)) (as : List (SparseFeatures F))
    (rest : α → σ → M β × (σ × List (SparseFeatures F))) : M β × (σ × List (SparseFeatures F)) :=
  match q with
  | (.error e, (s, a)) => (.error e, (s, a :: as))
  | (.ok x, (s, a)) => ((rest x s).1, ((rest x s).2.1, a :: (rest x s).2.2))

/-- The loop of CbAdf `predict` (`cb_adf.rs:146-160`), from position `i` on. -/
def cbPredictLoopCr {σ : Type} (childP : Depth → Cr (σ × Features F) (Prediction F × Depth)) (shared : Option (SparseFeatures F)) :
    Nat → List (SparseFeatures F) → Depth → σ → M (List (Nat × F) × Depth) × (σ × List (SparseFeatures F))
  | _, [], d, s => (.ok ([], d), (s, []))
  | i, a :: as, d, s =>
    nextAction (cbPredictStepCr childP shared d (s, a)) as (fun x s1 =>
      let r := cbPredictLoopCr childP shared (i + 1) as x.2 s1
      (r.1.map (fun p => ((i, x.1) :: p.1, p.2)), r.2))

/-- The body of the loop of CbAdf `learn` in ips mode (`cb_adf.rs:178-190`). -/
def cbIpsStepCr {σ : Type} (dbg : Bool) (childL : Label F → Depth → Cr (σ × Features F) (Unit × Depth)) (shared : Option (SparseFeatures F))
    (label : CBLabel F) (i : Nat) (d : Depth) : Cr (σ × SparseFeatures F) Depth := do
  appendSharedCr shared
  let l ← Cr.lift (ipsLabel dbg label i)
  let (_, d1) ← onSimple (childL (.simple l) d)
  removeSharedCr shared
  Cr.pure d1

/-- The loop of CbAdf `learn` in ips mode (`cb_adf.rs:177-191`), from position `i` on. -/
def cbIpsLoopCr {σ : Type} (dbg : Bool) (childL : Label F → Depth → Cr (σ × Features F) (Unit × Depth)) (shared : Option (SparseFeatures F))
    (label : CBLabel F) : Nat → List (SparseFeatures F) → Depth → σ → M Depth × (σ × List (SparseFeatures F))
  | _, [], d, s => (.ok d, (s, []))
  | i, a :: as, d, s =>
    nextAction (cbIpsStepCr dbg childL shared label i d (s, a)) as (fun d1 s1 => cbIpsLoopCr dbg childL shared label (i + 1) as d1 s1)

/-- CbAdf `learn` in mtr mode (`cb_adf.rs:193-220`): the sums come first. -/
def cbMtrLearnCr {σ : Type} (childL : Label F → Depth → Cr (σ × Features F) (Unit × Depth)) (label : CBLabel F) (d : Depth) :
    Cr ((MtrState × σ) × CBAdfFeatures F) Depth := do
  let ((mtr, s), f) ← Cr.get
  let mtr : MtrState := ⟨mtr.actionSum + f.actions.length, mtr.eventSum + 1⟩
  Cr.set ((mtr, s), f)
  let l : SimpleLabel F := ⟨label.cost, mtrWeight mtr label.probability⟩
  match f.shared with
  | some sh => do
    let action ← Cr.lift (unwrapOpt f.actions[label.action]?)
    Cr.on (fun _ => (s, sh)) (fun q p => ((p.1.1, q.1), { p.2 with shared := some q.2 })) (do
      Cr.on (·.2) (fun f p => (p.1, f)) action.appendCr
      let (_, d') ← onSimple (childL (.simple l) d)
      Cr.on (·.2) (fun f p => (p.1, f)) action.removeCr
      Cr.pure d')
  | none => Cr.lift (.error .todo)

/-- The part of CbAdf that has the features as `CBAdfFeatures` (`cb_adf.rs:144, 172`). -/
def onCb {σ α : Type} (x : Cr (σ × CBAdfFeatures F) α) : Cr (σ × Features F) α := fun p =>
  match p.2 with
  | .cbAdf f => ((x (p.1, f)).1, ((x (p.1, f)).2.1, .cbAdf (x (p.1, f)).2.2))
  | .simple _ => (.error .typeMismatch, p)

/-- The actions of the features. -/
def onActions {σ α : Type} (x : Option (SparseFeatures F) → List (SparseFeatures F) → σ → M α × (σ × List (SparseFeatures F))) :
    Cr (σ × CBAdfFeatures F) α := fun p =>
  ((x p.2.shared p.2.actions p.1).1, ((x p.2.shared p.2.actions p.1).2.1, ⟨p.2.shared, (x p.2.shared p.2.actions p.1).2.2⟩))

/-- The state of the child of a reduction that has a state of its own. -/
def onChild {σ κ α : Type} (x : Cr (σ × Features F) α) : Cr ((κ × σ) × Features F) α :=
  Cr.on (fun p => (p.1.2, p.2)) (fun q p => ((p.1.1, q.1), q.2)) x

/-- The `predict` of each reduction (lines as for `Red.predictImpl`). The state is not passed mutably (`&self`), so it stays outside. -/
def Red.predictCr (dbg : Bool) : (r : Red F) → r.State → Depth → Cr (Unit × Features F) (Prediction F × Depth)
  | .coin _, c, d => do
      let (_, ft) ← Cr.get
      let f ← Cr.lift ft.asSimple
      let (p, raw) ← Cr.lift (Coin.predict dbg c f)
      Cr.pure (.scalar p raw, d)
  | .binary _ r, s, d => do
      let (p, d) ← wrapCr dbg r.meta d 0 (r.predictCr dbg s)
      let (pred, _) ← Cr.lift p.asScalar
      Cr.pure (.binary (Flt.lt Flt.zero pred), d)
  | .cbAdf _ _ r, s, d => do
      let (scores, d) ← onCb (onActions (fun shared as s' => cbPredictLoopCr (fun d => wrapCr dbg r.meta d 0 (r.predictCr dbg s.2)) shared 0 as d s'))
      Cr.pure (.actionScores scores, d)
  | .greedy _ eps r, s, d => do
      let (p, d) ← wrapCr dbg r.meta d 0 (r.predictCr dbg s)
      let scores ← Cr.lift p.asScores
      let probs ← Cr.lift (greedyProbs eps scores)
      Cr.pure (.actionProbs probs, d)
  | .softmax _ eps lambda r, s, d => do
      let (p, d) ← wrapCr dbg r.meta d 0 (r.predictCr dbg s.2)
      let scores ← Cr.lift p.asScores
      let probs ← Cr.lift (softmaxProbs lambda eps scores)
      Cr.pure (.actionProbs probs, d)
  | .squareCb _ eps gs ge r, s, d => do
      let (p, d) ← wrapCr dbg r.meta d 0 (r.predictCr dbg s.2)
      let scores ← Cr.lift p.asScores
      let probs ← Cr.lift (squareCbProbs (squareCbGamma gs ge s.1) eps scores)
      Cr.pure (.actionProbs probs, d)
  | .debug _ r, s, d => wrapCr dbg r.meta d 0 (r.predictCr dbg s)
  | .elementwise _ pair keep bits r, s, d =>
      elementwiseCr dbg bits pair keep (fun d => wrapCr dbg r.meta d 0 (r.predictCr dbg s)) d

/-- The `learn` of each reduction (lines as for `Red.learnImpl`). SquareCB counts after its child has learned (`cb_explore_adf_squarecb.rs:186-188`). -/
def Red.learnCr (dbg : Bool) : (r : Red F) → Label F → Depth → Cr (r.State × Features F) (Unit × Depth)
  | .coin _, l, d => do
      let (_, ft) ← Cr.get
      let f ← Cr.lift ft.asSimple
      let l ← Cr.lift l.asSimple
      Cr.on (·.1) (fun c p => (c, p.2)) (Coin.learnCr dbg f l.value l.weight)
      Cr.pure ((), d)
  | .binary _ r, l, d => do
      let b ← Cr.lift l.asBinary
      wrapCr dbg r.meta d 0 (r.learnCr dbg (.simple (binaryToSimple b)))
  | .cbAdf _ .ips r, l, d => do
      let (_, ft) ← Cr.get
      let _ ← Cr.lift ft.asCb
      let l ← Cr.lift l.asCb
      let d ← onChild (onCb (onActions (fun shared as s' =>
        cbIpsLoopCr dbg (fun l d => wrapCr dbg r.meta d 0 (r.learnCr dbg l)) shared l 0 as d s')))
      Cr.pure ((), d)
  | .cbAdf _ .mtr r, l, d => do
      let (_, ft) ← Cr.get
      let _ ← Cr.lift ft.asCb
      let l ← Cr.lift l.asCb
      let d ← onCb (cbMtrLearnCr (fun l d => wrapCr dbg r.meta d 0 (r.learnCr dbg l)) l d)
      Cr.pure ((), d)
  | .greedy _ _ r, l, d => wrapCr dbg r.meta d 0 (r.learnCr dbg l)
  | .softmax _ _ _ r, l, d => onChild (wrapCr dbg r.meta d 0 (r.learnCr dbg l))
  | .squareCb _ _ _ _ r, l, d => do
      let l ← Cr.lift l.asCb
      let (_, d) ← onChild (wrapCr dbg r.meta d 0 (r.learnCr dbg (.cb { l with probability := Flt.one })))
      let ((n, s), ft) ← Cr.get
      Cr.set ((n + 1, s), ft)
      Cr.pure ((), d)
  | .debug _ r, l, d => wrapCr dbg r.meta d 0 (r.learnCr dbg l)
  | .elementwise _ pair keep bits r, l, d => elementwiseCr dbg bits pair keep (fun d => wrapCr dbg r.meta d 0 (r.learnCr dbg l)) d

/-- A `predict` as part of a call that may change the state. -/
def Red.predictIn (dbg : Bool) (r : Red F) (d : Depth) : Cr (r.State × Features F) (Prediction F × Depth) := fun p =>
  let q := r.predictCr dbg p.1 d ((), p.2)
  (q.1, (p.1, q.2.2))

/-- The default `predict_then_learn` of the trait (`reduction.rs:297-311`). -/
def Red.defaultCr (dbg : Bool) (r : Red F) (l : Label F) (d : Depth) : Cr (r.State × Features F) (Prediction F × Depth) := do
  let (p, d1) ← r.predictIn dbg d
  let (_, d2) ← r.learnCr dbg l d1
  Cr.lift (massert (decide (d2 = d)))
  Cr.pure (p, d2)

/-- The `predict_then_learn` of each reduction (lines as for `Red.predictThenLearnImpl`). -/
def Red.predictThenLearnCr (dbg : Bool) : (r : Red F) → Label F → Depth → Nat → Cr (r.State × Features F) (Prediction F × Depth)
  | .binary _ r, l, d, _ => do
      let b ← Cr.lift l.asBinary
      let (p, d) ← wrapCr dbg r.meta d 0 (fun d => r.predictThenLearnCr dbg (.simple (binaryToSimple b)) d 0)
      let (pred, _) ← Cr.lift p.asScalar
      Cr.pure (.binary (Flt.lt Flt.zero pred), d)
  | .debug _ r, l, d, off => wrapCr dbg r.meta d off (fun d => r.predictThenLearnCr dbg l d off)
  | .elementwise _ pair keep bits r, l, d, _ =>
      elementwiseCr dbg bits pair keep (fun d => wrapCr dbg r.meta d 0 (fun d => r.predictThenLearnCr dbg l d 0)) d
  | .coin m, l, d, _ => (Red.coin m).defaultCr dbg l d
  | .cbAdf m ty r, l, d, _ => (Red.cbAdf m ty r).defaultCr dbg l d
  | .greedy m e r, l, d, _ => (Red.greedy m e r).defaultCr dbg l d
  | .softmax m e lm r, l, d, _ => (Red.softmax m e lm r).defaultCr dbg l d
  | .squareCb m e gs ge r, l, d, _ => (Red.squareCb m e gs ge r).defaultCr dbg l d

/-- `Workspace::predict` (`workspace.rs:170-174`). -/
def Workspace.predictCr (dbg : Bool) (w : Workspace F) (ft : Features F) : M (Prediction F) × Features F :=
  let r := wrapCr dbg w.red.meta 0 0 (fun d => w.red.predictCr dbg w.st d) ((), ft)
  (r.1.map (·.1), r.2.2)

/-- `Workspace::learn` (`workspace.rs:182-186`). -/
def Workspace.learnCr (dbg : Bool) (w : Workspace F) (ft : Features F) (l : Label F) : M Unit × Workspace F × Features F :=
  let r := wrapCr dbg w.red.meta 0 0 (fun d => w.red.learnCr dbg l d) (w.st, ft)
  (r.1.map (·.1), ⟨w.red, r.2.1⟩, r.2.2)

/-- `Workspace::predict_then_learn` (`workspace.rs:176-180`). -/
def Workspace.predictThenLearnCr (dbg : Bool) (w : Workspace F) (ft : Features F) (l : Label F) : M (Prediction F) × Workspace F × Features F :=
  let r := wrapCr dbg w.red.meta 0 0 (fun d => w.red.predictThenLearnCr dbg l d 0) (w.st, ft)
  (r.1.map (·.1), ⟨w.red, r.2.1⟩, r.2.2)

end Rml
