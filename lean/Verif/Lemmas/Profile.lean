import Verif.Lemmas.Command
import Verif.Spec

/-!
What the debug profile returns, the release profile returns too (C106).
-/

set_option linter.unusedSectionVars false

namespace Rml

/-- The panics that only the debug profile has: arithmetic overflow and failed debug assertions. -/
def DebugPanic (e : Panic) : Prop := e = .overflow ∨ e = .assert

/-- The two computations end in the same way, unless the first has a panic of the debug profile. -/
def Agrees {α : Type} (x y : M α) : Prop := x = y ∨ ∃ e, DebugPanic e ∧ x = .error e

namespace Agrees
variable {α β γ : Type}

theorem refl (x : M α) : Agrees x x := .inl rfl

theorem overflow {y : M α} : Agrees (.error .overflow) y := .inr ⟨_, .inl rfl, rfl⟩

theorem assert {y : M α} : Agrees (.error .assert) y := .inr ⟨_, .inr rfl, rfl⟩

theorem bind {x y : M α} {f g : α → M β} (h : Agrees x y) (hf : ∀ a, Agrees (f a) (g a)) :
    Agrees (x >>= f) (y >>= g) := by
  rcases h with rfl | ⟨e, he, rfl⟩
  · cases x with
    | error e => exact .inl rfl
    | ok a => exact hf a
  · exact .inr ⟨e, he, rfl⟩

theorem ok {x y : M α} (h : Agrees x y) {r : α} (hr : x = .ok r) : y = .ok r := by
  rcases h with rfl | ⟨e, he, rfl⟩
  · exact hr
  · cases hr

theorem foldlM {f g : α → γ → M α} (l : List γ) (h : ∀ a c, Agrees (f a c) (g a c)) : ∀ a, Agrees (l.foldlM f a) (l.foldlM g a) := by
  induction l with
  | nil => exact fun a => refl _
  | cons c l ih =>
    intro a
    rw [List.foldlM_cons, List.foldlM_cons]
    exact bind (h a c) ih

theorem mapM {f g : γ → M α} (l : List γ) (h : ∀ c, Agrees (f c) (g c)) : Agrees (l.mapM f) (l.mapM g) := by
  induction l with
  | nil => exact refl _
  | cons c l ih =>
    rw [List.mapM_cons, List.mapM_cons]
    exact bind (h c) fun _ => bind ih fun _ => refl _

theorem ite {p : Prop} [Decidable p] {x y x' y' : M α} (h : p → Agrees x y) (h' : ¬p → Agrees x' y') :
    Agrees (if p then x else x') (if p then y else y') := by
  split
  · exact h ‹_›
  · exact h' ‹_›

theorem map {x y : M α} (f : α → β) (h : Agrees x y) : Agrees (x.map f) (y.map f) := by
  rcases h with rfl | ⟨e, he, rfl⟩
  · exact .inl rfl
  · exact .inr ⟨e, he, rfl⟩

end Agrees

theorem debugAssert_agrees (b : Bool) : Agrees (debugAssert true b) (debugAssert false b) := by
  cases b
  · exact Agrees.assert
  · exact Agrees.refl _

variable {F : Type} [Flt F]

theorem convertIndex_agrees (w : DenseWeights F) (i m : Nat) : Agrees (w.convertIndex true i m) (w.convertIndex false i m) :=
  (debugAssert_agrees _).bind fun _ => (debugAssert_agrees _).bind fun _ => .refl _

theorem weightAt_agrees (w : DenseWeights F) (i m : Nat) : Agrees (w.weightAt true i m) (w.weightAt false i m) :=
  (convertIndex_agrees w i m).bind fun _ => .refl _

theorem stateAt_agrees (w : DenseWeights F) (i m : Nat) : Agrees (w.stateAt true i m) (w.stateAt false i m) :=
  (convertIndex_agrees w i m).bind fun _ => .refl _

theorem setStateAt_agrees (w : DenseWeights F) (i m : Nat) (s : List F) : Agrees (w.setStateAt true i m s) (w.setStateAt false i m s) :=
  (convertIndex_agrees w i m).bind fun _ => .refl _

theorem coin_predict_agrees (c : Coin F) (f : SparseFeatures F) : Agrees (c.predict true f) (c.predict false f) := by
  unfold Coin.predict
  refine Agrees.bind ?_ fun _ => .refl _
  unfold Coin.rawSum foreachFeature
  exact Agrees.foldlM _ (fun _ iv => (weightAt_agrees _ _ _).bind fun _ => .refl _) _

theorem coin_learn_agrees (c : Coin F) (f : SparseFeatures F) (l w : F) : Agrees (c.learn true f l w) (c.learn false f l w) := by
  unfold Coin.learn
  refine Agrees.bind ?_ fun r => ?_
  · unfold Coin.bettingPredict
    refine Agrees.bind ?_ fun _ => .refl _
    exact Agrees.foldlM _ (fun _ iv => (stateAt_agrees _ _ _).bind fun _ => .refl _) _
  · unfold Coin.updateAfterPredict
    refine Agrees.bind ?_ fun _ => .refl _
    exact Agrees.foldlM _ (fun _ iv => (stateAt_agrees _ _ _).bind fun _ => (Agrees.refl _).bind fun _ => (setStateAt_agrees _ _ _ _).bind fun _ => .refl _) _

theorem u8Mul_agrees (a b : Nat) : Agrees (u8Mul true a b) (u8Mul false a b) := by
  unfold u8Mul
  by_cases h : 256 ≤ a * b
  · simp only [Bool.true_and, decide_eq_true_eq, h, if_true]; exact .overflow
  · simp only [Bool.true_and, decide_eq_true_eq, h, if_false, Bool.false_and, Bool.false_eq_true]; exact .refl _

theorem increment_agrees (d : Depth) (n i : Nat) : Agrees (d.increment true n i) (d.increment false n i) := by
  refine (u8Mul_agrees n i).bind fun p => ?_
  by_cases h : 256 ≤ d + p
  · simp only [Bool.true_and, decide_eq_true_eq, h, if_true]; exact .overflow
  · simp only [Bool.true_and, decide_eq_true_eq, h, if_false, Bool.false_and, Bool.false_eq_true]; exact .refl _

theorem decrement_agrees (d : Depth) (n i : Nat) : Agrees (d.decrement true n i) (d.decrement false n i) := by
  refine (u8Mul_agrees n i).bind fun p => ?_
  by_cases h : d < p
  · simp only [Bool.true_and, decide_eq_true_eq, h, if_true]; exact .overflow
  · simp only [Bool.true_and, decide_eq_true_eq, h, if_false, Bool.false_and, Bool.false_eq_true]; exact .refl _

theorem u32Sub_agrees (a b : U32) : Agrees (u32Sub true a b) (u32Sub false a b) := by
  unfold u32Sub
  by_cases h : a.toNat < b.toNat
  · simp only [Bool.true_and, decide_eq_true_eq, h, if_true]; exact .overflow
  · simp only [Bool.true_and, decide_eq_true_eq, h, if_false, Bool.false_and, Bool.false_eq_true]; exact .refl _

theorem u32Add_agrees (a b : U32) : Agrees (u32Add true a b) (u32Add false a b) := by
  unfold u32Add
  by_cases h : 2 ^ 32 ≤ a.toNat + b.toNat
  · simp only [Bool.true_and, decide_eq_true_eq, h, if_true]; exact .overflow
  · simp only [Bool.true_and, decide_eq_true_eq, h, if_false, Bool.false_and, Bool.false_eq_true]; exact .refl _

theorem addChecked_agrees (a b : U32) : Agrees (addChecked true a b) (addChecked false a b) := u32Add_agrees a b

theorem wrapCall_agrees {α : Type} (m : Meta) (ft : Features F) (d : Depth) (off : Nat) {b b' : Features F → Depth → M (α × Features F × Depth)}
    (h : ∀ ft d, Agrees (b ft d) (b' ft d)) : Agrees (wrapCall true m ft d off b) (wrapCall false m ft d off b') :=
  (increment_agrees _ _ _).bind fun _ => (h _ _).bind fun _ => (decrement_agrees _ _ _).bind fun _ => (debugAssert_agrees _).bind fun _ => .refl _

theorem elementwiseLoop_agrees (b1 b2 cb : U32) : ∀ (n : Nat) (as bs : List (U32 × F)) (dest : NsFeats F),
    Agrees (elementwiseLoop true b1 b2 cb n as bs dest) (elementwiseLoop false b1 b2 cb n as bs dest) := by
  intro n
  induction n with
  | zero => intro as bs dest; exact .refl _
  | succ n ih =>
    intro as bs dest
    match as, bs with
    | [], _ => exact .refl _
    | _ :: _, [] => exact .refl _
    | a :: as, b :: bs =>
      refine (u32Sub_agrees _ _).bind fun i1 => (u32Sub_agrees _ _).bind fun i2 => (u32Add_agrees _ _).bind fun di => ?_
      exact .ite (fun _ => ih _ _ _) fun _ => .ite (fun _ => ih _ _ _) fun _ => ih _ _ _

theorem elementwiseWith_agrees {α : Type} (nb : Nat) (p : Namespace × Namespace) (keep : Bool) {b b' : Features F → Depth → M (α × Features F × Depth)}
    (h : ∀ ft d, Agrees (b ft d) (b' ft d)) (ft : Features F) (d : Depth) :
    Agrees (elementwiseWith true nb p keep b ft d) (elementwiseWith false nb p keep b' ft d) := by
  refine (Agrees.refl _).bind fun f => Agrees.bind ?_ fun r => ?_
  · exact (Agrees.refl _).bind fun _ => (Agrees.refl _).bind fun _ => (elementwiseLoop_agrees _ _ _ _ _ _ _).bind fun _ => .refl _
  · cases keep with
    | true => exact (h _ _).bind fun _ => .refl _
    | false => exact (Agrees.refl _).bind fun _ => (Agrees.refl _).bind fun _ => (h _ _).bind fun _ => .refl _

theorem cbPredictLoop_agrees {c c' : Features F → Depth → M (Prediction F × Features F × Depth)} (h : ∀ ft d, Agrees (c ft d) (c' ft d))
    (sh : Option (SparseFeatures F)) (as : List (SparseFeatures F)) : ∀ i d, Agrees (cbPredictLoop c sh i as d) (cbPredictLoop c' sh i as d) := by
  induction as with
  | nil => intro i d; exact .refl _
  | cons a as ih =>
    intro i d
    exact (Agrees.refl _).bind fun _ => (h _ _).bind fun _ => (Agrees.refl _).bind fun _ => (Agrees.refl _).bind fun _ => (Agrees.refl _).bind fun _ =>
      (ih _ _).bind fun _ => .refl _

theorem predictImpl_agrees (r : Red F) : ∀ (s : r.State) (ft : Features F) (d : Depth), Agrees (r.predictImpl true s ft d) (r.predictImpl false s ft d) := by
  induction r with
  | coin m => intro s ft d; exact (Agrees.refl _).bind fun _ => (coin_predict_agrees _ _).bind fun _ => .refl _
  | binary m r ih => intro s ft d; exact (wrapCall_agrees _ _ _ _ (ih s)).bind fun _ => .refl _
  | cbAdf m ty r ih =>
    intro s ft d
    exact (Agrees.refl _).bind fun _ => (cbPredictLoop_agrees (fun ft d => wrapCall_agrees _ _ _ _ (ih s.2)) _ _ _ _).bind fun _ => .refl _
  | greedy m e r ih => intro s ft d; exact (wrapCall_agrees _ _ _ _ (ih s)).bind fun _ => .refl _
  | softmax m e l r ih => intro s ft d; exact (wrapCall_agrees _ _ _ _ (ih s.2)).bind fun _ => .refl _
  | squareCb m e a b r ih => intro s ft d; exact (wrapCall_agrees _ _ _ _ (ih s.2)).bind fun _ => .refl _
  | debug m r ih => intro s ft d; exact wrapCall_agrees _ _ _ _ (ih s)
  | elementwise m p k n r ih => intro s ft d; exact elementwiseWith_agrees _ _ _ (fun ft d => wrapCall_agrees _ _ _ _ (ih s)) _ _

theorem ipsLabel_agrees (l : CBLabel F) (i : Nat) : Agrees (ipsLabel true l i) (ipsLabel false l i) :=
  .ite (fun _ => (debugAssert_agrees _).bind fun _ => .refl _) fun _ => .refl _

theorem cbIpsLoop_agrees {S : Type} {c c' : S → Features F → Label F → Depth → M (S × Features F × Depth)} (h : ∀ s ft l d, Agrees (c s ft l d) (c' s ft l d))
    (sh : Option (SparseFeatures F)) (l : CBLabel F) (as : List (SparseFeatures F)) : ∀ i s d,
    Agrees (cbIpsLoop true c sh l i as s d) (cbIpsLoop false c' sh l i as s d) := by
  induction as with
  | nil => intro i s d; exact .refl _
  | cons a as ih =>
    intro i s d
    exact (Agrees.refl _).bind fun _ => (ipsLabel_agrees _ _).bind fun _ => (h _ _ _ _).bind fun _ => (Agrees.refl _).bind fun _ => (Agrees.refl _).bind fun _ =>
      (ih _ _ _).bind fun _ => .refl _

theorem cbMtrLearn_agrees {S : Type} {c c' : S → Features F → Label F → Depth → M (S × Features F × Depth)} (h : ∀ s ft l d, Agrees (c s ft l d) (c' s ft l d))
    (f : CBAdfFeatures F) (l : CBLabel F) (mt : MtrState) (s : S) (d : Depth) : Agrees (cbMtrLearn c f l mt s d) (cbMtrLearn c' f l mt s d) := by
  unfold cbMtrLearn
  cases f.shared with
  | none => exact .refl _
  | some sh => exact (Agrees.refl _).bind fun _ => (Agrees.refl _).bind fun _ => (h _ _ _ _).bind fun _ => .refl _

theorem learnImpl_agrees (r : Red F) : ∀ (s : r.State) (ft : Features F) (l : Label F) (d : Depth),
    Agrees (r.learnImpl true s ft l d) (r.learnImpl false s ft l d) := by
  induction r with
  | coin m =>
    intro s ft l d
    exact (Agrees.refl _).bind fun _ => (Agrees.refl _).bind fun _ => (coin_learn_agrees _ _ _ _).bind fun _ => .refl _
  | binary m r ih => intro s ft l d; exact (Agrees.refl _).bind fun _ => wrapCall_agrees _ _ _ _ fun ft d => ih s ft _ d
  | cbAdf m ty r ih =>
    intro s ft l d
    have hc : ∀ (s : r.State) (ft : Features F) (l : Label F) (d : Depth), Agrees (wrapCall true r.meta ft d 0 (fun ft d => r.learnImpl true s ft l d))
        (wrapCall false r.meta ft d 0 (fun ft d => r.learnImpl false s ft l d)) := fun s ft l d => wrapCall_agrees _ _ _ _ fun ft d => ih s ft l d
    refine (Agrees.refl _).bind fun f => (Agrees.refl _).bind fun l => ?_
    cases ty with
    | ips => exact (cbIpsLoop_agrees hc _ _ _ _ _ _).bind fun _ => .refl _
    | mtr => exact (cbMtrLearn_agrees hc _ _ _ _ _).bind fun _ => .refl _
  | greedy m e r ih => intro s ft l d; exact wrapCall_agrees _ _ _ _ fun ft d => ih s ft _ d
  | softmax m e la r ih => intro s ft l d; exact (wrapCall_agrees _ _ _ _ fun ft d => ih s.2 ft _ d).bind fun _ => .refl _
  | squareCb m e a b r ih =>
    intro s ft l d
    exact (Agrees.refl _).bind fun _ => (wrapCall_agrees _ _ _ _ fun ft d => ih s.2 ft _ d).bind fun _ => .refl _
  | debug m r ih => intro s ft l d; exact wrapCall_agrees _ _ _ _ fun ft d => ih s ft _ d
  | elementwise m p k n r ih =>
    intro s ft l d
    exact elementwiseWith_agrees _ _ _ (fun ft d => wrapCall_agrees _ _ _ _ fun ft d => ih s ft _ d) _ _

theorem defaultPtl_agrees {S : Type} {p p' : Features F → Depth → M (Prediction F × Features F × Depth)} (hp : ∀ ft d, Agrees (p ft d) (p' ft d))
    {l l' : Features F → Depth → M (S × Features F × Depth)} (hl : ∀ ft d, Agrees (l ft d) (l' ft d)) (ft : Features F) (d : Depth) :
    Agrees (defaultPredictThenLearn p l ft d) (defaultPredictThenLearn p' l' ft d) :=
  (hp _ _).bind fun _ => (hl _ _).bind fun _ => .refl _

theorem ptlImpl_agrees (r : Red F) : ∀ (s : r.State) (ft : Features F) (l : Label F) (d : Depth) (off : Nat),
    Agrees (r.predictThenLearnImpl true s ft l d off) (r.predictThenLearnImpl false s ft l d off) := by
  induction r with
  | coin m => intro s ft l d off; exact defaultPtl_agrees (predictImpl_agrees _ s) (fun ft d => learnImpl_agrees (.coin m) s ft l d) _ _
  | cbAdf m ty r ih => intro s ft l d off; exact defaultPtl_agrees (predictImpl_agrees _ s) (fun ft d => learnImpl_agrees (.cbAdf m ty r) s ft l d) _ _
  | greedy m e r ih => intro s ft l d off; exact defaultPtl_agrees (predictImpl_agrees (.greedy m e r) s) (fun ft d => learnImpl_agrees (.greedy m e r) s ft l d) _ _
  | softmax m e la r ih => intro s ft l d off; exact defaultPtl_agrees (predictImpl_agrees _ s) (fun ft d => learnImpl_agrees (.softmax m e la r) s ft l d) _ _
  | squareCb m e a b r ih => intro s ft l d off; exact defaultPtl_agrees (predictImpl_agrees _ s) (fun ft d => learnImpl_agrees (.squareCb m e a b r) s ft l d) _ _
  | binary m r ih =>
    intro s ft l d off
    exact (Agrees.refl _).bind fun _ => (wrapCall_agrees _ _ _ _ fun ft d => ih s ft _ d 0).bind fun _ => .refl _
  | debug m r ih => intro s ft l d off; exact wrapCall_agrees _ _ _ _ fun ft d => ih s ft l d off
  | elementwise m p k n r ih =>
    intro s ft l d off
    exact elementwiseWith_agrees _ _ _ (fun ft d => wrapCall_agrees _ _ _ _ fun ft d => ih s ft _ d 0) _ _

theorem ws_predict_agrees (w : Workspace F) (ft : Features F) : Agrees (w.predict true ft) (w.predict false ft) :=
  (wrapCall_agrees _ _ _ _ (predictImpl_agrees w.red w.st)).bind fun _ => .refl _

theorem ws_learn_agrees (w : Workspace F) (ft : Features F) (l : Label F) : Agrees (w.learn true ft l) (w.learn false ft l) :=
  (wrapCall_agrees _ _ _ _ fun ft d => learnImpl_agrees w.red w.st ft l d).bind fun _ => .refl _

theorem ws_ptl_agrees (w : Workspace F) (ft : Features F) (l : Label F) : Agrees (w.predictThenLearn true ft l) (w.predictThenLearn false ft l) :=
  (wrapCall_agrees _ _ _ _ fun ft d => ptlImpl_agrees w.red w.st ft l d 0).bind fun _ => .refl _

theorem run_agrees (calls : List (Call F)) : ∀ S : Session F, Agrees (S.run true calls) (S.run false calls) := by
  induction calls with
  | nil => intro S; exact .refl _
  | cons c cs ih =>
    intro S
    refine Agrees.bind ?_ fun _ => (ih _).bind fun _ => .refl _
    cases c with
    | predict i => exact (ws_predict_agrees _ _).bind fun _ => .refl _
    | learn i l => exact (ws_learn_agrees _ _ _).bind fun _ => .refl _
    | predictThenLearn i l => exact (ws_ptl_agrees _ _ _).bind fun _ => .refl _

theorem hash_agrees (hash : HashFn) (h : U32) (p : ParsedFeature) : Agrees (p.hash hash true h) (p.hash hash false h) := by
  cases p with
  | anonymous o => exact addChecked_agrees _ _
  | _ => exact .refl _

/-! ### Parsers -/

namespace Vw
open Text

/-- The two computations end in the same way, unless the first has a panic of the debug profile. -/
def Same {α : Type} (x y : P α) : Prop := x = y ∨ ∃ e, DebugPanic e ∧ x = .error (.panic e)

namespace Same
variable {α β γ : Type}

theorem refl (x : P α) : Same x x := .inl rfl

theorem bind {x y : P α} {f g : α → P β} (h : Same x y) (hf : ∀ a, Same (f a) (g a)) : Same (x >>= f) (y >>= g) := by
  rcases h with rfl | ⟨e, he, rfl⟩
  · cases x with
    | error e => exact .inl rfl
    | ok a => exact hf a
  · exact .inr ⟨e, he, rfl⟩

theorem foldlM {f g : α → γ → P α} (l : List γ) (h : ∀ a c, Same (f a c) (g a c)) : ∀ a, Same (l.foldlM f a) (l.foldlM g a) := by
  induction l with
  | nil => exact fun a => refl _
  | cons c l ih =>
    intro a
    rw [List.foldlM_cons, List.foldlM_cons]
    exact bind (h a c) ih

theorem lift {x y : M α} (h : Agrees x y) : Same (liftM x) (liftM y) := by
  rcases h with rfl | ⟨e, he, rfl⟩
  · exact .inl rfl
  · exact .inr ⟨e, he, rfl⟩

end Same

variable {F : Type} [Flt F]

/-- The parser with the checks of the given profile. -/
def Parser.profile (pr : Parser F) (dbg : Bool) : Parser F := { pr with dbg := dbg }

theorem parseFeature_same (pr : Parser F) (t : Str) (c : U32) : Same (parseFeature (pr.profile true) t c) (parseFeature (pr.profile false) t c) := by
  unfold parseFeature
  split
  · show Same (match pr.parseFloat t.tail with | some _ => _ | none => _) (match pr.parseFloat t.tail with | some _ => _ | none => _)
    cases pr.parseFloat t.tail with
    | none => exact .refl _
    | some v => exact (Same.lift (addChecked_agrees _ _)).bind fun _ => .refl _
  · exact .refl _

theorem featureStep_same (pr : Parser F) (h : U32) (v : F) (a : NsFeats F × U32) (t : Str) :
    Same (featureStep (pr.profile true) h v a t) (featureStep (pr.profile false) h v a t) := by
  unfold featureStep
  refine (parseFeature_same pr t a.2).bind fun _ => ?_
  exact (Same.lift (hash_agrees _ _ _)).bind fun _ => .refl _

theorem parseNamespaceInline_same (pr : Parser F) (s : Str) (d : SparseFeatures F) :
    Same (parseNamespaceInline (pr.profile true) s d) (parseNamespaceInline (pr.profile false) s d) := by
  refine (Same.refl (segmentHead pr s)).bind fun r => Same.bind ?_ fun _ => .refl _
  exact Same.foldlM _ (featureStep_same pr _ _) _

theorem parseTextLine_same (pr : Parser F) (s : Str) (d : SparseFeatures F) :
    Same (parseTextLine (pr.profile true) s d) (parseTextLine (pr.profile false) s d) := by
  unfold parseTextLine
  cases split '|' s with
  | nil => exact .refl _
  | cons i ss =>
    refine (Same.refl (parseInitialSegment pr i)).bind fun _ => Same.bind ?_ fun _ => .refl _
    exact Same.foldlM _ (fun d s => parseNamespaceInline_same pr s d) _

theorem parseLines_same (pr : Parser F) (ls : List Str) : ∀ pool, Same (parseLines (pr.profile true) ls pool) (parseLines (pr.profile false) ls pool) := by
  induction ls with
  | nil => intro pool; exact .refl _
  | cons l ls ih => intro pool; exact (parseTextLine_same pr l _).bind fun _ => (ih _).bind fun _ => .refl _

theorem parseChunk_same (pr : Parser F) (pool : Pool (SparseFeatures F)) (chunk : Str) :
    Same (parseChunk (pr.profile true) pool chunk) (parseChunk (pr.profile false) pool chunk) := by
  unfold parseChunk
  show Same (if pr.isMultiline then _ else _) (if pr.isMultiline then _ else _)
  split
  · exact (parseLines_same pr _ _).bind fun _ => (Same.refl (finalizeMultiline pr _ _)).bind fun _ => .refl _
  · exact (parseTextLine_same pr _ _).bind fun _ => .refl _

end Vw

namespace Js
open Text
variable {F N : Type} [Flt F]

/-- The parser with the checks of the given profile. -/
def Parser.profile (pr : Parser F N) (dbg : Bool) : Parser F N := { pr with dbg := dbg }

theorem contents_agrees (pr : Parser F N) (n : NsFeats F) (v : Json N) : Agrees (contents (pr.profile true) n v) (contents (pr.profile false) n v) := by
  unfold contents
  cases v with
  | arr ar =>
    match ar with
    | [] => exact .refl _
    | .num x :: l => exact Agrees.bind ((addChecked_agrees _ _).bind fun _ => .refl _) fun _ => .refl _
    | .str x :: l =>
      refine (Agrees.refl (n.reserve _)).bind fun _ => ?_
      exact Agrees.foldlM _ (fun _ s => (Agrees.refl (asStr s)).bind fun _ => (hash_agrees _ _ _).bind fun _ => .refl _) _
    | .null :: l => exact .refl _
    | .bool b :: l => exact .refl _
    | .arr b :: l => exact .refl _
    | .obj b :: l => exact .refl _
  | obj l =>
    refine Agrees.foldlM _ (fun a e => ?_) _
    unfold entryStep
    split
    · exact (hash_agrees _ _ _).bind fun _ => .refl _
    · exact (hash_agrees _ _ _).bind fun _ => .refl _
    · exact (hash_agrees _ _ _).bind fun _ => .refl _
    · exact .refl _
    · exact .refl _
  | _ => exact .refl _

theorem toFeatures_agrees (pr : Parser F N) (v : Json N) (o : SparseFeatures F) : Agrees (toFeatures (pr.profile true) v o) (toFeatures (pr.profile false) v o) := by
  unfold toFeatures
  cases v with
  | obj l => exact Agrees.foldlM _ (fun a e => (contents_agrees pr _ _).bind fun _ => .refl _) _
  | _ => exact .refl _

theorem actions_agrees (pr : Parser F N) (vs : List (Json N)) : ∀ pool, Agrees (actions (pr.profile true) vs pool) (actions (pr.profile false) vs pool) := by
  induction vs with
  | nil => intro pool; exact .refl _
  | cons v vs ih => intro pool; exact (toFeatures_agrees pr _ _).bind fun _ => (ih _).bind fun _ => .refl _

theorem shared_agrees (pr : Parser F N) (j : Json N) (pool : Pool (SparseFeatures F)) : Agrees (shared (pr.profile true) j pool) (shared (pr.profile false) j pool) := by
  unfold shared
  split
  · exact .refl _
  · exact (toFeatures_agrees pr _ _).bind fun _ => .refl _

theorem parseFeatures_agrees (pr : Parser F N) (j : Json N) (pool : Pool (SparseFeatures F)) :
    Agrees (parseFeatures (pr.profile true) j pool) (parseFeatures (pr.profile false) j pool) := by
  unfold parseFeatures
  show Agrees (match pr.featuresType with | .sparseSimple => _ | .sparseCBAdf => _) (match pr.featuresType with | .sparseSimple => _ | .sparseCBAdf => _)
  cases pr.featuresType with
  | sparseSimple =>
    simp only
    split
    · exact .refl _
    · exact (toFeatures_agrees pr _ _).bind fun _ => .refl _
  | sparseCBAdf =>
    refine (shared_agrees pr _ _).bind fun _ => ?_
    simp only
    split
    · exact .refl _
    · exact (actions_agrees pr _ _).bind fun _ => .refl _
    · exact .refl _

theorem parseChunk_agrees (pr : Parser F N) (pool : Pool (SparseFeatures F)) (chunk : Str) :
    Agrees (parseChunk (pr.profile true) pool chunk) (parseChunk (pr.profile false) pool chunk) :=
  (Agrees.refl (unwrapOpt (pr.parseJson chunk))).bind fun _ => (parseFeatures_agrees pr _ _).bind fun _ => (Agrees.refl (parseLabel pr _)).bind fun _ => .refl _

end Js

namespace Ds
open Text Js
variable {F N : Type} [Flt F]

theorem addTo_agrees (pr : Parser F N) (p : ParsedFeature) (v : F) (ns : Namespace) (f : SparseFeatures F) :
    Agrees (addTo (pr.profile true) p v ns f) (addTo (pr.profile false) p v ns f) := (hash_agrees _ _ _).bind fun _ => .refl _

theorem addTop_agrees (pr : Parser F N) (p : ParsedFeature) (v : F) (st : List Namespace) (f : SparseFeatures F) :
    Agrees (addTop (pr.profile true) p v st f) (addTop (pr.profile false) p v st f) := by
  unfold addTop
  cases st with
  | nil => exact .refl _
  | cons ns st => exact addTo_agrees _ _ _ _ _

mutual
theorem handle_agrees (pr : Parser F N) (key : Str) (v : Json N) (st : List Namespace) (f : SparseFeatures F) :
    Agrees (handle (pr.profile true) key v st f) (handle (pr.profile false) key v st f) := by
  unfold handle
  refine .ite (fun _ => .refl _) fun _ => ?_
  match v with
  | .null => exact .refl _
  | .bool true => exact (addTop_agrees _ _ _ _ _).map _
  | .bool false => exact .refl _
  | .num x => exact (addTop_agrees _ _ _ _ _).map _
  | .str s => exact (addTop_agrees _ _ _ _ _).map _
  | .arr l => exact (handleArr_agrees pr key _ 0 l _ f).bind fun _ => .refl _
  | .obj l => exact (handleObj_agrees pr l _ f).bind fun _ => .refl _

theorem handleArr_agrees (pr : Parser F N) (key : Str) (ns : Namespace) (i : Nat) (l : List (Json N)) (st : List Namespace) (f : SparseFeatures F) :
    Agrees (handleArr (pr.profile true) key ns i l st f) (handleArr (pr.profile false) key ns i l st f) := by
  match l with
  | [] => unfold handleArr; exact .refl _
  | .num x :: vs =>
    unfold handleArr
    exact (addTo_agrees _ _ _ _ _).bind fun f => handleArr_agrees pr key ns (i + 1) vs st f
  | .obj o :: vs =>
    unfold handleArr
    exact (handle_agrees pr key (.obj o) st f).bind fun r => handleArr_agrees pr key ns (i + 1) vs r.2 r.1
  | .null :: vs =>
    unfold handleArr
    exact handleArr_agrees pr key ns (i + 1) vs st f
  | .bool b :: vs => unfold handleArr; exact .refl _
  | .str b :: vs => unfold handleArr; exact .refl _
  | .arr b :: vs => unfold handleArr; exact .refl _

theorem handleObj_agrees (pr : Parser F N) (l : List (Str × Json N)) (st : List Namespace) (f : SparseFeatures F) :
    Agrees (handleObj (pr.profile true) l st f) (handleObj (pr.profile false) l st f) := by
  match l with
  | [] => unfold handleObj; exact .refl _
  | (k, v) :: vs =>
    unfold handleObj
    exact (handle_agrees pr k v st f).bind fun r => handleObj_agrees pr vs r.2 r.1
end

theorem example_agrees (pr : Parser F N) (v : Json N) (st : List Namespace) (pool : Pool (SparseFeatures F)) :
    Agrees (example_ (pr.profile true) v st pool) (example_ (pr.profile false) v st pool) := (handle_agrees pr _ _ _ _).bind fun _ => .refl _

theorem actions_agrees (pr : Parser F N) (vs : List (Json N)) : ∀ st pool, Agrees (actions (pr.profile true) vs st pool) (actions (pr.profile false) vs st pool) := by
  induction vs with
  | nil => intro st pool; exact .refl _
  | cons v vs ih => intro st pool; exact (example_agrees pr _ _ _).bind fun _ => (ih _ _).bind fun _ => .refl _

theorem parseChunk_agrees (pr : Parser F N) (pool : Pool (SparseFeatures F)) (chunk : Str) :
    Agrees (parseChunk (pr.profile true) pool chunk) (parseChunk (pr.profile false) pool chunk) :=
  (Agrees.refl (unwrapOpt (pr.parseJson chunk))).bind fun _ => (example_agrees pr _ _ _).bind fun _ => (Agrees.refl (iterArray _)).bind fun _ =>
    (actions_agrees pr _ _ _).bind fun _ => (Agrees.refl (label pr _)).bind fun _ => .refl _

end Ds

end Rml
