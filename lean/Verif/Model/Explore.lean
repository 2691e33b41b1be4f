import Verif.Model.Base

/-
`explore.rs` and the score-to-probability functions of the exploration reductions.
-/

namespace Rml
variable {F : Type} [Flt F]

/-- Insert in descending order, after equal elements' predecessors (stable when built from the right). -/
def insertDesc (x : F) : List F → List F
  | [] => [x]
  | y :: ys => if Flt.lt x y then y :: insertDesc x ys else x :: y :: ys

/-- Stable descending sort: `elements_copy.sort_by(|p1, p2| p2.partial_cmp(p1).unwrap())` (`explore.rs:43-45`), on the
probabilities only (the action ids of the copy are never used). -/
def sortDesc : List F → List F
  | [] => []
  | x :: xs => insertDesc x (sortDesc xs)

/-- `partial_cmp(..).unwrap()` in a sort or `min_by` panics iff two or more elements are compared and one is NaN. -/
def cmpCheck (ps : List F) : M Unit :=
  if 2 ≤ ps.length ∧ ps.any Flt.isNaN then .error .unwrap else .ok ()

/-- State of the loop of `enforce_min_prob` (`explore.rs:47-50`). -/
structure RhoState (F : Type) where
  idx : Nat
  runningSum : F
  rhoIdx : Nat
  rhoSum : F

/-- The loop of `enforce_min_prob` (`explore.rs:52-67`). `support_size - idx - 1` underflows if `idx >= support_size`. -/
def rhoLoop (considerZero : Bool) (support : Nat) (m : F) : List F → RhoState F → M (RhoState F)
  | [], s => .ok s
  | p :: ps, s =>
    if !considerZero && Flt.eq p Flt.zero then .ok s
    else if support < s.idx + 1 then .error .overflow
    else
      let rs := Flt.add s.runningSum p
      let thr := Flt.add (Flt.div (Flt.sub (Flt.add (Flt.mul (Flt.ofNat (support - s.idx - 1)) m) rs) Flt.one)
                    (Flt.add (Flt.ofNat s.idx) Flt.one)) m
      let s := if Flt.lt thr p then { s with rhoIdx := s.idx, rhoSum := rs } else s
      rhoLoop considerZero support m ps { s with idx := s.idx + 1, runningSum := rs }

/-- `enforce_min_prob` (`explore.rs:3-78`). `none` is `Err(InvalidArgument)`. -/
def enforceMinProb (eps : F) (considerZero : Bool) (els : List (Nat × F)) : M (Option (List (Nat × F))) :=
  if els.length = 0 then .ok none
  else if Flt.eq eps Flt.zero then .ok (some els)
  else if Flt.lt eps Flt.zero || Flt.lt Flt.one eps then .ok none
  else
    let support := if considerZero then els.length
      else els.length - (els.filter (fun e => Flt.eq e.2 Flt.zero)).length
    if Flt.lt (Flt.lit 999 1000) eps then
      .ok (some (els.map (fun e =>
        if considerZero || Flt.lt Flt.zero e.2 then (e.1, Flt.div Flt.one (Flt.ofNat support)) else e)))
    else do
      let m := Flt.div eps (Flt.ofNat support)
      cmpCheck (els.map (·.2))
      match sortDesc (els.map (·.2)) with
      | [] => .error .index
      | p0 :: ps => do
        let s ← rhoLoop considerZero support m (p0 :: ps) ⟨0, Flt.zero, 0, p0⟩
        let tau := Flt.div
          (Flt.sub (Flt.add (Flt.mul (Flt.sub (Flt.sub (Flt.ofNat support) (Flt.ofNat s.rhoIdx)) Flt.one) m) s.rhoSum)
            Flt.one)
          (Flt.add (Flt.ofNat s.rhoIdx) Flt.one)
        .ok (some (els.map (fun e =>
          if considerZero || Flt.lt Flt.zero e.2 then (e.1, Flt.fmax (Flt.sub e.2 tau) m) else e)))

/-- `Iterator::min_by` returning the position: keeps the earlier element unless the later one is strictly smaller. -/
def argMinFrom (i best : Nat) (bv : F) : List F → Nat
  | [] => best
  | y :: ys => if Flt.lt y bv then argMinFrom (i + 1) i y ys else argMinFrom (i + 1) best bv ys

/-- `iter().enumerate().min_by(..)` followed by taking the index; `None` on empty input. -/
def argMin : List F → Option Nat
  | [] => none
  | x :: xs => some (argMinFrom 1 0 x xs)

/-- `action_scores_to_probs` (`cb_explore_adf_greedy.rs:121-149`). -/
def greedyProbs (eps : F) (scores : List (Nat × F)) : M (List (Nat × F)) := do
  let best ← unwrapOpt (argMin (scores.map (·.2)))
  let eq := Flt.div eps (Flt.ofNat scores.length)
  let ps := scores.map (fun e => (e.1, eq))
  match ps[best]? with
  | some e => .ok (ps.set best (e.1, Flt.add e.2 (Flt.sub Flt.one eps)))
  | none => .error .index

/-- `enforce_min_prob(..).unwrap()`. -/
def enforceUnwrap (eps : F) (els : List (Nat × F)) : M (List (Nat × F)) := do
  let r ← enforceMinProb eps false els
  unwrapOpt r

/-- The body of softmax `predict` after the base prediction (`cb_explore_adf_softmax.rs:125-146`). -/
def softmaxProbs (lambda eps : F) (scores : List (Nat × F)) : M (List (Nat × F)) := do
  cmpCheck (scores.map (·.2))
  let best ← unwrapOpt (argMin (scores.map (·.2)))
  match scores[best]? with
  | none => .error .index
  | some be =>
    let ws := scores.map (fun e => (e.1, Flt.exp (Flt.mul (Flt.neg lambda) (Flt.sub e.2 be.2))))
    let total := ws.foldl (fun t e => Flt.add t e.2) Flt.zero
    enforceUnwrap eps (ws.map (fun e => (e.1, Flt.div e.2 total)))

/-- `gamma` of SquareCB (`cb_explore_adf_squarecb.rs:142-143`). -/
def squareCbGamma (gammaScale gammaExponent : F) (counter : Nat) : F :=
  Flt.mul gammaScale (Flt.powf (Flt.ofNat counter) gammaExponent)

/-- The body of SquareCB `predict` after the base prediction (`cb_explore_adf_squarecb.rs:147-172`). -/
def squareCbProbs (gamma eps : F) (scores : List (Nat × F)) : M (List (Nat × F)) := do
  cmpCheck (scores.map (·.2))
  let best ← unwrapOpt (argMin (scores.map (·.2)))
  match scores[best]? with
  | none => .error .index
  | some be =>
    let upd := fun (e : Nat × F) =>
      if e.1 = be.1 then e
      else (e.1, Flt.div Flt.one (Flt.add (Flt.ofNat scores.length) (Flt.mul gamma (Flt.sub e.2 be.2))))
    let ws := scores.map upd
    let total := scores.foldl (fun t e => if e.1 = be.1 then t else Flt.add t (upd e).2) Flt.zero
    match ws[best]? with
    | none => .error .index
    | some e => enforceUnwrap eps (ws.set best (e.1, Flt.sub Flt.one total))

end Rml
