import Verif.Lemmas.PythonCrash
import Verif.Props.Python

/-! C107: Python programs that catch the exceptions of panicking calls and go on. -/

namespace Rml
namespace Py
open Text Cli
variable {F : Type} [Flt F] {N : Type}

/-- C107: catching exceptions changes nothing for calls that return, and a call that panics raises the same exception. -/
theorem C107_same_results (e : Env F N) (lost : Nat) (s : State F) (c : Call F) :
    (∀ r s', step e lost s c = .ok (r, s') → attempt e lost s c = (.ok r, s')) ∧ ∀ p, step e lost s c = .error p → (attempt e lost s c).1 = .error p := by
  cases c with
  | predict w f =>
    simp only [step, predict, attempt]
    cases hw : s.heap[w]? with
    | none => simp
    | some o =>
      cases hf : s.heap[f]? with
      | none => cases o <;> simp
      | some o' =>
        cases o with
        | workspace m =>
          cases o' with
          | features ft =>
            simp only
            cases h1 : m.ws.predict e.x.dbg ft with
            | error q => exact ⟨fun r s' h => (by cases h), fun p h => by cases h; rw [predictCr_error _ _ _ h1]; rfl⟩
            | ok x =>
              obtain ⟨p, ft'⟩ := x
              rw [predictCr_ok _ _ _ h1]
              simp only [ok_bind]
              cases predictionToPy p with
              | error q => exact ⟨fun r s' h => (by cases h), fun p h => by cases h; rfl⟩
              | ok q => exact ⟨fun r s' h => (by cases h; rfl), fun p h => by cases h⟩
          | _ => simp
        | _ => simp
  | learn w f l =>
    simp only [step, learn, attempt]
    cases hw : s.heap[w]? with
    | none => simp
    | some o =>
      cases hf : s.heap[f]? with
      | none => cases o <;> simp
      | some o' =>
        cases o with
        | workspace m =>
          cases o' with
          | features ft =>
            simp only
            cases h1 : m.ws.learn e.x.dbg ft l.toLabel with
            | error q => exact ⟨fun r s' h => (by cases h), fun p h => by cases h; rw [learnCr_error _ _ _ _ h1]; rfl⟩
            | ok x =>
              obtain ⟨ws, ft'⟩ := x
              rw [learnCr_ok _ _ _ _ h1]
              exact ⟨fun r s' h => (by cases h; rfl), fun p h => by cases h⟩
          | _ => simp
        | _ => simp
  | predictThenLearn w f l =>
    simp only [step, predictThenLearn, attempt]
    cases hw : s.heap[w]? with
    | none => simp
    | some o =>
      cases hf : s.heap[f]? with
      | none => cases o <;> simp
      | some o' =>
        cases o with
        | workspace m =>
          cases o' with
          | features ft =>
            simp only
            cases h1 : m.ws.predictThenLearn e.x.dbg ft l.toLabel with
            | error q => exact ⟨fun r s' h => (by cases h), fun p h => by cases h; rw [predictThenLearnCr_error _ _ _ _ h1]; rfl⟩
            | ok x =>
              obtain ⟨p, ws, ft'⟩ := x
              rw [predictThenLearnCr_ok _ _ _ _ h1]
              simp only [ok_bind]
              cases predictionToPy p with
              | error q => exact ⟨fun r s' h => (by cases h), fun p h => by cases h; rfl⟩
              | ok q => exact ⟨fun r s' h => (by cases h; rfl), fun p h => by cases h⟩
          | _ => simp
        | _ => simp
  | _ =>
    refine ⟨fun r s' h => ?_, fun p h => ?_⟩
    all_goals
      simp only [attempt]
      simp only [step] at h
      simp only [step, h]

/-- C107: a call, whether it returns or panics, changes no object but the ones that it is given; no object disappears. -/
theorem C107_others (e : Env F N) (lost : Nat) (s : State F) (c : Call F) (i : Nat) (hi : i < s.heap.length) (hc : i ∉ c.arguments) :
    (attempt e lost s c).2.heap[i]? = s.heap[i]? := by
  have hadd : ∀ (t : State F) (o : Obj F), t.heap = s.heap → (t.add o).2.heap[i]? = s.heap[i]? := fun t o ht => by
    simp only [State.add, ht, List.getElem?_append_left hi]
  cases c with
  | predict w f =>
    simp only [Call.arguments, List.mem_singleton] at hc
    simp only [attempt]
    split
    · simp only [State.put]; rw [List.getElem?_set_ne (Ne.symm hc)]
    · rfl
  | learn w f l =>
    simp only [Call.arguments, List.mem_cons, List.not_mem_nil, or_false, not_or] at hc
    simp only [attempt]
    split
    · simp only [State.put]; rw [List.getElem?_set_ne (Ne.symm hc.2), List.getElem?_set_ne (Ne.symm hc.1)]
    · rfl
  | predictThenLearn w f l =>
    simp only [Call.arguments, List.mem_cons, List.not_mem_nil, or_false, not_or] at hc
    simp only [attempt]
    split
    · simp only [State.put]; rw [List.getElem?_set_ne (Ne.symm hc.2), List.getElem?_set_ne (Ne.symm hc.1)]
    · rfl
  | parse p text =>
    simp only [attempt, parse]
    split
    · rename_i r s' h
      split at h
      · obtain ⟨tp, h1, h⟩ := bind_ok.1 h
        split at h
        · obtain ⟨l, h2, h⟩ := bind_ok.1 h
          cases h
          exact hadd _ _ rfl
        · cases h; rfl
        · cases h
      · cases h; rfl
    · rfl
  | del j =>
    simp only [Call.arguments, List.mem_singleton] at hc
    simp only [attempt, step, del]
    cases s.heap[j]? with
    | none => rfl
    | some o =>
      cases o with
      | gone => rfl
      | _ => simp only [State.put]; rw [List.getElem?_set_ne (Ne.symm hc)]
  | fromConfig j =>
    simp only [attempt, step, fromConfig]
    cases Cfg.newWorkspace e.x.hash j with
    | ok m => exact hadd _ _ rfl
    | error er => cases er <;> rfl
  | fromModel b =>
    simp only [attempt, step, fromModel]
    cases s.heap[b]? with
    | none => rfl
    | some o =>
      cases o with
      | bytes d =>
        simp only
        cases Serde.createFromModel d with
        | error p => rfl
        | ok m => exact hadd _ _ rfl
      | _ => rfl
  | fromJsonModel j =>
    simp only [attempt, step, fromJsonModel]
    cases Serde.deserializeFromJson e.fin j with
    | ok m => exact hadd _ _ rfl
    | error er => cases er <;> rfl
  | createParser w fmt =>
    simp only [attempt, step, createParser]
    cases s.heap[w]? with
    | none => rfl
    | some o =>
      cases o with
      | workspace m =>
        simp only [newParser]
        cases DataFormat.getParser e.x fmt _ _ _ _ with
        | error p => rfl
        | ok p => exact hadd _ _ rfl
      | _ => rfl
  | newParser fmt ft lt seed nb =>
    simp only [attempt, step, newParser]
    cases DataFormat.getParser e.x fmt _ _ _ _ with
    | error p => rfl
    | ok p => exact hadd _ _ rfl
  | newSparse => exact hadd _ _ rfl
  | newCbAdf => exact hadd _ _ rfl
  | serialize w =>
    simp only [attempt, step, serialize]
    cases s.heap[w]? with
    | none => rfl
    | some o =>
      cases o with
      | workspace m => exact hadd _ _ rfl
      | _ => rfl
  | serializeToJson w =>
    simp only [attempt, step, serializeToJson]
    cases s.heap[w]? with
    | none => rfl
    | some o =>
      cases o with
      | workspace m =>
        simp only
        cases Serde.serializeToJson e.fin e.order m <;> rfl
      | _ => rfl
  | entryTypes w =>
    simp only [attempt, step, entryTypes]
    cases s.heap[w]? with
    | none => rfl
    | some o => cases o <;> rfl

/-- C107: whatever has failed before, once the examples that failing calls have left invalid are given up, every sequence of calls returns what it returns on
plain values that share nothing. -/
theorem C107_goes_on (e : Env F N) (models : List (Doc F)) (hm : ∀ d ∈ models, SavedModel d) (before : List (Call F × Nat))
    (hb : CleanAttempts e (start models) before) (hv : AllValid (attempts e (start models) before).2.heap) (cs : List (Call F × Nat))
    (hc : CleanCalls e (attempts e (start models) before).2.heap (cs.map Prod.fst)) :
    DoesAll e (attempts e (start models) before).2.heap (cs.map Prod.fst) ((run e (attempts e (start models) before).2 cs).map Except.toOption) :=
  session_aux cs _ _ (sim_of_good (good_of_valid (attempts_good (fun _ => OkEx.ftInv) (fun _ h => h) before _ (start_good hm) hb
    (fun _ _ _ m _ => stable_inv _ m.ws)) hv)) hc

/-- C107: without ElementwiseInteraction no example needs to be given up. -/
theorem C107_no_elementwise (e : Env F N) (models : List (Doc F)) (hm : ∀ d ∈ models, SavedModel d) (before : List (Call F × Nat))
    (hb : CleanAttempts e (start models) before) (hn : NoElementwiseUsed e (start models) before) (cs : List (Call F × Nat))
    (hc : CleanCalls e (attempts e (start models) before).2.heap (cs.map Prod.fst)) :
    DoesAll e (attempts e (start models) before).2.heap (cs.map Prod.fst) ((run e (attempts e (start models) before).2 cs).map Except.toOption) :=
  session_aux cs _ _ (sim_of_good (attempts_good (fun _ h => h) (fun _ => OkEx.ftInv) before _ (start_good hm) hb
    (fun b a he m hmem => stable_okEx _ m.ws (hn b a he m hmem)))) hc

/-- C107: after any failures, and with all examples still in use, a new example is empty. -/
theorem C107_new_empty (e : Env F N) (models : List (Doc F)) (hm : ∀ d ∈ models, SavedModel d) (before : List (Call F × Nat))
    (hb : CleanAttempts e (start models) before) (lost : Nat) :
    ∃ f s', attempt e lost (attempts e (start models) before).2 .newSparse = (.ok (.obj (attempts e (start models) before).2.heap.length), s') ∧
      s'.heap = (attempts e (start models) before).2.heap ++ [.features (.simple f)] ∧ f.SameAs .new := by
  have hg := attempts_good (fun _ => OkEx.ftInv) (fun _ h => h) before _ (start_good hm) hb (fun _ _ _ m _ => stable_inv e.x.dbg m.ws)
  generalize (attempts e (start models) before).2 = s at hg ⊢
  have h1 := (pool_one hg.pool).1
  exact ⟨_, _, rfl, rfl, sameAs_of_vw h1.1 SparseFeatures.new_inv0 fun ns => h1.2 ns⟩

/-- C107: after any failures, and with all examples still in use, parsing gives what it gives when no object has been used before. -/
theorem C107_parses_the_same (e : Env F N) (models : List (Doc F)) (hm : ∀ d ∈ models, SavedModel d) (before : List (Call F × Nat)) (i : Nat) (text : Str)
    (lost lost' : Nat) (hb : CleanAttempts e (start models) (before ++ [(.parse i text, lost)])) :
    let s := (attempts e (start models) before).2
    let used := attempt e lost s (.parse i text)
    let unused := attempt e lost' ⟨s.heap, ⟨[]⟩⟩ (.parse i text)
    used.1 = unused.1 ∧ ∀ (f : Nat) (ft : Features F), used.2.heap[f]? = some (Obj.features ft) → ∃ ft', unused.2.heap[f]? = some (Obj.features ft') ∧ ft.SameAs ft' := by
  have hb1 : CleanAttempts e (start models) before := ⟨fun b j t l a he => hb.1 b j t l (a ++ [(.parse i text, lost)]) (by rw [he]; simp),
    fun j l hj => hb.2 j l (by simp [hj])⟩
  have hc := hb.1 before i text lost [] rfl
  have hg := attempts_good (fun _ => OkEx.ftInv) (fun _ h => h) before _ (start_good hm) hb1 (fun _ _ _ m _ => stable_inv e.x.dbg m.ws)
  generalize (attempts e (start models) before).2 = s at hg hc ⊢
  have refl : ∀ f ft, s.heap[f]? = some (Obj.features ft) → ∃ ft', s.heap[f]? = some (Obj.features ft') ∧ ft.SameAs ft' := fun f ft h => by
    refine ⟨ft, h, ?_⟩
    cases hg.get h with
    | features hk => exact (ftInv_refl hk).sameAs
  simp only [attempt, parse]
  cases hp : s.heap[i]? with
  | none => exact ⟨rfl, refl⟩
  | some o =>
    rw [hp] at hc
    cases hg.get hp with
    | parser fmt ft lt seed nb =>
      have hc := hc fmt ft lt seed nb rfl
      simp only
      cases hq : DataFormat.getParser e.x fmt ft lt seed nb with
      | error p => exact ⟨rfl, refl⟩
      | ok tp =>
        simp only [ok_bind]
        have h1 := clean_parser hq hc hg.pool
        generalize tp.parse s.pool text = a at h1 ⊢
        generalize tp.parse ⟨[]⟩ text = b at h1 ⊢
        cases h1 with
        | @ok r r' hr =>
          obtain ⟨⟨fs, l⟩, pool⟩ := r
          obtain ⟨⟨fs', l'⟩, pool'⟩ := r'
          obtain ⟨h2, h3, -, -⟩ := hr
          simp only at h2 h3
          subst h2
          simp only
          generalize labelToPy l = q
          cases q with
          | error p => exact ⟨rfl, refl⟩
          | ok l1 =>
            refine ⟨rfl, fun f ft hf => ?_⟩
            simp only [ok_bind, State.add] at hf ⊢
            by_cases hlt : f < s.heap.length
            · rw [List.getElem?_append_left hlt] at hf ⊢
              exact refl f ft hf
            · rw [List.getElem?_append_right (by omega)] at hf ⊢
              cases hk : f - s.heap.length with
              | zero =>
                rw [hk] at hf
                simp only [List.getElem?_cons_zero, Option.some.injEq, Obj.features.injEq] at hf
                subst hf
                exact ⟨fs', rfl, h3.sameAs⟩
              | succ n => rw [hk] at hf; simp at hf
        | err => exact ⟨rfl, refl⟩
        | panic => exact ⟨rfl, refl⟩
    | _ => exact ⟨rfl, refl⟩

section examples
attribute [local instance] sintFlt

/-- An example for the stack of `emptyDoc`, which interacts the namespace `a` with itself: the second action has no such namespace. -/
def failText : Str := "shared |ccc z\n0:3:3 |a x\n|bb y".toList

/-- The same with the namespace. -/
def fineText : Str := "shared |ccc z\n0:3:3 |a x\n|a y".toList

/-- A workspace, a parser, an example for which predictions and learning fail, which is then given up, and a text that cannot be parsed. -/
def failBefore : List (Call SInt × Nat) :=
  [(.fromConfig emptyDoc, 0), (.createParser 0 .vwText, 0), (.parse 1 failText, 0), (.predict 0 2, 0), (.learn 0 2 (.cb ⟨1, .num 3, .num 3⟩), 0), (.del 2, 0),
    (.parse 1 "0:x:3 |a x".toList, 1)]

/-- Then the recycled objects are used for another example. -/
def failAfter : List (Call SInt × Nat) :=
  [(.parse 1 fineText, 0), (.predict 0 3, 0), (.learn 0 3 (.cb ⟨0, .num 3, .num 3⟩), 0), (.newSparse, 0), (.predict 0 3, 0)]

local instance : DecidablePred Vw.SegmentHasFeature := fun s => by unfold Vw.SegmentHasFeature; infer_instance

theorem failClean (fmt : DataFormat) (ft : FeaturesType) (lt : LabelType) (seed : U32) (nb : Nat) (text : Str)
    (h : text = failText ∨ text = fineText ∨ text = "0:x:3 |a x".toList) : CleanText emptyEnv.x fmt ft lt seed nb text := by
  cases fmt with
  | dsjson => trivial
  | json => intro j hj; cases hj
  | vwText =>
    intro _ line hl
    unfold Vw.chunkLines at hl
    revert line
    by_cases hb : Vw.SpansLines (emptyEnv.x.vw ft lt seed nb)
    · simp only [if_pos hb]
      rcases h with rfl | rfl | rfl <;> decide
    · simp only [if_neg hb]
      rcases h with rfl | rfl | rfl <;> decide

/-- What kind of object it is. -/
def objKind : Obj SInt → Nat
  | .workspace _ => 0
  | .parser .. => 1
  | .features _ => 2
  | .bytes _ => 3
  | .gone => 4

theorem failBefore_clean : CleanAttempts emptyEnv (start []) failBefore := by
  refine ⟨fun before i text lost after he fmt ft lt seed nb _ => ?_, fun j lost hj => by simp [failBefore] at hj⟩
  have hmem : (Call.parse i text, lost) ∈ failBefore := by rw [he]; simp
  simp [failBefore] at hmem
  refine failClean fmt ft lt seed nb text ?_
  rcases hmem with h | h
  · exact .inl h.1.2
  · exact .inr (.inr (by rw [h.1.2]; decide))

/-- A program in which a prediction, a learn call and a parse call panic, and which then goes on, meets the hypotheses of C107. -/
example : CleanAttempts emptyEnv (start []) failBefore ∧ AllValid (attempts emptyEnv (start []) failBefore).2.heap ∧
    CleanCalls emptyEnv (attempts emptyEnv (start []) failBefore).2.heap (failAfter.map Prod.fst) ∧
    (attempts emptyEnv (start []) failBefore).1.map exKind = [0, 1, 12, 80, 80, 50, 80] ∧
    (attempts emptyEnv (start []) failBefore).2.pool.objects.length = 2 ∧
    (run emptyEnv (attempts emptyEnv (start []) failBefore).2 failAfter).map exKind = [13, 20, 50, 4, 20] := by
  have hk : (attempts emptyEnv (start []) failBefore).2.heap.map objKind = [0, 1, 4] := by decide +kernel
  refine ⟨failBefore_clean, fun ft hft => ?_, ?_, by decide +kernel, by decide +kernel, by decide +kernel⟩
  · have : 2 ∈ (attempts emptyEnv (start []) failBefore).2.heap.map objKind := List.mem_map.2 ⟨_, hft, rfl⟩
    rw [hk] at this
    simp at this
  · refine ⟨fun before i text after he h' fmt ft lt seed nb _ _ => ?_, fun j hj => by simp [failAfter] at hj⟩
    have hmem : Call.parse i text ∈ failAfter.map Prod.fst := by rw [he]; simp
    simp [failAfter] at hmem
    exact failClean fmt ft lt seed nb text (.inr (.inl hmem.2))

/-- A contextual bandit learner. -/
def bareDoc : Doc SInt := .obj [("globalConfig".toList, .obj [("numBits".toList, .num (.nat 2))]),
  ("entryReduction".toList, .obj [("typename".toList, .str "CbAdf".toList)])]

/-- Learning from an action that does not exist fails; the example stays in use. -/
def bareBefore : List (Call SInt × Nat) :=
  [(.fromConfig bareDoc, 0), (.createParser 0 .vwText, 0), (.parse 1 failText, 0), (.learn 0 2 (.cb ⟨7, .num 3, .num 3⟩), 0)]

/-- No workspace with an ElementwiseInteraction. -/
def objPlain : Obj SInt → Bool
  | .workspace m =>
    let rec go : Red SInt → Bool
      | .coin _ => true
      | .binary _ r | .cbAdf _ _ r | .greedy _ _ r | .softmax _ _ _ r | .squareCb _ _ _ _ r | .debug _ r => go r
      | .elementwise .. => false
    go m.ws.red
  | _ => true

theorem objPlain_go : ∀ r : Red SInt, objPlain.go r = true → r.NoElementwise := by
  intro r
  induction r with
  | coin m => intro _; trivial
  | elementwise m pair keep bits r ih => intro h; cases h
  | binary m r ih | cbAdf m ty r ih | greedy m e r ih | softmax m e lm r ih | squareCb m e gs ge r ih | debug m r ih => intro h; exact ih h

/-- A program that goes on with the example meets the hypotheses of `C107_no_elementwise`. -/
example : CleanAttempts emptyEnv (start []) bareBefore ∧ NoElementwiseUsed emptyEnv (start []) bareBefore ∧
    CleanCalls emptyEnv (attempts emptyEnv (start []) bareBefore).2.heap [.predict 0 2, .learn 0 2 (.cb ⟨0, .num 3, .num 3⟩), .predict 0 2] ∧
    (attempts emptyEnv (start []) bareBefore).1.map exKind = [0, 1, 12, 80] ∧
    (run emptyEnv (attempts emptyEnv (start []) bareBefore).2 [(.predict 0 2, 0), (.learn 0 2 (.cb ⟨0, .num 3, .num 3⟩), 0), (.predict 0 2, 0)]).map exKind =
      [20, 50, 20] := by
  refine ⟨⟨fun before i text lost after he fmt ft lt seed nb _ => ?_, fun j lost hj => by simp [bareBefore] at hj⟩, fun before after he m hm => ?_,
    ⟨fun before i text after he => ?_, fun j hj => by simp at hj⟩, by decide +kernel, by decide +kernel⟩
  · have hmem : (Call.parse i text, lost) ∈ bareBefore := by rw [he]; simp
    simp [bareBefore] at hmem
    exact failClean fmt ft lt seed nb text (.inl hmem.1.2)
  · have h1 : before = bareBefore.take before.length := by rw [he]; simp
    have h2 : before.length < 5 := by
      have := congrArg List.length he
      simp [bareBefore] at this
      omega
    have h3 : ∀ k < 5, ((attempts emptyEnv (start []) (bareBefore.take k)).2.heap.all objPlain) = true := by decide +kernel
    have h4 := h3 _ h2
    rw [← h1] at h4
    exact objPlain_go _ (List.all_eq_true.1 h4 _ hm)
  · have hmem : Call.parse i text ∈ ([.predict 0 2, .learn 0 2 (.cb ⟨0, .num 3, .num 3⟩), .predict 0 2] : List (Call SInt)) := by rw [he]; simp
    simp at hmem

end examples

end Py
end Rml
