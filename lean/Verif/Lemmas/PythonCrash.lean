import Verif.SpecPythonCrash
import Verif.Lemmas.Python
import Verif.Lemmas.CrashKeeps

/-! Helper lemmas for C107. -/

set_option linter.unusedSectionVars false

namespace Rml
namespace Py
open Text Cli
variable {F : Type} [Flt F] {N : Type}

/-- The objects of a process in which calls may have failed; `K` holds for all features. -/
inductive ObjGood (K : Features F → Prop) : Obj F → Prop
  | workspace {m} : m.ws.FromConfig → ObjGood K (.workspace m)
  | parser (fmt ft lt seed nb) : ObjGood K (.parser fmt ft lt seed nb)
  | features {ft} : K ft → ObjGood K (.features ft)
  | bytes {d} : SavedModel d → ObjGood K (.bytes d)
  | gone : ObjGood K .gone

structure Good (K : Features F → Prop) (s : State F) : Prop where
  heap : ∀ o ∈ s.heap, ObjGood K o
  pool : PoolOk s.pool

/-- What is needed of `K`. -/
structure Stable (K : Features F → Prop) (dbg : Bool) (w : Workspace F) : Prop where
  predict : ∀ ft, K ft → K (w.predictCr dbg ft).2
  learn : ∀ ft l, K ft → K (w.learnCr dbg ft l).2.2
  ptl : ∀ ft l, K ft → K (w.predictThenLearnCr dbg ft l).2.2

theorem Good.add {K : Features F → Prop} {s : State F} (h : Good K s) {o : Obj F} (ho : ObjGood K o) : Good K (s.add o).2 := by
  refine ⟨fun x hx => ?_, h.pool⟩
  rcases List.mem_append.1 hx with hx | hx
  · exact h.heap x hx
  · rw [List.mem_singleton.1 hx]; exact ho

theorem Good.put {K : Features F → Prop} {s : State F} (h : Good K s) {o : Obj F} (ho : ObjGood K o) (i : Nat) : Good K (s.put i o) := by
  refine ⟨fun x hx => ?_, h.pool⟩
  rcases List.mem_or_eq_of_mem_set hx with hx | hx
  · exact h.heap x hx
  · rw [hx]; exact ho

theorem Good.get {K : Features F → Prop} {s : State F} (h : Good K s) {i : Nat} {o : Obj F} (ho : s.heap[i]? = some o) : ObjGood K o :=
  h.heap o (List.mem_of_getElem? ho)

theorem ftInv_refl {ft : Features F} (h : FtInv ft) : FtEqv ft ft := by
  cases ft with
  | simple f => exact .simple (Eqv.refl h)
  | cbAdf f =>
    refine .cb ⟨?_, ?_⟩
    · cases hs : f.shared with
      | none => exact OptEqv.none
      | some s => exact OptEqv.some (Eqv.refl (h.1 s hs))
    · have := h.2
      generalize f.actions = l at this
      induction l with
      | nil => exact List.Forall₂.nil
      | cons a t ih => exact List.Forall₂.cons (Eqv.refl (this a (by simp))) (ih (fun x hx => this x (by simp [hx])))

theorem red_fromConfig {w w' : Workspace F} (h : w.FromConfig) (hr : w'.red = w.red) : w'.FromConfig := by
  obtain ⟨hash, g0, c, w0, e1, e2⟩ := h
  exact ⟨hash, g0, c, w0, e1, hr.trans e2⟩

/-- One call keeps everything in order, whether it returns or not. -/
theorem attempt_good {K : Features F → Prop} (hK1 : ∀ ft, OkEx ft → K ft) (hK2 : ∀ ft, K ft → FtInv ft) {e : Env F N} (lost : Nat) {s : State F}
    (hs : Good K s) (hst : ∀ m, .workspace m ∈ s.heap → Stable K e.x.dbg m.ws) (c : Call F)
    (hc : ∀ i text fmt ft lt seed nb, c = .parse i text → s.heap[i]? = some (.parser fmt ft lt seed nb) → CleanText e.x fmt ft lt seed nb text)
    (hj : ∀ j, c = .fromJsonModel j → CleanJson e.fin j) : Good K (attempt e lost s c).2 := by
  cases c with
  | fromConfig j =>
    simp only [attempt, step, fromConfig]
    cases hn : Cfg.newWorkspace e.x.hash j with
    | ok m => exact hs.add (.workspace (config_from hn))
    | error er => cases er <;> exact hs
  | fromModel b =>
    simp only [attempt, step, fromModel]
    cases hg : s.heap[b]? with
    | none => exact hs
    | some o =>
      have := hs.get hg
      cases this with
      | bytes hd =>
        obtain ⟨m, h1, h2⟩ := saved_load hd
        simp only [h1, ok_bind]
        exact hs.add (.workspace h2)
      | _ => exact hs
  | fromJsonModel j =>
    simp only [attempt, step, fromJsonModel]
    cases hn : Serde.deserializeFromJson e.fin j with
    | ok m => exact hs.add (.workspace (hj j rfl m hn))
    | error er => cases er <;> exact hs
  | createParser w fmt =>
    simp only [attempt, step, createParser]
    cases hg : s.heap[w]? with
    | none => exact hs
    | some o =>
      have := hs.get hg
      cases this with
      | workspace hm =>
        simp only [newParser]
        cases DataFormat.getParser e.x fmt _ _ _ _ with
        | error p => exact hs
        | ok p => exact hs.add (.parser ..)
      | _ => exact hs
  | newParser fmt ft lt seed nb =>
    simp only [attempt, step, newParser]
    cases DataFormat.getParser e.x fmt _ _ _ _ with
    | error p => exact hs
    | ok p => exact hs.add (.parser ..)
  | newSparse =>
    have h1 := pool_one hs.pool
    have h2 : Good K { s with pool := (s.pool.getObject SparseFeatures.new).2 } := ⟨hs.heap, h1.2⟩
    exact h2.add (.features (hK1 _ (okEx_simple h1.1)))
  | newCbAdf =>
    exact hs.add (.features (hK1 _ (CbGood.mk (fun _ h => nomatch h) (fun _ h => nomatch h))))
  | parse p text =>
    simp only [attempt, parse]
    have hc := hc p text
    cases hg : s.heap[p]? with
    | none => exact hs
    | some o =>
      have ho := hs.get hg
      rw [hg] at hc
      cases ho with
      | parser fmt ft lt seed nb =>
        have hc := hc fmt ft lt seed nb rfl rfl
        simp only
        cases hp : DataFormat.getParser e.x fmt ft lt seed nb with
        | error p => exact ⟨hs.heap, drop_ok hs.pool lost⟩
        | ok tp =>
          simp only [ok_bind]
          have h1 := clean_parser hp hc hs.pool
          have h1' := @clean_okEx F _ N e.x fmt ft lt seed nb text tp hp hc s.pool hs.pool
          generalize tp.parse s.pool text = a at h1 h1' ⊢
          generalize tp.parse ⟨[]⟩ text = b at h1 ⊢
          cases h1 with
          | @ok r r' hr =>
            obtain ⟨⟨fs, l⟩, pool⟩ := r
            obtain ⟨⟨fs', l'⟩, pool'⟩ := r'
            obtain ⟨-, -, -, h5⟩ := hr
            have h4 := h1' rfl
            simp only at h4 h5 ⊢
            generalize labelToPy l = q
            cases q with
            | error p => exact ⟨hs.heap, drop_ok hs.pool lost⟩
            | ok l1 =>
              have h6 : Good K { s with pool := pool } := ⟨hs.heap, h5⟩
              exact h6.add (.features (hK1 _ h4))
          | err => exact ⟨hs.heap, drop_ok hs.pool lost⟩
          | panic => exact ⟨hs.heap, drop_ok hs.pool lost⟩
      | _ => exact hs
  | predict w f =>
    simp only [attempt]
    cases hw : s.heap[w]? with
    | none => exact hs
    | some o =>
      cases hf : s.heap[f]? with
      | none => cases o <;> exact hs
      | some o' =>
        cases hs.get hw with
        | @workspace m hm =>
          cases hs.get hf with
          | @features ft hk => exact hs.put (.features ((hst m (List.mem_of_getElem? hw)).predict ft hk)) f
          | _ => exact hs
        | _ => exact hs
  | learn w f l =>
    simp only [attempt]
    cases hw : s.heap[w]? with
    | none => exact hs
    | some o =>
      cases hf : s.heap[f]? with
      | none => cases o <;> exact hs
      | some o' =>
        cases hs.get hw with
        | @workspace m hm =>
          cases hs.get hf with
          | @features ft hk =>
            exact (hs.put (o := .workspace ⟨m.global, (m.ws.learnCr e.x.dbg ft l.toLabel).2.1⟩) (.workspace (red_fromConfig hm rfl)) w).put
              (.features ((hst m (List.mem_of_getElem? hw)).learn ft _ hk)) f
          | _ => exact hs
        | _ => exact hs
  | predictThenLearn w f l =>
    simp only [attempt]
    cases hw : s.heap[w]? with
    | none => exact hs
    | some o =>
      cases hf : s.heap[f]? with
      | none => cases o <;> exact hs
      | some o' =>
        cases hs.get hw with
        | @workspace m hm =>
          cases hs.get hf with
          | @features ft hk =>
            exact (hs.put (o := .workspace ⟨m.global, (m.ws.predictThenLearnCr e.x.dbg ft l.toLabel).2.1⟩) (.workspace (red_fromConfig hm rfl)) w).put
              (.features ((hst m (List.mem_of_getElem? hw)).ptl ft _ hk)) f
          | _ => exact hs
        | _ => exact hs
  | serialize w =>
    simp only [attempt, step, serialize]
    cases hg : s.heap[w]? with
    | none => exact hs
    | some o =>
      cases hs.get hg with
      | @workspace m hm => exact hs.add (.bytes ⟨m.global, m.ws, hm, rfl⟩)
      | _ => exact hs
  | serializeToJson w =>
    simp only [attempt, step, serializeToJson]
    cases hg : s.heap[w]? with
    | none => exact hs
    | some o =>
      cases hs.get hg with
      | @workspace m hm =>
        simp only
        cases Serde.serializeToJson e.fin e.order m with
        | error p => exact hs
        | ok d => exact hs
      | _ => exact hs
  | entryTypes w =>
    simp only [attempt, step, entryTypes]
    cases hg : s.heap[w]? with
    | none => exact hs
    | some o => cases hs.get hg <;> exact hs
  | del i =>
    simp only [attempt, step, del]
    cases hg : s.heap[i]? with
    | none => exact hs
    | some o =>
      cases hs.get hg with
      | @features ft hk => exact ⟨(hs.put .gone i).heap, giveBack_ok (ftInv_refl (hK2 ft hk)) hs.pool⟩
      | gone => exact hs
      | _ => exact hs.put .gone i

theorem attempts_append {e : Env F N} : ∀ (a b : List (Call F × Nat)) (s : State F), (attempts e s (a ++ b)).2 = (attempts e (attempts e s a).2 b).2
  | [], _, _ => rfl
  | (c, lost) :: a, b, s => by
    simp only [List.cons_append, attempts]
    exact attempts_append a b _

theorem CleanAttempts.tail {e : Env F N} {s : State F} {c : Call F} {lost : Nat} {cs : List (Call F × Nat)} (h : CleanAttempts e s ((c, lost) :: cs)) :
    CleanAttempts e (attempt e lost s c).2 cs := by
  refine ⟨fun before i text l after he fmt ft lt seed nb hp => ?_, fun j l hm => h.2 j l (by simp [hm])⟩
  exact h.1 ((c, lost) :: before) i text l after (by rw [he]; rfl) fmt ft lt seed nb hp

theorem attempts_good {K : Features F → Prop} (hK1 : ∀ ft, OkEx ft → K ft) (hK2 : ∀ ft, K ft → FtInv ft) {e : Env F N} :
    ∀ (cs : List (Call F × Nat)) (s : State F), Good K s → CleanAttempts e s cs →
      (∀ before after, cs = before ++ after → ∀ m, .workspace m ∈ (attempts e s before).2.heap → Stable K e.x.dbg m.ws) → Good K (attempts e s cs).2
  | [], _, hs, _, _ => hs
  | (c, lost) :: cs, s, hs, hc, hst => by
    have h1 := attempt_good hK1 hK2 lost hs (hst [] _ rfl) c
      (fun i text fmt ft lt seed nb he hp => by subst he; exact hc.1 [] i text lost cs rfl fmt ft lt seed nb hp)
      (fun j he => by subst he; exact hc.2 j lost (by simp))
    refine attempts_good hK1 hK2 cs _ h1 hc.tail (fun before after he m hm => ?_)
    exact hst ((c, lost) :: before) after (by rw [he]; rfl) m hm

theorem start_good {K : Features F → Prop} {models : List (Doc F)} (hm : ∀ d ∈ models, SavedModel d) : Good K (start models) := by
  refine ⟨fun o ho => ?_, poolOk_nil⟩
  simp only [start, List.mem_map] at ho
  obtain ⟨d, hd, rfl⟩ := ho
  exact .bytes (hm d hd)

theorem stable_inv (dbg : Bool) (w : Workspace F) : Stable FtInv dbg w :=
  ⟨fun _ h => ws_predict_inv dbg w h, fun _ l h => ws_learn_inv dbg w h l, fun _ l h => ws_ptl_inv dbg w h l⟩

theorem stable_okEx (dbg : Bool) (w : Workspace F) (hn : w.red.NoElementwise) : Stable OkEx dbg w :=
  ⟨fun _ h => ws_predict_okEx dbg w hn h, fun _ l h => ws_learn_okEx dbg w hn h l, fun _ l h => ws_ptl_okEx dbg w hn h l⟩

/-- Such objects are plain values again. -/
theorem sim_of_good {s : State F} (h : Good OkEx s) : Sim s s.heap := by
  refine ⟨?_, h.pool⟩
  have := h.heap
  generalize s.heap = l at this
  induction l with
  | nil => exact .nil
  | cons o l ih =>
    refine .cons ?_ (ih fun x hx => this x (by simp [hx]))
    cases this o (by simp) with
    | workspace hm => exact .workspace hm
    | parser => exact .parser ..
    | features hk => exact .features hk hk.refl
    | bytes hd => exact .bytes hd
    | gone => exact .gone

theorem good_of_valid {s : State F} (h : Good FtInv s) (hv : AllValid s.heap) : Good OkEx s := by
  refine ⟨fun o ho => ?_, h.pool⟩
  cases h.heap o ho with
  | workspace hm => exact .workspace hm
  | parser => exact .parser ..
  | features hk => exact .features (okEx_of_valid (hv _ ho))
  | bytes hd => exact .bytes hd
  | gone => exact .gone

end Py
end Rml
