import Verif.Lemmas.Recycle
import Verif.Props.JsonParser

/-! C52: what a chunk is parsed to does not depend on what was parsed before with the same pool. -/

namespace Rml
open Text SparseFeatures
variable {F : Type} [Flt F]

/-- Two parses gave the same: the same failure, or the same label and features that cannot be told apart: the same namespaces, features, order and
visibility, and the same prediction (or panic) of every model for these features, and the same model (or panic) after learning from them. -/
def SameParse {ε : Type} : Except ε ((Features F × Option (Label F)) × Pool (SparseFeatures F)) →
    Except ε ((Features F × Option (Label F)) × Pool (SparseFeatures F)) → Prop
  | .ok r, .ok r' => r.1.2 = r'.1.2 ∧ r.1.1.SameAs r'.1.1 ∧
      (∀ (w : Workspace F) (dbg : Bool), w.FromConfig →
        (w.predict dbg r.1.1).map (·.1) = (w.predict dbg r'.1.1).map (·.1) ∧
        ∀ l, (w.learn dbg r.1.1 l).map (·.1) = (w.learn dbg r'.1.1 l).map (·.1))
  | .error e, .error e' => e = e'
  | _, _ => False

theorem RelM.map_fst {α β : Type} {x y : M (α × Features F × Depth)} (h : RelM ResEqv x y) (c : α → β) :
    (x >>= fun r => (.ok (c r.1, r.2.1) : M (β × Features F))).map (·.1) = (y >>= fun r => (.ok (c r.1, r.2.1) : M (β × Features F))).map (·.1) := by
  cases x <;> cases y
  · exact congrArg Except.error h
  · exact h.elim
  · exact h.elim
  · exact congrArg (fun a => Except.ok (c a)) h.1

theorem predict_eq {w : Workspace F} (hp : w.red.PairsOk) {ft gt : Features F} (he : FtEqv ft gt) (dbg : Bool) :
    (w.predict dbg ft).map (·.1) = (w.predict dbg gt).map (·.1) :=
  RelM.map_fst (((predictImpl_nice dbg w.red hp w.st).wrap dbg w.red.meta 0).congr (d := 0) he) id

theorem learn_eq {w : Workspace F} (hp : w.red.PairsOk) {ft gt : Features F} (he : FtEqv ft gt) (dbg : Bool) (l : Label F) :
    (w.learn dbg ft l).map (·.1) = (w.learn dbg gt l).map (·.1) :=
  RelM.map_fst (((learnImpl_nice dbg w.red hp w.st l).wrap dbg w.red.meta 0).congr (d := 0) he)
    fun s => (⟨w.red, s⟩ : Workspace F)

theorem sameParse_of_rel {ε : Type} {x y : Except ε ((Features F × Option (Label F)) × Pool (SparseFeatures F))} (h : RelE True ParsedEqv x y) :
    SameParse x y := by
  cases x <;> cases y
  · exact h trivial
  · exact h trivial
  · exact h trivial
  · refine ⟨h.1, h.2.sameAs, fun w dbg hw => ?_⟩
    exact ⟨predict_eq hw.pairsOk h.2 dbg, learn_eq hw.pairsOk h.2 dbg⟩

omit [Flt F] in
theorem poolsOk_of_reach {p q : Pool (SparseFeatures F)} (hp : PoolReach p) (hq : PoolReach q) : PoolsOk p q := ⟨pool_objects hp, pool_objects hq⟩

/-- C52, VW text: for every chunk, well-formed or not, and every two histories of the pool. -/
theorem C52_vw (pr : Vw.Parser F) (p q : Pool (SparseFeatures F)) (hp : PoolReach p) (hq : PoolReach q) (chunk : Str) :
    SameParse (Vw.parseChunk pr p chunk) (Vw.parseChunk pr q chunk) := sameParse_of_rel (Vw.parseChunk_rel pr (poolsOk_of_reach hp hq) chunk)

variable {N : Type}

/-- C52, DsJson. -/
theorem C52_dsjson (pr : Js.Parser F N) (p q : Pool (SparseFeatures F)) (hp : PoolReach p) (hq : PoolReach q) (chunk : Str) :
    SameParse (Ds.parseChunk pr p chunk) (Ds.parseChunk pr q chunk) := sameParse_of_rel (Ds.parseChunk_rel pr (poolsOk_of_reach hp hq) chunk)

/-- C52, JSON, documents without lists of strings. Missing from the full property: documents with lists of strings, which a recycled object may refuse
(`C52_json_false`); for these see `C52_json_ok_partial`. -/
theorem C52_json_partial (pr : Js.Parser F N) (p q : Pool (SparseFeatures F)) (hp : PoolReach p) (hq : PoolReach q) (chunk : Str)
    (hs : ∀ j, pr.parseJson chunk = some j → Js.DocNoStringLists j) : SameParse (Js.parseChunk pr p chunk) (Js.parseChunk pr q chunk) :=
  sameParse_of_rel (Js.parseChunk_rel pr (poolsOk_of_reach hp hq) chunk fun _ => hs)

/-- C52, JSON, all documents: whenever the chunk is parsed with both pools, the results are the same. -/
theorem C52_json_ok_partial (pr : Js.Parser F N) (p q : Pool (SparseFeatures F)) (hp : PoolReach p) (hq : PoolReach q) (chunk : Str)
    (r r' : (Features F × Option (Label F)) × Pool (SparseFeatures F)) (h : Js.parseChunk pr p chunk = .ok r) (h' : Js.parseChunk pr q chunk = .ok r') :
    SameParse (Js.parseChunk pr p chunk) (Js.parseChunk pr q chunk) := by
  have := Js.parseChunk_rel (s := False) pr (poolsOk_of_reach hp hq) chunk (fun h => h.elim)
  rw [h, h'] at this ⊢
  exact sameParse_of_rel (ε := Panic) this

/-- C52 fails for JSON lists of strings: after an example with two strings in a namespace has been parsed and returned to the pool, an example with one
string there makes the parser panic; with a new pool it is parsed. -/
theorem C52_json_false (toF : N → F) (toU : N → Option Nat) : ∃ (pr : Js.Parser F N) (first second : Str) (f : SparseFeatures F) (l : Option (Label F))
    (p : Pool (SparseFeatures F)), Js.parseChunk pr ⟨[]⟩ first = .ok ((.simple f, l), p) ∧ PoolReach (f.clearAndReturn p) ∧
      (∃ r, Js.parseChunk pr ⟨[]⟩ second = .ok r) ∧ ∃ e, Js.parseChunk pr (f.clearAndReturn p) second = .error e := by
  refine ⟨⟨.sparseSimple, .simple, 0#32, 4, fun s k => BitVec.ofNat 32 s.length + k, fun s =>
      if s = ['1'] then some (.obj [("features".toList, Js.renderFeatures [("a".toList, .strings ["x".toList, "y".toList])])])
      else some (.obj [("features".toList, Js.renderFeatures [("a".toList, .strings ["x".toList])])]), toF, toU, toF, true⟩,
    ['1'], ['2'], _, _, _, rfl, ?_, ⟨_, rfl⟩, ⟨_, rfl⟩⟩
  refine PoolReach.ret _ (PoolReach.get .empty) ?_
  exact setNamespace_inv0 new_inv0 rfl rfl

/-- C52 fails for the `namespaces` iterator, which lists namespaces of former examples: after `|a x` has been parsed and returned, `|bb y` is parsed to
features that seem to have a namespace more. -/
theorem C52_namespaces_false (pf : Str → Option F) : ∃ (pr : Vw.Parser F) (f g h : SparseFeatures F) (l l' l'' : Option (Label F))
    (p p' p'' : Pool (SparseFeatures F)), Vw.parseChunk pr ⟨[]⟩ "|a x".toList = .ok ((.simple f, l), p) ∧ PoolReach (f.clearAndReturn p) ∧
      Vw.parseChunk pr (f.clearAndReturn p) "|bb y".toList = .ok ((.simple g, l'), p') ∧
      Vw.parseChunk pr ⟨[]⟩ "|bb y".toList = .ok ((.simple h, l''), p'') ∧ g.namespaces.map (·.1) ≠ h.namespaces.map (·.1) := by
  refine ⟨⟨.sparseSimple, .simple, 0#32, 4, fun s k => BitVec.ofNat 32 s.length + k, pf, true⟩, _, _, _, _, _, _, _, _, _, rfl, ?_, rfl, rfl, ?_⟩
  · exact PoolReach.ret _ (PoolReach.get .empty) (setNamespace_inv0 new_inv0 rfl rfl)
  · intro h
    exact absurd (show (2 : Nat) = 1 from congrArg List.length h) (by decide)

section examples
attribute [local instance] intFlt

/-- Two pool histories that matter: nothing, and an object that was used for an example with the same namespace. -/
example : PoolReach (⟨[]⟩ : Pool (SparseFeatures Int)) ∧
    PoolReach (((SparseFeatures.new : SparseFeatures Int).modifyOrCreate (.named 1#32) (fun n => n.addFeature 3#32 7)).clearAndReturn ⟨[]⟩) :=
  ⟨.empty, .ret _ .empty (setNamespace_inv0 new_inv0 rfl rfl)⟩

/-- `{"features": {"a": [1, 2], "b": {"x": true}}}` has no lists of strings. -/
example : Js.DocNoStringLists (.obj [("features".toList, .obj [("a".toList, .arr [.num 1, .num 2]), ("b".toList, .obj [("x".toList, .bool true)])])] : Json Int) := by
  refine ⟨?_, ?_, ?_⟩
  · intro l hl e he x rest h
    simp only [valueOf_eq, Js.getV, Json.get?] at hl
    injection hl with hl
    subst hl
    simp only [List.mem_cons, List.not_mem_nil, or_false] at he
    rcases he with rfl | rfl <;> cases h
  · intro l hl
    cases hl
  · intro l hl
    cases hl

end examples
end Rml
