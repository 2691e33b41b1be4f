import Verif.SpecFormats
import Verif.Lemmas.Parsed
import Verif.Props.Vw
import Verif.Props.JsonParser
import Verif.Props.Recycle

/-! Lemmas for C91. -/

set_option linter.unusedSectionVars false

namespace Rml
namespace Formats
open Text Vw Js
variable {F N : Type} [Flt F]

theorem eqv_of_represents {f g : SparseFeatures F} {m : SMap F} (hf : f.WF) (hg : g.WF) (h : f.Represents m) (h' : g.Represents m) : Eqv f g := by
  refine ⟨hf.toInv0, hg.toInv0, fun ns => ?_⟩
  have e : (f.getNamespace ns).map (fun n => (n.idx.data, n.vals.data)) = (g.getNamespace ns).map (fun n => (n.idx.data, n.vals.data)) :=
    (h.1 ns).trans (h'.1 ns).symm
  rw [getNamespace_map_vw, getNamespace_map_vw] at e
  have l1 := SparseFeatures.vw_lens hf.toInv0 ns
  have l2 := SparseFeatures.vw_lens hg.toInv0 ns
  have d1 := hf.2 ns
  have d2 := hg.2 ns
  revert e l1 l2 d1 d2
  rcases f.vw ns with ⟨a, b, c⟩
  rcases g.vw ns with ⟨a', b', c'⟩
  cases c <;> cases c' <;> simp +contextual
  · intro h1 h2 h3 h4
    rw [h3] at h1
    rw [h4] at h2
    rw [List.length_eq_zero_iff.1 h1.symm, List.length_eq_zero_iff.1 h2.symm]

omit [Flt F] in
theorem name_ns (pj : Js.Parser F N) (d : DNs N) (h : ∀ s, d.name = some s → NameOk s) : nsOf pj d.js.1 = d.ns pj.hash pj.hashSeed := by
  unfold DNs.js DNs.ns nsOf
  cases hn : d.name with
  | none => simp
  | some s =>
    obtain ⟨_, h2, _⟩ := h s hn
    rw [if_neg]
    · rfl
    · rintro (e | e)
      · simp only [Option.getD_some] at e
        exact (h2 ':' (by rw [e]; decide)).2.1 rfl
      · simp only [Option.getD_some] at e
        have := (h2 ' ' (by rw [e]; decide)).1
        exact absurd this (by decide)

theorem vw_ns {pv : Vw.Parser F} {pj : Js.Parser F N} (ag : Agree pv pj) (d : DNs N) : d.vw.ns pv.hash pv.hashSeed = d.ns pj.hash pj.hashSeed := by
  rw [ag.hash, ag.seed]
  unfold DNs.vw VwNs.ns DNs.ns
  cases d.name <;> rfl

theorem vw_scale (pv : Vw.Parser F) (d : DNs N) : d.vw.scale pv.parseFloat = Flt.one := by
  unfold DNs.vw VwNs.scale
  cases d.name <;> rfl

theorem meant_named {pv : Vw.Parser F} {pj : Js.Parser F N} (ag : Agree pv pj) (h : U32) : ∀ (l : List (Str × DVal N)) (k : Nat),
    (∀ e ∈ l, NameOk e.1 ∧ e.2.Valid pv pj) →
    meant pv.hash pv.numBits pv.parseFloat h Flt.one k (l.map fun e => e.2.vw e.1) = (l.map fun e => (e.1, e.2.js)).flatMap fun e => e.2.feature pj h e.1
  | [], _, _ => rfl
  | (n, v) :: l, k, hv => by
    have ih := meant_named ag h l k (fun e he => hv e (List.mem_cons_of_mem _ he))
    have h1 := (hv (n, v) List.mem_cons_self).2
    cases v with
    | flag =>
      rw [List.map_cons, List.map_cons, List.flatMap_cons, DVal.vw, meant, ih, ag.one, ag.hash, ag.bits]
      rfl
    | num t x =>
      have h2 : NumberIs pv pj t x := h1
      rw [List.map_cons, List.map_cons, List.flatMap_cons, DVal.vw, meant, ih, h2.same, Option.getD_some, h2.one, ag.hash, ag.bits]
      rfl
    | text s =>
      rw [List.map_cons, List.map_cons, List.flatMap_cons, DVal.vw, meant, ih, ag.one, ag.hash, ag.bits]
      rfl

theorem meant_numbers {pv : Vw.Parser F} {pj : Js.Parser F N} (ag : Agree pv pj) (h : U32) : ∀ (l : List (Str × N)) (k : Nat),
    (∀ e ∈ l, NumberIs pv pj e.1 e.2) →
    meant pv.hash pv.numBits pv.parseFloat h Flt.one k (l.map fun e => .anon e.1) =
      (l.map (·.2)).mapIdx fun i n => (lowBits pj.numBits (h + BitVec.ofNat 32 (k + i)), pj.toF32 n)
  | [], _, _ => rfl
  | (t, x) :: l, k, hv => by
    have ih := meant_numbers ag h l (k + 1) (fun e he => hv e (List.mem_cons_of_mem _ he))
    have h2 : NumberIs pv pj t x := hv (t, x) List.mem_cons_self
    rw [List.map_cons, List.map_cons, List.mapIdx_cons, meant, ih, ag.bits, h2.same, Option.getD_some, h2.one, Nat.add_zero]
    congr 2
    funext i n
    rw [Nat.add_assoc, Nat.add_comm 1 i]

theorem vw_features {pv : Vw.Parser F} {pj : Js.Parser F N} (ag : Agree pv pj) (d : DNs N) (hv : d.Valid pv pj) :
    d.vw.features pv = d.js.2.features pj (d.ns pj.hash pj.hashSeed).seed := by
  unfold VwNs.features
  rw [vw_ns ag, vw_scale]
  have e : d.vw.feats.map (·.2) = d.cont.vw := by simp [DNs.vw, Function.comp_def]
  rw [e]
  have hc := hv.cont
  unfold DNs.js
  cases hd : d.cont with
  | named l =>
    rw [hd] at hc
    exact meant_named ag _ l 0 hc.2
  | numbers l =>
    rw [hd] at hc
    simpa [DCont.vw, DCont.js, JCont.features] using meant_numbers ag (d.ns pj.hash pj.hashSeed).seed l 0 hc.2.2

theorem filter_map_eq {α β γ : Type} {p : α → β} {f : α → γ} {q : γ → β} [DecidableEq β] (b : β) : ∀ (l : List α), (∀ a ∈ l, q (f a) = p a) →
    (l.map f).filter (fun x => decide (q x = b)) = (l.filter (fun x => decide (p x = b))).map f
  | [], _ => rfl
  | a :: l, h => by
    have ih := filter_map_eq b l (fun x hx => h x (List.mem_cons_of_mem _ hx))
    simp only [List.map_cons, List.filter_cons, h a List.mem_cons_self, ih]
    split <;> rfl

theorem meaning_eq {pv : Vw.Parser F} {pj : Js.Parser F N} (ag : Agree pv pj) (nss : List (DNs N)) (hv : ∀ d ∈ nss, d.Valid pv pj) :
    Vw.meaning pv (nss.map DNs.vw) = Js.meaning pj (nss.map DNs.js) := by
  funext ns
  unfold Vw.meaning Js.meaning
  rw [filter_map_eq (p := fun d : DNs N => d.ns pj.hash pj.hashSeed) ns nss (fun d _ => vw_ns ag d),
    filter_map_eq (p := fun d : DNs N => d.ns pj.hash pj.hashSeed) (q := fun e : Str × JCont N => nsOf pj e.1) ns nss
      (fun d hd => name_ns pj d (hv d hd).name)]
  have hm : ∀ d ∈ nss.filter (fun d => decide (d.ns pj.hash pj.hashSeed = ns)), d.Valid pv pj ∧ d.ns pj.hash pj.hashSeed = ns := by
    intro d hd
    have := List.mem_filter.1 hd
    exact ⟨hv d this.1, of_decide_eq_true this.2⟩
  revert hm
  generalize nss.filter (fun d => decide (d.ns pj.hash pj.hashSeed = ns)) = l
  intro hm
  cases l with
  | nil => rfl
  | cons a l =>
    simp only [List.map_cons]
    rw [← List.map_cons, ← List.map_cons (f := DNs.js), List.flatMap_map, List.flatMap_map]
    congr 1
    exact List.flatMap_congr fun d hd => by rw [vw_features ag d (hm d hd).1, (hm d hd).2]

/-! ### DsJson -/

theorem entries_append (pj : Js.Parser F N) (ns : Namespace) : ∀ l l' : List (Str × Json N),
    Ds.entries pj ns (l ++ l') = Ds.entries pj ns l ++ Ds.entries pj ns l'
  | [], _ => by simp [Ds.entries]
  | (k, v) :: l, l' => by simp [Ds.entries, entries_append pj ns l l']

theorem entries_named (pj : Js.Parser F N) (ns : Namespace) : ∀ l : List (Str × DVal N), (∀ e ∈ l, e.1.head? ≠ some '_') →
    Ds.entries pj ns (l.map fun e => (e.1, e.2.js.render)) = ((l.map fun e => (e.1, e.2.js)).flatMap fun e => e.2.feature pj ns.seed e.1).map fun x => (ns, x)
  | [], _ => by simp [Ds.entries]
  | (k, v) :: l, h => by
    have hk := h (k, v) List.mem_cons_self
    have ih := entries_named pj ns l (fun e he => h e (List.mem_cons_of_mem _ he))
    simp only [List.map_cons, List.flatMap_cons, List.map_append, Ds.entries, ih]
    congr 1
    unfold Ds.features
    rw [if_neg hk]
    cases v <;> rfl

theorem elements_numbers (pj : Js.Parser F N) (ns : Namespace) : ∀ (l : List N) (k : Nat),
    Ds.elements pj ns k (l.map .num) = (l.mapIdx fun i n => (lowBits pj.numBits (ns.seed + BitVec.ofNat 32 (k + i)), pj.toF32 n)).map fun x => (ns, x)
  | [], k => by simp [Ds.elements]
  | x :: l, k => by
    have ih := elements_numbers pj ns l (k + 1)
    simp only [List.map_cons, List.mapIdx_cons, Ds.elements, ih, Nat.add_zero]
    congr 2
    congr 1
    funext i n
    rw [Nat.add_assoc, Nat.add_comm 1 i]

theorem key_ok {d : DNs N} (h : ∀ s, d.name = some s → NameOk s) : (d.name.getD [' ']).head? ≠ some '_' := by
  cases hn : d.name with
  | none => simp
  | some s => exact (h s hn).2.2

theorem entries_ns {pv : Vw.Parser F} {pj : Js.Parser F N} (d : DNs N) (hv : d.Valid pv pj) :
    Ds.entries pj .default d.ds = (d.js.2.features pj (d.ns pj.hash pj.hashSeed).seed).map fun x => (d.ns pj.hash pj.hashSeed, x) := by
  have hk := key_ok hv.name
  have hns := name_ns pj d hv.name
  have hc := hv.cont
  unfold DNs.js at hns
  simp only at hns
  unfold DNs.ds DNs.js
  cases hd : d.cont with
  | named l =>
    rw [hd] at hc
    have hl : ∀ e ∈ l, e.1.head? ≠ some '_' := fun e he => (hc.2 e he).1.2.2
    cases hn : d.name with
    | none =>
      simp only
      rw [entries_named pj _ l hl]
      simp [DNs.ns, hn, DCont.js, JCont.features]
    | some s =>
      simp only [Ds.entries, List.append_nil]
      unfold Ds.features
      rw [hn] at hk hns
      rw [if_neg hk]
      simp only [DCont.js, JCont.render, hns, List.map_map, Function.comp_def]
      rw [entries_named pj _ l hl]
      simp [JCont.features]
  | numbers l =>
    have : Ds.entries pj .default [(d.name.getD [' '], (DCont.numbers l).js.render)] =
        ((DCont.numbers l).js.features pj (d.ns pj.hash pj.hashSeed).seed).map fun x => (d.ns pj.hash pj.hashSeed, x) := by
      simp only [Ds.entries, List.append_nil]
      unfold Ds.features
      rw [if_neg hk]
      simp only [DCont.js, JCont.render, hns]
      rw [elements_numbers]
      simp [JCont.features]
    cases hn : d.name <;> (rw [hn] at this; exact this)

theorem example_features {pv : Vw.Parser F} {pj : Js.Parser F N} (extra : List (Str × Json N)) (he : ∀ e ∈ extra, e.1.head? = some '_')
    (nss : List (DNs N)) (hv : ∀ d ∈ nss, d.Valid pv pj) :
    Ds.exampleFeatures pj (.obj (nss.flatMap DNs.ds ++ extra)) =
      nss.flatMap fun d => (d.js.2.features pj (d.ns pj.hash pj.hashSeed).seed).map fun x => (d.ns pj.hash pj.hashSeed, x) := by
  unfold Ds.exampleFeatures Ds.features
  rw [if_neg (by decide)]
  have hn : nsOf pj " ".toList = .default := by simp [nsOf]
  simp only [hn]
  rw [entries_append]
  have h0 : ∀ l : List (Str × Json N), (∀ e ∈ l, e.1.head? = some '_') → Ds.entries pj .default l = [] := by
    intro l
    induction l with
    | nil => intro _; simp [Ds.entries]
    | cons e l ih =>
      intro h
      obtain ⟨k, v⟩ := e
      rw [Ds.entries, ih (fun e he => h e (List.mem_cons_of_mem _ he)), Ds.features.eq_def, if_pos (h (k, v) List.mem_cons_self)]
      rfl
  rw [h0 extra he, List.append_nil]
  clear h0 he
  induction nss with
  | nil => simp [Ds.entries]
  | cons d nss ih =>
    rw [List.flatMap_cons, List.flatMap_cons, entries_append, entries_ns d (hv d List.mem_cons_self), ih (fun d hd => hv d (List.mem_cons_of_mem _ hd))]

theorem features_ne {pv : Vw.Parser F} {pj : Js.Parser F N} (d : DNs N) (hv : d.Valid pv pj) (h : U32) : d.js.2.features pj h ≠ [] := by
  have hc := hv.cont
  unfold DNs.js
  cases hd : d.cont with
  | named l =>
    rw [hd] at hc
    cases l with
    | nil => exact absurd rfl hc.1
    | cons e l =>
      simp only [DCont.js, JCont.features, List.map_cons, List.flatMap_cons]
      intro h0
      have := (List.append_eq_nil_iff.1 h0).1
      revert this
      cases e.2 <;> simp [DVal.js, JVal.feature]
  | numbers l =>
    rw [hd] at hc
    cases l with
    | nil => exact absurd rfl hc.1
    | cons e l => simp [DCont.js, JCont.features]

theorem group_eq {pv : Vw.Parser F} {pj : Js.Parser F N} (nss : List (DNs N)) (hv : ∀ d ∈ nss, d.Valid pv pj) :
    Ds.group (nss.flatMap fun d => (d.js.2.features pj (d.ns pj.hash pj.hashSeed).seed).map fun x => (d.ns pj.hash pj.hashSeed, x)) =
      Js.meaning pj (nss.map DNs.js) := by
  funext ns
  unfold Ds.group Js.meaning
  rw [filter_map_eq (p := fun d : DNs N => d.ns pj.hash pj.hashSeed) (q := fun e : Str × JCont N => nsOf pj e.1) ns nss
      (fun d hd => name_ns pj d (hv d hd).name)]
  have hfil : (nss.flatMap fun d => (d.js.2.features pj (d.ns pj.hash pj.hashSeed).seed).map fun x => (d.ns pj.hash pj.hashSeed, x)).filter
      (fun e => decide (e.1 = ns)) =
      (nss.filter (fun d => decide (d.ns pj.hash pj.hashSeed = ns))).flatMap fun d => (d.js.2.features pj ns.seed).map fun x => (ns, x) := by
    clear hv
    induction nss with
    | nil => rfl
    | cons d nss ih =>
      rw [List.flatMap_cons, List.filter_append, ih, List.filter_cons]
      by_cases hd : d.ns pj.hash pj.hashSeed = ns
      · subst hd
        rw [List.filter_eq_self.2 (by intro x hx; obtain ⟨y, _, rfl⟩ := List.mem_map.1 hx; simp)]
        simp
      · rw [List.filter_eq_nil_iff.2 (by intro x hx; obtain ⟨y, _, rfl⟩ := List.mem_map.1 hx; simpa using hd)]
        simp [hd]
  rw [hfil]
  have hm : ∀ d ∈ nss.filter (fun d => decide (d.ns pj.hash pj.hashSeed = ns)), d.Valid pv pj := fun d hd => hv d (List.mem_filter.1 hd).1
  revert hm
  generalize nss.filter (fun d => decide (d.ns pj.hash pj.hashSeed = ns)) = l
  intro hm
  cases l with
  | nil => rfl
  | cons a l =>
    have hne := features_ne a (hm a List.mem_cons_self) ns.seed
    have h1 : ((a :: l).flatMap fun d => (d.js.2.features pj ns.seed).map fun x => (ns, x)) ≠ [] := by
      rw [List.flatMap_cons]
      intro h0
      exact hne (List.map_eq_nil_iff.1 (List.append_eq_nil_iff.1 h0).1)
    have h2 : ((a :: l).flatMap fun d => (d.js.2.features pj ns.seed).map fun x => (ns, x)).map (·.2) =
        ((a :: l).map DNs.js).flatMap fun e => e.2.features pj ns.seed := by
      rw [List.map_flatMap, List.flatMap_map]
      exact List.flatMap_congr fun d _ => by simp [Function.comp_def]
    rw [List.map_cons] at h2 ⊢
    simp only []
    rw [← h2]

/-! ### VW text -/

theorem vw_anons : ∀ l : List (Str × N), anons (l.map fun e => VwFeat.anon e.1) = l.length
  | [] => rfl
  | _ :: l => by
    rw [List.map_cons, anons, vw_anons l]
    rfl

theorem vw_anons_named : ∀ l : List (Str × DVal N), anons (l.map fun e => e.2.vw e.1) = 0
  | [] => rfl
  | (k, v) :: l => by
    have ih := vw_anons_named l
    rw [List.map_cons]
    cases v <;> exact ih

theorem vw_valid {pv : Vw.Parser F} {pj : Js.Parser F N} (ag : Agree pv pj) (d : DNs N) (hv : d.Valid pv pj) :
    d.vw.Valid pv.parseFloat ∧ d.vw.NoOverflow pv := by
  have hc := hv.cont
  have hf : ∀ f ∈ d.cont.vw, f.Valid pv.parseFloat := by
    intro f hf
    cases hd : d.cont with
    | named l =>
      rw [hd] at hc hf
      obtain ⟨e, he, rfl⟩ := List.mem_map.1 hf
      obtain ⟨h1, h2⟩ := hc.2 e he
      revert h2
      cases e.2 with
      | flag => intro _; exact ⟨h1.1, h1.2.1⟩
      | num t n => intro h2; exact ⟨h1.1, h1.2.1, h2.plain, by rw [h2.same]; rfl⟩
      | text s => intro h2; exact ⟨h1.2.1, h2.1, h2.2⟩
    | numbers l =>
      rw [hd] at hc hf
      obtain ⟨e, he, rfl⟩ := List.mem_map.1 hf
      have h2 := hc.2.2 e he
      exact ⟨h2.plain, by rw [h2.same]; rfl⟩
  have hne : d.cont.vw ≠ [] := by
    cases hd : d.cont with
    | named l => rw [hd] at hc; simpa [DCont.vw] using hc.1
    | numbers l => rw [hd] at hc; simpa [DCont.vw] using hc.1
  refine ⟨⟨?_, ?_, by simp [DNs.vw]⟩, ?_⟩
  · cases hn : d.name with
    | none =>
      simp only [DNs.vw, hn, Option.map_none, VwNs.body]
      cases hx : d.cont.vw with
      | nil => exact absurd hx hne
      | cons f fs => rfl
    | some s =>
      simp only [DNs.vw, hn, Option.map_some]
      exact ⟨(hv.name s hn).1, (hv.name s hn).2.1⟩
  · intro f hm
    simp only [DNs.vw] at hm
    obtain ⟨g, hg, rfl⟩ := List.mem_map.1 hm
    exact ⟨⟨by simp, by simp; decide⟩, hf g hg⟩
  · intro _
    rw [vw_ns ag]
    have e : d.vw.feats.map (·.2) = d.cont.vw := by simp [DNs.vw, Function.comp_def]
    rw [e]
    cases hd : d.cont with
    | named l =>
      rw [DCont.vw, vw_anons_named]
      exact BitVec.isLt _
    | numbers l =>
      rw [hd] at hc
      rw [DCont.vw, vw_anons]
      exact hc.2.1

/-- Every character is a blank or not white space. -/
def Quiet (s : Str) : Prop := ∀ c ∈ s, c = ' ' ∨ isSpace c = false

theorem Quiet.append {s t : Str} (h : Quiet s) (h' : Quiet t) : Quiet (s ++ t) := fun c hc => (List.mem_append.1 hc).elim (h c) (h' c)

theorem Quiet.cons {c : Char} {t : Str} (h : isSpace c = false) (h' : Quiet t) : Quiet (c :: t) := fun x hx => by
  rcases List.mem_cons.1 hx with rfl | hx
  · exact .inr h
  · exact h' x hx

theorem Quiet.plain {s : Str} (h : Plain s) : Quiet s := fun c hc => .inr (h c hc).1

theorem Quiet.line {s : Str} (h : Quiet s) : '\n' ∉ s ∧ s.getLast? ≠ some '\r' :=
  ⟨fun hc => absurd (h _ hc) (by decide), fun hc => absurd (h _ (List.mem_of_getLast? hc)) (by decide)⟩

theorem Quiet.flatMap {α : Type} {l : List α} {f : α → Str} (h : ∀ a ∈ l, Quiet (f a)) : Quiet (l.flatMap f) := fun c hc => by
  obtain ⟨a, ha, hc⟩ := List.mem_flatMap.1 hc
  exact h a ha c hc

theorem quiet_render {parseFloat : Str → Option F} {f : VwFeat} (h : f.Valid parseFloat) : Quiet f.render := by
  have hc : isSpace ':' = false := by decide
  cases f with
  | name n => exact .plain h.2
  | number n num => exact (Quiet.plain h.2.1).append (.cons hc (.plain h.2.2.1))
  | text n v => exact (Quiet.plain h.1).append (.cons hc (.plain h.2.1))
  | anon num => exact .cons hc (.plain h.1)

theorem quiet_ns {pv : Vw.Parser F} {pj : Js.Parser F N} (ag : Agree pv pj) (d : DNs N) (hv : d.Valid pv pj) : Quiet d.vw.render := by
  have h := (vw_valid ag d hv).1
  refine .cons (by decide) (Quiet.append ?_ (Quiet.append (.flatMap fun f hf => ?_) (by simp [DNs.vw, Quiet])))
  · have hh := h.head
    unfold VwNs.head
    unfold DNs.vw at hh ⊢
    cases hn : d.name with
    | none => simp [Quiet]
    | some s => exact .plain (hv.name s hn).2.1
  · refine Quiet.append ?_ (quiet_render (h.feats f hf).2)
    simp only [DNs.vw] at hf
    obtain ⟨g, _, rfl⟩ := List.mem_map.1 hf
    intro c hc
    exact .inl (List.mem_singleton.1 hc)

/-! ### JSON -/

theorem js_valid {pv : Vw.Parser F} {pj : Js.Parser F N} (d : DNs N) (hv : d.Valid pv pj) : d.js.2.Valid (nsOf pj d.js.1).seed := by
  rw [name_ns pj d hv.name]
  have hc := hv.cont
  unfold DNs.js
  cases hd : d.cont with
  | named l => trivial
  | numbers l =>
    rw [hd] at hc
    refine ⟨by simpa using hc.1, ?_⟩
    rw [List.length_map]
    exact hc.2.1

theorem js_noSpare (pj : Js.Parser F N) (f : SparseFeatures F) (nss : List (DNs N)) : NoSpare pj f (nss.map DNs.js) := by
  intro pre name ss post h
  exfalso
  have hm : (name, JCont.strings ss) ∈ nss.map DNs.js := by rw [h]; simp
  obtain ⟨d, _, hd⟩ := List.mem_map.1 hm
  unfold DNs.js at hd
  have := congrArg Prod.snd hd
  cases hc : d.cont <;> rw [hc] at this <;> cases this

theorem recycled_of_reach {p : Pool (SparseFeatures F)} (h : PoolReach p) : ∀ f ∈ p.objects, Recycled f := by
  intro f hf
  obtain ⟨h1, h2⟩ := pool_objects h f hf
  refine ⟨⟨h1, fun ns _ => by rw [h2]⟩, fun ns => ?_⟩
  have := SparseFeatures.getNamespace_isSome_vw f ns
  rw [h2] at this
  unfold SparseFeatures.report
  have h3 : f.getNamespace ns = none := Option.not_isSome_iff_eq_none.1 (by simp [this])
  rw [h3]
  rfl

/-! ### DsJson -/

theorem allEntries_append (pj : Js.Parser F N) : ∀ l l' : List (Str × Json N), Ds.AllEntries pj (l ++ l') ↔ Ds.AllEntries pj l ∧ Ds.AllEntries pj l'
  | [], l' => by simp [Ds.AllEntries]
  | (k, v) :: l, l' => by simp [Ds.AllEntries, allEntries_append pj l l', and_assoc]

theorem allEntries_named (pj : Js.Parser F N) : ∀ l : List (Str × DVal N), Ds.AllEntries pj (l.map fun e => (e.1, e.2.js.render))
  | [] => by simp [Ds.AllEntries]
  | (k, v) :: l => by
    rw [List.map_cons, Ds.AllEntries]
    refine ⟨?_, allEntries_named pj l⟩
    rw [Ds.Accepted.eq_def]
    right
    cases v <;> trivial

theorem allElements_numbers (pj : Js.Parser F N) (ns : Namespace) : ∀ (l : List N) (k : Nat), ns.seed.toNat + k + l.length < 2 ^ 32 →
    Ds.AllElements pj ns k (l.map .num)
  | [], k, _ => by simp [Ds.AllElements]
  | x :: l, k, h => by
    rw [List.map_cons, Ds.AllElements]
    rw [List.length_cons] at h
    refine ⟨fun _ => ?_, allElements_numbers pj ns l (k + 1) (by omega)⟩
    rw [BitVec.toNat_ofNat, Nat.mod_eq_of_lt (by omega)]
    omega

theorem accepted_ns {pv : Vw.Parser F} {pj : Js.Parser F N} (d : DNs N) (hv : d.Valid pv pj) : Ds.AllEntries pj d.ds := by
  have hc := hv.cont
  have hns := name_ns pj d hv.name
  unfold DNs.js at hns
  simp only at hns
  unfold DNs.ds
  cases hd : d.cont with
  | named l =>
    cases hn : d.name with
    | none => exact allEntries_named pj l
    | some s =>
      simp only [Ds.AllEntries, and_true]
      rw [Ds.Accepted.eq_def]
      right
      simp only [DCont.js, JCont.render, List.map_map, Function.comp_def]
      exact allEntries_named pj l
  | numbers l =>
    rw [hd] at hc
    have : Ds.AllEntries pj [(d.name.getD [' '], (DCont.numbers l).js.render)] := by
      simp only [Ds.AllEntries, and_true]
      rw [Ds.Accepted.eq_def]
      right
      simp only [DCont.js, JCont.render, hns]
      exact allElements_numbers pj _ _ 0 (by rw [List.length_map]; simpa using hc.2.1)
    cases hn : d.name <;> (rw [hn] at this; exact this)

theorem accepted_example {pv : Vw.Parser F} {pj : Js.Parser F N} (extra : List (Str × Json N)) (he : ∀ e ∈ extra, e.1.head? = some '_')
    (nss : List (DNs N)) (hv : ∀ d ∈ nss, d.Valid pv pj) : Ds.ExampleAccepted pj (.obj (nss.flatMap DNs.ds ++ extra)) := by
  refine ⟨.inl ⟨_, rfl⟩, ?_⟩
  rw [Ds.Accepted.eq_def]
  right
  simp only
  rw [allEntries_append]
  constructor
  · clear he
    induction nss with
    | nil => simp [Ds.AllEntries]
    | cons d nss ih =>
      rw [List.flatMap_cons, allEntries_append]
      exact ⟨accepted_ns d (hv d List.mem_cons_self), ih fun d hd => hv d (List.mem_cons_of_mem _ hd)⟩
  · induction extra with
    | nil => simp [Ds.AllEntries]
    | cons e l ih =>
      obtain ⟨k, v⟩ := e
      rw [Ds.AllEntries]
      refine ⟨?_, ih fun e h => he e (List.mem_cons_of_mem _ h)⟩
      rw [Ds.Accepted.eq_def]
      exact .inl (he (k, v) List.mem_cons_self)

end Formats
end Rml
