import Verif.Lemmas.Text
import Verif.Lemmas.Reductions

/-! VW text: tokens, features, namespaces, labels. -/

set_option linter.unusedSectionVars false
namespace Rml
namespace Text

theorem asciiWs_ws {c : Char} (h : isAsciiWs c = true) : isWs c = true := by
  unfold isAsciiWs at h
  simp only [Bool.or_eq_true, decide_eq_true_eq] at h
  rcases h with (((rfl | rfl) | rfl) | rfl) | rfl <;> rfl

theorem split_none (c : Char) : ∀ s : Str, c ∉ s → split c s = [s]
  | [], _ => rfl
  | x :: s, h => by
    simp only [List.mem_cons, not_or] at h
    rw [split, if_neg (Ne.symm h.1), split_none c s h.2]
    rfl

theorem split_append (c : Char) : ∀ s r : Str, c ∉ s → split c (s ++ c :: r) = s :: split c r
  | [], r, _ => by simp [split]
  | x :: s, r, h => by
    simp only [List.mem_cons, not_or] at h
    rw [List.cons_append, split, if_neg (Ne.symm h.1), split_append c s r h.2]
    rfl

theorem runs_skip (p : Char → Bool) : ∀ (w s : Str), (∀ x ∈ w, p x = true) → runs p [] (w ++ s) = runs p [] s
  | [], s, _ => rfl
  | x :: w, s, h => by
    rw [List.cons_append, runs, if_pos (h x (by simp))]
    exact runs_skip p w s (fun y hy => h y (by simp [hy]))

theorem runs_take (p : Char → Bool) : ∀ (t acc s : Str), (∀ x ∈ t, p x = false) → runs p acc (t ++ s) = runs p (acc ++ t) s
  | [], acc, s, _ => by simp
  | x :: t, acc, s, h => by
    rw [List.cons_append, runs, if_neg (by simp [h x (by simp)])]
    rw [runs_take p t _ s (fun y hy => h y (by simp [hy]))]
    simp

/-- A token ends at white space. -/
theorem runs_cut (p : Char → Bool) {w acc s : Str} (hw : w ≠ []) (h : ∀ x ∈ w, p x = true) (hacc : acc ≠ []) :
    runs p acc (w ++ s) = acc :: runs p [] s := by
  obtain ⟨x, w, rfl⟩ := List.exists_cons_of_ne_nil hw
  rw [List.cons_append, runs, if_pos (h x (by simp)), if_neg (by simpa using hacc)]
  rw [runs_skip p w s (fun y hy => h y (by simp [hy]))]

theorem runs_end (p : Char → Bool) {acc : Str} (hacc : acc ≠ []) : runs p acc [] = [acc] := by
  rw [runs, if_neg (by simpa using hacc)]

/-- Tokens each preceded by white space. -/
theorem runs_before (p : Char → Bool) : ∀ (l : List (Str × Str)) (trailing : Str), (∀ e ∈ l, e.1 ≠ [] ∧ (∀ x ∈ e.1, p x = true) ∧ e.2 ≠ [] ∧ ∀ x ∈ e.2, p x = false) →
    (∀ x ∈ trailing, p x = true) →
    (∀ acc, acc ≠ [] → runs p acc (l.flatMap (fun e => e.1 ++ e.2) ++ trailing) = acc :: l.map (·.2)) ∧
    runs p [] (l.flatMap (fun e => e.1 ++ e.2) ++ trailing) = l.map (·.2)
  | [], trailing, _, ht => by
    refine ⟨?_, ?_⟩
    · intro acc hacc
      simp only [List.flatMap_nil, List.nil_append, List.map_nil]
      by_cases hn : trailing = []
      · rw [hn, runs_end p hacc]
      · have := runs_cut p (s := []) hn ht hacc
        rw [List.append_nil] at this
        rw [this]; simp [runs]
    · simp only [List.flatMap_nil, List.nil_append, List.map_nil]
      have := runs_skip p trailing [] ht
      rw [List.append_nil] at this
      rw [this]; simp [runs]
  | e :: l, trailing, h, ht => by
    obtain ⟨h1, h2, h3, h4⟩ := h e (by simp)
    have ih := runs_before p l trailing (fun e he => h e (by simp [he])) ht
    refine ⟨?_, ?_⟩
    · intro acc hacc
      simp only [List.flatMap_cons, List.append_assoc, List.map_cons]
      rw [runs_cut p h1 h2 hacc, runs_take p _ _ _ h4, List.nil_append]
      rw [ih.1 _ h3]
    · simp only [List.flatMap_cons, List.append_assoc, List.map_cons]
      rw [runs_skip p _ _ h2, runs_take p _ _ _ h4, List.nil_append]
      rw [ih.1 _ h3]

/-- Tokens each followed by white space. -/
theorem runs_after (p : Char → Bool) : ∀ (l : List (Str × Str)), (∀ e ∈ l, e.1 ≠ [] ∧ (∀ x ∈ e.1, p x = false) ∧ ∀ x ∈ e.2, p x = true) →
    (∀ e ∈ l.dropLast, e.2 ≠ []) → runs p [] (l.flatMap (fun e => e.1 ++ e.2)) = l.map (·.1)
  | [], _, _ => by simp [runs]
  | [e], h, _ => by
    obtain ⟨h1, h2, h3⟩ := h e (by simp)
    simp only [List.flatMap_cons, List.flatMap_nil, List.append_nil, List.map_cons, List.map_nil]
    rw [runs_take p _ _ _ h2, List.nil_append]
    by_cases hn : e.2 = []
    · rw [hn, runs_end p h1]
    · have := runs_cut p (s := []) hn h3 h1
      rw [List.append_nil] at this
      rw [this]; simp [runs]
  | e :: e' :: l, h, hs => by
    obtain ⟨h1, h2, h3⟩ := h e (by simp)
    rw [List.flatMap_cons, List.append_assoc, runs_take p _ _ _ h2, List.nil_append, runs_cut p (hs e (by simp)) h3 h1,
      runs_after p (e' :: l) (fun e he => h e (by simp [he])) (fun e he => hs e (by rw [List.dropLast_cons_of_ne_nil (by simp)]; simp [he]))]
    simp

end Text

namespace Vw
open Text SparseFeatures
variable {F : Type} [Flt F]

/-- One step of `parseU32`. -/
def digitStep (acc : Option Nat) (c : Char) : Option Nat := do
  let a ← acc
  if 48 ≤ c.toNat ∧ c.toNat ≤ 57 then some (10 * a + (c.toNat - 48)) else none

theorem digitChar_toNat (d : Fin 10) : (digitChar d).toNat = 48 + d.val := by revert d; decide

theorem digitChar_ne_plus (d : Fin 10) : digitChar d ≠ '+' := by revert d; decide

theorem digits_fold (ds : List (Fin 10)) (a : Nat) : (ds.map digitChar).foldl digitStep (some a) = some (ds.foldl (fun n d => 10 * n + d.val) a) := by
  induction ds generalizing a with
  | nil => rfl
  | cons d ds ih =>
    have : digitStep (some a) (digitChar d) = some (10 * a + d.val) := by
      simp [digitStep, digitChar_toNat]
      omega
    rw [List.map_cons, List.foldl_cons, this, ih]
    rfl

theorem fold_none (s : Str) : s.foldl digitStep none = none := by
  induction s with
  | nil => rfl
  | cons c s ih => exact ih

theorem digits_of_fold (s : Str) (a n : Nat) (h : s.foldl digitStep (some a) = some n) : ∃ ds : List (Fin 10), s = ds.map digitChar := by
  induction s generalizing a with
  | nil => exact ⟨[], rfl⟩
  | cons c s ih =>
    rw [List.foldl_cons] at h
    by_cases hc : 48 ≤ c.toNat ∧ c.toNat ≤ 57
    · rw [show digitStep (some a) c = some (10 * a + (c.toNat - 48)) from by simp [digitStep, hc]] at h
      obtain ⟨ds, hds⟩ := ih _ h
      refine ⟨⟨c.toNat - 48, by omega⟩ :: ds, ?_⟩
      rw [List.map_cons, hds]
      congr 1
      unfold digitChar
      simp only
      rw [show 48 + (c.toNat - 48) = c.toNat from by omega, Char.ofNat_toNat]
    · rw [show digitStep (some a) c = none from by simp [digitStep]; omega, fold_none] at h
      cases h

theorem parseU32_iff (s : Str) : (parseU32 s).isSome = true ↔ IsU32 s := by
  have key : ∀ d : Str, d ≠ [] → ((match d.foldl digitStep (some 0) with | some n => if n < 2 ^ 32 then some n else none | none => none).isSome = true ↔
      ∃ ds : List (Fin 10), ds ≠ [] ∧ decimal ds < 2 ^ 32 ∧ d = ds.map digitChar) := by
    intro d hd
    constructor
    · intro h
      cases hf : d.foldl digitStep (some 0) with
      | none => rw [hf] at h; cases h
      | some n =>
        obtain ⟨ds, rfl⟩ := digits_of_fold _ _ _ hf
        rw [hf] at h
        rw [digits_fold] at hf
        cases hf
        simp only at h
        split at h
        · rename_i hn
          exact ⟨ds, by rintro rfl; exact hd rfl, hn, rfl⟩
        · cases h
    · rintro ⟨ds, h1, h2, rfl⟩
      rw [digits_fold]
      simp only
      unfold decimal at h2
      rw [if_pos h2]
      rfl
  have e : parseU32 s = let d := if startsWith '+' s then s.tail else s
      if d.isEmpty then none else match d.foldl digitStep (some 0) with | some n => if n < 2 ^ 32 then some n else none | none => none := rfl
  rw [e]
  unfold IsU32
  cases s with
  | nil =>
    constructor
    · intro h; cases h
    · rintro ⟨ds, h1, _, h | h⟩
      · exact absurd (List.map_eq_nil_iff.1 h.symm) h1
      · cases h
  | cons c s =>
    by_cases hc : c = '+'
    · subst hc
      simp only [startsWith, List.head?_cons, decide_true, if_true, List.tail_cons]
      cases s with
      | nil =>
        constructor
        · intro h; cases h
        · rintro ⟨ds, h1, _, h | h⟩
          · cases ds with
            | nil => exact absurd rfl h1
            | cons d ds => exact absurd (List.cons.inj h).1.symm (digitChar_ne_plus d)
          · exact absurd (List.map_eq_nil_iff.1 (List.cons.inj h).2.symm) h1
      | cons x s =>
        rw [if_neg (by simp), key _ (by simp)]
        constructor
        · rintro ⟨ds, h1, h2, h3⟩
          exact ⟨ds, h1, h2, Or.inr (by rw [h3])⟩
        · rintro ⟨ds, h1, h2, h | h⟩
          · cases ds with
            | nil => exact absurd rfl h1
            | cons d ds => exact absurd (List.cons.inj h).1.symm (digitChar_ne_plus d)
          · exact ⟨ds, h1, h2, (List.cons.inj h).2⟩
    · have : startsWith '+' (c :: s) = false := by simp [startsWith, hc]
      simp only [this, Bool.false_eq_true, if_false]
      rw [if_neg (by simp), key _ (by simp)]
      constructor
      · rintro ⟨ds, h1, h2, h3⟩
        exact ⟨ds, h1, h2, Or.inl h3⟩
      · rintro ⟨ds, h1, h2, h | h⟩
        · exact ⟨ds, h1, h2, h⟩
        · exact absurd (List.cons.inj h).1 hc
theorem plain_colon {s : Str} (h : Plain s) : ':' ∉ s := fun hc => (h _ hc).2.1 rfl
theorem plain_bar {s : Str} (h : Plain s) : '|' ∉ s := fun hc => (h _ hc).2.2 rfl
theorem plain_ws {s : Str} (h : Plain s) : ∀ c ∈ s, isAsciiWs c = false := by
  intro c hc
  rw [Bool.eq_false_iff]
  intro hw
  have := asciiWs_ws hw
  rw [← isSpace_eq, (h c hc).1] at this; cases this

theorem trim_plain {s : Str} (h : Plain s) : trim s = s := by
  unfold trim
  have : s.dropWhile isWs = s := by
    cases s with
    | nil => rfl
    | cons a t =>
      have h1 := (h a (by simp)).1
      rw [isSpace_eq] at h1
      simp [List.dropWhile_cons, h1]
  rw [this]
  apply trimEnd_id
  intro x hx
  rw [← isSpace_eq]
  exact (h x (List.mem_of_getLast? hx)).1

theorem startsWith_plain {s r : Str} {c : Char} (h : c ∉ s) (hne : s ≠ []) : startsWith c (s ++ r) = false := by
  obtain ⟨x, s, rfl⟩ := List.exists_cons_of_ne_nil hne
  simp only [List.mem_cons, not_or] at h
  simp [startsWith, Ne.symm h.1]

theorem render_ok {pf : Str → Option F} {f : VwFeat} (h : f.Valid pf) : f.render ≠ [] ∧ (∀ x ∈ f.render, isAsciiWs x = false) ∧ '|' ∉ f.render := by
  have hc : isAsciiWs ':' = false := rfl
  cases f with
  | name n => exact ⟨h.1, plain_ws h.2, plain_bar h.2⟩
  | number n num =>
    refine ⟨by simp [VwFeat.render], ?_, ?_⟩
    · intro x hx
      simp only [VwFeat.render, List.mem_append, List.mem_cons] at hx
      rcases hx with hx | rfl | hx
      · exact plain_ws h.2.1 x hx
      · exact hc
      · exact plain_ws h.2.2.1 x hx
    · simp only [VwFeat.render, List.mem_append, List.mem_cons, not_or]
      exact ⟨plain_bar h.2.1, by decide, plain_bar h.2.2.1⟩
  | text n value =>
    refine ⟨by simp [VwFeat.render], ?_, ?_⟩
    · intro x hx
      simp only [VwFeat.render, List.mem_append, List.mem_cons] at hx
      rcases hx with hx | rfl | hx
      · exact plain_ws h.1 x hx
      · exact hc
      · exact plain_ws h.2.1 x hx
    · simp only [VwFeat.render, List.mem_append, List.mem_cons, not_or]
      exact ⟨plain_bar h.1, by decide, plain_bar h.2.1⟩
  | anon num =>
    refine ⟨by simp [VwFeat.render], ?_, ?_⟩
    · intro x hx
      simp only [VwFeat.render, List.mem_cons] at hx
      rcases hx with rfl | hx
      · exact hc
      · exact plain_ws h.1 x hx
    · simp only [VwFeat.render, List.mem_cons, not_or]
      exact ⟨by decide, plain_bar h.1⟩

theorem addChecked_ok {dbg : Bool} {a b : U32} (h : dbg = true → a.toNat + b.toNat < 2 ^ 32) : addChecked dbg a b = .ok (a + b) := by
  unfold addChecked
  cases dbg with
  | false => rfl
  | true =>
    have := h rfl
    rw [if_neg]
    simp only [Bool.true_and, decide_eq_true_eq]
    omega

/-- One feature. -/
theorem featureStep_ok (pr : Parser F) (nsHash : U32) (scale : F) (n : NsFeats F) (k : Nat) (f : VwFeat) (hf : f.Valid pr.parseFloat)
    (hk : pr.dbg = true → nsHash.toNat + k + anons [f] < 2 ^ 32) :
    ∃ i v, featureStep pr nsHash scale (n, BitVec.ofNat 32 k) f.render = .ok (n.addFeature i v, BitVec.ofNat 32 (k + anons [f])) ∧
      ∀ fs, meant pr.hash pr.numBits pr.parseFloat nsHash scale k (f :: fs) =
        (i, v) :: meant pr.hash pr.numBits pr.parseFloat nsHash scale (k + anons [f]) fs := by
  cases f with
  | name m =>
    refine ⟨_, _, ?_, fun fs => rfl⟩
    rw [lowBits_eq]
    have h1 : startsWith ':' (VwFeat.name m).render = false := by
      have := startsWith_plain (r := []) (plain_colon hf.2) hf.1
      rw [List.append_nil] at this; exact this
    unfold featureStep parseFeature
    simp only [h1, Bool.false_eq_true, if_false]
    rw [show (VwFeat.name m).render = m from rfl, split_none _ _ (plain_colon hf.2)]
    rfl
  | number m num =>
    refine ⟨_, _, ?_, fun fs => rfl⟩
    rw [lowBits_eq]
    have h1 : startsWith ':' (VwFeat.number m num).render = false := startsWith_plain (plain_colon hf.2.1) hf.1
    unfold featureStep parseFeature
    simp only [h1, Bool.false_eq_true, if_false]
    rw [show (VwFeat.number m num).render = m ++ ':' :: num from rfl, split_append _ _ _ (plain_colon hf.2.1), split_none _ _ (plain_colon hf.2.2.1)]
    obtain ⟨v, hv⟩ := Option.isSome_iff_exists.1 hf.2.2.2
    simp only [List.getElem?_cons_zero, List.getElem?_cons_succ, unwrapP, bind, Except.bind, hv]
    rfl
  | text m value =>
    refine ⟨_, _, ?_, fun fs => rfl⟩
    rw [lowBits_eq]
    by_cases hm : m = []
    · subst hm
      unfold featureStep parseFeature
      simp only [VwFeat.render, List.nil_append]
      simp only [startsWith, List.head?_cons, decide_true, if_true, List.tail_cons, hf.2.2, trim_plain hf.2.1]
      rfl
    · have h1 : startsWith ':' (VwFeat.text m value).render = false := startsWith_plain (plain_colon hf.1) hm
      unfold featureStep parseFeature
      simp only [h1, Bool.false_eq_true, if_false]
      rw [show (VwFeat.text m value).render = m ++ ':' :: value from rfl, split_append _ _ _ (plain_colon hf.1), split_none _ _ (plain_colon hf.2.1)]
      simp only [List.getElem?_cons_zero, List.getElem?_cons_succ, unwrapP, bind, Except.bind, hf.2.2, trim_plain hf.2.1]
      rfl
  | anon num =>
    refine ⟨_, _, ?_, fun fs => rfl⟩
    rw [lowBits_eq]
    obtain ⟨v, hv⟩ := Option.isSome_iff_exists.1 hf.2
    unfold featureStep parseFeature
    simp only [VwFeat.render, startsWith, List.head?_cons, decide_true, if_true, List.tail_cons, hv]
    have e1 : addChecked pr.dbg (BitVec.ofNat 32 k) 1#32 = .ok (BitVec.ofNat 32 k + 1#32) := by
      apply addChecked_ok
      intro hd
      have := hk hd
      simp only [anons] at this
      simp only [BitVec.toNat_ofNat]
      have : k % 2 ^ 32 ≤ k := Nat.mod_le _ _
      omega
    have e2 : addChecked pr.dbg nsHash (BitVec.ofNat 32 k) = .ok (nsHash + BitVec.ofNat 32 k) := by
      apply addChecked_ok
      intro hd
      have := hk hd
      simp only [anons] at this
      simp only [BitVec.toNat_ofNat]
      have : k % 2 ^ 32 ≤ k := Nat.mod_le _ _
      omega
    simp only [bind, Except.bind, e1, liftM, ParsedFeature.hash, e2, anons]
    have : BitVec.ofNat 32 k + 1#32 = BitVec.ofNat 32 (k + (0 + 1)) := by
      apply BitVec.eq_of_toNat_eq
      simp [BitVec.toNat_add]
    rw [this]
    rfl

theorem zip_fst_snd {α β : Type} : ∀ l : List (α × β), (l.map (·.1)).zip (l.map (·.2)) = l
  | [] => rfl
  | _ :: l => by simp [zip_fst_snd l]

theorem anons_cons (f : VwFeat) (fs : List VwFeat) : anons (f :: fs) = anons [f] + anons fs := by
  cases f <;> simp [anons]; omega

/-- All features of a namespace. -/
theorem features_ok (pr : Parser F) (nsHash : U32) (scale : F) : ∀ (fs : List VwFeat) (n : NsFeats F) (k : Nat), (∀ f ∈ fs, f.Valid pr.parseFloat) →
    (pr.dbg = true → nsHash.toNat + k + anons fs < 2 ^ 32) →
    ∃ n' c, (fs.map VwFeat.render).foldlM (featureStep pr nsHash scale) (n, BitVec.ofNat 32 k) = .ok (n', c) ∧ n'.namespace_ = n.namespace_ ∧
      n'.active = n.active ∧
      n'.idx.data = n.idx.data ++ (meant pr.hash pr.numBits pr.parseFloat nsHash scale k fs).map (·.1) ∧
      n'.vals.data = n.vals.data ++ (meant pr.hash pr.numBits pr.parseFloat nsHash scale k fs).map (·.2)
  | [], n, k, _, _ => ⟨n, _, rfl, rfl, rfl, by simp [meant], by simp [meant]⟩
  | f :: fs, n, k, hv, hk => by
    rw [anons_cons] at hk
    obtain ⟨i, v, h1, h2⟩ := featureStep_ok pr nsHash scale n k f (hv f (by simp)) (fun hd => by have := hk hd; omega)
    obtain ⟨n', c, q1, q2, q3, q4, q5⟩ := features_ok pr nsHash scale fs (n.addFeature i v) (k + anons [f]) (fun g hg => hv g (by simp [hg]))
      (fun hd => by have := hk hd; omega)
    refine ⟨n', c, ?_, q2, q3, ?_, ?_⟩
    · rw [List.map_cons, List.foldlM_cons, h1]
      exact q1
    · rw [h2, q4]; simp [NsFeats.addFeature, RVec.push]
    · rw [h2, q5]; simp [NsFeats.addFeature, RVec.push]

/-- The tokens of a segment. -/
theorem tokens_ok {pf : Str → Option F} {n : VwNs} (h : n.Valid pf) :
    (∀ acc, acc ≠ [] → runs isAsciiWs acc n.body = acc :: n.feats.map (fun f => f.2.render)) ∧
    runs isAsciiWs [] n.body = n.feats.map (fun f => f.2.render) := by
  have := runs_before isAsciiWs (n.feats.map (fun f => (f.1, f.2.render))) n.trailing (by
    intro e he
    obtain ⟨f, hf, rfl⟩ := List.mem_map.1 he
    have h1 := (h.feats f hf).1
    have h2 := render_ok (h.feats f hf).2
    exact ⟨h1.1, isAsciiSpace_eq ▸ h1.2, h2.1, h2.2.1⟩) (isAsciiSpace_eq ▸ h.trailing)
  have hb : n.body = (n.feats.map (fun f => (f.1, f.2.render))).flatMap (fun e => e.1 ++ e.2) ++ n.trailing := by
    unfold VwNs.body
    rw [List.flatMap_map]
  rw [hb]
  simpa [Function.comp_def] using this

theorem fromName_plain {hash : HashFn} {s : Str} {seed : U32} (h : Plain s) : Namespace.fromName hash s seed = .named (hash s seed) := by
  unfold Namespace.fromName
  rw [if_neg, if_neg]
  · rintro rfl
    exact absurd (h ':' (by decide)).2.1 (by decide)
  · rintro rfl
    exact absurd (h ' ' (by decide)).1 (by decide)

/-- One namespace. -/
theorem namespace_ok (pr : Parser F) (n : VwNs) (h : n.Valid pr.parseFloat) (ho : n.NoOverflow pr) (dest : SparseFeatures F) (hd : dest.WF) :
    ∃ dest', parseNamespaceInline pr (n.head ++ n.body) dest = .ok dest' ∧ dest'.WF ∧
      dest'.report = dest.report.put (n.ns pr.hash pr.hashSeed)
        (some ((dest.report (n.ns pr.hash pr.hashSeed)).getD [] ++ n.features pr)) := by
  have htok := tokens_ok h
  suffices hs : ∃ name, Namespace.fromName pr.hash name pr.hashSeed = n.ns pr.hash pr.hashSeed ∧
      segmentHead pr (n.head ++ n.body) = .ok (name, n.scale pr.parseFloat, (n.feats.map (·.2)).map VwFeat.render) by
    obtain ⟨name, hn, hs⟩ := hs
    unfold parseNamespaceInline
    rw [hs]
    simp only [bind, Except.bind]
    simp only [hn]
    obtain ⟨g1, g2, g3, g4⟩ := getOrCreate_spec hd.toInv0 (n.ns pr.hash pr.hashSeed)
    obtain ⟨n', c, q1, q2, q3, q4, q5⟩ := features_ok pr (n.ns pr.hash pr.hashSeed).hash (n.scale pr.parseFloat) (n.feats.map (·.2))
      (dest.getOrCreate (n.ns pr.hash pr.hashSeed)) 0 (by
        intro f hf
        obtain ⟨e, he, rfl⟩ := List.mem_map.1 hf
        exact (h.feats e he).2) (fun hdbg => by have := ho hdbg; rw [seed_eq] at this; omega)
    rw [show (0#32 : U32) = BitVec.ofNat 32 0 from rfl, q1]
    refine ⟨_, rfl, ?_, ?_⟩
    · refine wf_setNamespace hd ?_ (q2.trans g4) (q3.trans g3)
      rw [q4, q5]
      have := vw_lens hd.toInv0 (n.ns pr.hash pr.hashSeed)
      simp [g1, g2, this]
    · rw [report_setNamespace _ (q3.trans g3), q4, q5]
      congr 2
      have hl := vw_lens hd.toInv0 (n.ns pr.hash pr.hashSeed)
      rw [g1, g2, List.zip_append hl, report_eq_absV, getD_absV hd]
      congr 1
      exact zip_fst_snd _
  cases hname : n.name with
  | none =>
    have hh := h.head
    rw [hname] at hh
    have hhead : n.head = [] := by simp [VwNs.head, hname]
    refine ⟨" ".toList, by simp [Namespace.fromName, VwNs.ns, hname], ?_⟩
    unfold segmentHead
    have hst : startsWith ' ' (n.head ++ n.body) = true := by
      rw [hhead]; simpa [startsWith] using hh
    rw [hst, if_pos rfl, hhead, List.nil_append, splitAsciiWhitespace, htok.2]
    simp [bind, Except.bind, VwNs.scale, hname, Function.comp_def]
  | some e =>
    obtain ⟨s, sc⟩ := e
    cases sc with
    | none =>
      have hh := h.head
      rw [hname] at hh
      have hhead : n.head = s := by simp [VwNs.head, hname]
      refine ⟨s, by simp [fromName_plain hh.2, VwNs.ns, hname], ?_⟩
      unfold segmentHead
      have hsp : ' ' ∉ s := fun hc => absurd (hh.2 _ hc).1 (by decide)
      rw [hhead, startsWith_plain hsp hh.1, splitAsciiWhitespace, runs_take _ _ _ _ (plain_ws hh.2), List.nil_append, htok.1 _ hh.1]
      simp only [Bool.false_eq_true, if_false]
      rw [split_none _ _ (plain_colon hh.2)]
      simp [bind, Except.bind, VwNs.scale, hname, unwrapP, Function.comp_def]
    | some sc =>
      have hh := h.head
      rw [hname] at hh
      have hhead : n.head = s ++ ':' :: sc := by simp [VwNs.head, hname]
      refine ⟨s, by simp [fromName_plain hh.2.1, VwNs.ns, hname], ?_⟩
      unfold segmentHead
      have hsp : ' ' ∉ s := fun hc => absurd (hh.2.1 _ hc).1 (by decide)
      obtain ⟨v, hv⟩ := Option.isSome_iff_exists.1 hh.2.2.2
      have hall : ∀ x ∈ n.head, isAsciiWs x = false := by
        rw [hhead]
        intro x hx
        simp only [List.mem_append, List.mem_cons] at hx
        rcases hx with hx | rfl | hx
        · exact plain_ws hh.2.1 x hx
        · rfl
        · exact plain_ws hh.2.2.1 x hx
      rw [splitAsciiWhitespace, runs_take _ _ _ _ hall, List.nil_append, htok.1 _ (by simp [hhead])]
      rw [hhead, List.append_assoc, startsWith_plain hsp hh.1]
      simp only [Bool.false_eq_true, if_false]
      rw [split_append _ _ _ (plain_colon hh.2.1), split_none _ _ (plain_colon hh.2.2.1)]
      simp [bind, Except.bind, VwNs.scale, hname, unwrapP, hv, Function.comp_def]

theorem meaning_nil (pr : Parser F) : meaning pr [] = fun _ => none := rfl

/-- Adding namespaces one after the other. -/
theorem meaning_step (pr : Parser F) (nss : List VwNs) (n : VwNs) :
    meaning pr (nss ++ [n]) = (meaning pr nss).put (n.ns pr.hash pr.hashSeed)
      (some ((meaning pr nss (n.ns pr.hash pr.hashSeed)).getD [] ++ n.features pr)) := by
  funext ns
  unfold meaning SMap.put
  rw [List.filter_append]
  by_cases h : n.ns pr.hash pr.hashSeed = ns
  · subst h
    simp only [if_true, List.filter_cons, decide_true, List.filter_nil]
    cases nss.filter (fun m => decide (m.ns pr.hash pr.hashSeed = n.ns pr.hash pr.hashSeed)) with
    | nil => simp
    | cons a l => simp
  · simp only [h, if_false, List.filter_cons, decide_false, List.filter_nil, List.append_nil, Bool.false_eq_true]

/-- All namespaces of an example. -/
theorem namespaces_ok (pr : Parser F) : ∀ (nss pre : List VwNs) (dest : SparseFeatures F), (∀ n ∈ nss, n.Valid pr.parseFloat ∧ n.NoOverflow pr) → dest.WF →
    dest.report = meaning pr pre →
    ∃ dest', (nss.map (fun n => n.head ++ n.body)).foldlM (fun d s => parseNamespaceInline pr s d) dest = .ok dest' ∧ dest'.WF ∧
      dest'.report = meaning pr (pre ++ nss)
  | [], pre, dest, _, hd, hr => ⟨dest, rfl, hd, by rw [List.append_nil]; exact hr⟩
  | n :: nss, pre, dest, h, hd, hr => by
    obtain ⟨d1, h1, h2, h3⟩ := namespace_ok pr n (h n (by simp)).1 (h n (by simp)).2 dest hd
    obtain ⟨d2, q1, q2, q3⟩ := namespaces_ok pr nss (pre ++ [n]) d1 (fun m hm => h m (by simp [hm])) h2 (by rw [h3, hr, meaning_step])
    refine ⟨d2, ?_, q2, by rw [q3]; simp⟩
    rw [List.map_cons, List.foldlM_cons, h1]
    exact q1

theorem segment_bar {pf : Str → Option F} {n : VwNs} (h : n.Valid pf) : '|' ∉ n.head ++ n.body := by
  have hws : ∀ s : Str, (∀ c ∈ s, isAsciiWs c = true) → '|' ∉ s := fun s hs hc => absurd (hs _ hc) (by decide)
  rw [List.mem_append, not_or]
  refine ⟨?_, ?_⟩
  · have hh := h.head
    unfold VwNs.head
    cases hname : n.name with
    | none => simp
    | some e =>
      obtain ⟨s, sc⟩ := e
      rw [hname] at hh
      cases sc with
      | none => exact plain_bar hh.2
      | some sc =>
        simp only [List.mem_append, List.mem_cons, not_or]
        exact ⟨plain_bar hh.2.1, by decide, plain_bar hh.2.2.1⟩
  · unfold VwNs.body
    rw [List.mem_append, not_or]
    refine ⟨?_, hws _ (isAsciiSpace_eq ▸ h.trailing)⟩
    intro hc
    obtain ⟨f, hf, hm⟩ := List.mem_flatMap.1 hc
    rcases List.mem_append.1 hm with hm | hm
    · exact hws _ (isAsciiSpace_eq ▸ (h.feats f hf).1.2) hm
    · exact (render_ok (h.feats f hf).2).2.2 hm

/-- The segments of a line. -/
theorem split_line {pf : Str → Option F} : ∀ (nss : List VwNs) (init : Str), '|' ∉ init → (∀ n ∈ nss, n.Valid pf) →
    split '|' (init ++ nss.flatMap VwNs.render) = init :: nss.map (fun n => n.head ++ n.body)
  | [], init, h, _ => by simp [split_none _ _ h]
  | n :: nss, init, h, hv => by
    rw [List.flatMap_cons, VwNs.render, List.cons_append, split_append _ _ _ h, split_line nss _ (segment_bar (hv n (by simp))) (fun m hm => hv m (by simp [hm]))]
    rfl

theorem head_bar {h : VwHead} (hv : h.Valid) : '|' ∉ h.render := by
  have hws : ∀ s : Str, (∀ c ∈ s, isWs c = true) → '|' ∉ s := fun s hs hc => absurd (hs _ hc) (by decide)
  unfold VwHead.render
  rw [List.mem_append, not_or]
  refine ⟨hws _ (isSpace_eq ▸ hv.lead), ?_⟩
  intro hc
  obtain ⟨t, ht, hm⟩ := List.mem_flatMap.1 hc
  rcases List.mem_append.1 hm with hm | hm
  · exact ((hv.toks t ht).2.1 _ hm).2 rfl
  · exact hws _ (isSpace_eq ▸ (hv.toks t ht).2.2) hm

theorem head_tokens {h : VwHead} (hv : h.Valid) : splitWhitespace h.render = h.toks.map (·.1) := by
  unfold splitWhitespace VwHead.render
  rw [← isSpace_eq, runs_skip _ _ _ hv.lead]
  exact runs_after _ _ (fun t ht => ⟨(hv.toks t ht).1, fun x hx => ((hv.toks t ht).2.1 x hx).1, (hv.toks t ht).2.2⟩) hv.seps

theorem head_space {h : VwHead} (hv : h.Valid) {t : Str × Str} (ht : h.toks.getLast? = some t) : endsWith ' ' h.render = !h.touches := by
  obtain ⟨l, hl⟩ : ∃ l, h.toks = l ++ [t] := ⟨h.toks.dropLast, by
    have := List.dropLast_append_getLast? t ht
    exact this.symm⟩
  have hmem : t ∈ h.toks := by rw [hl]; simp
  have hrender : h.render = (h.lead ++ l.flatMap (fun t => t.1 ++ t.2) ++ t.1) ++ t.2 := by
    unfold VwHead.render
    rw [hl]; simp
  unfold VwHead.touches endsWith
  rw [ht, hrender, List.getLast?_append]
  cases h2 : t.2.getLast? with
  | none =>
    rw [List.getLast?_append]
    cases hq : t.1.getLast? with
    | none => exact absurd (List.getLast?_eq_none_iff.1 hq) (hv.toks t hmem).1
    | some x =>
      have hx := ((hv.toks t hmem).2.1 x (List.mem_of_getLast? hq)).1
      have : x ≠ ' ' := by rintro rfl; exact absurd hx (by decide)
      simp [this, h2]
  | some y => simp [h2]

/-- The part before the first bar. -/
theorem head_ok (pr : Parser F) {h : VwHead} (hv : h.Valid) :
    ∃ tag, parseInitialSegment pr h.render = (parseLabel pr h.labelTokens).map (fun l => (tag, l)) := by
  unfold parseInitialSegment
  rw [head_tokens hv]
  unfold VwHead.labelTokens
  cases ht : h.toks.getLast? with
  | none =>
    have : h.toks = [] := List.getLast?_eq_none_iff.1 ht
    refine ⟨none, ?_⟩
    rw [this]
    simp only [List.map_nil, List.getLast?_nil]
    cases parseLabel pr [] <;> rfl
  | some t =>
    have hl : (h.toks.map (·.1)).getLast? = some t.1 := by simp [ht]
    simp only [hl, head_space hv ht, Bool.not_not]
    have hcomm : (startsWith '\'' t.1 || h.touches) = (h.touches || decide (t.1.head? = some '\'')) := by
      unfold startsWith; rw [Bool.or_comm]
    rw [hcomm]
    cases hc : (h.touches || decide (t.1.head? = some '\'')) with
    | true =>
      refine ⟨some (if startsWith '\'' t.1 = true then t.1.tail else t.1), ?_⟩
      simp only [if_true]
      rw [List.map_dropLast]
      cases parseLabel pr (h.toks.map (·.1)).dropLast <;> rfl
    | false =>
      refine ⟨none, ?_⟩
      simp only [Bool.false_eq_true, if_false]
      cases parseLabel pr (h.toks.map (·.1)) <;> rfl

/-- A whole line, on any object without visible features. -/
theorem line_ok (pr : Parser F) {h : VwHead} (hv : h.Valid) (nss : List VwNs) (hn : ∀ n ∈ nss, n.Valid pr.parseFloat ∧ n.NoOverflow pr)
    (dest : SparseFeatures F) (hd : Recycled dest) :
    ∃ dest', dest'.WF ∧ dest'.report = meaning pr nss ∧
      ∀ l, parseLabel pr h.labelTokens = .ok l → ∃ tag, parseTextLine pr (h.render ++ nss.flatMap VwNs.render) dest = .ok (⟨tag, l⟩, dest') := by
  obtain ⟨d, h1, h2, h3⟩ := namespaces_ok pr nss [] dest hn hd.1 (by funext ns; rw [hd.2 ns, meaning_nil])
  refine ⟨d, h2, h3, ?_⟩
  intro l hl
  obtain ⟨tag, ht⟩ := head_ok pr hv
  refine ⟨tag, ?_⟩
  unfold parseTextLine
  rw [split_line nss _ (head_bar hv) (fun n hm => (hn n hm).1)]
  simp only
  rw [ht, hl]
  simp only [Except.map, bind, Except.bind]
  rw [h1]

end Vw
end Rml
