import Verif.Props.Elementwise
import Verif.Props.Safe
import Verif.Props.Python
import Verif.Props.Order

/-! C116: which examples a model with ElementwiseInteraction can predict and learn from. -/

set_option linter.unusedSectionVars false

namespace Rml
open SparseFeatures
variable {F : Type} [Flt F]

theorem baseOf_lt {nb : Nat} (h : nb ≤ 31) (ns : Namespace) : baseOf nb ns < 2 ^ nb := by
  rw [baseOf_eq]
  exact maskIdx_lt (by omega) _

/-- The features with the product namespace, once the multiplication succeeds. -/
theorem prep_ok {dbg : Bool} {bits : Nat} {pair : Namespace × Namespace} {keep : Bool} {f : SparseFeatures F} (hf : f.Inv0)
    (hp : pair.1.isRaw = false ∧ pair.2.isRaw = false) (hne : keep = false → pair.1 ≠ pair.2) {r : Namespace × NsFeats F}
    (h : elementwiseMultiply dbg bits f pair.1 pair.2 = .ok r) : ∃ x, elementwisePrep dbg bits pair keep f = .ok x ∧ x.1.Inv0 := by
  obtain ⟨hc, h2, h3, _, v1, v2⟩ := elementwiseMultiply_ok h
  obtain ⟨cns, dest⟩ := r
  simp only at hc h2 h3
  have c1 : cns ≠ pair.1 := by intro e; rw [← e, hc] at hp; simp [Namespace.isRaw] at hp
  have c2 : cns ≠ pair.2 := by intro e; rw [← e, hc] at hp; simp [Namespace.isRaw] at hp
  have hinv := setNamespace_inv0 hf h2 h3
  unfold elementwisePrep
  rw [h, ok_bind]
  simp only
  cases keep with
  | true => exact ⟨_, rfl, hinv⟩
  | false =>
    simp only [Bool.false_eq_true, if_false]
    obtain ⟨n1, e1⟩ := lookup_of_view (f := f.setNamespace cns dest) (ns := pair.1) (by rw [vw_setNamespace, if_neg c1]; exact v1)
    obtain ⟨n2, e2⟩ := lookup_of_view (f := ((f.setNamespace cns dest).removeNamespace pair.1).2) (ns := pair.2)
      (by rw [vw_removeNamespace hinv, if_neg (hne rfl), vw_setNamespace, if_neg c2]; exact v2)
    have e1' : ((f.setNamespace cns dest).removeNamespace pair.1).1 = some n1 := e1
    have e2' : ((((f.setNamespace cns dest).removeNamespace pair.1).2).removeNamespace pair.2).1 = some n2 := e2
    rw [e1', unwrapOpt, ok_bind, e2', unwrapOpt, ok_bind]
    exact ⟨_, rfl, removeNamespace_inv0 (removeNamespace_inv0 hinv _) _⟩

theorem denseAt_fits (base n : Nat) (vs : List F) (hb : base + vs.length ≤ 2 ^ 32) (hv : base < n) :
    (∀ iv ∈ denseAt base vs, iv.1.toNat < n) ↔ base + vs.length ≤ n := by
  constructor
  · intro h
    cases hl : vs.reverse with
    | nil => rw [List.reverse_eq_nil_iff] at hl; subst hl; simp; omega
    | cons v l =>
      have : (BitVec.ofNat 32 (base + vs.length - 1), v) ∈ denseAt base vs := by
        have e : vs = l.reverse ++ [v] := by rw [← List.reverse_reverse vs, hl]; simp
        rw [e]
        clear * -
        generalize l.reverse = l
        induction l generalizing base with
        | nil => simp [denseAt]
        | cons x l ih =>
          simp only [List.cons_append, denseAt, List.mem_cons, List.length_cons]
          right
          have := ih (base + 1)
          have e : base + 1 + (l ++ [v]).length - 1 = base + ((l ++ [v]).length + 1) - 1 := by omega
          rw [e] at this
          exact this
      have h1 := h _ this
      have h2 : 1 ≤ vs.length := by rw [← List.length_reverse, hl]; simp
      rw [ofNat_toNat_lt (by omega)] at h1
      omega
  · intro h iv hiv
    have := denseAt_mem hiv hb
    omega

theorem wrap_keeps_release {α : Type} {body : Features F → Depth → M (α × Features F × Depth)} (r : Red F) {ft ft' : Features F} {a : α} {d : Depth}
    (hd : d < 256) (h : body ft d = .ok (a, ft', d)) : wrapCall false r.meta ft d 0 body = .ok (a, ft', d) := by
  obtain ⟨h1, h2⟩ := C27_no_overflow false r d hd
  unfold wrapCall
  rw [h1, ok_bind, h, ok_bind]
  simp only
  rw [h2, ok_bind]
  rfl

/-- What all three calls of the regressor have in common. -/
structure NeedsFit (nb : Nat) {α : Type} (body : Features F → Depth → M (α × Features F × Depth)) : Prop where
  fits : ∀ f d r, f.Inv0 → body (.simple f) d = .ok r → f.Fits nb
  ok : ∀ f d, d < 256 → f.Fits nb → ∃ a, body (.simple f) d = .ok (a, .simple f, d)

/-- The example as the base sees it is inside the table exactly if the products are. -/
theorem sees_fits {nb : Nat} {keep : Bool} {one two : Namespace} {f f1 : SparseFeatures F} {prod : List (U32 × F)} (hf : f.Inv0) (h1 : f1.Inv0)
    (hs : BaseSees keep one two f f1 prod) (hfit : f.Fits nb) : f1.Fits nb ↔ ∀ iv ∈ prod, iv.1.toNat < 2 ^ nb := by
  constructor
  · intro h iv hiv
    refine h iv ((mem_allFeatures h1 iv).2 ⟨productNs one two, ?_⟩)
    have := hs (productNs one two)
    rw [if_pos rfl] at this
    unfold stored at this
    rw [this]; exact hiv
  · intro h iv hiv
    obtain ⟨ns, hiv⟩ := (mem_allFeatures h1 iv).1 hiv
    have := hs ns
    unfold stored at this
    rw [this] at hiv
    split at hiv
    · exact h iv hiv
    · split at hiv
      · cases hiv
      · exact hfit iv ((mem_allFeatures hf iv).2 ⟨ns, hiv⟩)

section call
variable {nb : Nat} {pair : Namespace × Namespace} {keep : Bool} {f : SparseFeatures F} {n1 n2 : NsFeats F} {xs ys : List F}

theorem elementwise_fails_of {α : Type} {body : Features F → Depth → M (α × Features F × Depth)}
    (hb : ∀ f d r, f.Inv0 → body (.simple f) d = .ok r → f.Fits nb) (dbg : Bool) (hnb : nb ≤ 31) (hf : f.Inv0)
    (hfit : f.Fits nb) (hp : pair.1.isRaw = false ∧ pair.2.isRaw = false) (h1 : f.getNamespace pair.1 = some n1) (h2 : f.getNamespace pair.2 = some n2)
    (hx : n1.iter = denseAt (baseOf nb pair.1) xs) (hy : n2.iter = denseAt (baseOf nb pair.2) ys)
    (w1 : baseOf nb pair.1 + xs.length ≤ 2 ^ nb) (w2 : baseOf nb pair.2 + ys.length ≤ 2 ^ nb) {m : Meta} {d : Depth} {r : α × Features F × Depth}
    (h : elementwiseWith dbg nb pair keep (fun ft d => wrapCall dbg m ft d 0 body) (.simple f) d = .ok r) :
    baseOf nb (productNs pair.1 pair.2) + min xs.length ys.length ≤ 2 ^ nb := by
  have hlt := baseOf_lt hnb (productNs pair.1 pair.2)
  have hpow : 2 ^ nb ≤ 2 ^ 31 := Nat.pow_le_pow_right (by omega) hnb
  obtain ⟨dest, q1, q2⟩ := C60_dense dbg nb f pair.1 pair.2 n1 n2 xs ys h1 h2 hx hy (by omega) (by omega) (by omega)
  rw [elementwiseWith_eq] at h
  obtain ⟨x, hx', h⟩ := bind_ok.1 h
  obtain ⟨y, hy', h⟩ := bind_ok.1 h
  obtain ⟨d1, d2, _, hy', _⟩ := wrapCall_ok hy'
  obtain ⟨dest', q3, q4⟩ := prep_sees hf hp hx'
  rw [q1] at q3
  simp only [Except.ok.injEq, Prod.mk.injEq] at q3
  obtain ⟨_, rfl⟩ := q3
  have hinv : x.1.Inv0 := by
    unfold elementwisePrep at hx'
    obtain ⟨⟨cns, dst⟩, hm, hx'⟩ := bind_ok.1 hx'
    obtain ⟨_, g2, g3, _⟩ := elementwiseMultiply_ok hm
    have hinv := setNamespace_inv0 hf g2 g3
    cases keep with
    | true => simp only [if_true, Except.ok.injEq] at hx'; subst hx'; exact hinv
    | false =>
      simp only [Bool.false_eq_true, if_false] at hx'
      obtain ⟨_, _, hx'⟩ := bind_ok.1 hx'
      obtain ⟨_, _, hx'⟩ := bind_ok.1 hx'
      simp only [Except.ok.injEq] at hx'
      subst hx'
      exact removeNamespace_inv0 (removeNamespace_inv0 hinv _) _
  have := (sees_fits hf hinv q4 hfit).1 (hb _ _ _ hinv hy')
  rw [q2, denseAt_fits _ _ _ (by rw [List.length_zipWith]; omega) hlt, List.length_zipWith] at this
  exact this

theorem elementwise_fails {α : Type} {body : Features F → Depth → M (α × Features F × Depth)} (hb : NeedsFit nb body) (dbg : Bool) (hnb : nb ≤ 31) (hf : f.Inv0)
    (hfit : f.Fits nb) (hp : pair.1.isRaw = false ∧ pair.2.isRaw = false) (h1 : f.getNamespace pair.1 = some n1) (h2 : f.getNamespace pair.2 = some n2)
    (hx : n1.iter = denseAt (baseOf nb pair.1) xs) (hy : n2.iter = denseAt (baseOf nb pair.2) ys)
    (w1 : baseOf nb pair.1 + xs.length ≤ 2 ^ nb) (w2 : baseOf nb pair.2 + ys.length ≤ 2 ^ nb) {m : Meta} {d : Depth} {r : α × Features F × Depth}
    (h : elementwiseWith dbg nb pair keep (fun ft d => wrapCall dbg m ft d 0 body) (.simple f) d = .ok r) :
    baseOf nb (productNs pair.1 pair.2) + min xs.length ys.length ≤ 2 ^ nb :=
  elementwise_fails_of hb.fits dbg hnb hf hfit hp h1 h2 hx hy w1 w2 h

theorem elementwise_succeeds {α : Type} {body : Features F → Depth → M (α × Features F × Depth)} (hb : NeedsFit nb body) (hnb : nb ≤ 31) (hf : f.Inv0)
    (hfit : f.Fits nb) (hp : pair.1.isRaw = false ∧ pair.2.isRaw = false) (hne : keep = false → pair.1 ≠ pair.2)
    (h1 : f.getNamespace pair.1 = some n1) (h2 : f.getNamespace pair.2 = some n2)
    (hx : n1.iter = denseAt (baseOf nb pair.1) xs) (hy : n2.iter = denseAt (baseOf nb pair.2) ys)
    (w1 : baseOf nb pair.1 + xs.length ≤ 2 ^ nb) (w2 : baseOf nb pair.2 + ys.length ≤ 2 ^ nb)
    (w3 : baseOf nb (productNs pair.1 pair.2) + min xs.length ys.length ≤ 2 ^ nb) (r : Red F) {d : Depth} (hd : d < 256) :
    ∃ a ft', elementwiseWith false nb pair keep (fun ft d => wrapCall false r.meta ft d 0 body) (.simple f) d = .ok (a, ft', d) := by
  have hlt := baseOf_lt hnb (productNs pair.1 pair.2)
  have hpow : 2 ^ nb ≤ 2 ^ 31 := Nat.pow_le_pow_right (by omega) hnb
  obtain ⟨dest, q1, q2⟩ := C60_dense false nb f pair.1 pair.2 n1 n2 xs ys h1 h2 hx hy (by omega) (by omega) (by omega)
  obtain ⟨x, hx', hinv⟩ := prep_ok hf hp hne q1
  obtain ⟨dest', q3, q4⟩ := prep_sees hf hp hx'
  rw [q1] at q3
  simp only [Except.ok.injEq, Prod.mk.injEq] at q3
  obtain ⟨_, rfl⟩ := q3
  have hx1 := (sees_fits hf hinv q4 hfit).2 (by
    rw [q2, denseAt_fits _ _ _ (by rw [List.length_zipWith]; omega) hlt, List.length_zipWith]; exact w3)
  obtain ⟨a, ha⟩ := hb.ok x.1 d hd hx1
  rw [elementwiseWith_eq, hx', ok_bind]
  have hw := wrap_keeps_release r hd ha
  rw [hw, ok_bind]
  exact ⟨a, _, rfl⟩

end call

section coin
variable [LawfulCmp F]

theorem needs_predict {nb : Nat} {c : Coin F} (h : CoinGood nb c) (m : Meta) (dbg : Bool) : NeedsFit nb ((Red.coin m).predictImpl dbg c) := by
  refine ⟨fun f d r hf hr => ?_, fun f d _ hfit => ?_⟩
  · simp only [Red.predictImpl, Features.asSimple, ok_bind] at hr
    obtain ⟨⟨p, raw⟩, hr, _⟩ := bind_ok.1 hr
    unfold Coin.predict at hr
    obtain ⟨x, hx, _⟩ := bind_ok.1 hr
    intro iv hiv
    exact (Coin.rawSum_inv h.ok hx).1 iv (by unfold visited; simp [hiv])
  · obtain ⟨p, raw, h1, _⟩ := h.predict dbg hfit
    simp only [Red.predictImpl, Features.asSimple, ok_bind]
    rw [h1]
    exact ⟨_, rfl⟩

theorem needs_learn {nb : Nat} {c : Coin F} (h : CoinGood nb c) (m : Meta) (dbg : Bool) (l : SimpleLabel F) :
    NeedsFit nb (fun ft d => (Red.coin m).learnImpl dbg c ft (.simple l) d) := by
  refine ⟨fun f d r hf hr => ?_, fun f d _ hfit => ?_⟩
  · simp only [Red.learnImpl, Features.asSimple, Label.asSimple, ok_bind] at hr
    obtain ⟨c', hr, _⟩ := bind_ok.1 hr
    obtain ⟨_, _, _, _, _, _, _, _, _, _, h2, _⟩ := Coin.learn_inv h.ok hr
    intro iv hiv
    exact h2 iv (by unfold visited; simp [hiv])
  · obtain ⟨c', h1⟩ := h.learn dbg hfit l.value l.weight
    simp only [Red.learnImpl, Features.asSimple, Label.asSimple, ok_bind]
    rw [h1]
    exact ⟨c', rfl⟩

theorem needs_ptl {nb : Nat} {c : Coin F} (h : CoinGood nb c) (m : Meta) (dbg : Bool) (l : SimpleLabel F) :
    NeedsFit nb (fun ft d => (Red.coin m).predictThenLearnImpl dbg c ft (.simple l) d 0) := by
  have hp := needs_predict h m dbg
  have hl := needs_learn h m dbg l
  refine ⟨fun f d r hf hr => ?_, fun f d hd hfit => ?_⟩
  · simp only [Red.predictThenLearnImpl, defaultPredictThenLearn] at hr
    obtain ⟨y, hr, _⟩ := bind_ok.1 hr
    exact hp.fits f d y hf hr
  · obtain ⟨p, h1⟩ := hp.ok f d hd hfit
    obtain ⟨s, h2⟩ := hl.ok f d hd hfit
    simp only [Red.predictThenLearnImpl, defaultPredictThenLearn]
    rw [h1, ok_bind]
    simp only
    rw [h2, ok_bind]
    simp only [decide_true]
    exact ⟨(p, s), rfl⟩

/-- An example with two vectors: it is well-formed, all its indices are inside the table of `2 ^ nb` weights, and the two namespaces hold the numbers `xs` and `ys` as the
JSON parser stores lists of numbers, at consecutive indices from the hash of the namespace. -/
structure TwoVectors (nb : Nat) (one two : Namespace) (f : SparseFeatures F) (xs ys : List F) : Prop where
  wf : f.WF
  fits : f.Fits nb
  first : ∃ n, f.getNamespace one = some n ∧ n.iter = denseAt (baseOf nb one) xs
  second : ∃ n, f.getNamespace two = some n ∧ n.iter = denseAt (baseOf nb two) ys
  firstEnds : baseOf nb one + xs.length ≤ 2 ^ nb
  secondEnds : baseOf nb two + ys.length ≤ 2 ^ nb

/-- The workspace of an ElementwiseInteraction over Coin after a history. -/
theorem elementwise_shape {hash : HashFn} {g : GlobalConfig} {one two : NamespaceDef} {keep : Bool} {k : CoinConfig F} {w0 : Workspace F}
    (hw : Workspace.new hash g (.elementwise one two keep (.coin k)) = .ok w0) {dbg : Bool} {ex : Nat → Features F} {calls : List (Call F)} {S : Session F}
    {os} (hr : Session.run dbg ⟨w0, ex⟩ calls = .ok (S, os)) : g.numBits ≤ 31 ∧ ∃ (m m' : Meta) (c : Coin F), CoinGood g.numBits c ∧
      S.w = ⟨.elementwise m (one.toNamespace hash g.hashSeed, two.toNamespace hash g.hashSeed) keep g.numBits (.coin m'), c⟩ := by
  have hg := (new_good hw).trains (run_trains calls hr)
  have hred := Py.run_red calls hr
  have hb := built_of_new hw
  obtain ⟨w, ex'⟩ := S
  obtain ⟨wr, ws⟩ := w
  obtain ⟨vr, vs⟩ := w0
  simp only at hred hg
  subst hred
  generalize hx : (⟨wr, vs⟩ : (r : Red F) × r.State) = x0 at hb
  cases hb with
  | elementwise hb ht =>
    cases hb with
    | coin hb =>
      cases hx
      exact ⟨hg.ok.le31, _, _, ws, hg, rfl⟩

/-- C116, exactly when it holds, in release builds: after any history a model that multiplies two vectors predicts, learns and predicts and learns from an example if and only if
the products fit: the index of the product namespace plus the length of the shorter vector is within the table. -/
theorem C116_exact (hash : HashFn) (g : GlobalConfig) (one two : NamespaceDef) (keep : Bool) (k : CoinConfig F) (w0 : Workspace F)
    (hw : Workspace.new hash g (.elementwise one two keep (.coin k)) = .ok w0) (ns1 ns2 : Namespace) (hn1 : ns1 = one.toNamespace hash g.hashSeed)
    (hn2 : ns2 = two.toNamespace hash g.hashSeed) (hne : ns1 ≠ ns2) (ex : Nat → Features F) (calls : List (Call F)) (S : Session F) (os)
    (hr : Session.run false ⟨w0, ex⟩ calls = .ok (S, os)) (f : SparseFeatures F) (xs ys : List F) (hf : TwoVectors g.numBits ns1 ns2 f xs ys) (l : SimpleLabel F) :
    ((∃ r, S.w.predict false (.simple f) = .ok r) ↔ baseOf g.numBits (productNs ns1 ns2) + min xs.length ys.length ≤ 2 ^ g.numBits) ∧
    ((∃ r, S.w.learn false (.simple f) (.simple l) = .ok r) ↔ baseOf g.numBits (productNs ns1 ns2) + min xs.length ys.length ≤ 2 ^ g.numBits) ∧
    ((∃ r, S.w.predictThenLearn false (.simple f) (.simple l) = .ok r) ↔ baseOf g.numBits (productNs ns1 ns2) + min xs.length ys.length ≤ 2 ^ g.numBits) := by
  obtain ⟨hnb, m, m', c, hg, hS⟩ := elementwise_shape hw hr
  obtain ⟨n1, h1, hx⟩ := hf.first
  obtain ⟨n2, h2, hy⟩ := hf.second
  have hp : ns1.isRaw = false ∧ ns2.isRaw = false := by rw [hn1, hn2]; exact ⟨toNamespace_notRaw _ _ _, toNamespace_notRaw _ _ _⟩
  rw [hS, ← hn1, ← hn2]
  refine ⟨⟨?_, ?_⟩, ⟨?_, ?_⟩, ⟨?_, ?_⟩⟩
  · rintro ⟨r, h⟩
    unfold Workspace.predict Red.predict at h
    obtain ⟨_, h, _⟩ := bind_ok.1 h
    obtain ⟨_, _, _, h, _⟩ := wrapCall_ok h
    exact elementwise_fails (pair := (ns1, ns2)) (needs_predict hg m' false) false hnb hf.wf.1 hf.fits hp h1 h2 hx hy hf.firstEnds hf.secondEnds h
  · intro w3
    obtain ⟨a, ft', h⟩ := elementwise_succeeds (pair := (ns1, ns2)) (keep := keep) (needs_predict hg m' false) hnb hf.wf.1 hf.fits hp (fun _ => hne) h1 h2 hx hy
      hf.firstEnds hf.secondEnds w3 (.coin m') (d := 0) (by decide)
    have e : wrapCall false (.elementwise m (ns1, ns2) keep g.numBits (.coin m') : Red F).meta (.simple f) 0 0 (Red.predictImpl false (.elementwise m (ns1, ns2) keep g.numBits (.coin m') : Red F) c) = .ok (a, ft', 0) := wrap_keeps_release _ (by decide) h
    unfold Workspace.predict Red.predict
    simp only
    rw [e, ok_bind]
    exact ⟨_, rfl⟩
  · rintro ⟨r, h⟩
    unfold Workspace.learn Red.learn at h
    obtain ⟨_, h, _⟩ := bind_ok.1 h
    obtain ⟨_, _, _, h, _⟩ := wrapCall_ok h
    exact elementwise_fails (pair := (ns1, ns2)) (needs_learn hg m' false l) false hnb hf.wf.1 hf.fits hp h1 h2 hx hy hf.firstEnds hf.secondEnds h
  · intro w3
    obtain ⟨a, ft', h⟩ := elementwise_succeeds (pair := (ns1, ns2)) (keep := keep) (needs_learn hg m' false l) hnb hf.wf.1 hf.fits hp (fun _ => hne) h1 h2 hx hy
      hf.firstEnds hf.secondEnds w3 (.coin m') (d := 0) (by decide)
    have e : wrapCall false (.elementwise m (ns1, ns2) keep g.numBits (.coin m') : Red F).meta (.simple f) 0 0 (fun ft d => Red.learnImpl false (.elementwise m (ns1, ns2) keep g.numBits (.coin m') : Red F) c ft (.simple l) d) = .ok (a, ft', 0) := wrap_keeps_release _ (by decide) h
    unfold Workspace.learn Red.learn
    simp only
    rw [e, ok_bind]
    exact ⟨_, rfl⟩
  · rintro ⟨r, h⟩
    unfold Workspace.predictThenLearn Red.predictThenLearn at h
    obtain ⟨_, h, _⟩ := bind_ok.1 h
    obtain ⟨_, _, _, h, _⟩ := wrapCall_ok h
    exact elementwise_fails (pair := (ns1, ns2)) (needs_ptl hg m' false l) false hnb hf.wf.1 hf.fits hp h1 h2 hx hy hf.firstEnds hf.secondEnds h
  · intro w3
    obtain ⟨a, ft', h⟩ := elementwise_succeeds (pair := (ns1, ns2)) (keep := keep) (needs_ptl hg m' false l) hnb hf.wf.1 hf.fits hp (fun _ => hne) h1 h2 hx hy
      hf.firstEnds hf.secondEnds w3 (.coin m') (d := 0) (by decide)
    have e : wrapCall false (.elementwise m (ns1, ns2) keep g.numBits (.coin m') : Red F).meta (.simple f) 0 0 (fun ft d => Red.predictThenLearnImpl false (.elementwise m (ns1, ns2) keep g.numBits (.coin m') : Red F) c ft (.simple l) d 0) = .ok (a, ft', 0) := wrap_keeps_release _ (by decide) h
    unfold Workspace.predictThenLearn Red.predictThenLearn
    simp only
    rw [e, ok_bind]
    exact ⟨_, rfl⟩

/-- C116 fails in both build profiles, for every model and after every history, when the products do not fit: every call on the example panics. -/
theorem C116_outside_false (dbg : Bool) (hash : HashFn) (g : GlobalConfig) (one two : NamespaceDef) (keep : Bool) (k : CoinConfig F) (w0 : Workspace F)
    (hw : Workspace.new hash g (.elementwise one two keep (.coin k)) = .ok w0) (ns1 ns2 : Namespace) (hn1 : ns1 = one.toNamespace hash g.hashSeed)
    (hn2 : ns2 = two.toNamespace hash g.hashSeed) (ex : Nat → Features F) (calls : List (Call F)) (S : Session F) (os)
    (hr : Session.run dbg ⟨w0, ex⟩ calls = .ok (S, os)) (f : SparseFeatures F) (xs ys : List F) (hf : TwoVectors g.numBits ns1 ns2 f xs ys)
    (hout : 2 ^ g.numBits < baseOf g.numBits (productNs ns1 ns2) + min xs.length ys.length) (l : SimpleLabel F) :
    (∀ r, S.w.predict dbg (.simple f) ≠ .ok r) ∧ (∀ r, S.w.learn dbg (.simple f) (.simple l) ≠ .ok r) ∧
      ∀ r, S.w.predictThenLearn dbg (.simple f) (.simple l) ≠ .ok r := by
  obtain ⟨hnb, m, m', c, hg, hS⟩ := elementwise_shape hw hr
  obtain ⟨n1, h1, hx⟩ := hf.first
  obtain ⟨n2, h2, hy⟩ := hf.second
  have hp : ns1.isRaw = false ∧ ns2.isRaw = false := by rw [hn1, hn2]; exact ⟨toNamespace_notRaw _ _ _, toNamespace_notRaw _ _ _⟩
  rw [hS, ← hn1, ← hn2]
  refine ⟨fun r h => ?_, fun r h => ?_, fun r h => ?_⟩
  · unfold Workspace.predict Red.predict at h
    obtain ⟨_, h, _⟩ := bind_ok.1 h
    obtain ⟨_, _, _, h, _⟩ := wrapCall_ok h
    have := elementwise_fails (pair := (ns1, ns2)) (needs_predict hg m' dbg) dbg hnb hf.wf.1 hf.fits hp h1 h2 hx hy hf.firstEnds hf.secondEnds h
    simp only at this
    omega
  · unfold Workspace.learn Red.learn at h
    obtain ⟨_, h, _⟩ := bind_ok.1 h
    obtain ⟨_, _, _, h, _⟩ := wrapCall_ok h
    have := elementwise_fails (pair := (ns1, ns2)) (needs_learn hg m' dbg l) dbg hnb hf.wf.1 hf.fits hp h1 h2 hx hy hf.firstEnds hf.secondEnds h
    simp only at this
    omega
  · unfold Workspace.predictThenLearn Red.predictThenLearn at h
    obtain ⟨_, h, _⟩ := bind_ok.1 h
    obtain ⟨_, _, _, h, _⟩ := wrapCall_ok h
    have := elementwise_fails (pair := (ns1, ns2)) (needs_ptl hg m' dbg l) dbg hnb hf.wf.1 hf.fits hp h1 h2 hx hy hf.firstEnds hf.secondEnds h
    simp only at this
    omega

/-- The check of the debug profile on an object whose visible values are settled. -/
theorem selfOk_of_visible {f : SparseFeatures F} (hf : f.Inv0) (dbg : Bool)
    (h : dbg = true → ∀ ns, (f.vw ns).2.2 = true → ∀ iv ∈ f.stored ns, Settled iv.2) : SelfOk dbg (.simple f) := by
  unfold SelfOk debugAssert
  cases dbg with
  | false => rfl
  | true =>
    have : f.absDiffEq f Flt.epsilon = true := by
      rw [absDiffEq_vw hf hf]
      simp only [decide_true, Bool.true_and, List.all_eq_true]
      intro ns hns
      apply List.all_eq_true.1
      apply zip_self_all
      intro v hv
      obtain ⟨k, hk, rfl⟩ := List.mem_iff_getElem.1 hv
      have hl := vw_lens hf ns
      exact h rfl ns ((mem_activeKeys hf ns).1 hns) ((f.vw ns).1[k]'(by omega), (f.vw ns).2.1[k]) (by
        unfold stored; exact List.mem_iff_getElem.2 ⟨k, by simp; omega, by simp⟩)
    simp [Features.absDiffEq, this]

/-- The call of a model that multiplies two vectors, in both build profiles. -/
theorem elementwise_runs_iff {nb : Nat} {pair : Namespace × Namespace} {keep : Bool} {f : SparseFeatures F} {xs ys : List F} {α : Type}
    {body : Features F → Depth → M (α × Features F × Depth)} (hb : NeedsFit nb body) (hn : Nice body) (dbg : Bool) (hnb : nb ≤ 31) (r r' : Red F)
    (hn' : Nice (elementwiseWith dbg nb pair keep (fun ft d => wrapCall dbg r.meta ft d 0 body)))
    (hp : pair.1.isRaw = false ∧ pair.2.isRaw = false) (hne : keep = false → pair.1 ≠ pair.2) (hf : TwoVectors nb pair.1 pair.2 f xs ys) (hgood : Good (.simple f)) :
    (∃ x, wrapCall dbg r'.meta (.simple f) 0 0 (elementwiseWith dbg nb pair keep (fun ft d => wrapCall dbg r.meta ft d 0 body)) = .ok x) ↔
      baseOf nb (productNs pair.1 pair.2) + min xs.length ys.length ≤ 2 ^ nb ∧ (dbg = true → ∀ iv ∈ f.allFeatures, Settled iv.2) := by
  obtain ⟨n1, h1, hx⟩ := hf.first
  obtain ⟨n2, h2, hy⟩ := hf.second
  constructor
  · rintro ⟨⟨a, ft', d'⟩, h⟩
    refine ⟨?_, ?_⟩
    · obtain ⟨_, _, _, h, _⟩ := wrapCall_ok h
      exact elementwise_fails hb dbg hnb hf.wf.1 hf.fits hp h1 h2 hx hy hf.firstEnds hf.secondEnds h
    · rintro rfl
      have hself := ((wrapCall_runs hn' hgood).1 ⟨_, _, h⟩).1
      refine settled_of_self hf.wf ?_
      unfold SelfOk debugAssert at hself
      by_contra hx
      simp [Features.absDiffEq] at hx
      simp [Features.absDiffEq, hx] at hself
  · rintro ⟨w3, hset⟩
    have hlt := baseOf_lt hnb (productNs pair.1 pair.2)
    have hpow : 2 ^ nb ≤ 2 ^ 31 := Nat.pow_le_pow_right (by omega) hnb
    have e1 := hf.firstEnds
    have e2 := hf.secondEnds
    obtain ⟨dest, q1, q2⟩ := C60_dense dbg nb f pair.1 pair.2 n1 n2 xs ys h1 h2 hx hy (by omega) (by omega) (by omega)
    obtain ⟨x, hx', hinv⟩ := prep_ok hf.wf.1 hp hne q1
    obtain ⟨dest', q3, q4⟩ := prep_sees hf.wf.1 hp hx'
    rw [q1] at q3
    simp only [Except.ok.injEq, Prod.mk.injEq] at q3
    obtain ⟨_, rfl⟩ := q3
    have hx1 := (sees_fits hf.wf.1 hinv q4 hf.fits).2 (by
      rw [q2, denseAt_fits _ _ _ (by rw [List.length_zipWith]; omega) hlt, List.length_zipWith]; exact w3)
    obtain ⟨a, ha⟩ := hb.ok x.1 0 (by decide) hx1
    have hgx := elementwisePrep_good hgood.1 hgood.2 hx'
    have hin : Runs (wrapCall dbg r.meta (.simple x.1) 0 0 body) a := by
      rw [wrapCall_runs hn hgx]
      refine ⟨selfOk_of_visible hinv dbg (fun hd ns hns iv hiv => ?_), 0, (C27_no_overflow dbg r 0 (by decide)).1, ⟨0, (C27_no_overflow dbg r 0 (by decide)).2⟩, _, _, ha⟩
      rw [q4 ns] at hiv
      split at hiv
      · rename_i e
        rw [hgx.2 ns (by rw [e]; rfl)] at hns
        cases hns
      · split at hiv
        · cases hiv
        · exact hset hd iv ((mem_allFeatures hf.wf.1 iv).2 ⟨ns, hiv⟩)
    have hout : Runs (wrapCall dbg r'.meta (.simple f) 0 0 (elementwiseWith dbg nb pair keep (fun ft d => wrapCall dbg r.meta ft d 0 body))) a := by
      rw [wrapCall_runs hn' hgood]
      refine ⟨selfOk_of_visible hf.wf.1 dbg (fun hd ns _ iv hiv => hset hd iv ((mem_allFeatures hf.wf.1 iv).2 ⟨ns, hiv⟩)), 0,
        (C27_no_overflow dbg r' 0 (by decide)).1, ⟨0, (C27_no_overflow dbg r' 0 (by decide)).2⟩, ?_⟩
      exact (elementwise_runs (hn.wrap dbg r.meta 0) hgood (by decide)).2 ⟨x, hx', hin⟩
    obtain ⟨_, _, hout⟩ := hout
    exact ⟨_, hout⟩

/-- C116, exactly when it holds, in both build profiles: after any history a model that multiplies two vectors predicts, learns and predicts and learns from an example if and only
if the products fit and, in debug builds, no value of the example is infinite or NaN. -/
theorem C116_exact_debug (dbg : Bool) (hash : HashFn) (g : GlobalConfig) (one two : NamespaceDef) (keep : Bool) (k : CoinConfig F) (w0 : Workspace F)
    (hw : Workspace.new hash g (.elementwise one two keep (.coin k)) = .ok w0) (ns1 ns2 : Namespace) (hn1 : ns1 = one.toNamespace hash g.hashSeed)
    (hn2 : ns2 = two.toNamespace hash g.hashSeed) (hne : ns1 ≠ ns2) (ex : Nat → Features F) (calls : List (Call F)) (S : Session F) (os)
    (hr : Session.run dbg ⟨w0, ex⟩ calls = .ok (S, os)) (f : SparseFeatures F) (hc : f.NoComposite) (xs ys : List F) (hf : TwoVectors g.numBits ns1 ns2 f xs ys)
    (l : SimpleLabel F) (fine : Prop)
    (hfine : fine ↔ baseOf g.numBits (productNs ns1 ns2) + min xs.length ys.length ≤ 2 ^ g.numBits ∧ (dbg = true → ∀ iv ∈ f.allFeatures, Settled iv.2)) :
    ((∃ r, S.w.predict dbg (.simple f) = .ok r) ↔ fine) ∧ ((∃ r, S.w.learn dbg (.simple f) (.simple l) = .ok r) ↔ fine) ∧
    ((∃ r, S.w.predictThenLearn dbg (.simple f) (.simple l) = .ok r) ↔ fine) := by
  obtain ⟨hnb, m, m', c, hg, hS⟩ := elementwise_shape hw hr
  have hp : ns1.isRaw = false ∧ ns2.isRaw = false := by rw [hn1, hn2]; exact ⟨toNamespace_notRaw _ _ _, toNamespace_notRaw _ _ _⟩
  have hpo : (.elementwise m (ns1, ns2) keep g.numBits (.coin m') : Red F).PairsOk := ⟨hp, trivial⟩
  have hgood : Good (.simple f) := (okEx_of_valid (ft := .simple f) ⟨hf.wf, hc⟩).good
  rw [hS, ← hn1, ← hn2, hfine]
  refine ⟨?_, ?_, ?_⟩
  · rw [← elementwise_runs_iff (pair := (ns1, ns2)) (keep := keep) (needs_predict hg m' dbg) (predictImpl_nice dbg (.coin m') trivial c) dbg hnb (.coin m')
      (.elementwise m (ns1, ns2) keep g.numBits (.coin m')) (predictImpl_nice dbg (.elementwise m (ns1, ns2) keep g.numBits (.coin m')) hpo c) hp (fun _ => hne) hf hgood]
    constructor
    · rintro ⟨r, h⟩
      unfold Workspace.predict Red.predict at h
      obtain ⟨x, h, _⟩ := bind_ok.1 h
      exact ⟨x, h⟩
    · rintro ⟨x, h⟩
      unfold Workspace.predict Red.predict
      have e : wrapCall dbg (.elementwise m (ns1, ns2) keep g.numBits (.coin m') : Red F).meta (.simple f) 0 0 (Red.predictImpl dbg (.elementwise m (ns1, ns2) keep g.numBits (.coin m') : Red F) c) = .ok x := h
      simp only
      rw [e, ok_bind]
      exact ⟨_, rfl⟩
  · rw [← elementwise_runs_iff (pair := (ns1, ns2)) (keep := keep) (needs_learn hg m' dbg l) (learnImpl_nice dbg (.coin m') trivial c (.simple l)) dbg hnb (.coin m')
      (.elementwise m (ns1, ns2) keep g.numBits (.coin m')) (learnImpl_nice dbg (.elementwise m (ns1, ns2) keep g.numBits (.coin m')) hpo c (.simple l)) hp (fun _ => hne) hf hgood]
    constructor
    · rintro ⟨r, h⟩
      unfold Workspace.learn Red.learn at h
      obtain ⟨x, h, _⟩ := bind_ok.1 h
      exact ⟨x, h⟩
    · rintro ⟨x, h⟩
      unfold Workspace.learn Red.learn
      have e : wrapCall dbg (.elementwise m (ns1, ns2) keep g.numBits (.coin m') : Red F).meta (.simple f) 0 0 (fun ft d => Red.learnImpl dbg (.elementwise m (ns1, ns2) keep g.numBits (.coin m') : Red F) c ft (.simple l) d) = .ok x := h
      simp only
      rw [e, ok_bind]
      exact ⟨_, rfl⟩
  · rw [← elementwise_runs_iff (pair := (ns1, ns2)) (keep := keep) (needs_ptl hg m' dbg l) (ptlImpl_nice dbg (.coin m') trivial c (.simple l) 0) dbg hnb (.coin m')
      (.elementwise m (ns1, ns2) keep g.numBits (.coin m')) (ptlImpl_nice dbg (.elementwise m (ns1, ns2) keep g.numBits (.coin m')) hpo c (.simple l) 0) hp (fun _ => hne) hf hgood]
    constructor
    · rintro ⟨r, h⟩
      unfold Workspace.predictThenLearn Red.predictThenLearn at h
      obtain ⟨x, h, _⟩ := bind_ok.1 h
      exact ⟨x, h⟩
    · rintro ⟨x, h⟩
      unfold Workspace.predictThenLearn Red.predictThenLearn
      have e : wrapCall dbg (.elementwise m (ns1, ns2) keep g.numBits (.coin m') : Red F).meta (.simple f) 0 0 (fun ft d => Red.predictThenLearnImpl dbg (.elementwise m (ns1, ns2) keep g.numBits (.coin m') : Red F) c ft (.simple l) d 0) = .ok x := h
      simp only
      rw [e, ok_bind]
      exact ⟨_, rfl⟩

/-- A bandit prediction that succeeds has called the regressor on every action with the shared features appended. -/
theorem cbLoop_calls {childP : Features F → Depth → M (Prediction F × Features F × Depth)} {s : SparseFeatures F} : ∀ {as : List (SparseFeatures F)} {i : Nat} {d : Depth} {r},
    cbPredictLoop childP (some s) i as d = .ok r → ∀ a ∈ as, ∃ f1 d1 q, a.append s = .ok f1 ∧ childP (.simple f1) d1 = .ok q := by
  intro as
  induction as with
  | nil => intro i d r _ a ha; cases ha
  | cons b bs ih =>
    intro i d r h a ha
    unfold cbPredictLoop at h
    obtain ⟨f1, h1, h⟩ := bind_ok.1 h
    obtain ⟨q, h2, h⟩ := bind_ok.1 h
    rcases List.mem_cons.1 ha with rfl | ha
    · exact ⟨f1, d, q, h1, h2⟩
    · obtain ⟨_, _, h⟩ := bind_ok.1 h
      obtain ⟨_, _, h⟩ := bind_ok.1 h
      obtain ⟨_, _, h⟩ := bind_ok.1 h
      obtain ⟨x, h3, _⟩ := bind_ok.1 h
      exact ih h3 a ha

/-- C116 fails in the same way below CbAdf, the use described in the documentation: if for one of the actions, with the shared features appended, the products do not fit, predicting
panics, in both build profiles and in every state of the model. -/
theorem C116_bandit_false (dbg : Bool) (hash : HashFn) (g : GlobalConfig) (ty : CBType) (one two : NamespaceDef) (keep : Bool) (k : CoinConfig F) (w0 : Workspace F)
    (hw : Workspace.new hash g (.cbAdf ty (.elementwise one two keep (.coin k))) = .ok w0) (ns1 ns2 : Namespace) (hn1 : ns1 = one.toNamespace hash g.hashSeed)
    (hn2 : ns2 = two.toNamespace hash g.hashSeed) (ex : Nat → Features F) (calls : List (Call F)) (S : Session F) (os)
    (hr : Session.run dbg ⟨w0, ex⟩ calls = .ok (S, os)) (s a f : SparseFeatures F) (actions : List (SparseFeatures F)) (ha : a ∈ actions) (happ : a.append s = .ok f)
    (xs ys : List F) (hf : TwoVectors g.numBits ns1 ns2 f xs ys) (hout : 2 ^ g.numBits < baseOf g.numBits (productNs ns1 ns2) + min xs.length ys.length) :
    ∀ r, S.w.predict dbg (.cbAdf ⟨some s, actions⟩) ≠ .ok r := by
  intro r h
  have hg := (new_good hw).trains (run_trains calls hr)
  have hred := Py.run_red calls hr
  have hb := built_of_new hw
  obtain ⟨w, ex'⟩ := S
  obtain ⟨wr, ws⟩ := w
  obtain ⟨vr, vs⟩ := w0
  simp only at hred hg
  subst hred
  obtain ⟨n1, h1, hx⟩ := hf.first
  obtain ⟨n2, h2, hy⟩ := hf.second
  have hp : ns1.isRaw = false ∧ ns2.isRaw = false := by rw [hn1, hn2]; exact ⟨toNamespace_notRaw _ _ _, toNamespace_notRaw _ _ _⟩
  generalize hx0 : (⟨wr, vs⟩ : (r : Red F) × r.State) = x0 at hb
  cases hb with
  | cbAdf hb ht =>
    cases hb with
    | elementwise hb ht =>
      cases hb with
      | coin hb =>
        cases hx0
        unfold Workspace.predict Red.predict at h
        obtain ⟨_, h, _⟩ := bind_ok.1 h
        obtain ⟨_, _, _, h, _⟩ := wrapCall_ok h
        simp only [Red.predictImpl, Features.asCb, ok_bind] at h
        obtain ⟨_, h, _⟩ := bind_ok.1 h
        obtain ⟨f1, d1, q, q1, q2⟩ := cbLoop_calls h a ha
        rw [happ] at q1
        cases q1
        obtain ⟨_, _, _, q2, _⟩ := wrapCall_ok q2
        rw [← hn1, ← hn2] at q2
        have := elementwise_fails (pair := (ns1, ns2)) (needs_predict hg ⟨"Coin", coinTypes, 1⟩ dbg) dbg hg.ok.le31 hf.wf.1 hf.fits hp h1 h2 hx hy hf.firstEnds hf.secondEnds q2
        simp only at this
        omega

/-- The loop over the actions succeeds if the regressor does on every action with the shared features appended. -/
theorem cbLoop_ok {childP : Features F → Depth → M (Prediction F × Features F × Depth)} (hn : Nice childP) {s : SparseFeatures F} (hs : s.Plain) :
    ∀ (as : List (SparseFeatures F)) (i : Nat) (d : Depth), d < 256 → (∀ a ∈ as, a.Plain) →
      (∀ a ∈ as, ∀ f1, a.append s = .ok f1 → Good (.simple f1) → ∃ p raw ft' d', childP (.simple f1) d = .ok (.scalar p raw, ft', d')) →
      ∃ r, cbPredictLoop childP (some s) i as d = .ok r ∧ r.2.2 = d := by
  intro as
  induction as with
  | nil => intro i d _ _ _; exact ⟨_, rfl, rfl⟩
  | cons a as ih =>
    intro i d hd ha hc
    obtain ⟨a1, h1, h2, h3, h4⟩ := shared_step_plain (shared := some s) (fun t h => by cases h; exact hs) (ha a (by simp))
    obtain ⟨p, raw, ft', d', h5⟩ := hc a (by simp) a1 h1 ⟨h2, fun ns hns => by rw [h3 ns hns]; rfl⟩
    obtain ⟨rfl, a2, rfl, he⟩ := hn.restore h2 h3 hd h5
    obtain ⟨a3, h7, _⟩ := h4 a2 he
    obtain ⟨r, h8, h9⟩ := ih (i + 1) d' hd (fun x hx => ha x (by simp [hx])) (fun x hx => hc x (by simp [hx]))
    refine ⟨((i, raw) :: r.1, a3 :: r.2.1, r.2.2), ?_, h9⟩
    unfold cbPredictLoop
    rw [h1, ok_bind, h5, ok_bind]
    simp only [Prediction.asScalar, Features.asSimple, ok_bind]
    rw [h7, ok_bind, h8, ok_bind]

/-- C116, exactly when it holds below CbAdf: after any history a model predicts if and only if for every action the products of its vector and that of the context fit and, in debug
builds, no value is infinite or NaN. -/
theorem C116_bandit_exact (dbg : Bool) (hash : HashFn) (g : GlobalConfig) (ty : CBType) (one two : NamespaceDef) (keep : Bool) (k : CoinConfig F) (w0 : Workspace F)
    (hw : Workspace.new hash g (.cbAdf ty (.elementwise one two keep (.coin k))) = .ok w0) (ns1 ns2 : Namespace) (hn1 : ns1 = one.toNamespace hash g.hashSeed)
    (hn2 : ns2 = two.toNamespace hash g.hashSeed) (hne : ns1 ≠ ns2) (ex : Nat → Features F) (calls : List (Call F)) (S : Session F) (os)
    (hr : Session.run dbg ⟨w0, ex⟩ calls = .ok (S, os)) (s : SparseFeatures F) (actions : List (SparseFeatures F))
    (hv : (Features.cbAdf ⟨some s, actions⟩).Valid) (xs ys : SparseFeatures F → List F)
    (hf : ∀ a ∈ actions, ∃ f, a.append s = .ok f ∧ TwoVectors g.numBits ns1 ns2 f (xs a) (ys a)) :
    (∃ r, S.w.predict dbg (.cbAdf ⟨some s, actions⟩) = .ok r) ↔
      (∀ a ∈ actions, baseOf g.numBits (productNs ns1 ns2) + min (xs a).length (ys a).length ≤ 2 ^ g.numBits) ∧
      (dbg = true → ∀ o ∈ s :: actions, ∀ iv ∈ o.allFeatures, Settled iv.2) := by
  constructor
  · rintro ⟨r, h⟩
    refine ⟨fun a ha => ?_, ?_⟩
    · obtain ⟨f, h1, h2⟩ := hf a ha
      by_contra hx
      exact C116_bandit_false dbg hash g ty one two keep k w0 hw ns1 ns2 hn1 hn2 ex calls S os hr s a f actions ha h1 _ _ h2 (by omega) r h
    · rintro rfl o ho iv hiv
      by_contra hx
      have hred := Py.run_red calls hr
      obtain ⟨⟨wr, ws⟩, ex'⟩ := S
      simp only at hred
      subst hred
      obtain ⟨e, he⟩ := C79_needs_settled hash g _ w0 hw ws (.cbAdf ⟨some s, actions⟩) hv o (by simpa [Features.objects] using ho) iv hiv hx
      rw [he] at h
      cases h
  · rintro ⟨hfit, hset⟩
    have hg := (new_good hw).trains (run_trains calls hr)
    have hred := Py.run_red calls hr
    have hb := built_of_new hw
    obtain ⟨w, ex'⟩ := S
    obtain ⟨wr, ws⟩ := w
    obtain ⟨vr, vs⟩ := w0
    simp only at hred hg
    subst hred
    have hp : ns1.isRaw = false ∧ ns2.isRaw = false := by rw [hn1, hn2]; exact ⟨toNamespace_notRaw _ _ _, toNamespace_notRaw _ _ _⟩
    have hnice := predictImpl_nice dbg wr hb.pairsOk ws
    have hok := okEx_of_valid hv
    have tame : ∀ o ∈ s :: actions, Tame dbg 32 o := fun o ho => ⟨fun iv _ => iv.1.isLt, fun hd => hset hd o ho⟩
    have hself : SelfOk dbg (.cbAdf ⟨some s, actions⟩ : Features F) :=
      TameFt.selfOk (nb := 32) (fun o ho => tame o (by simpa [Features.objects] using ho)) hok
    have hrun : ∃ a, Runs (wr.predictImpl dbg ws (.cbAdf ⟨some s, actions⟩) 0) a := by
      clear hnice
      generalize hx0 : (⟨wr, vs⟩ : (r : Red F) × r.State) = x0 at hb
      cases hb with
      | cbAdf hb ht =>
        have htyped := hb.predict_typed dbg
        have hpairs := hb.pairsOk
        cases hb with
        | elementwise hb ht' =>
          cases hb with
          | coin hb =>
            cases hx0
            have hn0 := predictImpl_nice dbg _ hpairs ws.2
            have plain : ∀ o ∈ s :: actions, o.Plain := by
              have hpl : ∀ o : SparseFeatures F, o.WF → o.NoComposite → o.Plain := fun o h1 h2 =>
                ⟨h1.toInv0, fun ns hns => by rw [h1.inactive_empty ns hns], noView_of_wf h1 h2⟩
              intro o ho
              rcases List.mem_cons.1 ho with rfl | ho
              · exact hpl _ (hv.1 _ rfl).1 (hv.1 _ rfl).2.1
              · exact hpl _ (hv.2 o ho).1 (hv.2 o ho).2.1
            subst hn1 hn2
            obtain ⟨r, h1, h2⟩ := cbLoop_ok (hn0.wrap dbg _ 0) (plain s (by simp)) actions 0 0 (by decide) (fun a ha => plain a (by simp [ha])) (by
              intro a ha f1 happ hgood
              obtain ⟨f, q1, q2⟩ := hf a ha
              rw [happ] at q1
              cases q1
              have htame := (tame a (by simp [ha])).append (tame s (by simp)) (plain a (by simp [ha])).inv (plain s (by simp)).inv happ
              obtain ⟨⟨p, ft', d'⟩, hx⟩ := (elementwise_runs_iff (pair := (one.toNamespace hash g.hashSeed, two.toNamespace hash g.hashSeed)) (keep := keep)
                (needs_predict hg ⟨"Coin", coinTypes, 1⟩ dbg)
                (predictImpl_nice dbg (.coin ⟨"Coin", coinTypes, 1⟩) trivial _) dbg hg.ok.le31 (.coin ⟨"Coin", coinTypes, 1⟩)
                (.elementwise ⟨"ElementwiseInteraction", elementwiseTypes coinTypes, 1⟩ (one.toNamespace hash g.hashSeed, two.toNamespace hash g.hashSeed) keep g.numBits
                  (.coin ⟨"Coin", coinTypes, 1⟩)) hn0 hp (fun _ => hne) q2 hgood).2 ⟨hfit a ha, htame.settled⟩
              have hty := (((htyped ws.2).wrap dbg ⟨"ElementwiseInteraction", elementwiseTypes coinTypes, 1⟩ 0) (.simple f1) 0 rfl).2 p ft' d' hx
              cases p with
              | scalar p raw => exact ⟨p, raw, ft', d', hx⟩
              | _ => cases hty.1)
            simp only [Red.predictImpl, Features.asCb, ok_bind]
            refine ⟨.actionScores r.1, .cbAdf ⟨some s, r.2.1⟩, r.2.2, ?_⟩
            exact bind_ok.2 ⟨r, h1, rfl⟩
    obtain ⟨a, ha⟩ := hrun
    obtain ⟨ft', d', e⟩ := (wrapCall_runs (m := wr.meta) (off := 0) (d := 0) hnice hok.good).2 ⟨hself, 0, (C27_no_overflow dbg wr 0 (by decide)).1, ⟨0, (C27_no_overflow dbg wr 0 (by decide)).2⟩, ha⟩
    unfold Workspace.predict Red.predict
    simp only
    rw [e, ok_bind]
    exact ⟨_, rfl⟩

/-- Learning in mtr mode succeeds exactly if the regressor learns from the context with the chosen action appended. -/
theorem mtr_ok_iff {T : Type} {childL : T → Features F → Label F → Depth → M (T × Features F × Depth)} (hn : ∀ t l, Nice (fun ft d => childL t ft l d))
    {s : SparseFeatures F} {actions : List (SparseFeatures F)} (hp : ∀ o ∈ s :: actions, o.Plain) (l : CBLabel F) (mtr : MtrState) (t : T) :
    (∃ r, cbMtrLearn childL ⟨some s, actions⟩ l mtr t 0 = .ok r) ↔ ∃ a f lab y, actions[l.action]? = some a ∧ s.append a = .ok f ∧ Good (.simple f) ∧
      lab = ⟨l.cost, mtrWeight ⟨mtr.actionSum + actions.length, mtr.eventSum + 1⟩ l.probability⟩ ∧ childL t (.simple f) (.simple lab) 0 = .ok y := by
  constructor
  · rintro ⟨r, h⟩
    unfold cbMtrLearn at h
    simp only at h
    obtain ⟨act, h1, h⟩ := bind_ok.1 h
    obtain ⟨sh1, h2, h⟩ := bind_ok.1 h
    obtain ⟨z, h3, _⟩ := bind_ok.1 h
    have hact : actions[l.action]? = some act := by
      cases e : actions[l.action]? with
      | none => rw [e] at h1; cases h1
      | some x => rw [e] at h1; cases h1; rfl
    have hmem : act ∈ s :: actions := by
      obtain ⟨hx, rfl⟩ := List.getElem?_eq_some_iff.1 hact
      simp
    obtain ⟨a1, q1, q2, q3, _⟩ := shared_step_plain (shared := some act) (fun t h => by cases h; exact hp _ hmem) (hp s (by simp))
    have q1' : s.append act = .ok a1 := q1
    rw [h2] at q1'
    cases q1'
    exact ⟨act, sh1, _, z, hact, h2, ⟨q2, fun ns hns => by rw [q3 ns hns]; rfl⟩, rfl, h3⟩
  · rintro ⟨a, f, lab, ⟨t', ft', d'⟩, hact, happ, _, rfl, hy⟩
    have hmem : a ∈ s :: actions := by
      obtain ⟨hx, rfl⟩ := List.getElem?_eq_some_iff.1 hact
      simp
    obtain ⟨a1, q1, q2, q3, q4⟩ := shared_step_plain (shared := some a) (fun t h => by cases h; exact hp _ hmem) (hp s (by simp))
    have q1' : s.append a = .ok a1 := q1
    rw [happ] at q1'
    cases q1'
    obtain ⟨rfl, a2, rfl, he⟩ := (hn t (.simple ⟨l.cost, mtrWeight ⟨mtr.actionSum + actions.length, mtr.eventSum + 1⟩ l.probability⟩)).restore q2 q3 (by decide) hy
    obtain ⟨a3, q5, _⟩ := q4 a2 he
    have q5' : a2.remove a = .ok a3 := q5
    unfold cbMtrLearn
    simp only
    rw [hact]
    exact ⟨_, bind_ok.2 ⟨_, rfl, bind_ok.2 ⟨_, happ, bind_ok.2 ⟨_, hy, bind_ok.2 ⟨_, rfl, bind_ok.2 ⟨_, q5', rfl⟩⟩⟩⟩⟩⟩

theorem mtr_elementwise_iff {nb : Nat} {c : Coin F} (hg : CoinGood nb c) (hnb : nb ≤ 31) (dbg : Bool) (m0 m m' : Meta) (pair : Namespace × Namespace) (keep : Bool) (mtr : MtrState)
    (hp : pair.1.isRaw = false ∧ pair.2.isRaw = false) (hne : pair.1 ≠ pair.2) {s : SparseFeatures F} {actions : List (SparseFeatures F)} {xs ys : List F}
    (hpl : ∀ o ∈ s :: actions, o.Plain) (l : CBLabel F) (hf : ∀ a, actions[l.action]? = some a → ∃ f, s.append a = .ok f ∧ TwoVectors nb pair.1 pair.2 f xs ys)
    (hset : dbg = true → ∀ o ∈ s :: actions, ∀ iv ∈ o.allFeatures, Settled iv.2) :
    (∃ a, Runs (Red.learnImpl dbg (.cbAdf m0 .mtr (.elementwise m pair keep nb (.coin m'))) (mtr, c) (.cbAdf ⟨some s, actions⟩) (.cb l) 0) a) ↔
      l.action < actions.length ∧ baseOf nb (productNs pair.1 pair.2) + min xs.length ys.length ≤ 2 ^ nb := by
  let r : Red F := .elementwise m pair keep nb (.coin m')
  have hnice : ∀ (t : r.State) lab, Nice (fun ft d => r.learnImpl dbg t ft lab d) := fun t lab => learnImpl_nice dbg r ⟨hp, trivial⟩ t lab
  have e1 : (∃ a, Runs (Red.learnImpl dbg (.cbAdf m0 .mtr r) (mtr, c) (.cbAdf ⟨some s, actions⟩) (.cb l) 0) a) ↔
      ∃ x, cbMtrLearn (fun (t : r.State) ft lab d => wrapCall dbg r.meta ft d 0 (fun ft d => r.learnImpl dbg t ft lab d)) ⟨some s, actions⟩ l mtr c 0 = .ok x := by
    simp only [Red.learnImpl, Features.asCb, Label.asCb, ok_bind]
    constructor
    · rintro ⟨a, ft', d', h⟩
      obtain ⟨y, h, _⟩ := bind_ok.1 h
      exact ⟨y, h⟩
    · rintro ⟨x, h⟩
      exact ⟨_, _, _, bind_ok.2 ⟨x, h, rfl⟩⟩
  have tame : ∀ o ∈ s :: actions, Tame dbg 32 o := fun o ho => ⟨fun iv _ => iv.1.isLt, fun hd => hset hd o ho⟩
  rw [e1, mtr_ok_iff (fun t lab => (hnice t lab).wrap dbg r.meta 0) hpl]
  have key : ∀ a f lab, actions[l.action]? = some a → s.append a = .ok f → Good (.simple f) →
      ((∃ y, wrapCall dbg r.meta (.simple f) 0 0 (fun ft d => r.learnImpl dbg c ft (.simple lab) d) = .ok y) ↔
        baseOf nb (productNs pair.1 pair.2) + min xs.length ys.length ≤ 2 ^ nb) := by
    intro a f lab h1 h2 h3
    obtain ⟨f', q1, q2⟩ := hf a h1
    rw [h2] at q1
    cases q1
    have hmem : a ∈ s :: actions := by
      obtain ⟨hx, rfl⟩ := List.getElem?_eq_some_iff.1 h1
      simp
    have ht := (tame s (by simp)).append (tame a hmem) (hpl s (by simp)).inv (hpl a hmem).inv h2
    have := elementwise_runs_iff (pair := pair) (keep := keep) (needs_learn hg m' dbg lab) (learnImpl_nice dbg (.coin m') trivial c (.simple lab)) dbg hnb (.coin m') r
      (hnice c (.simple lab)) hp (fun _ => hne) q2 h3
    constructor
    · intro h
      exact (this.1 h).1
    · intro h
      exact this.2 ⟨h, ht.settled⟩
  constructor
  · rintro ⟨a, f, lab, y, h1, h2, h3, _, h4⟩
    exact ⟨(List.getElem?_eq_some_iff.1 h1).1, (key a f lab h1 h2 h3).1 ⟨y, h4⟩⟩
  · rintro ⟨hlt, hfit⟩
    have hact : actions[l.action]? = some actions[l.action] := List.getElem?_eq_getElem hlt
    have hmem : actions[l.action] ∈ s :: actions := by simp
    obtain ⟨a1, q1, q2, q3, _⟩ := shared_step_plain (shared := some actions[l.action]) (fun t h => by cases h; exact hpl _ hmem) (hpl s (by simp))
    have hgood : Good (.simple a1) := ⟨q2, fun ns hns => by rw [q3 ns hns]; rfl⟩
    obtain ⟨y, hy⟩ := (key _ a1 ⟨l.cost, mtrWeight ⟨mtr.actionSum + actions.length, mtr.eventSum + 1⟩ l.probability⟩ hact q1 hgood).2 hfit
    exact ⟨_, a1, _, y, hact, q1, hgood, rfl, hy⟩

theorem valid_plain {s : SparseFeatures F} {actions : List (SparseFeatures F)} (hv : (Features.cbAdf ⟨some s, actions⟩).Valid) : ∀ o ∈ s :: actions, o.Plain := by
  have hpl : ∀ o : SparseFeatures F, o.WF → o.NoComposite → o.Plain := fun o h1 h2 =>
    ⟨h1.toInv0, fun ns hns => by rw [h1.inactive_empty ns hns], noView_of_wf h1 h2⟩
  intro o ho
  rcases List.mem_cons.1 ho with rfl | ho
  · exact hpl _ (hv.1 _ rfl).1 (hv.1 _ rfl).2.1
  · exact hpl _ (hv.2 o ho).1 (hv.2 o ho).2.1

/-- A learn call succeeds exactly if the body of the topmost reduction does and, in the debug profile, all values are settled. -/
theorem bandit_learn_iff {wr : Red F} (hpo : wr.PairsOk) (dbg : Bool) (ws : wr.State) {s : SparseFeatures F} {actions : List (SparseFeatures F)}
    (hv : (Features.cbAdf ⟨some s, actions⟩).Valid) (l : CBLabel F) : (∃ r, Workspace.learn dbg ⟨wr, ws⟩ (.cbAdf ⟨some s, actions⟩) (.cb l) = .ok r) ↔
      (dbg = true → ∀ o ∈ s :: actions, ∀ iv ∈ o.allFeatures, Settled iv.2) ∧ ∃ a, Runs (wr.learnImpl dbg ws (.cbAdf ⟨some s, actions⟩) (.cb l) 0) a := by
  have hnice := learnImpl_nice dbg wr hpo ws (.cb l)
  have hok := okEx_of_valid hv
  have hobj : ∀ o, o ∈ s :: actions ↔ o ∈ (Features.cbAdf ⟨some s, actions⟩ : Features F).objects := by simp [Features.objects]
  have hwf : ∀ o ∈ s :: actions, o.WF ∧ o.NoComposite := by
    intro o ho
    rcases List.mem_cons.1 ho with rfl | ho
    · exact ⟨(hv.1 _ rfl).1, (hv.1 _ rfl).2.1⟩
    · exact ⟨(hv.2 o ho).1, (hv.2 o ho).2.1⟩
  have hself : SelfOk dbg (.cbAdf ⟨some s, actions⟩ : Features F) ↔ (dbg = true → ∀ o ∈ s :: actions, ∀ iv ∈ o.allFeatures, Settled iv.2) := by
    constructor
    · rintro h rfl o ho
      refine settled_of_self (hwf o ho).1 ?_
      have habs : (Features.cbAdf ⟨some s, actions⟩ : Features F).absDiffEq (.cbAdf ⟨some s, actions⟩) Flt.epsilon = true := by
        unfold SelfOk debugAssert at h
        by_contra hx
        simp at hx
        simp [hx] at h
      simp only [Features.absDiffEq, CBAdfFeatures.absDiffEq, decide_true, Bool.and_true, Bool.and_eq_true] at habs
      rcases List.mem_cons.1 ho with rfl | ho
      · exact habs.1
      · obtain ⟨n, hn, e⟩ := List.mem_iff_getElem.1 ho
        exact List.all_eq_true.1 habs.2 (o, o) (List.mem_iff_getElem.2 ⟨n, by simpa using hn, by simp [e]⟩)
    · intro hset
      exact TameFt.selfOk (nb := 32) (fun o ho => ⟨fun iv _ => iv.1.isLt, fun hd => hset hd o ((hobj o).2 ho)⟩) hok
  have hcall : (∃ r, Workspace.learn dbg ⟨wr, ws⟩ (.cbAdf ⟨some s, actions⟩) (.cb l) = .ok r) ↔
      SelfOk dbg (.cbAdf ⟨some s, actions⟩ : Features F) ∧ ∃ a, Runs (wr.learnImpl dbg ws (.cbAdf ⟨some s, actions⟩) (.cb l) 0) a := by
    have hnf := C27_no_overflow dbg wr 0 (by decide)
    constructor
    · rintro ⟨r, h⟩
      unfold Workspace.learn Red.learn at h
      obtain ⟨x, h, _⟩ := bind_ok.1 h
      obtain ⟨h1, d1, h2, _, h3⟩ := (wrapCall_runs hnice hok.good).1 ⟨_, _, h⟩
      rw [hnf.1] at h2
      cases h2
      exact ⟨h1, _, h3⟩
    · rintro ⟨h1, a, h2⟩
      obtain ⟨ft', d', e⟩ := (wrapCall_runs (m := wr.meta) (off := 0) (d := 0) hnice hok.good).2 ⟨h1, 0, hnf.1, ⟨0, hnf.2⟩, h2⟩
      unfold Workspace.learn Red.learn
      simp only
      rw [e, ok_bind]
      exact ⟨_, rfl⟩
  rw [hcall, hself]

/-- C116, exactly when it holds for learning in mtr mode: after any history a model learns an event if and only if the event has the chosen action, the products of its vector and
that of the context fit and, in debug builds, no value is infinite or NaN. The vectors of the other actions do not matter. -/
theorem C116_bandit_learn_mtr (dbg : Bool) (hash : HashFn) (g : GlobalConfig) (one two : NamespaceDef) (keep : Bool) (k : CoinConfig F) (w0 : Workspace F)
    (hw : Workspace.new hash g (.cbAdf .mtr (.elementwise one two keep (.coin k))) = .ok w0) (ns1 ns2 : Namespace) (hn1 : ns1 = one.toNamespace hash g.hashSeed)
    (hn2 : ns2 = two.toNamespace hash g.hashSeed) (hne : ns1 ≠ ns2) (ex : Nat → Features F) (calls : List (Call F)) (S : Session F) (os)
    (hr : Session.run dbg ⟨w0, ex⟩ calls = .ok (S, os)) (s : SparseFeatures F) (actions : List (SparseFeatures F))
    (hv : (Features.cbAdf ⟨some s, actions⟩).Valid) (xs ys : List F) (l : CBLabel F)
    (hf : ∀ a, actions[l.action]? = some a → ∃ f, s.append a = .ok f ∧ TwoVectors g.numBits ns1 ns2 f xs ys) :
    (∃ r, S.w.learn dbg (.cbAdf ⟨some s, actions⟩) (.cb l) = .ok r) ↔
      l.action < actions.length ∧ baseOf g.numBits (productNs ns1 ns2) + min xs.length ys.length ≤ 2 ^ g.numBits ∧
      (dbg = true → ∀ o ∈ s :: actions, ∀ iv ∈ o.allFeatures, Settled iv.2) := by
  have hg := (new_good hw).trains (run_trains calls hr)
  have hred := Py.run_red calls hr
  have hb := built_of_new hw
  obtain ⟨w, ex'⟩ := S
  obtain ⟨wr, ws⟩ := w
  obtain ⟨vr, vs⟩ := w0
  simp only at hred hg
  subst hred
  have hp : ns1.isRaw = false ∧ ns2.isRaw = false := by rw [hn1, hn2]; exact ⟨toNamespace_notRaw _ _ _, toNamespace_notRaw _ _ _⟩
  have hpo : wr.PairsOk := hb.pairsOk
  rw [bandit_learn_iff hpo dbg ws hv l]
  clear hpo
  have plain := valid_plain hv
  generalize hx0 : (⟨wr, vs⟩ : (r : Red F) × r.State) = x0 at hb
  cases hb with
  | cbAdf hb ht =>
    have hpairs := hb.pairsOk
    cases hb with
    | elementwise hb ht' =>
      cases hb with
      | coin hb =>
        cases hx0
        subst hn1 hn2
        obtain ⟨mtr, c⟩ := ws
        have key := fun hset => mtr_elementwise_iff hg hg.ok.le31 dbg ⟨"CbAdf", cbAdfTypes, 1⟩ ⟨"ElementwiseInteraction", elementwiseTypes coinTypes, 1⟩ ⟨"Coin", coinTypes, 1⟩
          (one.toNamespace hash g.hashSeed, two.toNamespace hash g.hashSeed) keep mtr hp hne plain l hf hset
        constructor
        · rintro ⟨hset, h⟩
          exact ⟨((key hset).1 h).1, ((key hset).1 h).2, hset⟩
        · rintro ⟨h1, h2, hset⟩
          exact ⟨hset, (key hset).2 ⟨h1, h2⟩⟩

/-- Learning in ips mode succeeds exactly if the regressor learns from every action with the context appended and, in the debug profile, the probability is positive. -/
theorem ips_ok_iff {T : Type} {dbg : Bool} {childL : T → Features F → Label F → Depth → M (T × Features F × Depth)} (hn : ∀ t l, Nice (fun ft d => childL t ft l d))
    (good : T → Prop) (hk : ∀ t ft lab y, good t → childL t ft lab 0 = .ok y → good y.1) {s : SparseFeatures F} (hs : s.Plain) (l : CBLabel F) (P : SparseFeatures F → Prop) :
    ∀ (as : List (SparseFeatures F)) (i : Nat) (t : T), good t → (∀ a ∈ as, a.Plain) →
      (∀ a ∈ as, ∀ f t lab, good t → a.append s = .ok f → Good (.simple f) → ((∃ y, childL t (.simple f) (.simple lab) 0 = .ok y) ↔ P a)) →
      ((∃ r, cbIpsLoop dbg childL (some s) l i as t 0 = .ok r) ↔
        (∀ a ∈ as, P a) ∧ (dbg = true → i ≤ l.action → l.action < i + as.length → Flt.lt Flt.zero l.probability = true)) := by
  intro as
  induction as with
  | nil =>
    intro i t _ _ _
    constructor
    · intro _
      refine ⟨fun a ha => by simp at ha, fun _ h1 h2 => ?_⟩
      simp only [List.length_nil] at h2
      omega
    · intro _
      exact ⟨_, rfl⟩
  | cons a as ih =>
    intro i t hg hpl hc
    obtain ⟨a1, h1, h2, h3, h4⟩ := shared_step_plain (shared := some s) (fun t h => by cases h; exact hs) (hpl a (by simp))
    have hgood : Good (.simple a1) := ⟨h2, fun ns hns => by rw [h3 ns hns]; rfl⟩
    have hlab : (∃ lab, ipsLabel dbg l i = .ok lab) ↔ (dbg = true → i = l.action → Flt.lt Flt.zero l.probability = true) := by
      unfold ipsLabel
      split
      · rename_i e
        cases dbg with
        | false =>
          constructor
          · intro _ h
            cases h
          · intro _
            exact ⟨_, rfl⟩
        | true =>
          cases hlt : Flt.lt Flt.zero l.probability with
          | false => constructor
                     · rintro ⟨_, h⟩; cases h
                     · intro h; cases h rfl e
          | true => exact ⟨fun _ _ _ => rfl, fun _ => ⟨_, rfl⟩⟩
      · rename_i e
        exact ⟨fun _ _ h => absurd h e, fun _ => ⟨_, rfl⟩⟩
    constructor
    · rintro ⟨r, h⟩
      unfold cbIpsLoop at h
      obtain ⟨a1', q1, h⟩ := bind_ok.1 h
      rw [h1] at q1
      cases q1
      obtain ⟨lab, q2, h⟩ := bind_ok.1 h
      obtain ⟨⟨t1, ft, d1⟩, q3, h⟩ := bind_ok.1 h
      obtain ⟨rfl, a2, rfl, he⟩ := (hn t (.simple lab)).restore h2 h3 (by decide) q3
      obtain ⟨_, _, h⟩ := bind_ok.1 h
      obtain ⟨_, _, h⟩ := bind_ok.1 h
      obtain ⟨x, q4, _⟩ := bind_ok.1 h
      obtain ⟨r1, r2⟩ := (ih (i + 1) t1 (hk _ _ _ _ hg q3) (fun x hx => hpl x (by simp [hx])) (fun x hx => hc x (by simp [hx]))).1 ⟨_, q4⟩
      refine ⟨fun x hx => ?_, fun hd g1 g2 => ?_⟩
      · rcases List.mem_cons.1 hx with rfl | hx
        · exact (hc x (by simp) a1 t lab hg h1 hgood).1 ⟨_, q3⟩
        · exact r1 x hx
      · rcases Nat.eq_or_lt_of_le g1 with e | e
        · exact hlab.1 ⟨lab, q2⟩ hd e
        · exact r2 hd (by omega) (by simp only [List.length_cons] at g2; omega)
    · rintro ⟨r1, r2⟩
      obtain ⟨lab, q2⟩ := hlab.2 (fun hd e => r2 hd (by omega) (by simp only [List.length_cons]; omega))
      obtain ⟨⟨t1, ft, d1⟩, q3⟩ := (hc a (by simp) a1 t lab hg h1 hgood).2 (r1 a (by simp))
      obtain ⟨rfl, a2, rfl, he⟩ := (hn t (.simple lab)).restore h2 h3 (by decide) q3
      obtain ⟨a3, q5, _⟩ := h4 a2 he
      obtain ⟨x, q4⟩ := (ih (i + 1) t1 (hk _ _ _ _ hg q3) (fun x hx => hpl x (by simp [hx])) (fun x hx => hc x (by simp [hx]))).2
        ⟨fun x hx => r1 x (by simp [hx]), fun hd g1 g2 => r2 hd (by omega) (by simp only [List.length_cons]; omega)⟩
      unfold cbIpsLoop
      exact ⟨_, bind_ok.2 ⟨_, h1, bind_ok.2 ⟨_, q2, bind_ok.2 ⟨_, q3, bind_ok.2 ⟨_, rfl, bind_ok.2 ⟨_, q5, bind_ok.2 ⟨_, q4, rfl⟩⟩⟩⟩⟩⟩⟩

theorem ips_elementwise_iff {nb : Nat} {c : Coin F} (hg : CoinGood nb c) (hnb : nb ≤ 31) (dbg : Bool) (m0 m m' : Meta) (pair : Namespace × Namespace) (keep : Bool) (mtr : MtrState)
    (hp : pair.1.isRaw = false ∧ pair.2.isRaw = false) (hne : pair.1 ≠ pair.2) {s : SparseFeatures F} {actions : List (SparseFeatures F)} {xs ys : SparseFeatures F → List F}
    (hpl : ∀ o ∈ s :: actions, o.Plain) (l : CBLabel F) (hf : ∀ a ∈ actions, ∃ f, a.append s = .ok f ∧ TwoVectors nb pair.1 pair.2 f (xs a) (ys a))
    (hset : dbg = true → ∀ o ∈ s :: actions, ∀ iv ∈ o.allFeatures, Settled iv.2) :
    (∃ a, Runs (Red.learnImpl dbg (.cbAdf m0 .ips (.elementwise m pair keep nb (.coin m'))) (mtr, c) (.cbAdf ⟨some s, actions⟩) (.cb l) 0) a) ↔
      (∀ a ∈ actions, baseOf nb (productNs pair.1 pair.2) + min (xs a).length (ys a).length ≤ 2 ^ nb) ∧
      (dbg = true → l.action < actions.length → Flt.lt Flt.zero l.probability = true) := by
  let r : Red F := .elementwise m pair keep nb (.coin m')
  have hnice : ∀ (t : r.State) lab, Nice (fun ft d => r.learnImpl dbg t ft lab d) := fun t lab => learnImpl_nice dbg r ⟨hp, trivial⟩ t lab
  have e1 : (∃ a, Runs (Red.learnImpl dbg (.cbAdf m0 .ips r) (mtr, c) (.cbAdf ⟨some s, actions⟩) (.cb l) 0) a) ↔
      ∃ x, cbIpsLoop dbg (fun (t : r.State) ft lab d => wrapCall dbg r.meta ft d 0 (fun ft d => r.learnImpl dbg t ft lab d)) (some s) l 0 actions c 0 = .ok x := by
    simp only [Red.learnImpl, Features.asCb, Label.asCb, ok_bind]
    constructor
    · rintro ⟨a, ft', d', h⟩
      obtain ⟨y, h, _⟩ := bind_ok.1 h
      exact ⟨y, h⟩
    · rintro ⟨x, h⟩
      exact ⟨_, _, _, bind_ok.2 ⟨x, h, rfl⟩⟩
  have tame : ∀ o ∈ s :: actions, Tame dbg 32 o := fun o ho => ⟨fun iv _ => iv.1.isLt, fun hd => hset hd o ho⟩
  rw [e1, ips_ok_iff (fun t lab => (hnice t lab).wrap dbg r.meta 0) (fun t => CoinGood nb (r.coinOf t)) (fun t ft lab y ht hy => by
      obtain ⟨_, _, _, hy, _⟩ := wrapCall_ok hy
      have := learnImpl_trains dbg r _ _ _ _ _ hy
      exact ht.trains this) (hpl s (by simp)) l
      (fun a => baseOf nb (productNs pair.1 pair.2) + min (xs a).length (ys a).length ≤ 2 ^ nb) actions 0 c hg (fun a ha => hpl a (by simp [ha])) (by
      intro a ha f t lab ht h2 h3
      obtain ⟨f', q1, q2⟩ := hf a ha
      rw [h2] at q1
      cases q1
      have hmem : a ∈ s :: actions := by simp [ha]
      have htm := (tame a hmem).append (tame s (by simp)) (hpl a hmem).inv (hpl s (by simp)).inv h2
      have := elementwise_runs_iff (pair := pair) (keep := keep) (needs_learn ht m' dbg lab) (learnImpl_nice dbg (.coin m') trivial t (.simple lab)) dbg hnb (.coin m') r
        (hnice t (.simple lab)) hp (fun _ => hne) q2 h3
      constructor
      · intro h
        exact (this.1 h).1
      · intro h
        exact this.2 ⟨h, htm.settled⟩)]
  simp

/-- C116, exactly when it holds for learning in ips mode: after any history a model learns an event if and only if for every action the products of its vector and that of the context
fit and, in debug builds, no value is infinite or NaN and the probability of the chosen action is positive. -/
theorem C116_bandit_learn_ips (dbg : Bool) (hash : HashFn) (g : GlobalConfig) (one two : NamespaceDef) (keep : Bool) (k : CoinConfig F) (w0 : Workspace F)
    (hw : Workspace.new hash g (.cbAdf .ips (.elementwise one two keep (.coin k))) = .ok w0) (ns1 ns2 : Namespace) (hn1 : ns1 = one.toNamespace hash g.hashSeed)
    (hn2 : ns2 = two.toNamespace hash g.hashSeed) (hne : ns1 ≠ ns2) (ex : Nat → Features F) (calls : List (Call F)) (S : Session F) (os)
    (hr : Session.run dbg ⟨w0, ex⟩ calls = .ok (S, os)) (s : SparseFeatures F) (actions : List (SparseFeatures F))
    (hv : (Features.cbAdf ⟨some s, actions⟩).Valid) (xs ys : SparseFeatures F → List F) (l : CBLabel F)
    (hf : ∀ a ∈ actions, ∃ f, a.append s = .ok f ∧ TwoVectors g.numBits ns1 ns2 f (xs a) (ys a)) :
    (∃ r, S.w.learn dbg (.cbAdf ⟨some s, actions⟩) (.cb l) = .ok r) ↔
      (∀ a ∈ actions, baseOf g.numBits (productNs ns1 ns2) + min (xs a).length (ys a).length ≤ 2 ^ g.numBits) ∧
      (dbg = true → l.action < actions.length → Flt.lt Flt.zero l.probability = true) ∧ (dbg = true → ∀ o ∈ s :: actions, ∀ iv ∈ o.allFeatures, Settled iv.2) := by
  have hg := (new_good hw).trains (run_trains calls hr)
  have hred := Py.run_red calls hr
  have hb := built_of_new hw
  obtain ⟨w, ex'⟩ := S
  obtain ⟨wr, ws⟩ := w
  obtain ⟨vr, vs⟩ := w0
  simp only at hred hg
  subst hred
  have hp : ns1.isRaw = false ∧ ns2.isRaw = false := by rw [hn1, hn2]; exact ⟨toNamespace_notRaw _ _ _, toNamespace_notRaw _ _ _⟩
  have hpo : wr.PairsOk := hb.pairsOk
  rw [bandit_learn_iff hpo dbg ws hv l]
  clear hpo
  have plain := valid_plain hv
  generalize hx0 : (⟨wr, vs⟩ : (r : Red F) × r.State) = x0 at hb
  cases hb with
  | cbAdf hb ht =>
    have hpairs := hb.pairsOk
    cases hb with
    | elementwise hb ht' =>
      cases hb with
      | coin hb =>
        cases hx0
        subst hn1 hn2
        obtain ⟨mtr, c⟩ := ws
        have key := fun hset => ips_elementwise_iff hg hg.ok.le31 dbg ⟨"CbAdf", cbAdfTypes, 1⟩ ⟨"ElementwiseInteraction", elementwiseTypes coinTypes, 1⟩ ⟨"Coin", coinTypes, 1⟩
          (one.toNamespace hash g.hashSeed, two.toNamespace hash g.hashSeed) keep mtr hp hne plain l hf hset
        constructor
        · rintro ⟨hset, h⟩
          exact ⟨((key hset).1 h).1, ((key hset).1 h).2, hset⟩
        · rintro ⟨h1, h2, hset⟩
          exact ⟨hset, (key hset).2 ⟨h1, h2⟩⟩

end coin

/-- C116 fails in the debug profile for examples whose features are not stored as vectors, for instance named features: if the first feature of one of the namespaces has an index
below the hash of its namespace, every call panics, for every model below the ElementwiseInteraction. -/
theorem C116_below_false (hash : HashFn) (g : GlobalConfig) (one two : NamespaceDef) (keep : Bool) (c : RedConfig F) (w0 : Workspace F)
    (hw : Workspace.new hash g (.elementwise one two keep c) = .ok w0) (ns1 ns2 : Namespace) (hn1 : ns1 = one.toNamespace hash g.hashSeed)
    (hn2 : ns2 = two.toNamespace hash g.hashSeed) (s : w0.red.State) (f : SparseFeatures F) (n1 n2 : NsFeats F) (h1 : f.getNamespace ns1 = some n1)
    (h2 : f.getNamespace ns2 = some n2) (a b : U32 × F) (as bs : List (U32 × F)) (ha : n1.iter = a :: as) (hb : n2.iter = b :: bs)
    (hlow : a.1.toNat < baseOf g.numBits ns1 ∨ b.1.toNat < baseOf g.numBits ns2) (l : Label F) :
    (∀ r, Workspace.predict true ⟨w0.red, s⟩ (.simple f) ≠ .ok r) ∧ (∀ r, Workspace.learn true ⟨w0.red, s⟩ (.simple f) l ≠ .ok r) ∧
      ∀ r, Workspace.predictThenLearn true ⟨w0.red, s⟩ (.simple f) l ≠ .ok r := by
  have hm : ∀ r, elementwiseMultiply true g.numBits f ns1 ns2 ≠ .ok r := by
    intro r h
    unfold elementwiseMultiply at h
    simp only [h1, h2, unwrapOpt, ok_bind] at h
    obtain ⟨dest, h, _⟩ := bind_ok.1 h
    rw [ha, hb, List.length_cons, Nat.succ_add] at h
    unfold elementwiseLoop at h
    obtain ⟨i1, q1, h⟩ := bind_ok.1 h
    obtain ⟨i2, q2, _⟩ := bind_ok.1 h
    rw [baseOf_eq, baseOf_eq] at hlow
    unfold u32Sub at q1 q2
    rcases hlow with h | h
    · rw [if_pos (by simpa using h)] at q1; cases q1
    · rw [if_pos (by simpa using h)] at q2; cases q2
  have hwith : ∀ {α : Type} (body : Features F → Depth → M (α × Features F × Depth)) d r,
      elementwiseWith true g.numBits (ns1, ns2) keep body (.simple f) d ≠ .ok r := by
    intro α body d r h
    rw [elementwiseWith_eq] at h
    obtain ⟨x, h, _⟩ := bind_ok.1 h
    unfold elementwisePrep at h
    obtain ⟨y, h, _⟩ := bind_ok.1 h
    exact hm _ h
  have hbuilt := built_of_new hw
  obtain ⟨vr, vs⟩ := w0
  simp only at s ⊢
  generalize hx : (⟨vr, vs⟩ : (r : Red F) × r.State) = x0 at hbuilt
  cases hbuilt with
  | elementwise hb ht =>
    cases hx
    rw [← hn1, ← hn2] at s ⊢
    refine ⟨fun r h => ?_, fun r h => ?_, fun r h => ?_⟩
    · unfold Workspace.predict Red.predict at h
      obtain ⟨_, h, _⟩ := bind_ok.1 h
      obtain ⟨_, _, _, h, _⟩ := wrapCall_ok h
      exact hwith _ _ _ h
    · unfold Workspace.learn Red.learn at h
      obtain ⟨_, h, _⟩ := bind_ok.1 h
      obtain ⟨_, _, _, h, _⟩ := wrapCall_ok h
      exact hwith _ _ _ h
    · unfold Workspace.predictThenLearn Red.predictThenLearn at h
      obtain ⟨_, h, _⟩ := bind_ok.1 h
      obtain ⟨_, _, _, h, _⟩ := wrapCall_ok h
      exact hwith _ _ _ h

section examples
attribute [local instance] transRatOrder fltRatOrder
local instance cmpRatTable : LawfulCmp ℚ := lawfulCmp_field ℚ

/-- Three index bits. -/
def tableGlobal : GlobalConfig := ⟨3, 0#32, true, []⟩

/-- Vectors in two namespaces with the hashes 3 and 5; the product namespace has the hash 15, so its index is 7. -/
def tableOps (ys : List ℚ) : List (FOp ℚ) :=
  [.add (.named 3#32) 3#32 1, .add (.named 3#32) 4#32 2, .addMany (.named 5#32) ((List.range ys.length).map fun i => BitVec.ofNat 32 (5 + i)) ys]

/-- The object built by the operations. -/
def tableFeats (ys : List ℚ) : SparseFeatures ℚ :=
  match FOp.runAll (tableOps ys) SparseFeatures.new with
  | .ok f => f
  | .error _ => SparseFeatures.new

theorem tableFeats_two : TwoVectors 3 (.named 3#32) (.named 5#32) (tableFeats [1, 4]) [1, 2] [1, 4] := by
  refine ⟨C10_reachable_wf (tableOps [1, 4]) ?_ _ rfl, ?_, ⟨_, rfl, by decide +kernel⟩, ⟨_, rfl, by decide +kernel⟩, by decide, by decide⟩
  · intro op hop
    simp only [tableOps, List.mem_cons, List.not_mem_nil, or_false] at hop
    rcases hop with rfl | rfl | rfl <;> simp [FOp.Valid]
  · show ∀ iv ∈ (tableFeats [1, 4]).allFeatures, iv.1.toNat < 2 ^ 3
    decide +kernel

theorem tableFeats_one : TwoVectors 3 (.named 3#32) (.named 5#32) (tableFeats [1]) [1, 2] [1] := by
  refine ⟨C10_reachable_wf (tableOps [1]) ?_ _ rfl, ?_, ⟨_, rfl, by decide +kernel⟩, ⟨_, rfl, by decide +kernel⟩, by decide, by decide⟩
  · intro op hop
    simp only [tableOps, List.mem_cons, List.not_mem_nil, or_false] at hop
    rcases hop with rfl | rfl | rfl <;> simp [FOp.Valid]
  · show ∀ iv ∈ (tableFeats [1]).allFeatures, iv.1.toNat < 2 ^ 3
    decide +kernel

/-- One product fits into the table, two do not: the model predicts for the example with vectors of lengths 2 and 1 and panics for lengths 2 and 2. -/
example : ∃ w0 : Workspace ℚ, Workspace.new tinyHash tableGlobal (.elementwise (.name ['a', 'b', 'c']) (.name ['a', 'b', 'c', 'd', 'e']) false (.coin CoinConfig.dflt)) = .ok w0 ∧
    (∃ r, w0.predict false (.simple (tableFeats [1])) = .ok r) ∧ (∀ r, w0.predict false (.simple (tableFeats [1, 4])) ≠ .ok r) ∧
    ∀ r, w0.predict true (.simple (tableFeats [1, 4])) ≠ .ok r := by
  refine ⟨_, rfl, ?_, ?_, ?_⟩
  · exact ((C116_exact tinyHash tableGlobal (.name ['a', 'b', 'c']) (.name ['a', 'b', 'c', 'd', 'e']) false CoinConfig.dflt _ rfl (.named 3#32) (.named 5#32) rfl rfl (by decide)
      (fun _ => .simple (tableFeats [1])) [] _ _ rfl _ _ _ tableFeats_one ⟨1, 1⟩).1).2 (by decide)
  · exact (C116_outside_false false tinyHash tableGlobal (.name ['a', 'b', 'c']) (.name ['a', 'b', 'c', 'd', 'e']) false CoinConfig.dflt _ rfl (.named 3#32) (.named 5#32) rfl rfl
      (fun _ => .simple (tableFeats [1])) [] _ _ rfl _ _ _ tableFeats_two (by decide) ⟨1, 1⟩).1
  · exact (C116_outside_false true tinyHash tableGlobal (.name ['a', 'b', 'c']) (.name ['a', 'b', 'c', 'd', 'e']) false CoinConfig.dflt _ rfl (.named 3#32) (.named 5#32) rfl rfl
      (fun _ => .simple (tableFeats [1])) [] _ _ rfl _ _ _ tableFeats_two (by decide) ⟨1, 1⟩).1

/-- The vector of an action. -/
def tableAction : SparseFeatures ℚ := SparseFeatures.new.modifyOrCreate (.named 3#32) fun n => (n.addFeature 3#32 1).addFeature 4#32 2

/-- The vector of the context. -/
def tableShared : SparseFeatures ℚ := SparseFeatures.new.modifyOrCreate (.named 5#32) fun n => (n.addFeature 5#32 1).addFeature 6#32 4

theorem tableShared_wf : tableShared.WF := by
  refine C10_reachable_wf [.add (.named 5#32) 5#32 1, .add (.named 5#32) 6#32 4] (fun op hop => ?_) _ rfl
  simp only [List.mem_cons, List.not_mem_nil, or_false] at hop
  rcases hop with rfl | rfl <;> simp [FOp.Valid]

theorem table_plain (f : SparseFeatures ℚ) (h : ∀ e ∈ f.entries, e.1.isRaw = false ∧ e.2.size ≠ 0) : f.NoComposite ∧ f.NoEmpty := by
  have key : ∀ ns n, f.getNamespace ns = some n → ns.isRaw = false ∧ n.size ≠ 0 := by
    intro ns n hn
    have : lookup f.entries ns = some n := by
      unfold getNamespace at hn
      split at hn
      · rename_i m hm
        split at hn
        · cases hn; exact hm
        · cases hn
      · cases hn
    exact h _ (lookup_mem this)
  refine ⟨fun h => ?_, fun ns n hn => (key ns n hn).2⟩
  cases hn : f.getNamespace (.rawHash h) with
  | none => rfl
  | some n => exact absurd (key _ n hn).1 (by simp [Namespace.isRaw])

/-- The two vectors together. -/
theorem tableMerged_two : ∃ f, tableAction.append tableShared = .ok f ∧ TwoVectors 3 (.named 3#32) (.named 5#32) f [1, 2] [1, 4] := by
  let ops : List (FOp ℚ) := [.add (.named 3#32) 3#32 1, .add (.named 3#32) 4#32 2, .append tableShared]
  refine ⟨_, rfl, C10_reachable_wf ops ?_ _ rfl, ?_, ⟨_, rfl, by decide +kernel⟩, ⟨_, rfl, by decide +kernel⟩, by decide, by decide⟩
  · intro op hop
    simp only [ops, List.mem_cons, List.not_mem_nil, or_false] at hop
    rcases hop with rfl | rfl | rfl
    · simp [FOp.Valid]
    · simp [FOp.Valid]
    · exact tableShared_wf
  · unfold Fits; decide +kernel

/-- One action with a vector, a context with a vector: the products of the two do not fit. -/
example : ∃ w0 : Workspace ℚ, Workspace.new tinyHash tableGlobal (.cbAdf .mtr (.elementwise (.name ['a', 'b', 'c']) (.name ['a', 'b', 'c', 'd', 'e']) true (.coin CoinConfig.dflt))) = .ok w0 ∧
    ∀ r, w0.predict false (.cbAdf ⟨some tableShared, [tableAction]⟩) ≠ .ok r := by
  obtain ⟨f, h1, h2⟩ := tableMerged_two
  exact ⟨_, rfl, C116_bandit_false false tinyHash tableGlobal .mtr (.name ['a', 'b', 'c']) (.name ['a', 'b', 'c', 'd', 'e']) true CoinConfig.dflt _ rfl (.named 3#32) (.named 5#32) rfl rfl
    (fun _ => .simple tableAction) [] _ _ rfl tableShared tableAction f [tableAction] (by simp) h1 _ _ h2 (by decide)⟩

theorem tableEvent_valid : (Features.cbAdf ⟨some tableShared, [tableAction]⟩ : Features ℚ).Valid := by
  refine ⟨fun s hs => ?_, fun a ha => ?_⟩
  · cases hs
    exact ⟨tableShared_wf, table_plain _ (by decide +kernel)⟩
  · rw [List.mem_singleton] at ha
    subst ha
    refine ⟨C10_reachable_wf [.add (.named 3#32) 3#32 1, .add (.named 3#32) 4#32 2] (fun op hop => ?_) _ rfl, table_plain _ (by decide +kernel)⟩
    simp only [List.mem_cons, List.not_mem_nil, or_false] at hop
    rcases hop with rfl | rfl <;> simp [FOp.Valid]

/-- The same in the debug profile: one product fits, so the model predicts. -/
example : ∃ w0 : Workspace ℚ, Workspace.new tinyHash tableGlobal (.elementwise (.name ['a', 'b', 'c']) (.name ['a', 'b', 'c', 'd', 'e']) false (.coin CoinConfig.dflt)) = .ok w0 ∧
    ∃ r, w0.predict true (.simple (tableFeats [1])) = .ok r := by
  refine ⟨_, rfl, ?_⟩
  refine (C116_exact_debug true tinyHash tableGlobal (.name ['a', 'b', 'c']) (.name ['a', 'b', 'c', 'd', 'e']) false CoinConfig.dflt _ rfl (.named 3#32) (.named 5#32) rfl rfl (by decide)
    (fun _ => .simple (tableFeats [1])) [] _ _ rfl _ ?_ _ _ tableFeats_one ⟨1, 1⟩ _ Iff.rfl).1.2 ⟨by decide, fun _ => ?_⟩
  · exact (table_plain _ (by decide +kernel)).1
  · unfold Settled; decide +kernel

/-- An action with a vector and a context with a vector: predicting panics in the debug profile too. -/
example : ∃ w0 : Workspace ℚ, Workspace.new tinyHash tableGlobal (.cbAdf .mtr (.elementwise (.name ['a', 'b', 'c']) (.name ['a', 'b', 'c', 'd', 'e']) true (.coin CoinConfig.dflt))) = .ok w0 ∧
    ¬ ∃ r, w0.predict true (.cbAdf ⟨some tableShared, [tableAction]⟩) = .ok r := by
  refine ⟨_, rfl, ?_⟩
  rw [C116_bandit_exact true tinyHash tableGlobal .mtr (.name ['a', 'b', 'c']) (.name ['a', 'b', 'c', 'd', 'e']) true CoinConfig.dflt _ rfl (.named 3#32) (.named 5#32) rfl rfl (by decide)
    (fun _ => .simple tableAction) [] _ _ rfl tableShared [tableAction] ?_ (fun _ => [1, 2]) (fun _ => [1, 4]) (fun a ha => by
      rw [List.mem_singleton] at ha; subst ha; exact tableMerged_two)]
  · intro h
    exact absurd (h.1 tableAction (by simp)) (by decide)
  · exact tableEvent_valid

/-- Learning the event in ips mode panics too. -/
example : ∃ w0 : Workspace ℚ, Workspace.new tinyHash tableGlobal (.cbAdf .ips (.elementwise (.name ['a', 'b', 'c']) (.name ['a', 'b', 'c', 'd', 'e']) true (.coin CoinConfig.dflt))) = .ok w0 ∧
    ¬ ∃ r, w0.learn false (.cbAdf ⟨some tableShared, [tableAction]⟩) (.cb ⟨0, 3, 1⟩) = .ok r := by
  refine ⟨_, rfl, ?_⟩
  rw [C116_bandit_learn_ips false tinyHash tableGlobal (.name ['a', 'b', 'c']) (.name ['a', 'b', 'c', 'd', 'e']) true CoinConfig.dflt _ rfl (.named 3#32) (.named 5#32) rfl rfl (by decide)
    (fun _ => .simple tableAction) [] _ _ rfl tableShared [tableAction] tableEvent_valid (fun _ => [1, 2]) (fun _ => [1, 4]) ⟨0, 3, 1⟩ (fun a ha => by
      rw [List.mem_singleton] at ha; subst ha; exact tableMerged_two)]
  intro h
  exact absurd (h.1 tableAction (by simp)) (by decide)

/-- A context with one number. -/
def tableSharedOne : SparseFeatures ℚ := SparseFeatures.new.modifyOrCreate (.named 5#32) fun n => n.addFeature 5#32 1

/-- An action with a vector of length 2 and a context with one of length 1: the one product fits, and the model learns in the debug profile. -/
example : ∃ w0 : Workspace ℚ, Workspace.new tinyHash tableGlobal (.cbAdf .mtr (.elementwise (.name ['a', 'b', 'c']) (.name ['a', 'b', 'c', 'd', 'e']) true (.coin CoinConfig.dflt))) = .ok w0 ∧
    ∃ r, w0.learn true (.cbAdf ⟨some tableSharedOne, [tableAction]⟩) (.cb ⟨0, 3, 1⟩) = .ok r := by
  have w1 : tableSharedOne.WF := by
    refine C10_reachable_wf [.add (.named 5#32) 5#32 1] (fun op hop => ?_) _ rfl
    simp only [List.mem_cons, List.not_mem_nil, or_false] at hop
    subst hop
    simp [FOp.Valid]
  have w2 : tableAction.WF := by
    refine C10_reachable_wf [.add (.named 3#32) 3#32 1, .add (.named 3#32) 4#32 2] (fun op hop => ?_) _ rfl
    simp only [List.mem_cons, List.not_mem_nil, or_false] at hop
    rcases hop with rfl | rfl <;> simp [FOp.Valid]
  refine ⟨_, rfl, ?_⟩
  refine (C116_bandit_learn_mtr true tinyHash tableGlobal (.name ['a', 'b', 'c']) (.name ['a', 'b', 'c', 'd', 'e']) true CoinConfig.dflt _ rfl (.named 3#32) (.named 5#32) rfl rfl (by decide)
    (fun _ => .simple tableAction) [] _ _ rfl tableSharedOne [tableAction] ⟨fun s hs => ?_, fun a ha => ?_⟩ [1, 2] [1] ⟨0, 3, 1⟩ (fun a ha => ?_)).2 ⟨by decide, by decide, fun _ => ?_⟩
  · cases hs
    exact ⟨w1, table_plain _ (by decide +kernel)⟩
  · rw [List.mem_singleton] at ha
    subst ha
    exact ⟨w2, table_plain _ (by decide +kernel)⟩
  · simp only [List.getElem?_cons_zero, Option.some.injEq] at ha
    subst ha
    let ops : List (FOp ℚ) := [.add (.named 5#32) 5#32 1, .append tableAction]
    refine ⟨_, rfl, C10_reachable_wf ops ?_ _ rfl, ?_, ⟨_, rfl, by decide +kernel⟩, ⟨_, rfl, by decide +kernel⟩, by decide, by decide⟩
    · intro op hop
      simp only [ops, List.mem_cons, List.not_mem_nil, or_false] at hop
      rcases hop with rfl | rfl
      · simp [FOp.Valid]
      · exact w2
    · unfold Fits; decide +kernel
  · unfold Settled; decide +kernel

/-- The first feature of the namespace with the hash 3 has the index 1. -/
example : ∃ (w0 : Workspace ℚ) (f : SparseFeatures ℚ),
    Workspace.new tinyHash tableGlobal (.elementwise (.name ['a', 'b', 'c']) .default true (.coin CoinConfig.dflt)) = .ok w0 ∧ f.Fits 3 ∧
    ∀ r, w0.predict true (.simple f) ≠ .ok r := by
  refine ⟨_, (SparseFeatures.new.modifyOrCreate (.named 3#32) (fun n => n.addFeature 1#32 2)).modifyOrCreate .default (fun n => n.addFeature 2#32 5), rfl, ?_, ?_⟩
  · unfold Fits; decide +kernel
  · exact (C116_below_false tinyHash tableGlobal (.name ['a', 'b', 'c']) .default true (.coin CoinConfig.dflt) _ rfl (.named 3#32) .default rfl rfl _ _ _ _ rfl rfl
      (1#32, 2) (2#32, 5) [] [] rfl rfl (.inl (by decide)) (.simple ⟨1, 1⟩)).1

end examples

end Rml
