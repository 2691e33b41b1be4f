import Verif.Lemmas.Stack2
import Verif.Props.Stack
import Verif.Lemmas.SpecHash

/-! C60: ElementwiseInteraction multiplies the values at equal positions. -/

set_option linter.unusedSectionVars false

namespace Rml
open SparseFeatures
variable {F : Type} [Flt F]

/-- The elementwise product of two vectors given as (index, value) lists, where the positions are relative to `base1` and `base2`: for every
entry of the first with a partner at the same position in the second, the product, at that position relative to `cbase`. -/
def elementwiseProduct (base1 base2 cbase : Nat) (as bs : List (U32 × F)) : List (U32 × F) :=
  as.filterMap (fun a => (bs.find? (fun b => b.1.toNat - base2 = a.1.toNat - base1)).map
    (fun b => (BitVec.ofNat 32 (cbase + (a.1.toNat - base1)), Flt.mul a.2 b.2)))

/-- A dense vector: consecutive indices from `base`. -/
def denseAt (base : Nat) : List F → List (U32 × F)
  | [] => []
  | v :: vs => (BitVec.ofNat 32 base, v) :: denseAt (base + 1) vs

/-- The namespace of the products: the product of the two hashes, in 32 bits. -/
def productNs (one two : Namespace) : Namespace := .rawHash (one.seed * two.seed)

/-- The index at which the numbers of a namespace start: its hash, within the feature space. -/
def baseOf (numBits : Nat) (ns : Namespace) : Nat := (lowBits numBits ns.seed).toNat

theorem productNs_eq (one two : Namespace) : productNs one two = .rawHash (compositeHash one two) := by
  unfold productNs compositeHash
  rw [seed_eq]
  congr 1
  apply BitVec.eq_of_toNat_eq
  simp [BitVec.toNat_mul, BitVec.toNat_setWidth]

theorem baseOf_eq (numBits : Nat) (ns : Namespace) : baseOf numBits ns = (maskIdx numBits ns.hash).toNat := by
  unfold baseOf
  rw [seed_eq, lowBits_eq]

theorem baseOf_product (numBits : Nat) (one two : Namespace) : baseOf numBits (productNs one two) = (maskIdx numBits (compositeHash one two)).toNat := by
  rw [baseOf_eq, productNs_eq]; rfl

/-- What is stored under a namespace. -/
def SparseFeatures.stored (f : SparseFeatures F) (ns : Namespace) : List (U32 × F) := (f.vw ns).1.zip (f.vw ns).2.1

/-- The vector is in index order and does not go below its base or wrap around. -/
def VectorOk (base cbase : Nat) (as : List (U32 × F)) : Prop :=
  as.Pairwise (fun a b => a.1.toNat < b.1.toNat) ∧ ∀ a ∈ as, base ≤ a.1.toNat ∧ cbase + (a.1.toNat - base) < 2 ^ 32

theorem u32Sub_ok (dbg : Bool) {a b : U32} (h : b.toNat ≤ a.toNat) : u32Sub dbg a b = .ok (BitVec.ofNat 32 (a.toNat - b.toNat)) := by
  unfold u32Sub
  rw [if_neg (by simp; omega)]
  congr 1
  apply BitVec.eq_of_toNat_eq
  rw [BitVec.toNat_sub, BitVec.toNat_ofNat]
  have := a.isLt
  have := b.isLt
  omega

theorem u32Add_ok (dbg : Bool) {a : U32} {n : Nat} (h : a.toNat + n < 2 ^ 32) :
    u32Add dbg a (BitVec.ofNat 32 n) = .ok (BitVec.ofNat 32 (a.toNat + n)) := by
  unfold u32Add
  have hn : (BitVec.ofNat 32 n).toNat = n := by rw [BitVec.toNat_ofNat]; omega
  rw [if_neg (by rw [hn]; simp; omega)]
  congr 1
  apply BitVec.eq_of_toNat_eq
  rw [BitVec.toNat_add, hn, BitVec.toNat_ofNat]

theorem ofNat_toNat_lt {n : Nat} (h : n < 2 ^ 32) : (BitVec.ofNat 32 n).toNat = n := by
  rw [BitVec.toNat_ofNat]
  omega

theorem iter_addFeature {n : NsFeats F} (h : n.idx.data.length = n.vals.data.length) (i : U32) (v : F) :
    (n.addFeature i v).iter = n.iter ++ [(i, v)] ∧ (n.addFeature i v).idx.data.length = (n.addFeature i v).vals.data.length := by
  unfold NsFeats.iter NsFeats.addFeature RVec.push
  constructor
  · simp only
    rw [List.zip_append h]
    rfl
  · simp [h]

theorem loop_spec (dbg : Bool) (base1 base2 cbase : U32) : ∀ (fuel : Nat) (as bs : List (U32 × F)) (dest : NsFeats F),
    as.length + bs.length ≤ fuel → dest.idx.data.length = dest.vals.data.length → VectorOk base1.toNat cbase.toNat as →
    VectorOk base2.toNat 0 bs → ∃ out, elementwiseLoop dbg base1 base2 cbase fuel as bs dest = .ok out ∧
      out.iter = dest.iter ++ elementwiseProduct base1.toNat base2.toNat cbase.toNat as bs := by
  intro fuel
  induction fuel with
  | zero =>
    intro as bs dest hl hd _ _
    have : as = [] := List.length_eq_zero_iff.1 (by omega)
    subst this
    exact ⟨dest, rfl, by simp [elementwiseProduct]⟩
  | succ fuel ih =>
    intro as bs dest hl hd ha hb
    cases as with
    | nil => exact ⟨dest, rfl, by simp [elementwiseProduct]⟩
    | cons a as =>
      cases bs with
      | nil => exact ⟨dest, rfl, by simp [elementwiseProduct]⟩
      | cons b bs =>
        obtain ⟨a1, a2⟩ := ha
        obtain ⟨b1, b2⟩ := hb
        have ha0 := a2 a (by simp)
        have hb0 := b2 b (by simp)
        have has : VectorOk base1.toNat cbase.toNat as := ⟨(List.pairwise_cons.1 a1).2, fun x hx => a2 x (by simp [hx])⟩
        have hbs : VectorOk base2.toNat 0 bs := ⟨(List.pairwise_cons.1 b1).2, fun x hx => b2 x (by simp [hx])⟩
        have hal := (List.pairwise_cons.1 a1).1
        have hbl := (List.pairwise_cons.1 b1).1
        unfold elementwiseLoop
        rw [u32Sub_ok dbg ha0.1, u32Sub_ok dbg hb0.1]
        simp only [bind, Except.bind]
        rw [u32Add_ok dbg ha0.2]
        simp only
        have e1 : (BitVec.ofNat 32 (a.1.toNat - base1.toNat)).toNat = a.1.toNat - base1.toNat := ofNat_toNat_lt (by have := a.1.isLt; omega)
        have e2 : (BitVec.ofNat 32 (b.1.toNat - base2.toNat)).toNat = b.1.toNat - base2.toNat := ofNat_toNat_lt (by have := b.1.isLt; omega)
        have heq : BitVec.ofNat 32 (a.1.toNat - base1.toNat) = BitVec.ofNat 32 (b.1.toNat - base2.toNat) ↔
            b.1.toNat - base2.toNat = a.1.toNat - base1.toNat := by
          constructor
          · intro h
            have := congrArg BitVec.toNat h
            rw [e1, e2] at this
            exact this.symm
          · intro h; rw [h]
        simp only [List.length_cons] at hl
        split
        · rename_i h
          have h := heq.1 h
          obtain ⟨q1, q2⟩ := iter_addFeature hd (BitVec.ofNat 32 (cbase.toNat + (a.1.toNat - base1.toNat))) (Flt.mul a.2 b.2)
          obtain ⟨out, h1, h2⟩ := ih as bs _ (by omega) q2 has hbs
          refine ⟨out, h1, ?_⟩
          rw [h2, q1]
          have hrest : elementwiseProduct base1.toNat base2.toNat cbase.toNat as (b :: bs) =
              elementwiseProduct base1.toNat base2.toNat cbase.toNat as bs := by
            unfold elementwiseProduct
            apply List.filterMap_congr
            intro x hx
            rw [List.find?_cons_of_neg]
            have := hal x hx
            have := a2 x (by simp [hx])
            simp only [decide_eq_true_eq]
            omega
          have hhead : elementwiseProduct base1.toNat base2.toNat cbase.toNat (a :: as) (b :: bs) =
              (BitVec.ofNat 32 (cbase.toNat + (a.1.toNat - base1.toNat)), Flt.mul a.2 b.2) ::
                elementwiseProduct base1.toNat base2.toNat cbase.toNat as (b :: bs) := by
            unfold elementwiseProduct
            rw [List.filterMap_cons, List.find?_cons_of_pos (by simpa using h)]
            rfl
          rw [hhead, hrest]
          simp
        · rename_i hne
          have hne : ¬ (b.1.toNat - base2.toNat = a.1.toNat - base1.toNat) := fun h => hne (heq.2 h)
          rw [e1, e2]
          split
          · rename_i hlt
            obtain ⟨out, h1, h2⟩ := ih as (b :: bs) dest (by simp; omega) hd has ⟨b1, b2⟩
            refine ⟨out, h1, ?_⟩
            rw [h2]
            congr 1
            conv_rhs => unfold elementwiseProduct
            rw [List.filterMap_cons]
            have : (b :: bs).find? (fun b => b.1.toNat - base2.toNat = a.1.toNat - base1.toNat) = none := by
              rw [List.find?_eq_none]
              intro x hx
              simp only [decide_eq_true_eq]
              rcases List.mem_cons.1 hx with rfl | hx
              · omega
              · have := hbl x hx
                omega
            rw [this]
            rfl
          · rename_i hge
            obtain ⟨out, h1, h2⟩ := ih (a :: as) bs dest (by simp; omega) hd ⟨a1, a2⟩ hbs
            refine ⟨out, h1, ?_⟩
            rw [h2]
            congr 1
            unfold elementwiseProduct
            apply List.filterMap_congr
            intro x hx
            rw [List.find?_cons_of_neg]
            simp only [decide_eq_true_eq]
            rcases List.mem_cons.1 hx with rfl | hx
            · omega
            · have := hal x hx
              omega

/-- C60: `elementwise_multiply` computes the elementwise product of the two (visible) namespaces, in both build profiles, for sparse
vectors in index order. -/
theorem C60_products (dbg : Bool) (numBits : Nat) (f : SparseFeatures F) (one two : Namespace) (n1 n2 : NsFeats F)
    (h1 : f.getNamespace one = some n1) (h2 : f.getNamespace two = some n2)
    (ho1 : VectorOk (baseOf numBits one) (baseOf numBits (productNs one two)) n1.iter)
    (ho2 : VectorOk (baseOf numBits two) 0 n2.iter) :
    ∃ dest, elementwiseMultiply dbg numBits f one two = .ok (productNs one two, dest) ∧
      dest.iter = elementwiseProduct (baseOf numBits one) (baseOf numBits two) (baseOf numBits (productNs one two)) n1.iter n2.iter := by
  rw [baseOf_eq, baseOf_product] at ho1
  rw [baseOf_eq] at ho2
  rw [baseOf_product, baseOf_eq, baseOf_eq, productNs_eq]
  unfold elementwiseMultiply
  simp only [h1, h2, unwrapOpt, bind, Except.bind]
  obtain ⟨out, q1, q2⟩ := loop_spec dbg (maskIdx numBits one.hash) (maskIdx numBits two.hash)
    (maskIdx numBits (compositeHash one two)) (n1.iter.length + n2.iter.length) n1.iter n2.iter (NsFeats.new (.rawHash (compositeHash one two)))
    (le_refl _) rfl ho1 ho2
  have hh : (Namespace.rawHash (compositeHash one two)).hash = compositeHash one two := rfl
  rw [hh, q1]
  refine ⟨out, rfl, ?_⟩
  rw [q2]
  simp [NsFeats.iter, NsFeats.new, RVec.new]

theorem denseAt_mem {base : Nat} {vs : List F} {a : U32 × F} (h : a ∈ denseAt base vs) (hb : base + vs.length ≤ 2 ^ 32) :
    base ≤ a.1.toNat ∧ a.1.toNat < base + vs.length := by
  induction vs generalizing base with
  | nil => simp [denseAt] at h
  | cons v vs ih =>
    simp only [denseAt, List.mem_cons, List.length_cons] at h hb ⊢
    rcases h with rfl | h
    · rw [ofNat_toNat_lt (by omega)]; omega
    · have := ih h (by omega)
      omega

theorem denseAt_sorted (base : Nat) (vs : List F) (hb : base + vs.length ≤ 2 ^ 32) :
    (denseAt base vs).Pairwise (fun a b => a.1.toNat < b.1.toNat) := by
  induction vs generalizing base with
  | nil => exact List.Pairwise.nil
  | cons v vs ih =>
    simp only [List.length_cons] at hb
    refine List.pairwise_cons.2 ⟨?_, ih _ (by omega)⟩
    intro x hx
    have := denseAt_mem hx (by omega)
    rw [ofNat_toNat_lt (by omega)]
    omega

theorem denseAt_ok (base cbase : Nat) (vs : List F) (hb : base + vs.length ≤ 2 ^ 32) (hc : cbase + vs.length ≤ 2 ^ 32) :
    VectorOk base cbase (denseAt base vs) :=
  ⟨denseAt_sorted base vs hb, fun a ha => by have := denseAt_mem ha hb; omega⟩

theorem find_none_of_gt {base k : Nat} {vs : List F} {p : Nat} (hb : base + k + vs.length ≤ 2 ^ 32) (hp : p < k) :
    (denseAt (base + k) vs).find? (fun b => b.1.toNat - base = p) = none := by
  rw [List.find?_eq_none]
  intro x hx
  have := denseAt_mem hx hb
  simp only [decide_eq_true_eq]
  omega

theorem product_dense_aux (base1 base2 cbase : Nat) (xs ys : List F) : ∀ k, base1 + k + xs.length ≤ 2 ^ 32 → base2 + k + ys.length ≤ 2 ^ 32 →
    elementwiseProduct base1 base2 cbase (denseAt (base1 + k) xs) (denseAt (base2 + k) ys) =
      denseAt (cbase + k) (List.zipWith Flt.mul xs ys) := by
  induction xs generalizing ys with
  | nil => intro k _ _; simp [denseAt, elementwiseProduct]
  | cons x xs ih =>
    intro k h1 h2
    cases ys with
    | nil => simp [denseAt, elementwiseProduct]
    | cons y ys =>
      simp only [List.length_cons] at h1 h2
      have hb : (BitVec.ofNat 32 (base2 + k)).toNat = base2 + k := ofNat_toNat_lt (by omega)
      have ha : (BitVec.ofNat 32 (base1 + k)).toNat = base1 + k := ofNat_toNat_lt (by omega)
      have := ih ys (k + 1) (by omega) (by omega)
      simp only [denseAt, List.zipWith_cons_cons]
      conv_lhs => unfold elementwiseProduct
      rw [List.filterMap_cons, List.find?_cons_of_pos (by simp only [hb, ha, decide_eq_true_eq]; omega)]
      simp only [Option.map_some, ha]
      have e1 : cbase + (base1 + k - base1) = cbase + k := by omega
      rw [e1]
      congr 1
      have e2 : cbase + k + 1 = cbase + (k + 1) := by omega
      rw [e2, ← this]
      unfold elementwiseProduct
      apply List.filterMap_congr
      intro a hax
      have := denseAt_mem hax (by omega)
      rw [List.find?_cons_of_neg]
      · rfl
      · simp only [hb, decide_eq_true_eq]
        omega

/-- C60: for two dense vectors of any lengths the result is the dense vector of the products at equal positions, as long as the shorter one,
under consecutive indices from the base of the composite namespace. -/
theorem C60_dense (dbg : Bool) (numBits : Nat) (f : SparseFeatures F) (one two : Namespace) (n1 n2 : NsFeats F) (xs ys : List F)
    (h1 : f.getNamespace one = some n1) (h2 : f.getNamespace two = some n2)
    (hx : n1.iter = denseAt (baseOf numBits one) xs) (hy : n2.iter = denseAt (baseOf numBits two) ys)
    (w1 : baseOf numBits one + xs.length ≤ 2 ^ 32) (w2 : baseOf numBits two + ys.length ≤ 2 ^ 32)
    (w3 : baseOf numBits (productNs one two) + xs.length ≤ 2 ^ 32) :
    ∃ dest, elementwiseMultiply dbg numBits f one two = .ok (productNs one two, dest) ∧
      dest.iter = denseAt (baseOf numBits (productNs one two)) (List.zipWith Flt.mul xs ys) := by
  obtain ⟨dest, q1, q2⟩ := C60_products dbg numBits f one two n1 n2 h1 h2
    (by rw [hx]; exact denseAt_ok _ _ _ w1 w3) (by rw [hy]; exact denseAt_ok _ _ _ w2 (by omega))
  refine ⟨dest, q1, ?_⟩
  rw [q2, hx, hy]
  have := product_dense_aux (baseOf numBits one) (baseOf numBits two) (baseOf numBits (productNs one two)) xs ys 0 (by omega) (by omega)
  simpa using this

/-- What the base of an ElementwiseInteraction sees instead of `f`. -/
def BaseSees (keep : Bool) (one two : Namespace) (f f1 : SparseFeatures F) (prod : List (U32 × F)) : Prop :=
  ∀ ns, f1.stored ns =
    if ns = productNs one two then prod
    else if keep = false ∧ (ns = one ∨ ns = two) then []
    else f.stored ns

theorem prep_sees {dbg : Bool} {bits : Nat} {pair : Namespace × Namespace} {keep : Bool} {f : SparseFeatures F} (hf : f.Inv0)
    (hp : pair.1.isRaw = false ∧ pair.2.isRaw = false) {x : SparseFeatures F × NsFeats F × NsFeats F}
    (h : elementwisePrep dbg bits pair keep f = .ok x) : ∃ dest, elementwiseMultiply dbg bits f pair.1 pair.2 =
      .ok (.rawHash (compositeHash pair.1 pair.2), dest) ∧ BaseSees keep pair.1 pair.2 f x.1 dest.iter := by
  unfold elementwisePrep at h
  obtain ⟨⟨cns, dest⟩, hm, h⟩ := bind_ok.1 h
  obtain ⟨hc, h2, h3, _⟩ := elementwiseMultiply_ok hm
  simp only at hc h2 h3 h
  refine ⟨dest, by rw [hm, hc], ?_⟩
  have c1 : cns ≠ pair.1 := by intro e; rw [← e, hc] at hp; simp [Namespace.isRaw] at hp
  have c2 : cns ≠ pair.2 := by intro e; rw [← e, hc] at hp; simp [Namespace.isRaw] at hp
  have hinv := setNamespace_inv0 hf h2 h3
  unfold BaseSees
  rw [productNs_eq, ← hc]
  intro ns
  cases keep with
  | true =>
    simp only [if_true, Except.ok.injEq] at h
    subst h
    simp only [stored, vw_setNamespace, Bool.true_eq_false, false_and, if_false, eq_comm (a := ns)]
    split
    · rfl
    · rfl
  | false =>
    simp only [Bool.false_eq_true, if_false] at h
    obtain ⟨n1, _, h⟩ := bind_ok.1 h
    obtain ⟨n2, _, h⟩ := bind_ok.1 h
    simp only [Except.ok.injEq] at h
    subst h
    simp only [stored, true_and]
    rw [vw_removeNamespace (removeNamespace_inv0 hinv _), vw_removeNamespace hinv, vw_setNamespace]
    simp only [eq_comm (a := ns)]
    by_cases e2 : pair.2 = ns
    · subst e2
      simp [c2]
    · by_cases e1 : pair.1 = ns
      · subst e1
        simp [c1, e2]
      · by_cases ec : cns = ns
        · subst ec; simp [e1, e2]; rfl
        · simp [e1, e2, ec]

/-- C60: predict, learn and predict_then_learn of an ElementwiseInteraction all give their base the features of the example with the
elementwise product as an additional namespace, without the two original namespaces unless they are to be kept. -/
theorem C60_base_sees (dbg : Bool) (m : Meta) (pair : Namespace × Namespace) (keep : Bool) (bits : Nat) (r : Red F) (s : r.State)
    (f : SparseFeatures F) (hf : f.WF) (hp : pair.1.isRaw = false ∧ pair.2.isRaw = false) (d : Depth) (n1 n2 : NsFeats F)
    (h1 : f.getNamespace pair.1 = some n1) (h2 : f.getNamespace pair.2 = some n2)
    (ho1 : VectorOk (baseOf bits pair.1) (baseOf bits (productNs pair.1 pair.2)) n1.iter) (ho2 : VectorOk (baseOf bits pair.2) 0 n2.iter)
    (prod : List (U32 × F))
    (hprod : prod = elementwiseProduct (baseOf bits pair.1) (baseOf bits pair.2) (baseOf bits (productNs pair.1 pair.2)) n1.iter n2.iter) :
    (∀ p ft d', (Red.elementwise m pair keep bits r).predictImpl dbg s (.simple f) d = .ok (p, ft, d') →
      ∃ f1 ft1, BaseSees keep pair.1 pair.2 f f1 prod ∧ wrapCall dbg r.meta (.simple f1) d 0 (r.predictImpl dbg s) = .ok (p, ft1, d')) ∧
    (∀ l s' ft d', (Red.elementwise m pair keep bits r).learnImpl dbg s (.simple f) l d = .ok (s', ft, d') →
      ∃ f1 ft1, BaseSees keep pair.1 pair.2 f f1 prod ∧
        wrapCall dbg r.meta (.simple f1) d 0 (fun ft d => r.learnImpl dbg s ft l d) = .ok (s', ft1, d')) ∧
    (∀ l q ft d' off, (Red.elementwise m pair keep bits r).predictThenLearnImpl dbg s (.simple f) l d off = .ok (q, ft, d') →
      ∃ f1 ft1, BaseSees keep pair.1 pair.2 f f1 prod ∧
        wrapCall dbg r.meta (.simple f1) d 0 (fun ft d => r.predictThenLearnImpl dbg s ft l d 0) = .ok (q, ft1, d')) := by
  have key : ∀ {α : Type} (body : Features F → Depth → M (α × Features F × Depth)) (x : α × Features F × Depth),
      elementwiseWith dbg bits pair keep body (.simple f) d = .ok x →
      ∃ f1 ft1, BaseSees keep pair.1 pair.2 f f1 prod ∧ body (.simple f1) d = .ok (x.1, ft1, x.2.2) := by
    intro α body x h
    rw [elementwiseWith_eq] at h
    obtain ⟨y, hy, h⟩ := bind_ok.1 h
    obtain ⟨⟨a, ft1, d1⟩, hb, h⟩ := bind_ok.1 h
    obtain ⟨f', _, h⟩ := bind_ok.1 h
    simp only [Except.ok.injEq] at h
    subst h
    obtain ⟨dest, q1, q2⟩ := prep_sees hf.1 hp hy
    obtain ⟨dest', r1, r2⟩ := C60_products dbg bits f pair.1 pair.2 n1 n2 h1 h2 ho1 ho2
    rw [q1] at r1
    have e := (Prod.mk.inj (Except.ok.inj r1)).2
    rw [hprod, ← r2, ← e]
    exact ⟨y.1, ft1, q2, hb⟩
  refine ⟨?_, ?_, ?_⟩
  · intro p ft d' h
    exact key _ _ h
  · intro l s' ft d' h
    exact key _ _ h
  · intro l q ft d' off h
    exact key _ _ h

section examples
attribute [local instance] intFlt

/-- Two dense namespaces of different lengths. -/
def twoDense : SparseFeatures Int :=
  ((SparseFeatures.new : SparseFeatures Int).modifyOrCreate (.named 1#32)
    (fun n => ((n.addFeature 1#32 2).addFeature 2#32 3).addFeature 3#32 5)).modifyOrCreate (.named 2#32)
    (fun n => (n.addFeature 2#32 7).addFeature 3#32 11)

example : ∃ n1 n2, twoDense.getNamespace (.named 1#32) = some n1 ∧ twoDense.getNamespace (.named 2#32) = some n2 ∧
    n1.iter = denseAt (baseOf 4 (.named 1#32)) [2, 3, 5] ∧
    n2.iter = denseAt (baseOf 4 (.named 2#32)) [7, 11] ∧
    List.zipWith Flt.mul [2, 3, 5] [7, 11] = [(14 : Int), 33] ∧ (Namespace.named 1#32).isRaw = false :=
  ⟨_, _, rfl, rfl, by decide +kernel, by decide +kernel, by decide +kernel, rfl⟩

end examples

end Rml
