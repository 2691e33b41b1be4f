import Verif.Model.Config
import Verif.SpecConfig
import Verif.Lemmas.Serde

/-! Helper lemmas: reading of configurations. -/

namespace Rml
namespace Cfg
open Serde
variable {F : Type} [Flt F]

theorem has_iff {j : Doc F} {k : String} {v : Doc F} : Has j k v ↔ j.get? k = some v := by
  constructor
  · rintro ⟨l, rfl, h⟩; exact h
  · intro h; cases j with
    | obj l => exact ⟨l, rfl, h⟩
    | _ => simp [Json.get?] at h

theorem lacks_obj {l : List (List Char × Doc F)} {k : String} : Lacks (.obj l) k ↔ l.lookup k.toList = none := by
  constructor
  · rintro ⟨l', h, h'⟩; cases h; exact h'
  · intro h; exact ⟨l, rfl, h⟩

theorem denyUnknown_iff {j : Doc F} {ks : List String} : denyUnknown j ks = some () ↔ OnlyKeys j ks := by
  cases j with
  | obj l =>
    simp only [denyUnknown, OnlyKeys, List.all_eq_true, List.contains_iff_mem, List.mem_map]
    constructor
    · intro h
      refine ⟨l, rfl, fun e he => ?_⟩
      split at h
      · rename_i h'
        obtain ⟨k, hk, hk'⟩ := h' e he
        exact ⟨k, hk, hk'.symm⟩
      · simp at h
    · rintro ⟨l', h, h'⟩
      cases h
      rw [if_pos]
      intro e he
      obtain ⟨k, hk, hk'⟩ := h' e he
      exact ⟨k, hk, hk'.symm⟩
  | _ => simp [denyUnknown, OnlyKeys]

theorem fieldOr_iff {α : Type} {l : List (List Char × Doc F)} {k : String} {d : α} {dec : Doc F → Option α} {Den : Doc F → α → Prop}
    (h : ∀ v a, dec v = some a ↔ Den v a) (a : α) : fieldOr (.obj l) k d dec = some a ↔ Setting (.obj l) k d Den a := by
  unfold fieldOr Setting
  simp only [has_iff, lacks_obj]
  cases hk : (Json.obj l).get? k with
  | none =>
    have hk' : l.lookup k.toList = none := hk
    simp [hk', eq_comm]
  | some v =>
    have hk' : l.lookup k.toList = some v := hk
    simp [hk', h]

theorem decF_iff (v : Doc F) (x : F) : decF v = some x ↔ IsNum v x := by
  constructor
  · intro h
    match v, h with
    | .num (.flt y), h => simp only [decF, Option.some.injEq] at h; subst h; exact .flt _
    | .num (.nat y), h => simp only [decF, Option.some.injEq] at h; subst h; exact .nat _
  · rintro (_ | _) <;> rfl

theorem decN_iff (v : Doc F) (n : Nat) : decN v = some n ↔ v = .num (.nat n) := by
  constructor
  · intro h
    match v, h with
    | .num (.nat y), h => simp only [decN, Option.some.injEq] at h; subst h; rfl
  · rintro rfl; rfl

theorem decU_iff (bits : Nat) (v : Doc F) (n : Nat) : decU bits v = some n ↔ IsNat bits v n := by
  unfold decU IsNat
  rw [← decN_iff]
  cases decN v with
  | none => simp
  | some m =>
    simp only [Option.bind_eq_bind, Option.bind_some, Option.some.injEq]
    split
    · rename_i h; constructor
      · rintro h'; cases h'; exact ⟨rfl, h⟩
      · rintro ⟨rfl, _⟩; rfl
    · rename_i h; constructor
      · simp
      · rintro ⟨rfl, h'⟩; exact absurd h' h

theorem decB_iff (v : Doc F) (b : Bool) : decB v = some b ↔ IsBool v b := by
  unfold IsBool
  cases v <;> simp [decB]

theorem decS_iff (v : Doc F) (s : List Char) : decS v = some s ↔ IsStr v s := by
  unfold IsStr
  cases v <;> simp [decS]

theorem decNsDef_iff (v : Doc F) (n : NamespaceDef) : decNsDef v = some n ↔ IsNs v n := by
  constructor
  · intro h
    match v, h with
    | .str s, h =>
      simp only [decNsDef] at h
      split at h
      · rename_i e; subst e; simp only [Option.some.injEq] at h; subst h; exact .default
      · simp at h
    | .obj [(k, v)], h =>
      simp only [decNsDef, Option.bind_eq_bind, Option.bind_eq_some_iff] at h
      obtain ⟨s, hs, h⟩ := h
      split at h
      · rename_i e; subst e; simp only [Option.some.injEq] at h; subst h
        have := (decS_iff v s).1 hs
        unfold IsStr at this
        subst this
        exact .name s
      · simp at h
  · rintro (_ | _) <;> rfl

theorem decL_iff {α : Type} {dec : Doc F → Option α} {Den : Doc F → α → Prop} (h : ∀ v a, dec v = some a ↔ Den v a)
    (v : Doc F) (as : List α) : decL dec v = some as ↔ IsList Den v as := by
  unfold IsList
  cases v with
  | arr l =>
    simp only [decL, Json.arr.injEq]
    have key : ∀ (l : List (Doc F)) (as : List α), l.mapM dec = some as ↔ List.Forall₂ Den l as := by
      intro l
      induction l with
      | nil => intro as; cases as <;> simp
      | cons d l ih =>
        intro as
        simp only [List.mapM_cons, Option.bind_eq_bind, Option.bind_eq_some_iff, h, ih]
        cases as with
        | nil => simp
        | cons a as =>
          simp only [List.forall₂_cons]
          constructor
          · rintro ⟨x, hx, y, hy, e⟩
            simp only [pure, Option.some.injEq, List.cons.injEq] at e
            obtain ⟨rfl, rfl⟩ := e
            exact ⟨hx, hy⟩
          · rintro ⟨hx, hy⟩; exact ⟨a, hx, as, hy, rfl⟩
    rw [key]
    constructor
    · intro h; exact ⟨l, rfl, h⟩
    · rintro ⟨l', rfl, h⟩; exact h
  | _ => simp [decL]

theorem decLoss_iff (v : Doc F) (lo : LossFunction F) : decLoss v = some lo ↔ IsLoss v lo := by
  constructor
  · intro h
    match v, h with
    | .obj [(k, v)], h =>
      simp only [decLoss] at h
      split at h
      · rename_i e; subst e
        cases v with
        | obj l => simp only [Option.some.injEq] at h; subst h; exact .squared l
        | _ => simp at h
      · split at h
        · rename_i e; subst e
          cases v with
          | obj l =>
            simp only [Option.bind_eq_bind, Option.bind_eq_some_iff, Option.some.injEq] at h
            obtain ⟨a, ha, b, hb, rfl⟩ := h
            exact .logistic _ a b ((fieldOr_iff decF_iff a).1 ha) ((fieldOr_iff decF_iff b).1 hb)
          | _ => simp at h
        · simp at h
  · rintro (_ | ⟨v, a, b, ha, hb⟩)
    · rfl
    · have hv : ∃ l, v = .obj l := by
        rcases ha with ⟨⟨l, h, _⟩, _⟩ | ⟨_, ⟨l, h, _⟩, _⟩ <;> exact ⟨l, h⟩
      obtain ⟨l, rfl⟩ := hv
      have h1 := (fieldOr_iff decF_iff a).2 ha
      have h2 := (fieldOr_iff decF_iff b).2 hb
      show (fieldOr (Json.obj l) "min_label" (Flt.lit (-1) 1) decF).bind (fun lo =>
        (fieldOr (Json.obj l) "max_label" (Flt.lit 1 1) decF).bind fun hi => some (LossFunction.logistic lo hi)) = _
      rw [h1, h2]
      rfl

theorem decLink_iff (v : Doc F) (x : LinkFunction) : decLink v = some x ↔ IsLink v x := by
  constructor
  · intro h
    match v, h with
    | .str s, h =>
      simp only [decLink] at h
      split at h
      · rename_i e; subst e; simp only [Option.some.injEq] at h; subst h; exact .identity
      · split at h
        · rename_i e; subst e; simp only [Option.some.injEq] at h; subst h; exact .logistic
        · simp at h
  · rintro (_ | _) <;> rfl

theorem decCBType_iff (v : Doc F) (x : CBType) : decCBType v = some x ↔ IsCBType v x := by
  constructor
  · intro h
    match v, h with
    | .str s, h =>
      simp only [decCBType] at h
      split at h
      · rename_i e; subst e; simp only [Option.some.injEq] at h; subst h; exact .ips
      · split at h
        · rename_i e; subst e; simp only [Option.some.injEq] at h; subst h; exact .mtr
        · simp at h
  · rintro (_ | _) <;> rfl

theorem onlyKeys_obj {j : Doc F} {ks : List String} (h : OnlyKeys j ks) : ∃ l, j = .obj l := by
  obtain ⟨l, h, _⟩ := h; exact ⟨l, h⟩

theorem decCoinConfig_iff (j : Doc F) (c : CoinConfig F) : decCoinConfig j = some c ↔ CoinMeans j c := by
  constructor
  · intro h
    simp only [decCoinConfig, Option.bind_eq_bind, Option.bind_eq_some_iff, Option.some.injEq] at h
    obtain ⟨_, h0, a, ha, b, hb, l1, h1, l2, h2, lo, hlo, li, hli, rfl⟩ := h
    have h0' := denyUnknown_iff.1 h0
    obtain ⟨l, rfl⟩ := onlyKeys_obj h0'
    exact ⟨h0', (fieldOr_iff decF_iff _).1 ha, (fieldOr_iff decF_iff _).1 hb, (fieldOr_iff decF_iff _).1 h1, (fieldOr_iff decF_iff _).1 h2,
      (fieldOr_iff decLoss_iff _).1 hlo, (fieldOr_iff decLink_iff _).1 hli⟩
  · rintro ⟨h0, ha, hb, h1, h2, hlo, hli⟩
    have h0' := denyUnknown_iff.2 h0
    obtain ⟨l, rfl⟩ := onlyKeys_obj h0
    unfold decCoinConfig fl
    rw [h0', (fieldOr_iff decF_iff _).2 ha, (fieldOr_iff decF_iff _).2 hb, (fieldOr_iff decF_iff _).2 h1, (fieldOr_iff decF_iff _).2 h2,
      (fieldOr_iff decLoss_iff _).2 hlo, (fieldOr_iff decLink_iff _).2 hli]
    rfl

theorem readGlobal_iff (j : Doc F) (g : GlobalConfig) : readGlobal j = some g ↔ GlobalMeans j g := by
  constructor
  · intro h
    simp only [readGlobal, Option.bind_eq_bind, Option.bind_eq_some_iff, Option.some.injEq] at h
    obtain ⟨_, h0, nb, hnb, sd, hsd, c, hc, is, his, rfl⟩ := h
    have h0' := denyUnknown_iff.1 h0
    obtain ⟨l, rfl⟩ := onlyKeys_obj h0'
    have hsd' := (fieldOr_iff (decU_iff 32) _).1 hsd
    have hlt : sd < 2 ^ 32 := by
      rcases hsd' with ⟨_, h⟩ | ⟨v, _, _, h⟩
      · omega
      · exact h
    refine ⟨h0', (fieldOr_iff (decU_iff 8) _).1 hnb, ?_, (fieldOr_iff decB_iff _).1 hc, (fieldOr_iff (decL_iff (decL_iff decNsDef_iff)) _).1 his⟩
    rw [BitVec.toNat_ofNat, Nat.mod_eq_of_lt hlt]; exact hsd'
  · rintro ⟨h0, hnb, hsd, hc, his⟩
    have h0' := denyUnknown_iff.2 h0
    obtain ⟨l, rfl⟩ := onlyKeys_obj h0
    unfold readGlobal
    rw [h0', (fieldOr_iff (decU_iff 8) _).2 hnb, (fieldOr_iff (decU_iff 32) _).2 hsd, (fieldOr_iff decB_iff _).2 hc,
      (fieldOr_iff (decL_iff (decL_iff decNsDef_iff)) _).2 his]
    simp

theorem describes_config {j : Doc F} {r : RedDoc F} (h : readRedDoc j = some r) : ∃ t s, r.typename = t ∧
    Has j "typename" (.str t) ∧ ((r.config = some s ∧ Has j "config" s ∧ s ≠ .null) ∨
      (r.config = none ∧ (Lacks j "config" ∨ Has j "config" .null) ∧ s = .obj [])) := by
  simp only [readRedDoc, field, Option.bind_eq_bind, Option.bind_eq_some_iff, Option.some.injEq] at h
  obtain ⟨t, ⟨v, hv, ht⟩, c, hc, rfl⟩ := h
  have := (decS_iff v t).1 ht
  unfold IsStr at this
  subst this
  have hobj : ∃ l, j = .obj l := by
    obtain ⟨l, h, _⟩ := has_iff.2 hv; exact ⟨l, h⟩
  obtain ⟨l, rfl⟩ := hobj
  unfold fieldOr at hc
  cases hk : (Json.obj l).get? "config" with
  | none =>
    rw [hk] at hc
    simp only [Option.some.injEq] at hc
    exact ⟨t, .obj [], rfl, has_iff.2 hv, .inr ⟨hc.symm, .inl (lacks_obj.2 hk), rfl⟩⟩
  | some w =>
    rw [hk] at hc
    by_cases hw : w = .null
    · subst hw
      simp only [optDoc, Option.some.injEq] at hc
      exact ⟨t, .obj [], rfl, has_iff.2 hv, .inr ⟨hc.symm, .inr (has_iff.2 hk), rfl⟩⟩
    · have : optDoc w = some (some w) := by
        cases w <;> first | rfl | exact absurd rfl hw
      simp only [this, Option.some.injEq] at hc
      exact ⟨t, w, rfl, has_iff.2 hv, .inl ⟨hc.symm, has_iff.2 hk, hw⟩⟩

theorem Has.unique {j : Doc F} {k : String} {v w : Doc F} (h : Has j k v) (h' : Has j k w) : v = w := by
  rw [has_iff] at h h'; rw [h] at h'; exact Option.some.inj h'

theorem Lacks.not_has {j : Doc F} {k : String} {v : Doc F} (h : Lacks j k) (h' : Has j k v) : False := by
  obtain ⟨l, rfl, h⟩ := h
  rw [has_iff] at h'
  have : l.lookup k.toList = some v := h'
  rw [h] at this; simp at this

theorem read_of_describes {j : Doc F} {t : String} {s : Doc F} (h : Describes j t s) : ∃ c, readRedDoc j = some ⟨t.toList, c⟩ ∧
    (c = some s ∧ Has j "config" s ∨ c = none ∧ s = .obj []) := by
  obtain ⟨h1, h2⟩ := h
  have h1' := has_iff.1 h1
  rcases h2 with ⟨h2, h3⟩ | ⟨h2, rfl⟩
  · refine ⟨some s, ?_, .inl ⟨rfl, h2⟩⟩
    have : optDoc s = some (some s) := by
      cases s <;> first | rfl | exact absurd rfl h3
    simp only [readRedDoc, field, fieldOr, h1', has_iff.1 h2, this]
    rfl
  · refine ⟨none, ?_, .inr ⟨rfl, rfl⟩⟩
    rcases h2 with h2 | h2
    · obtain ⟨l, rfl, h2⟩ := h2
      have h2' : (Json.obj l).get? "config" = none := h2
      simp only [readRedDoc, field, fieldOr, h1', h2']
      rfl
    · simp only [readRedDoc, field, fieldOr, h1', has_iff.1 h2]
      rfl

theorem readRedDoc_redObj (t : String) (d : Doc F) (h : d ≠ .null) : readRedDoc (redObj t d) = some ⟨t.toList, some d⟩ := by
  have : optDoc d = some (some d) := by
    cases d <;> first | rfl | exact absurd rfl h
  have e1 : (redObj t d).get? "typename" = some (.str t.toList) := rfl
  have e2 : (redObj t d).get? "config" = some d := rfl
  simp only [readRedDoc, field, fieldOr, e1, e2, this]
  rfl

theorem decCoin_dflt : decCoinConfig (dfltCoin : Doc F) = decCoinConfig (.obj []) := by
  have := decCoinConfig_enc (F := F) (fin := fun _ => true) (c := CoinConfig.dflt) ⟨rfl, rfl, rfl, rfl, trivial⟩
  unfold dfltCoin
  rw [this]
  rfl

/-! ### One layer -/

theorem obind {α β : Type} {x : Option α} {f : α → Except CreateError β} {b : β} :
    (orInvalid x >>= f) = .ok b ↔ ∃ a, x = some a ∧ f a = .ok b := by
  cases x with
  | none => constructor
            · intro h; cases h
            · rintro ⟨_, h, _⟩; cases h
  | some a => constructor
              · intro h; exact ⟨a, rfl, h⟩
              · rintro ⟨_, h, h'⟩; cases h; exact h'

theorem ebind {α β : Type} {x : Except CreateError α} {f : α → Except CreateError β} {b : β} :
    (x >>= f) = .ok b ↔ ∃ a, x = .ok a ∧ f a = .ok b := by
  cases x with
  | error => constructor
             · intro h; cases h
             · rintro ⟨_, h, _⟩; cases h
  | ok a => constructor
            · intro h; exact ⟨a, rfl, h⟩
            · rintro ⟨_, h, h'⟩; cases h; exact h'

/-- The child of a layer. -/
def childOf (n : Nat) (j : Doc F) (k dflt : String) (dfltDoc : Doc F) : Except CreateError (RedConfig F) := do
  let d ← orInvalid (fieldOr j k ⟨dflt.toList, some dfltDoc⟩ readRedDoc)
  parseRed n d

theorem parse_coin (n : Nat) (o : Option (Doc F)) : parseRed (n + 1) ⟨"Coin".toList, o⟩ = (do
    let c ← orInvalid (decCoinConfig (o.getD dfltCoin))
    .ok (.coin c)) := rfl
theorem parse_binary (n : Nat) (o : Option (Doc F)) : parseRed (n + 1) ⟨"Binary".toList, o⟩ = (do
    orInvalid (denyUnknown (o.getD dfltBinary) ["regressor"])
    let c ← childOf n (o.getD dfltBinary) "regressor" "Coin" dfltCoin
    .ok (.binary c)) := rfl
theorem parse_cbAdf (n : Nat) (o : Option (Doc F)) : parseRed (n + 1) ⟨"CbAdf".toList, o⟩ = (do
    orInvalid (denyUnknown (o.getD dfltCbAdf) ["cbType", "regressor"])
    let ty ← orInvalid (fieldOr (o.getD dfltCbAdf) "cbType" .mtr decCBType)
    let c ← childOf n (o.getD dfltCbAdf) "regressor" "Coin" dfltCoin
    .ok (.cbAdf ty c)) := rfl
theorem parse_greedy (n : Nat) (o : Option (Doc F)) : parseRed (n + 1) ⟨"CbExploreAdfGreedy".toList, o⟩ = (do
    orInvalid (denyUnknown (o.getD dfltGreedy) ["epsilon", "cbAdf"])
    let e ← orInvalid (fieldOr (o.getD dfltGreedy) "epsilon" dfltEpsilon decF)
    let c ← childOf n (o.getD dfltGreedy) "cbAdf" "CbAdf" dfltCbAdf
    .ok (.greedy e c)) := rfl
theorem parse_softmax (n : Nat) (o : Option (Doc F)) : parseRed (n + 1) ⟨"CbExploreAdfSoftmax".toList, o⟩ = (do
    orInvalid (denyUnknown (o.getD dfltSoftmax) ["uniformEpsilon", "lambda", "cbAdf"])
    let e ← orInvalid (fieldOr (o.getD dfltSoftmax) "uniformEpsilon" Flt.zero decF)
    let la ← orInvalid (fieldOr (o.getD dfltSoftmax) "lambda" (fl 1) decF)
    let c ← childOf n (o.getD dfltSoftmax) "cbAdf" "CbAdf" dfltCbAdf
    .ok (.softmax e la c)) := rfl
theorem parse_squareCb (n : Nat) (o : Option (Doc F)) : parseRed (n + 1) ⟨"CbExploreAdfSquareCb".toList, o⟩ = (do
    orInvalid (denyUnknown (o.getD dfltSquareCb) ["uniformEpsilon", "gammaScale", "gammaExponent", "cbAdf"])
    let e ← orInvalid (fieldOr (o.getD dfltSquareCb) "uniformEpsilon" Flt.zero decF)
    let gs ← orInvalid (fieldOr (o.getD dfltSquareCb) "gammaScale" (fl 10) decF)
    let ge ← orInvalid (fieldOr (o.getD dfltSquareCb) "gammaExponent" dfltGammaExponent decF)
    let c ← childOf n (o.getD dfltSquareCb) "cbAdf" "CbAdf" dfltCbAdf
    .ok (.squareCb e gs ge c)) := rfl
theorem parse_debug (n : Nat) (o : Option (Doc F)) : parseRed (n + 1) ⟨"Debug".toList, o⟩ = (do
    orInvalid (denyUnknown (o.getD dfltDebug) ["id", "prediction", "label", "features", "indent", "next"])
    let _ ← orInvalid (fieldOr (o.getD dfltDebug) "id" [] decS)
    let _ ← orInvalid (fieldOr (o.getD dfltDebug) "prediction" false decB)
    let _ ← orInvalid (fieldOr (o.getD dfltDebug) "label" false decB)
    let _ ← orInvalid (fieldOr (o.getD dfltDebug) "features" false decB)
    let _ ← orInvalid (fieldOr (o.getD dfltDebug) "indent" 0 (decU 64))
    let c ← childOf n (o.getD dfltDebug) "next" "Unknown" (.obj [])
    .ok (.debug c)) := rfl
theorem parse_elementwise (n : Nat) (o : Option (Doc F)) : parseRed (n + 1) ⟨"ElementwiseInteraction".toList, o⟩ = (do
    orInvalid (denyUnknown (o.getD dfltElementwise) ["regressor", "one", "two", "keepOriginalFeatures"])
    let one ← orInvalid (fieldOr (o.getD dfltElementwise) "one" .default decNsDef)
    let two ← orInvalid (fieldOr (o.getD dfltElementwise) "two" .default decNsDef)
    let keep ← orInvalid (fieldOr (o.getD dfltElementwise) "keepOriginalFeatures" false decB)
    let c ← childOf n (o.getD dfltElementwise) "regressor" "Coin" dfltCoin
    .ok (.elementwise one two keep c)) := rfl

theorem parse_other (n : Nat) {r : RedDoc F} {c : RedConfig F} (h : parseRed n r = .ok c) :
    r.typename ∈ ["Coin", "Binary", "CbAdf", "CbExploreAdfGreedy", "CbExploreAdfSoftmax", "CbExploreAdfSquareCb", "Debug",
      "ElementwiseInteraction"].map String.toList := by
  cases n with
  | zero => cases h
  | succ n =>
    unfold parseRed at h
    by_contra hn
    simp only [List.map_cons, List.map_nil, List.mem_cons, List.not_mem_nil, or_false, not_or] at hn
    obtain ⟨h1, h2, h3, h4, h5, h6, h7, h8⟩ := hn
    rw [if_neg h1, if_neg h2, if_neg h3, if_neg h4, if_neg h5, if_neg h6, if_neg h7, if_neg h8] at h
    cases h

theorem child_dflt (n : Nat) (j : Doc F) (k t : String) (d : Doc F) (hd : d ≠ .null) (h : j.get? k = some (redObj t d)) :
    childOf n j k t d = childOf n (.obj []) k t d := by
  unfold childOf fieldOr
  rw [h]
  simp only [readRedDoc_redObj t d hd]
  rfl

theorem parse_none (n : Nat) (t : List Char) : parseRed n (⟨t, none⟩ : RedDoc F) = parseRed n ⟨t, some (.obj [])⟩ := by
  cases n with
  | zero => rfl
  | succ n =>
    by_cases h1 : t = "Coin".toList
    · subst h1
      rw [parse_coin, parse_coin]
      simp only [Option.getD_none, Option.getD_some]
      rw [decCoin_dflt]
    by_cases h2 : t = "Binary".toList
    · subst h2
      rw [parse_binary, parse_binary]
      simp only [Option.getD_none, Option.getD_some]
      rw [child_dflt n dfltBinary "regressor" "Coin" dfltCoin (by simp [dfltCoin, encCoinConfig]) rfl]
      rfl
    by_cases h3 : t = "CbAdf".toList
    · subst h3
      rw [parse_cbAdf, parse_cbAdf]
      simp only [Option.getD_none, Option.getD_some]
      rw [child_dflt n dfltCbAdf "regressor" "Coin" dfltCoin (by simp [dfltCoin, encCoinConfig]) rfl]
      rfl
    by_cases h4 : t = "CbExploreAdfGreedy".toList
    · subst h4
      rw [parse_greedy, parse_greedy]
      simp only [Option.getD_none, Option.getD_some]
      rw [child_dflt n dfltGreedy "cbAdf" "CbAdf" dfltCbAdf (by simp [dfltCbAdf]) rfl]
      rfl
    by_cases h5 : t = "CbExploreAdfSoftmax".toList
    · subst h5
      rw [parse_softmax, parse_softmax]
      simp only [Option.getD_none, Option.getD_some]
      rw [child_dflt n dfltSoftmax "cbAdf" "CbAdf" dfltCbAdf (by simp [dfltCbAdf]) rfl]
      rfl
    by_cases h6 : t = "CbExploreAdfSquareCb".toList
    · subst h6
      rw [parse_squareCb, parse_squareCb]
      simp only [Option.getD_none, Option.getD_some]
      rw [child_dflt n dfltSquareCb "cbAdf" "CbAdf" dfltCbAdf (by simp [dfltCbAdf]) rfl]
      rfl
    by_cases h7 : t = "Debug".toList
    · subst h7
      rw [parse_debug, parse_debug]
      simp only [Option.getD_none, Option.getD_some]
      rw [child_dflt n dfltDebug "next" "Unknown" (.obj []) (by simp) rfl]
      rfl
    by_cases h8 : t = "ElementwiseInteraction".toList
    · subst h8
      rw [parse_elementwise, parse_elementwise]
      simp only [Option.getD_none, Option.getD_some]
      rw [child_dflt n dfltElementwise "regressor" "Coin" dfltCoin (by simp [dfltCoin, encCoinConfig]) rfl]
      rfl
    unfold parseRed
    simp only [h1, h2, h3, h4, h5, h6, h7, h8, if_false]

theorem parse_dfltCoin (n : Nat) : parseRed n (⟨"Coin".toList, some dfltCoin⟩ : RedDoc F) = parseRed n ⟨"Coin".toList, none⟩ := by
  cases n <;> rfl
theorem parse_dfltCbAdf (n : Nat) : parseRed n (⟨"CbAdf".toList, some dfltCbAdf⟩ : RedDoc F) = parseRed n ⟨"CbAdf".toList, none⟩ := by
  cases n <;> rfl

theorem read_minimal (t : String) : readRedDoc (.obj [("typename".toList, .str t.toList)] : Doc F) = some ⟨t.toList, none⟩ := rfl

theorem childOf_iff (n : Nat) {l : List (List Char × Doc F)} {k t : String} {d : Doc F} {c : RedConfig F}
    (hd : parseRed n ⟨t.toList, some d⟩ = parseRed n ⟨t.toList, none⟩) :
    childOf n (.obj l) k t d = .ok c ↔ ∃ v r, Below (.obj l) k t v ∧ readRedDoc v = some r ∧ parseRed n r = .ok c := by
  unfold childOf
  rw [obind]
  unfold fieldOr
  cases hk : (Json.obj l).get? k with
  | none =>
    simp only [Option.some.injEq]
    constructor
    · rintro ⟨r, rfl, h⟩
      rw [hd] at h
      exact ⟨_, _, .inr ⟨lacks_obj.2 hk, rfl⟩, read_minimal t, h⟩
    · rintro ⟨v, r, hb, hr, h⟩
      rcases hb with hb | ⟨_, rfl⟩
      · rw [has_iff, hk] at hb; simp at hb
      · rw [read_minimal] at hr
        cases hr
        exact ⟨_, rfl, hd.trans h⟩
  | some w =>
    simp only
    constructor
    · rintro ⟨r, hr, h⟩
      exact ⟨w, r, .inl (has_iff.2 hk), hr, h⟩
    · rintro ⟨v, r, hb, hr, h⟩
      rcases hb with hb | ⟨hb, _⟩
      · rw [has_iff, hk] at hb
        cases hb
        exact ⟨r, hr, h⟩
      · exact (hb.not_has (has_iff.2 hk)).elim

theorem childOf_next (n : Nat) {l : List (List Char × Doc F)} {c : RedConfig F} :
    childOf n (.obj l) "next" "Unknown" (.obj []) = .ok c ↔ ∃ v r, Has (.obj l) "next" v ∧ readRedDoc v = some r ∧ parseRed n r = .ok c := by
  unfold childOf
  rw [obind]
  unfold fieldOr
  cases hk : (Json.obj l).get? "next" with
  | none =>
    simp only [Option.some.injEq]
    constructor
    · rintro ⟨r, rfl, h⟩
      have := parse_other n h
      simp at this
    · rintro ⟨v, r, hb, hr, h⟩
      rw [has_iff, hk] at hb; simp at hb
  | some w =>
    simp only
    constructor
    · rintro ⟨r, hr, h⟩
      exact ⟨w, r, has_iff.2 hk, hr, h⟩
    · rintro ⟨v, r, hb, hr, h⟩
      rw [has_iff, hk] at hb
      cases hb
      exact ⟨r, hr, h⟩

/-- What is parsed is what the document means. -/
theorem parse_means (n : Nat) : ∀ (j : Doc F) (r : RedDoc F) (c : RedConfig F), readRedDoc j = some r → parseRed n r = .ok c → Means j c := by
  induction n with
  | zero => intro j r c _ h; cases h
  | succ n ih =>
    intro j r c hr h
    have ht := parse_other _ h
    obtain ⟨t, s, rfl, hn, hs⟩ := describes_config hr
    have hp : parseRed (n + 1) ⟨r.typename, some s⟩ = .ok c := by
      obtain ⟨t, o⟩ := r
      rcases hs with ⟨h1, _, _⟩ | ⟨h1, _, rfl⟩
      · simp only at h1; subst h1; exact h
      · simp only at h1; subst h1; rw [← parse_none]; exact h
    have hD : ∀ t : String, r.typename = t.toList → Describes j t s := by
      intro t ht
      refine ⟨ht ▸ hn, ?_⟩
      rcases hs with ⟨_, h1, h2⟩ | ⟨_, h1, h2⟩
      · exact .inl ⟨h1, h2⟩
      · exact .inr ⟨h1, h2⟩
    clear hs h hr hn
    simp only [List.map_cons, List.map_nil, List.mem_cons, List.not_mem_nil, or_false] at ht
    rcases ht with ht | ht | ht | ht | ht | ht | ht | ht <;> have hD := hD _ ht <;> rw [ht] at hp
    · rw [parse_coin, obind] at hp
      obtain ⟨c', hc, h⟩ := hp
      cases h
      exact .coin hD ((decCoinConfig_iff _ _).1 hc)
    · simp only [parse_binary, Option.getD_some] at hp
      rw [obind] at hp
      obtain ⟨_, h0, hp⟩ := hp
      have h0 := denyUnknown_iff.1 h0
      obtain ⟨l, rfl⟩ := onlyKeys_obj h0
      rw [ebind] at hp
      obtain ⟨c', hc, h⟩ := hp
      cases h
      obtain ⟨v, r, hb, hv, hc⟩ := (childOf_iff n (parse_dfltCoin n)).1 hc
      exact .binary hD h0 hb (ih _ _ _ hv hc)
    · simp only [parse_cbAdf, Option.getD_some] at hp
      rw [obind] at hp
      obtain ⟨_, h0, hp⟩ := hp
      have h0 := denyUnknown_iff.1 h0
      obtain ⟨l, rfl⟩ := onlyKeys_obj h0
      rw [obind] at hp
      obtain ⟨ty, hty, hp⟩ := hp
      rw [ebind] at hp
      obtain ⟨c', hc, h⟩ := hp
      cases h
      obtain ⟨v, r, hb, hv, hc⟩ := (childOf_iff n (parse_dfltCoin n)).1 hc
      exact .cbAdf hD h0 ((fieldOr_iff decCBType_iff _).1 hty) hb (ih _ _ _ hv hc)
    · simp only [parse_greedy, Option.getD_some] at hp
      rw [obind] at hp
      obtain ⟨_, h0, hp⟩ := hp
      have h0 := denyUnknown_iff.1 h0
      obtain ⟨l, rfl⟩ := onlyKeys_obj h0
      rw [obind] at hp
      obtain ⟨e, he, hp⟩ := hp
      rw [ebind] at hp
      obtain ⟨c', hc, h⟩ := hp
      cases h
      obtain ⟨v, r, hb, hv, hc⟩ := (childOf_iff n (parse_dfltCbAdf n)).1 hc
      exact .greedy hD h0 ((fieldOr_iff decF_iff _).1 he) hb (ih _ _ _ hv hc)
    · simp only [parse_softmax, Option.getD_some] at hp
      rw [obind] at hp
      obtain ⟨_, h0, hp⟩ := hp
      have h0 := denyUnknown_iff.1 h0
      obtain ⟨l, rfl⟩ := onlyKeys_obj h0
      rw [obind] at hp
      obtain ⟨e, he, hp⟩ := hp
      rw [obind] at hp
      obtain ⟨la, hla, hp⟩ := hp
      rw [ebind] at hp
      obtain ⟨c', hc, h⟩ := hp
      cases h
      obtain ⟨v, r, hb, hv, hc⟩ := (childOf_iff n (parse_dfltCbAdf n)).1 hc
      exact .softmax hD h0 ((fieldOr_iff decF_iff _).1 he) ((fieldOr_iff decF_iff _).1 hla) hb (ih _ _ _ hv hc)
    · simp only [parse_squareCb, Option.getD_some] at hp
      rw [obind] at hp
      obtain ⟨_, h0, hp⟩ := hp
      have h0 := denyUnknown_iff.1 h0
      obtain ⟨l, rfl⟩ := onlyKeys_obj h0
      rw [obind] at hp
      obtain ⟨e, he, hp⟩ := hp
      rw [obind] at hp
      obtain ⟨gs, hgs, hp⟩ := hp
      rw [obind] at hp
      obtain ⟨ge, hge, hp⟩ := hp
      rw [ebind] at hp
      obtain ⟨c', hc, h⟩ := hp
      cases h
      obtain ⟨v, r, hb, hv, hc⟩ := (childOf_iff n (parse_dfltCbAdf n)).1 hc
      exact .squareCb hD h0 ((fieldOr_iff decF_iff _).1 he) ((fieldOr_iff decF_iff _).1 hgs) ((fieldOr_iff decF_iff _).1 hge) hb
        (ih _ _ _ hv hc)
    · simp only [parse_debug, Option.getD_some] at hp
      rw [obind] at hp
      obtain ⟨_, h0, hp⟩ := hp
      have h0 := denyUnknown_iff.1 h0
      obtain ⟨l, rfl⟩ := onlyKeys_obj h0
      rw [obind] at hp
      obtain ⟨a1, h1, hp⟩ := hp
      rw [obind] at hp
      obtain ⟨a2, h2, hp⟩ := hp
      rw [obind] at hp
      obtain ⟨a3, h3, hp⟩ := hp
      rw [obind] at hp
      obtain ⟨a4, h4, hp⟩ := hp
      rw [obind] at hp
      obtain ⟨a5, h5, hp⟩ := hp
      rw [ebind] at hp
      obtain ⟨c', hc, h⟩ := hp
      cases h
      obtain ⟨v, r, hb, hv, hc⟩ := (childOf_next n).1 hc
      exact .debug hD h0 ((fieldOr_iff decS_iff _).1 h1) ((fieldOr_iff decB_iff _).1 h2) ((fieldOr_iff decB_iff _).1 h3)
        ((fieldOr_iff decB_iff _).1 h4) ((fieldOr_iff (decU_iff 64) _).1 h5) hb (ih _ _ _ hv hc)
    · simp only [parse_elementwise, Option.getD_some] at hp
      rw [obind] at hp
      obtain ⟨_, h0, hp⟩ := hp
      have h0 := denyUnknown_iff.1 h0
      obtain ⟨l, rfl⟩ := onlyKeys_obj h0
      rw [obind] at hp
      obtain ⟨one, h1, hp⟩ := hp
      rw [obind] at hp
      obtain ⟨two, h2, hp⟩ := hp
      rw [obind] at hp
      obtain ⟨keep, h3, hp⟩ := hp
      rw [ebind] at hp
      obtain ⟨c', hc, h⟩ := hp
      cases h
      obtain ⟨v, r, hb, hv, hc⟩ := (childOf_iff n (parse_dfltCoin n)).1 hc
      exact .elementwise hD h0 ((fieldOr_iff decNsDef_iff _).1 h1) ((fieldOr_iff decNsDef_iff _).1 h2) ((fieldOr_iff decB_iff _).1 h3) hb
        (ih _ _ _ hv hc)

/-- Number of layers. -/
def layers : RedConfig F → Nat
  | .coin _ => 1
  | .binary c => layers c + 1
  | .cbAdf _ c => layers c + 1
  | .greedy _ c => layers c + 1
  | .softmax _ _ c => layers c + 1
  | .squareCb _ _ _ c => layers c + 1
  | .debug c => layers c + 1
  | .elementwise _ _ _ c => layers c + 1
  | .unknown _ => 1

theorem describes_read {j : Doc F} {t : String} {s : Doc F} (h : Describes j t s) (n : Nat) {r : RedDoc F} (hr : readRedDoc j = some r) :
    parseRed n r = parseRed n ⟨t.toList, some s⟩ := by
  obtain ⟨c, hc, h⟩ := read_of_describes h
  rw [hc] at hr
  cases hr
  rcases h with ⟨rfl, _⟩ | ⟨rfl, rfl⟩
  · rfl
  · exact parse_none n _

theorem means_read {j : Doc F} {c : RedConfig F} (h : Means j c) : ∃ r, readRedDoc j = some r := by
  have key : ∀ {t s}, Describes j t s → ∃ r, readRedDoc j = some r := fun h => by
    obtain ⟨c, h, _⟩ := read_of_describes h
    exact ⟨_, h⟩
  cases h with
  | coin h _ => exact key h
  | binary h _ _ _ => exact key h
  | cbAdf h _ _ _ _ => exact key h
  | greedy h _ _ _ _ => exact key h
  | softmax h _ _ _ _ _ => exact key h
  | squareCb h _ _ _ _ _ _ => exact key h
  | debug h _ _ _ _ _ _ _ _ => exact key h
  | elementwise h _ _ _ _ _ _ => exact key h

/-- What the document means is parsed, given enough fuel. -/
theorem means_parse {j : Doc F} {c : RedConfig F} (h : Means j c) : ∀ (n : Nat) (r : RedDoc F), readRedDoc j = some r → layers c ≤ n →
    parseRed n r = .ok c := by
  induction h with
  | coin hD hc =>
    intro n r hr hn
    obtain ⟨n, rfl⟩ : ∃ m, n = m + 1 := ⟨n - 1, by simp only [layers] at hn; omega⟩
    rw [describes_read hD _ hr, parse_coin, Option.getD_some, (decCoinConfig_iff _ _).2 hc]
    rfl
  | binary hD h0 hb hm ih =>
    intro n r hr hn
    obtain ⟨n, rfl⟩ : ∃ m, n = m + 1 := ⟨n - 1, by simp only [layers] at hn; omega⟩
    obtain ⟨r', hr'⟩ := means_read hm
    have hp := ih n r' hr' (by simp only [layers] at hn; omega)
    obtain ⟨l, rfl⟩ := onlyKeys_obj h0
    simp only [describes_read hD _ hr, parse_binary, Option.getD_some, denyUnknown_iff.2 h0]
    refine obind.2 ⟨_, rfl, ?_⟩
    exact ebind.2 ⟨_, (childOf_iff n (parse_dfltCoin n)).2 ⟨_, r', hb, hr', hp⟩, rfl⟩
  | cbAdf hD h0 h1 hb hm ih =>
    intro n r hr hn
    obtain ⟨n, rfl⟩ : ∃ m, n = m + 1 := ⟨n - 1, by simp only [layers] at hn; omega⟩
    obtain ⟨r', hr'⟩ := means_read hm
    have hp := ih n r' hr' (by simp only [layers] at hn; omega)
    obtain ⟨l, rfl⟩ := onlyKeys_obj h0
    simp only [describes_read hD _ hr, parse_cbAdf, Option.getD_some, denyUnknown_iff.2 h0]
    refine obind.2 ⟨_, rfl, ?_⟩
    refine obind.2 ⟨_, (fieldOr_iff decCBType_iff _).2 h1, ?_⟩
    exact ebind.2 ⟨_, (childOf_iff n (parse_dfltCoin n)).2 ⟨_, r', hb, hr', hp⟩, rfl⟩
  | greedy hD h0 h1 hb hm ih =>
    intro n r hr hn
    obtain ⟨n, rfl⟩ : ∃ m, n = m + 1 := ⟨n - 1, by simp only [layers] at hn; omega⟩
    obtain ⟨r', hr'⟩ := means_read hm
    have hp := ih n r' hr' (by simp only [layers] at hn; omega)
    obtain ⟨l, rfl⟩ := onlyKeys_obj h0
    simp only [describes_read hD _ hr, parse_greedy, Option.getD_some, denyUnknown_iff.2 h0]
    refine obind.2 ⟨_, rfl, ?_⟩
    refine obind.2 ⟨_, (fieldOr_iff decF_iff _).2 h1, ?_⟩
    exact ebind.2 ⟨_, (childOf_iff n (parse_dfltCbAdf n)).2 ⟨_, r', hb, hr', hp⟩, rfl⟩
  | softmax hD h0 h1 h2 hb hm ih =>
    intro n r hr hn
    obtain ⟨n, rfl⟩ : ∃ m, n = m + 1 := ⟨n - 1, by simp only [layers] at hn; omega⟩
    obtain ⟨r', hr'⟩ := means_read hm
    have hp := ih n r' hr' (by simp only [layers] at hn; omega)
    obtain ⟨l, rfl⟩ := onlyKeys_obj h0
    simp only [describes_read hD _ hr, parse_softmax, Option.getD_some, denyUnknown_iff.2 h0]
    refine obind.2 ⟨_, rfl, ?_⟩
    refine obind.2 ⟨_, (fieldOr_iff decF_iff _).2 h1, ?_⟩
    refine obind.2 ⟨_, (fieldOr_iff decF_iff _).2 h2, ?_⟩
    exact ebind.2 ⟨_, (childOf_iff n (parse_dfltCbAdf n)).2 ⟨_, r', hb, hr', hp⟩, rfl⟩
  | squareCb hD h0 h1 h2 h3 hb hm ih =>
    intro n r hr hn
    obtain ⟨n, rfl⟩ : ∃ m, n = m + 1 := ⟨n - 1, by simp only [layers] at hn; omega⟩
    obtain ⟨r', hr'⟩ := means_read hm
    have hp := ih n r' hr' (by simp only [layers] at hn; omega)
    obtain ⟨l, rfl⟩ := onlyKeys_obj h0
    simp only [describes_read hD _ hr, parse_squareCb, Option.getD_some, denyUnknown_iff.2 h0]
    refine obind.2 ⟨_, rfl, ?_⟩
    refine obind.2 ⟨_, (fieldOr_iff decF_iff _).2 h1, ?_⟩
    refine obind.2 ⟨_, (fieldOr_iff decF_iff _).2 h2, ?_⟩
    refine obind.2 ⟨_, (fieldOr_iff decF_iff _).2 h3, ?_⟩
    exact ebind.2 ⟨_, (childOf_iff n (parse_dfltCbAdf n)).2 ⟨_, r', hb, hr', hp⟩, rfl⟩
  | elementwise hD h0 h1 h2 h3 hb hm ih =>
    intro n r hr hn
    obtain ⟨n, rfl⟩ : ∃ m, n = m + 1 := ⟨n - 1, by simp only [layers] at hn; omega⟩
    obtain ⟨r', hr'⟩ := means_read hm
    have hp := ih n r' hr' (by simp only [layers] at hn; omega)
    obtain ⟨l, rfl⟩ := onlyKeys_obj h0
    simp only [describes_read hD _ hr, parse_elementwise, Option.getD_some, denyUnknown_iff.2 h0]
    refine obind.2 ⟨_, rfl, ?_⟩
    refine obind.2 ⟨_, (fieldOr_iff decNsDef_iff _).2 h1, ?_⟩
    refine obind.2 ⟨_, (fieldOr_iff decNsDef_iff _).2 h2, ?_⟩
    refine obind.2 ⟨_, (fieldOr_iff decB_iff _).2 h3, ?_⟩
    exact ebind.2 ⟨_, (childOf_iff n (parse_dfltCoin n)).2 ⟨_, r', hb, hr', hp⟩, rfl⟩
  | debug hD h0 h1 h2 h3 h4 h5 hb hm ih =>
    intro n r hr hn
    obtain ⟨n, rfl⟩ : ∃ m, n = m + 1 := ⟨n - 1, by simp only [layers] at hn; omega⟩
    obtain ⟨r', hr'⟩ := means_read hm
    have hp := ih n r' hr' (by simp only [layers] at hn; omega)
    obtain ⟨l, rfl⟩ := onlyKeys_obj h0
    simp only [describes_read hD _ hr, parse_debug, Option.getD_some, denyUnknown_iff.2 h0]
    refine obind.2 ⟨_, rfl, ?_⟩
    refine obind.2 ⟨_, (fieldOr_iff decS_iff _).2 h1, ?_⟩
    refine obind.2 ⟨_, (fieldOr_iff decB_iff _).2 h2, ?_⟩
    refine obind.2 ⟨_, (fieldOr_iff decB_iff _).2 h3, ?_⟩
    refine obind.2 ⟨_, (fieldOr_iff decB_iff _).2 h4, ?_⟩
    refine obind.2 ⟨_, (fieldOr_iff (decU_iff 64) _).2 h5, ?_⟩
    exact ebind.2 ⟨_, (childOf_next n).2 ⟨_, r', hb, hr', hp⟩, rfl⟩

theorem minimal_has {t t' : String} (h : Has (.obj [("typename".toList, .str t.toList)] : Doc F) "typename" (.str t'.toList)) : t = t' := by
  rw [has_iff] at h
  have h' : some (Json.str t.toList : Doc F) = some (.str t'.toList) := h
  simp only [Option.some.injEq, Json.str.injEq] at h'
  exact String.toList_inj.1 h'

theorem minimal_settings {t t' : String} {s : Doc F} (h : Describes (.obj [("typename".toList, .str t.toList)] : Doc F) t' s) :
    t = t' ∧ s = .obj [] := by
  obtain ⟨h1, h2⟩ := h
  refine ⟨minimal_has h1, ?_⟩
  rcases h2 with ⟨h2, _⟩ | ⟨_, h2⟩
  · rw [has_iff] at h2
    have : (none : Option (Doc F)) = some s := h2
    simp at this
  · exact h2

theorem below_empty {k t : String} {v : Doc F} (h : Below (.obj []) k t v) : v = .obj [("typename".toList, .str t.toList)] := by
  rcases h with h | ⟨_, h⟩
  · rw [has_iff] at h
    have : (none : Option (Doc F)) = some v := h
    simp at this
  · exact h

theorem layers_coin {j : Doc F} {c : RedConfig F} (h : Means j c) (hj : j = .obj [("typename".toList, .str "Coin".toList)]) : layers c = 1 := by
  subst hj
  cases h with
  | coin => rfl
  | binary h _ _ _ => have h := (minimal_settings h).1; simp at h
  | cbAdf h _ _ _ _ => have h := (minimal_settings h).1; simp at h
  | greedy h _ _ _ _ => have h := (minimal_settings h).1; simp at h
  | softmax h _ _ _ _ _ => have h := (minimal_settings h).1; simp at h
  | squareCb h _ _ _ _ _ _ => have h := (minimal_settings h).1; simp at h
  | debug h _ _ _ _ _ _ _ _ => have h := (minimal_settings h).1; simp at h
  | elementwise h _ _ _ _ _ _ => have h := (minimal_settings h).1; simp at h

theorem layers_cbAdf {j : Doc F} {c : RedConfig F} (h : Means j c) (hj : j = .obj [("typename".toList, .str "CbAdf".toList)]) : layers c = 2 := by
  subst hj
  cases h with
  | cbAdf hD _ _ hb hm =>
    have := (minimal_settings hD).2
    subst this
    rw [layers, layers_coin hm (below_empty hb)]
  | coin h _ => have h := (minimal_settings h).1; simp at h
  | binary h _ _ _ => have h := (minimal_settings h).1; simp at h
  | greedy h _ _ _ _ => have h := (minimal_settings h).1; simp at h
  | softmax h _ _ _ _ _ => have h := (minimal_settings h).1; simp at h
  | squareCb h _ _ _ _ _ _ => have h := (minimal_settings h).1; simp at h
  | debug h _ _ _ _ _ _ _ _ => have h := (minimal_settings h).1; simp at h
  | elementwise h _ _ _ _ _ _ => have h := (minimal_settings h).1; simp at h

theorem has_depth {j : Doc F} {k : String} {v : Doc F} (h : Has j k v) : depth v < depth j := by
  obtain ⟨l, rfl, h⟩ := h
  obtain ⟨l₁, l₂, e, _⟩ := List.lookup_eq_some_iff.1 h
  exact depth_obj (k := k.toList) (by rw [e]; simp)

theorem depth_pos (j : Doc F) : 0 < depth j := by
  cases j <;> simp [depth]

/-- Depth of the settings in a reduction document. -/
def settingsDepth (r : RedDoc F) : Nat := (r.config.map depth).getD 0

theorem settingsDepth_lt {v : Doc F} {r : RedDoc F} (h : readRedDoc v = some r) : settingsDepth r < depth v := by
  obtain ⟨t, s, _, _, hs⟩ := describes_config h
  unfold settingsDepth
  rcases hs with ⟨h1, h2, _⟩ | ⟨h1, _, _⟩
  · rw [h1]; exact has_depth h2
  · rw [h1]; exact depth_pos v

theorem layers_below {s v : Doc F} {k t : String} {c : RedConfig F} (ht : t = "Coin" ∨ t = "CbAdf") (hb : Below s k t v) (hm : Means v c)
    (ih : ∀ r, readRedDoc v = some r → layers c ≤ settingsDepth r + 4) : layers c ≤ depth s + 2 := by
  rcases hb with hb | ⟨_, hb⟩
  · obtain ⟨r, hr⟩ := means_read hm
    have := ih r hr
    have := settingsDepth_lt hr
    have := has_depth hb
    omega
  · have := depth_pos s
    rcases ht with rfl | rfl
    · rw [layers_coin hm hb]; omega
    · rw [layers_cbAdf hm hb]; omega

theorem settings_bound {j s : Doc F} {t : String} (h : Describes j t s) {r : RedDoc F} (hr : readRedDoc j = some r) :
    depth s ≤ settingsDepth r + 1 := by
  obtain ⟨c, hc, h⟩ := read_of_describes h
  rw [hc] at hr
  cases hr
  unfold settingsDepth
  rcases h with ⟨rfl, _⟩ | ⟨rfl, rfl⟩
  · simp
  · simp [depth, depthEntries]

theorem means_layers {j : Doc F} {c : RedConfig F} (h : Means j c) : ∀ r, readRedDoc j = some r → layers c ≤ settingsDepth r + 4 := by
  induction h with
  | coin => intro r _; simp only [layers]; omega
  | binary hD _ hb hm ih =>
    intro r hr
    have h1 := layers_below (.inl rfl) hb hm ih
    have h2 := settings_bound hD hr
    simp only [layers]
    omega
  | cbAdf hD _ _ hb hm ih =>
    intro r hr
    have h1 := layers_below (.inl rfl) hb hm ih
    have h2 := settings_bound hD hr
    simp only [layers]
    omega
  | greedy hD _ _ hb hm ih =>
    intro r hr
    have h1 := layers_below (.inr rfl) hb hm ih
    have h2 := settings_bound hD hr
    simp only [layers]
    omega
  | softmax hD _ _ _ hb hm ih =>
    intro r hr
    have h1 := layers_below (.inr rfl) hb hm ih
    have h2 := settings_bound hD hr
    simp only [layers]
    omega
  | squareCb hD _ _ _ _ hb hm ih =>
    intro r hr
    have h1 := layers_below (.inr rfl) hb hm ih
    have h2 := settings_bound hD hr
    simp only [layers]
    omega
  | debug hD _ _ _ _ _ _ hb hm ih =>
    intro r hr
    obtain ⟨r', hr'⟩ := means_read hm
    have h1 := ih r' hr'
    have h2 := settingsDepth_lt hr'
    have h3 := has_depth hb
    have h4 := settings_bound hD hr
    simp only [layers]
    omega
  | elementwise hD _ _ _ _ hb hm ih =>
    intro r hr
    have h1 := layers_below (.inl rfl) hb hm ih
    have h2 := settings_bound hD hr
    simp only [layers]
    omega

/-- Reading an entry reduction yields what its document means. -/
theorem readEntry_iff {j : Doc F} {c : RedConfig F} : (∃ r, readRedDoc j = some r ∧ readEntry r = .ok c) ↔ Means j c := by
  constructor
  · rintro ⟨r, hr, h⟩; exact parse_means _ j r c hr h
  · intro h
    obtain ⟨r, hr⟩ := means_read h
    exact ⟨r, hr, means_parse h _ r hr (means_layers h r hr)⟩

end Cfg
end Rml
