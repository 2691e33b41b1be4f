import Verif.Lemmas.SerdeSim

/-! Helper lemmas: where the weight tables of a saved model are. -/

set_option linter.unusedSectionVars false

namespace Rml
namespace Serde
variable {F : Type} [Flt F]

section tables
variable {P : Doc F → Prop}

theorem ta_obj {l : List (List Char × Doc F)} (h : isTable l = false) (he : TablesAreE P l) : TablesAre P (.obj l) := by
  rw [tablesAre_obj, if_neg (by simp [h])]; exact he

theorem ta_leaf_num (n : JNum F) : TablesAre P (.num n) := by simp [TablesAre]
theorem ta_leaf_str (s : List Char) : TablesAre P (.str s) := by simp [TablesAre]
theorem ta_leaf_bool (b : Bool) : TablesAre P (.bool b) := by simp [TablesAre]
theorem ta_encN (n : Nat) : TablesAre P (encN n) := by simp [TablesAre, encN]
theorem ta_encF (fin : F → Bool) (x : F) : TablesAre P (encF fin x) := by
  unfold encF
  split <;> simp [TablesAre]

theorem ta_encL {α : Type} {e : α → Doc F} (h : ∀ x, TablesAre P (e x)) (l : List α) : TablesAre P (encL e l) := by
  unfold encL
  rw [TablesAre]
  induction l with
  | nil => simp [TablesAreL]
  | cons x l ih => rw [List.map_cons, TablesAreL]; exact ⟨h x, ih⟩

theorem ta_e1 {k : List Char} {v : Doc F} {l : List (List Char × Doc F)} (h : TablesAre P v) (hl : TablesAreE P l) :
    TablesAreE P ((k, v) :: l) := by rw [TablesAreE]; exact ⟨h, hl⟩
theorem ta_e0 : TablesAreE P ([] : List (List Char × Doc F)) := by simp [TablesAreE]
theorem ta_l1 {v : Doc F} {l : List (Doc F)} (h : TablesAre P v) (hl : TablesAreL P l) : TablesAreL P (v :: l) := by
  rw [TablesAreL]; exact ⟨h, hl⟩
theorem ta_l0 : TablesAreL P ([] : List (Doc F)) := by simp [TablesAreL]

theorem ta_encNs (n : Namespace) : TablesAre P (encNs n) := by
  cases n
  · exact ta_obj rfl (ta_e1 (ta_encN _) ta_e0)
  · exact ta_obj rfl (ta_e1 (ta_encN _) ta_e0)
  · exact ta_leaf_str _

theorem ta_encNs2 (p : Namespace × Namespace) : TablesAre P (encNs2 p) := by
  unfold encNs2
  rw [TablesAre]
  exact ta_l1 (ta_encNs _) (ta_l1 (ta_encNs _) ta_l0)

theorem ta_encNs3 (p : Namespace × Namespace × Namespace) : TablesAre P (encNs3 p) := by
  unfold encNs3
  rw [TablesAre]
  exact ta_l1 (ta_encNs _) (ta_l1 (ta_encNs _) (ta_l1 (ta_encNs _) ta_l0))

theorem ta_encNsDef (n : NamespaceDef) : TablesAre P (encNsDef n) := by
  cases n
  · exact ta_obj rfl (ta_e1 (ta_leaf_str _) ta_e0)
  · exact ta_leaf_str _

theorem ta_encGlobal (g : GlobalConfig) : TablesAre P (encGlobal g) :=
  ta_obj rfl (ta_e1 (ta_leaf_bool _) (ta_e1 (ta_encN _) (ta_e1 (ta_encL (ta_encL ta_encNsDef) _) (ta_e1 (ta_encN _) ta_e0))))

theorem ta_encLoss (fin : F → Bool) (l : LossFunction F) : TablesAre P (encLoss fin l) := by
  cases l
  · exact ta_obj rfl (ta_e1 (ta_obj rfl ta_e0) ta_e0)
  · exact ta_obj rfl (ta_e1 (ta_obj rfl (ta_e1 (ta_encF _ _) (ta_e1 (ta_encF _ _) ta_e0))) ta_e0)

theorem ta_encLink (l : LinkFunction) : TablesAre P (encLink l : Doc F) := by cases l <;> exact ta_leaf_str _

theorem ta_encCoinConfig (fin : F → Bool) (c : CoinConfig F) : TablesAre P (encCoinConfig fin c) :=
  ta_obj rfl (ta_e1 (ta_encF _ _) (ta_e1 (ta_encF _ _) (ta_e1 (ta_encF _ _) (ta_e1 (ta_encF _ _) (ta_e1 (ta_encLink _)
    (ta_e1 (ta_encLoss _ _) ta_e0))))))

theorem ta_encMState (fin : F → Bool) (s : CoinModelState F) : TablesAre P (encMState fin s) :=
  ta_obj rfl (ta_e1 (ta_encF _ _) (ta_e1 (ta_encF _ _) ta_e0))

theorem ta_encCoin {fin : F → Bool} {c : Coin F} (h : P (encW fin c.weights)) : TablesAre P (encCoin fin c) := by
  refine ta_obj rfl (ta_e1 (ta_encF _ _) (ta_e1 (ta_encCoinConfig _ _) (ta_e1 (ta_leaf_bool _) (ta_e1 (ta_encLoss _ _) (ta_e1 (ta_encF _ _)
    (ta_e1 (ta_encF _ _) (ta_e1 (ta_encL (ta_encMState _) _) (ta_e1 (ta_encN _) (ta_e1 (ta_encL ta_encNs2 _) (ta_e1 (ta_encL ta_encNs3 _)
    (ta_e1 (ta_leaf_str _) (ta_e1 ?_ ta_e0))))))))))))
  unfold encW at h ⊢
  rw [tablesAre_obj]
  split
  · exact h
  · rename_i hn
    exact absurd rfl hn

theorem ta_encTypes (t : TypeDesc) : TablesAre P (encTypes t) := by
  have h1 : ∀ t : LabelType, TablesAre P (encLabelType t) := by intro t; cases t <;> exact ta_leaf_str _
  have h2 : ∀ t : FeaturesType, TablesAre P (encFeaturesType t) := by intro t; cases t <;> exact ta_leaf_str _
  have h3 : ∀ t : PredictionType, TablesAre P (encPredictionType t) := by intro t; cases t <;> exact ta_leaf_str _
  have ho : ∀ {α : Type} (e : α → Doc F), (∀ x, TablesAre P (e x)) → ∀ o, TablesAre P (encO e o) := by
    intro α e he o
    cases o
    · simp [encO, TablesAre]
    · exact he _
  exact ta_obj rfl (ta_e1 (h2 _) (ta_e1 (h1 _) (ta_e1 (ho _ h3 _) (ta_e1 (ho _ h2 _) (ta_e1 (ho _ h1 _) (ta_e1 (h3 _) ta_e0))))))

theorem ta_encWrap (m : Meta) {d : Doc F} (h : TablesAre P d) : TablesAre P (encWrap m d) :=
  ta_obj rfl (ta_e1 (ta_encN _) (ta_e1 h (ta_e1 (ta_encTypes _) (ta_e1 (ta_leaf_str _) ta_e0))))

theorem ta_encRed {fin : F → Bool} (r : Red F) : ∀ s : r.State, P (encW fin (r.coinOf s).weights) → TablesAre P (encRed fin r s) := by
  induction r with
  | coin m => intro s h; exact ta_encWrap m (ta_encCoin h)
  | binary m r ih => intro s h; exact ta_encWrap m (ta_obj rfl (ta_e1 (ih s h) (ta_e1 (ta_leaf_str _) ta_e0)))
  | cbAdf m ty r ih =>
    intro s h
    refine ta_encWrap m (ta_obj rfl (ta_e1 ?_ (ta_e1 (ta_obj rfl (ta_e1 (ta_encN _) (ta_e1 (ta_encN _) ta_e0)))
      (ta_e1 (ih s.2 h) (ta_e1 (ta_leaf_str _) ta_e0)))))
    cases ty <;> exact ta_leaf_str _
  | greedy m e r ih =>
    intro s h; exact ta_encWrap m (ta_obj rfl (ta_e1 (ih s h) (ta_e1 (ta_encF _ _) (ta_e1 (ta_leaf_str _) ta_e0))))
  | softmax m e la r ih =>
    intro s h
    exact ta_encWrap m (ta_obj rfl (ta_e1 (ih s.2 h) (ta_e1 (ta_obj rfl (ta_e1 (ta_encF _ _) (ta_e1 (ta_encF _ _) ta_e0)))
      (ta_e1 (ta_encN _) (ta_e1 (ta_leaf_str _) ta_e0)))))
  | squareCb m e a b r ih =>
    intro s h
    exact ta_encWrap m (ta_obj rfl (ta_e1 (ih s.2 h) (ta_e1 (ta_obj rfl (ta_e1 (ta_encF _ _) (ta_e1 (ta_encF _ _) (ta_e1 (ta_encF _ _) ta_e0))))
      (ta_e1 (ta_encN _) (ta_e1 (ta_leaf_str _) ta_e0)))))
  | debug m r ih => intro s h; exact ta_encWrap m (ta_obj rfl (ta_e1 (ih s h) (ta_e1 (ta_leaf_str _) ta_e0)))
  | elementwise m p k n r ih =>
    intro s h
    exact ta_encWrap m (ta_obj rfl (ta_e1 (ta_leaf_bool _) (ta_e1 (ta_encN _) (ta_e1 (ta_encNs2 _) (ta_e1 (ih s h)
      (ta_e1 (ta_leaf_str _) ta_e0))))))

theorem ta_encModel {fin : F → Bool} {m : Model F} (h : P (encW fin m.ws.coin.weights)) : TablesAre P (encModel fin m) :=
  ta_obj rfl (ta_e1 (ta_encRed _ _ h) (ta_e1 (ta_encGlobal _) ta_e0))

end tables

/-! ### Rewriting fails if a table cannot be read -/

theorem rewriteEntries_fails {g : Doc F → Option (Doc F)} {l : List (List Char × Doc F)} {k : List Char} {v : Doc F} (hm : (k, v) ∈ l)
    (h : rewrite g v = none) : rewriteEntries g l = none := by
  induction l with
  | nil => simp at hm
  | cons e l ih =>
    obtain ⟨k', v'⟩ := e
    rcases List.mem_cons.1 hm with he | hm
    · simp only [Prod.mk.injEq] at he
      obtain ⟨rfl, rfl⟩ := he
      simp [rewriteEntries, h]
    · simp [rewriteEntries, ih hm]

theorem rewrite_fails {g : Doc F → Option (Doc F)} {l : List (List Char × Doc F)} {k : List Char} {v : Doc F} (ht : isTable l = false)
    (hm : (k, v) ∈ l) (h : rewrite g v = none) : rewrite g (.obj l) = none := by
  rw [rewrite, if_neg (by simp [ht]), rewriteEntries_fails hm h]
  rfl

theorem rewrite_wrap_fails {g : Doc F → Option (Doc F)} (m : Meta) {d : Doc F} (h : rewrite g d = none) : rewrite g (encWrap m d) = none :=
  rewrite_fails (k := "reduction".toList) rfl (by simp) h

theorem rewrite_red_fails {fin : F → Bool} {g : Doc F → Option (Doc F)} (r : Red F) : ∀ s : r.State,
    g (encW fin (r.coinOf s).weights) = none → rewrite g (encRed fin r s) = none := by
  induction r with
  | coin m =>
    intro s h
    refine rewrite_wrap_fails m (rewrite_fails (k := "weights".toList) (v := encW fin (Coin.weights s)) rfl (by simp) ?_)
    have h' : g (encW fin (Coin.weights s)) = none := h
    unfold encW at h' ⊢
    rw [rewrite]
    split
    · exact h'
    · rename_i hn
      exact absurd rfl hn
  | binary m r ih => intro s h; exact rewrite_wrap_fails m (rewrite_fails (k := "regressor".toList) rfl (by simp) (ih s h))
  | cbAdf m ty r ih => intro s h; exact rewrite_wrap_fails m (rewrite_fails (k := "regressor".toList) rfl (by simp) (ih s.2 h))
  | greedy m e r ih => intro s h; exact rewrite_wrap_fails m (rewrite_fails (k := "cb_adf".toList) rfl (by simp) (ih s h))
  | softmax m e la r ih => intro s h; exact rewrite_wrap_fails m (rewrite_fails (k := "cb_adf".toList) rfl (by simp) (ih s.2 h))
  | squareCb m e a b r ih => intro s h; exact rewrite_wrap_fails m (rewrite_fails (k := "cb_adf".toList) rfl (by simp) (ih s.2 h))
  | debug m r ih => intro s h; exact rewrite_wrap_fails m (rewrite_fails (k := "next".toList) rfl (by simp) (ih s h))
  | elementwise m p k n r ih => intro s h; exact rewrite_wrap_fails m (rewrite_fails (k := "regressor".toList) rfl (by simp) (ih s h))

/-! ### All numbers of a stack -/

theorem finRed_coin {fin : F → Bool} (r : Red F) : ∀ s : r.State, FinRed fin r s → FinCoin fin (r.coinOf s) := by
  induction r with
  | coin m => intro s h; exact h
  | binary m r ih => intro s h; exact ih s h
  | cbAdf m ty r ih => intro s h; exact ih s.2 h
  | greedy m e r ih => intro s h; exact ih s h.2
  | softmax m e la r ih => intro s h; exact ih s.2 h.2.2
  | squareCb m e a b r ih => intro s h; exact ih s.2 h.2.2.2
  | debug m r ih => intro s h; exact ih s h
  | elementwise m p k n r ih => intro s h; exact ih s h

theorem finRed_true (r : Red F) : ∀ s : r.State, FinRed (fun _ => true) r s := by
  induction r with
  | coin m =>
    intro s
    refine ⟨fun _ _ _ => rfl, ?_, fun _ _ => ⟨rfl, rfl⟩, rfl, rfl, rfl, ?_⟩
    · refine ⟨rfl, rfl, rfl, rfl, ?_⟩
      cases (Coin.config s).lossFunction <;> simp [FinLoss]
    · cases (Coin.lossFunction s) <;> simp [FinLoss]
  | binary m r ih => intro s; exact ih s
  | cbAdf m ty r ih => intro s; exact ih s.2
  | greedy m e r ih => intro s; exact ⟨rfl, ih s⟩
  | softmax m e la r ih => intro s; exact ⟨rfl, rfl, ih s.2⟩
  | squareCb m e a b r ih => intro s; exact ⟨rfl, rfl, rfl, ih s.2⟩
  | debug m r ih => intro s; exact ih s
  | elementwise m p k n r ih => intro s; exact ih s


/-! ### Related stacks are saved to the same document -/

theorem RelM.and {α β : Type} {R : α → β → Prop} {x : M α} {y : M β} {P : α → Prop} {Q : β → Prop} (h : RelM R x y)
    (hp : ∀ a, x = .ok a → P a) (hq : ∀ b, y = .ok b → Q b) : RelM (fun a b => R a b ∧ P a ∧ Q b) x y := by
  cases x <;> cases y
  · exact h
  · exact h.elim
  · exact h.elim
  · exact ⟨h, hp _ rfl, hq _ rfl⟩

theorem SimSt.mono {R Q : Coin F → Coin F → Prop} (h : ∀ c c', R c c' → Q c c') (r : Red F) : ∀ s s', SimSt R r s s' → SimSt Q r s s' := by
  induction r with
  | coin m => intro s s' hs; exact h _ _ hs
  | binary m r ih => intro s s' hs; exact ih s s' hs
  | cbAdf m ty r ih => intro s s' hs; exact ⟨hs.1, ih _ _ hs.2⟩
  | greedy m e r ih => intro s s' hs; exact ih s s' hs
  | softmax m e la r ih => intro s s' hs; exact ⟨hs.1, ih _ _ hs.2⟩
  | squareCb m e a b r ih => intro s s' hs; exact ⟨hs.1, ih _ _ hs.2⟩
  | debug m r ih => intro s s' hs; exact ih s s' hs
  | elementwise m p k n r ih => intro s s' hs; exact ih s s' hs

theorem canonRed_eq (r : Red F) : ∀ s s', SimSt (fun c c' => c.canon = c'.canon) r s s' → canonRed r s = canonRed r s' := by
  induction r with
  | coin m => intro s s' hs; exact hs
  | binary m r ih => intro s s' hs; exact ih s s' hs
  | cbAdf m ty r ih => intro s s' hs; exact Prod.ext hs.1 (ih _ _ hs.2)
  | greedy m e r ih => intro s s' hs; exact ih s s' hs
  | softmax m e la r ih => intro s s' hs; exact Prod.ext hs.1 (ih _ _ hs.2)
  | squareCb m e a b r ih => intro s s' hs; exact Prod.ext hs.1 (ih _ _ hs.2)
  | debug m r ih => intro s s' hs; exact ih s s' hs
  | elementwise m p k n r ih => intro s s' hs; exact ih s s' hs

theorem encRed_canon (hz0 : Flt.eq (Flt.zero : F) Flt.zero = true) (fin : F → Bool) (r : Red F) : ∀ s : r.State,
    encRed fin r (canonRed r s) = encRed fin r s := by
  induction r with
  | coin m =>
    intro s
    show encWrap m (encCoin fin (Coin.canon s)) = encWrap m (encCoin fin s)
    congr 1
    unfold encCoin
    have := encW_canon hz0 fin (Coin.weights s)
    simp only [Coin.canon, this]
  | binary m r ih => intro s; simp only [encRed, canonRed, ih]
  | cbAdf m ty r ih => intro s; simp only [encRed, canonRed, ih]
  | greedy m e r ih => intro s; simp only [encRed, canonRed, ih]
  | softmax m e la r ih => intro s; simp only [encRed, canonRed, ih]
  | squareCb m e a b r ih => intro s; simp only [encRed, canonRed, ih]
  | debug m r ih => intro s; simp only [encRed, canonRed, ih]
  | elementwise m p k n r ih => intro s; simp only [encRed, canonRed, ih]

theorem sim_canon {nb : Nat} {c c' : Coin F} (h : SimC nb c c') (hc : CoinInv nb 1 c) (hc' : CoinInv nb 1 c') : c.canon = c'.canon := by
  obtain ⟨ht, hs⟩ := h
  have hd := ht.dims
  have e : c.weights.canon = c'.weights.canon := by
    have d1 : c'.weights.featureIndexSize = c.weights.featureIndexSize := by rw [hd]
    have d2 : c'.weights.modelIndexSize = c.weights.modelIndexSize := by rw [hd]
    have d3 : c'.weights.featureStateSize = c.weights.featureStateSize := by rw [hd]
    have d4 : c'.weights.modelIndexSizeShift = c.weights.modelIndexSizeShift := by rw [hd]
    have d5 : c'.weights.featureStateSizeShift = c.weights.featureStateSizeShift := by rw [hd]
    refine DenseWeights.good_ext (canon_good hc.good) (canon_good hc'.good) d1.symm d2.symm d3.symm d4.symm d5.symm ?_
    intro f m hf hm
    have hm : m < c.weights.modelIndexSize := hm
    rw [hc.models] at hm
    have hm0 : m = 0 := by omega
    subst hm0
    have hf : f < c.weights.featureIndexSize := hf
    rw [hc.ok.table.feat] at hf
    have q1 := DenseWeights.wst_toList (canon_table ht.tbl) hf
    have q2 := DenseWeights.wst_toList (canon_table ht.tbl') hf
    have s1 : c.weights.canon.featureStateSize = 6 := ht.tbl.state
    have s2 : c'.weights.canon.featureStateSize = 6 := ht.tbl'.state
    unfold DenseWeights.read
    rw [s1, s2, ← q1, ← q2, canon_wst ht.tbl hf, canon_wst ht.tbl' hf]
    have hh := ht.states f hf
    have hx : canonZ (c.weights.wst f).xt = canonZ (c'.weights.wst f).xt := by
      rcases hh.xt with h | ⟨h1, h2⟩
      · rw [h]
      · simp [canonZ, h1, h2]
    rw [hx, hh.zt, hh.g2, hh.mx, hh.we, hh.mg]
  have : c'.canon = { c' with weights := c'.weights.canon } := rfl
  rw [this, ← e]
  unfold Coin.canon
  rw [hs]

/-- The relation kept by a trained regressor and its reloaded copy. -/
def Twin (nb : Nat) (c c' : Coin F) : Prop := SimC nb c c' ∧ CoinInv nb 1 c ∧ CoinInv nb 1 c'

theorem twin_learn (dbg : Bool) {nb : Nat} {c c' : Coin F} (h : Twin nb c c') (f : SparseFeatures F) (l w : F) :
    RelM (Twin nb) (c.learn dbg f l w) (c'.learn dbg f l w) := by
  have key : ∀ {c c1 : Coin F}, CoinInv nb 1 c → c.learn dbg f l w = .ok c1 → CoinInv nb 1 c1 := by
    intro c c1 hc h1
    refine trained_inv (dbg := dbg) [⟨f, l, w⟩] hc ?_
    simp only [Coin.trainAll]
    rw [h1]
    rfl
  exact RelM.and (learn_sim dbg h.1 f l w) (fun a ha => key h.2.1 ha) (fun b hb => key h.2.2 hb)

theorem canon_inv {nb nma : Nat} {c : Coin F} (h : CoinInv nb nma c) : CoinInv nb nma c.canon :=
  ⟨⟨canon_table h.ok.table, h.ok.bits, h.ok.le31, h.ok.models⟩, canon_good h.good, h.models⟩

theorem encModel_eq (hz0 : Flt.eq (Flt.zero : F) Flt.zero = true) (fin : F → Bool) (g : GlobalConfig) {nb : Nat} {w w' : Workspace F}
    (h : SimWs (Twin nb) w w') : encModel fin ⟨g, w⟩ = encModel fin ⟨g, w'⟩ := by
  obtain ⟨st', rfl, hs⟩ := h
  have h1 := canonRed_eq _ _ _ (SimSt.mono (Q := fun c c' => c.canon = c'.canon) (fun c c' h => sim_canon h.1 h.2.1 h.2.2) _ _ _ hs)
  unfold encModel
  have h2 : encRed fin w.red w.st = encRed fin w.red st' := by
    rw [← encRed_canon hz0 fin w.red w.st, h1, encRed_canon hz0]
  simp only [h2]

/-- Every regressor reached from a fresh stack. -/
theorem session_inv {dbg : Bool} {hash : HashFn} {g : GlobalConfig} {c : RedConfig F} {w : Workspace F} (hw : Workspace.new hash g c = .ok w)
    {ex : Nat → Features F} {calls : List (Call F)} {r} (h : Session.run dbg ⟨w, ex⟩ calls = .ok r) : CoinInv g.numBits 1 r.1.w.coin := by
  obtain ⟨cfg, h1⟩ := (built_of_new hw).coin_new
  obtain ⟨es, h2⟩ := run_trains calls h
  exact trained_inv es (new_inv (by omega) h1) h2

theorem session_plain [LawfulCmp F] [SignedZero F] {dbg : Bool} {hash : HashFn} {g : GlobalConfig} {c : RedConfig F} {w : Workspace F}
    (hw : Workspace.new hash g c = .ok w) {ex : Nat → Features F} {calls : List (Call F)} {r}
    (h : Session.run dbg ⟨w, ex⟩ calls = .ok r) : ∀ i, i < 2 ^ g.numBits → PlainS (r.1.w.coin.weights.wst i) := by
  obtain ⟨cfg, h1⟩ := (built_of_new hw).coin_new
  obtain ⟨es, h2⟩ := run_trains calls h
  obtain ⟨hok, _, _, _, hz⟩ := Coin.new_ok (by omega) h1
  refine trained_plain es hok ?_ h2
  intro i hi
  rw [hz i hi]
  exact ⟨plain_zero, plain_zero, plain_zero, plain_zero, plain_zero, by
    rw [LawfulCmp.lt_eq, LawfulCmp.le_refl _ LawfulCmp.zero_num]; simp⟩

end Serde
end Rml
