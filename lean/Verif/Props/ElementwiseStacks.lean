import Verif.Props.ElementwiseTable
import Verif.SpecTrain

/-! C116 for stacks with further reductions above ElementwiseInteraction. -/

set_option linter.unusedSectionVars false

namespace Rml
open SparseFeatures
variable {F : Type} [Flt F]

/-- `c` is `inner` below any number of reductions that pass features on unchanged, or an action at a time. -/
inductive RedConfig.Above (inner : RedConfig F) : RedConfig F → Prop
  | refl : RedConfig.Above inner inner
  | binary {c} : RedConfig.Above inner c → RedConfig.Above inner (.binary c)
  | cbAdf {c} (t) : RedConfig.Above inner c → RedConfig.Above inner (.cbAdf t c)
  | greedy {c} (e) : RedConfig.Above inner c → RedConfig.Above inner (.greedy e c)
  | softmax {c} (e l) : RedConfig.Above inner c → RedConfig.Above inner (.softmax e l c)
  | squareCb {c} (e s x) : RedConfig.Above inner c → RedConfig.Above inner (.squareCb e s x c)
  | debug {c} : RedConfig.Above inner c → RedConfig.Above inner (.debug c)

/-- Coin, below any number of Debug reductions. -/
inductive RedConfig.Base : RedConfig F → Prop
  | coin (k) : RedConfig.Base (.coin k)
  | debug {c} : RedConfig.Base c → RedConfig.Base (.debug c)

/-- If the features hold two vectors then their products fit into the table. -/
def ProductsFit (nb : Nat) (ns1 ns2 : Namespace) (f : SparseFeatures F) : Prop :=
  ∀ xs ys, TwoVectors nb ns1 ns2 f xs ys → baseOf nb (productNs ns1 ns2) + min xs.length ys.length ≤ 2 ^ nb

variable [LawfulCmp F]

theorem base_fits {hash : HashFn} {g : GlobalConfig} {nma : Nat} {c : RedConfig F} (h : RedConfig.Base c) (dbg : Bool) : ∀ (x : (r : Red F) × r.State), Built hash g nma c x →
    ∀ s : x.1.State, CoinGood g.numBits (x.1.coinOf s) → (∀ f d r, f.Inv0 → x.1.predictImpl dbg s (.simple f) d = .ok r → f.Fits g.numBits) ∧
      ∀ l f d r, f.Inv0 → x.1.learnImpl dbg s (.simple f) l d = .ok r → f.Fits g.numBits := by
  induction h with
  | coin k =>
    intro x hb s hg
    cases hb with
    | coin hb =>
      refine ⟨fun f d r hf h => (needs_predict hg ⟨"Coin", coinTypes, nma⟩ dbg).fits f d r hf h, fun l f d r hf h => ?_⟩
      cases l with
      | simple sl => exact (needs_learn hg ⟨"Coin", coinTypes, nma⟩ dbg sl).fits f d r hf h
      | binary _ => simp [Red.learnImpl, Features.asSimple, Label.asSimple, bind, Except.bind] at h
      | cb _ => simp [Red.learnImpl, Features.asSimple, Label.asSimple, bind, Except.bind] at h
  | debug _ ih =>
    intro x hb s hg
    cases hb with
    | debug hb ht =>
      have := ih _ hb s hg
      refine ⟨fun f d r hf h => ?_, fun l f d r hf h => ?_⟩
      · simp only [Red.predictImpl] at h
        obtain ⟨_, _, _, h, _⟩ := wrapCall_ok h
        exact this.1 _ _ _ hf h
      · simp only [Red.learnImpl] at h
        obtain ⟨_, _, _, h, _⟩ := wrapCall_ok h
        exact this.2 _ _ _ _ hf h

theorem base_predict (dbg : Bool) (m : Meta) (r : Red F) (pair : Namespace × Namespace) (keep : Bool) (nb : Nat) (s : r.State) (hnb : nb ≤ 31)
    (hb : ∀ f d q, f.Inv0 → r.predictImpl dbg s (.simple f) d = .ok q → f.Fits nb)
    (hp : pair.1.isRaw = false ∧ pair.2.isRaw = false) (f : SparseFeatures F) (d : Depth) (q)
    (h : (Red.elementwise m pair keep nb r).predictImpl dbg s (.simple f) d = .ok q) : ProductsFit nb pair.1 pair.2 f := by
  intro xs ys hf
  obtain ⟨n1, h1, hx⟩ := hf.first
  obtain ⟨n2, h2, hy⟩ := hf.second
  simp only [Red.predictImpl] at h
  exact elementwise_fails_of hb dbg hnb hf.wf.1 hf.fits hp h1 h2 hx hy hf.firstEnds hf.secondEnds h

theorem base_learn (dbg : Bool) (m : Meta) (r : Red F) (pair : Namespace × Namespace) (keep : Bool) (nb : Nat) (s : r.State) (hnb : nb ≤ 31) (l : Label F)
    (hb : ∀ f d q, f.Inv0 → r.learnImpl dbg s (.simple f) l d = .ok q → f.Fits nb)
    (hp : pair.1.isRaw = false ∧ pair.2.isRaw = false) (f : SparseFeatures F) (d : Depth) (q)
    (h : (Red.elementwise m pair keep nb r).learnImpl dbg s (.simple f) l d = .ok q) : ProductsFit nb pair.1 pair.2 f := by
  intro xs ys hf
  obtain ⟨n1, h1, hx⟩ := hf.first
  obtain ⟨n2, h2, hy⟩ := hf.second
  simp only [Red.learnImpl] at h
  exact elementwise_fails_of hb dbg hnb hf.wf.1 hf.fits hp h1 h2 hx hy hf.firstEnds hf.secondEnds h

theorem base_cb (dbg : Bool) (m : Meta) (r : Red F) (pair : Namespace × Namespace) (keep : Bool) (nb : Nat) (s : r.State) (f : CBAdfFeatures F) (d : Depth) (q)
    (h : (Red.elementwise m pair keep nb r).predictImpl dbg s (.cbAdf f) d = .ok q) : False := by
  simp [Red.predictImpl, elementwiseWith, Features.asSimple, bind, Except.bind] at h

theorem base_cb_learn (dbg : Bool) (m : Meta) (r : Red F) (pair : Namespace × Namespace) (keep : Bool) (nb : Nat) (s : r.State) (f : CBAdfFeatures F) (l : Label F) (d : Depth) (q)
    (h : (Red.elementwise m pair keep nb r).learnImpl dbg s (.cbAdf f) l d = .ok q) : False := by
  simp [Red.learnImpl, elementwiseWith, Features.asSimple, bind, Except.bind] at h

theorem above_predict {hash : HashFn} {g : GlobalConfig} {nma : Nat} {one two : NamespaceDef} {keep : Bool} {k c : RedConfig F} (hk : k.Base)
    (h : RedConfig.Above (.elementwise one two keep k) c) (dbg : Bool) : ∀ (x : (r : Red F) × r.State), Built hash g nma c x → ∀ s : x.1.State, CoinGood g.numBits (x.1.coinOf s) →
      (∀ f d q, x.1.predictImpl dbg s (.simple f) d = .ok q → ProductsFit g.numBits (one.toNamespace hash g.hashSeed) (two.toNamespace hash g.hashSeed) f) ∧
      ∀ sh as d q, x.1.predictImpl dbg s (.cbAdf ⟨some sh, as⟩) d = .ok q → ∀ a ∈ as, ∀ f, a.append sh = .ok f →
        ProductsFit g.numBits (one.toNamespace hash g.hashSeed) (two.toNamespace hash g.hashSeed) f := by
  induction h with
  | refl =>
    intro x hb s hg
    cases hb with
    | @elementwise _ _ _ _ y hb ht =>
      have hy := base_fits hk dbg _ hb s hg
      constructor
      · intro f d q h
        exact base_predict dbg ⟨"ElementwiseInteraction", _, nma⟩ y.1 (_, _) keep g.numBits s hg.ok.le31 hy.1 ⟨toNamespace_notRaw _ _ _, toNamespace_notRaw _ _ _⟩ f d q h
      · intro sh as d q h
        exact (base_cb dbg ⟨"ElementwiseInteraction", _, nma⟩ y.1 (_, _) keep g.numBits s _ d q h).elim
  | binary _ ih =>
    intro x hb s hg
    cases hb with
    | binary hb ht =>
      have := ih _ hb s hg
      constructor
      · intro f d q h
        simp only [Red.predictImpl] at h
        obtain ⟨_, h, _⟩ := bind_ok.1 h
        obtain ⟨_, _, _, h, _⟩ := wrapCall_ok h
        exact this.1 _ _ _ h
      · intro sh as d q h
        simp only [Red.predictImpl] at h
        obtain ⟨_, h, _⟩ := bind_ok.1 h
        obtain ⟨_, _, _, h, _⟩ := wrapCall_ok h
        exact this.2 _ _ _ _ h
  | cbAdf t _ ih =>
    intro x hb s hg
    cases hb with
    | cbAdf hb ht =>
      have := ih _ hb s.2 hg
      constructor
      · intro f d q h
        simp [Red.predictImpl, Features.asCb, bind, Except.bind] at h
      · intro sh as d q h a ha f hf
        simp only [Red.predictImpl, Features.asCb, ok_bind] at h
        obtain ⟨_, h, _⟩ := bind_ok.1 h
        obtain ⟨f1, d1, q, q1, q2⟩ := cbLoop_calls h a ha
        rw [hf] at q1
        cases q1
        obtain ⟨_, _, _, q2, _⟩ := wrapCall_ok q2
        exact this.1 _ _ _ q2
  | greedy e _ ih =>
    intro x hb s hg
    cases hb with
    | greedy hb ht =>
      have := ih _ hb s hg
      constructor
      · intro f d q h
        simp only [Red.predictImpl] at h
        obtain ⟨_, h, _⟩ := bind_ok.1 h
        obtain ⟨_, _, _, h, _⟩ := wrapCall_ok h
        exact this.1 _ _ _ h
      · intro sh as d q h
        simp only [Red.predictImpl] at h
        obtain ⟨_, h, _⟩ := bind_ok.1 h
        obtain ⟨_, _, _, h, _⟩ := wrapCall_ok h
        exact this.2 _ _ _ _ h
  | softmax e l _ ih =>
    intro x hb s hg
    cases hb with
    | softmax hb ht =>
      have := ih _ hb s.2 hg
      constructor
      · intro f d q h
        simp only [Red.predictImpl] at h
        obtain ⟨_, h, _⟩ := bind_ok.1 h
        obtain ⟨_, _, _, h, _⟩ := wrapCall_ok h
        exact this.1 _ _ _ h
      · intro sh as d q h
        simp only [Red.predictImpl] at h
        obtain ⟨_, h, _⟩ := bind_ok.1 h
        obtain ⟨_, _, _, h, _⟩ := wrapCall_ok h
        exact this.2 _ _ _ _ h
  | squareCb e l y _ ih =>
    intro x hb s hg
    cases hb with
    | squareCb _ hb ht =>
      have := ih _ hb s.2 hg
      constructor
      · intro f d q h
        simp only [Red.predictImpl] at h
        obtain ⟨_, h, _⟩ := bind_ok.1 h
        obtain ⟨_, _, _, h, _⟩ := wrapCall_ok h
        exact this.1 _ _ _ h
      · intro sh as d q h
        simp only [Red.predictImpl] at h
        obtain ⟨_, h, _⟩ := bind_ok.1 h
        obtain ⟨_, _, _, h, _⟩ := wrapCall_ok h
        exact this.2 _ _ _ _ h
  | debug _ ih =>
    intro x hb s hg
    cases hb with
    | debug hb ht =>
      have := ih _ hb s hg
      constructor
      · intro f d q h
        simp only [Red.predictImpl] at h
        obtain ⟨_, _, _, h, _⟩ := wrapCall_ok h
        exact this.1 _ _ _ h
      · intro sh as d q h
        simp only [Red.predictImpl] at h
        obtain ⟨_, _, _, h, _⟩ := wrapCall_ok h
        exact this.2 _ _ _ _ h

theorem ipsLoop_calls {T : Type} {dbg : Bool} {childL : T → Features F → Label F → Depth → M (T × Features F × Depth)} (good : T → Prop)
    (hk : ∀ t ft lab d y, good t → childL t ft lab d = .ok y → good y.1) {s : SparseFeatures F} {l : CBLabel F} :
    ∀ {as : List (SparseFeatures F)} {i : Nat} {t : T} {d : Depth} {r}, good t → cbIpsLoop dbg childL (some s) l i as t d = .ok r →
      ∀ a ∈ as, ∃ f1 t1 lab d1 q, good t1 ∧ a.append s = .ok f1 ∧ childL t1 (.simple f1) (.simple lab) d1 = .ok q := by
  intro as
  induction as with
  | nil => intro i t d r _ _ a ha; cases ha
  | cons b bs ih =>
    intro i t d r hg h a ha
    unfold cbIpsLoop at h
    obtain ⟨a1, h1, h⟩ := bind_ok.1 h
    obtain ⟨lab, _, h⟩ := bind_ok.1 h
    obtain ⟨⟨t1, ft, d1⟩, h2, h⟩ := bind_ok.1 h
    obtain ⟨_, _, h⟩ := bind_ok.1 h
    obtain ⟨_, _, h⟩ := bind_ok.1 h
    obtain ⟨_, h3, _⟩ := bind_ok.1 h
    rcases List.mem_cons.1 ha with rfl | ha
    · exact ⟨a1, t, lab, d, _, hg, h1, h2⟩
    · exact ih (hk _ _ _ _ _ hg h2) h3 a ha

theorem mtr_calls {T : Type} {childL : T → Features F → Label F → Depth → M (T × Features F × Depth)} {f : CBAdfFeatures F} {l : CBLabel F}
    {st : MtrState} {t : T} {d : Depth} {r} (h : cbMtrLearn childL f l st t d = .ok r) :
    ∃ s a f1 lab d1 q, f.shared = some s ∧ f.actions[l.action]? = some a ∧ s.append a = .ok f1 ∧ childL t (.simple f1) (.simple lab) d1 = .ok q := by
  unfold cbMtrLearn at h
  cases hs : f.shared with
  | none => rw [hs] at h; cases h
  | some sh =>
    rw [hs] at h
    simp only at h
    obtain ⟨a, h3, h⟩ := bind_ok.1 h
    obtain ⟨sh1, h4, h⟩ := bind_ok.1 h
    obtain ⟨q, h5, h⟩ := bind_ok.1 h
    refine ⟨sh, a, sh1, _, _, q, rfl, ?_, h4, h5⟩
    cases hk : f.actions[l.action]? with
    | none => rw [hk] at h3; cases h3
    | some b => rw [hk] at h3; cases h3; rfl

/-- What learning from a bandit example needs: in ips mode the products of every action, in mtr mode those of the chosen one. -/
def LearnFit (t : Option CBType) (nb : Nat) (ns1 ns2 : Namespace) (s : SparseFeatures F) (as : List (SparseFeatures F)) (k : Nat) : Prop :=
  (t = some .ips → ∀ a ∈ as, ∀ f, a.append s = .ok f → ProductsFit nb ns1 ns2 f) ∧
  (t = some .mtr → ∀ a, as[k]? = some a → ∀ f, s.append a = .ok f → ProductsFit nb ns1 ns2 f)

theorem above_learn {hash : HashFn} {g : GlobalConfig} {nma : Nat} {one two : NamespaceDef} {keep : Bool} {k c : RedConfig F} (hk : k.Base)
    (h : RedConfig.Above (.elementwise one two keep k) c) (dbg : Bool) : ∀ (x : (r : Red F) × r.State), Built hash g nma c x → ∀ s : x.1.State, CoinGood g.numBits (x.1.coinOf s) →
      (∀ f l d q, x.1.learnImpl dbg s (.simple f) l d = .ok q → ProductsFit g.numBits (one.toNamespace hash g.hashSeed) (two.toNamespace hash g.hashSeed) f) ∧
      ∀ sh as (l : CBLabel F) d q, x.1.learnImpl dbg s (.cbAdf ⟨some sh, as⟩) (.cb l) d = .ok q →
        LearnFit x.1.cbMode g.numBits (one.toNamespace hash g.hashSeed) (two.toNamespace hash g.hashSeed) sh as l.action := by
  induction h with
  | refl =>
    intro x hb s hg
    cases hb with
    | @elementwise _ _ _ _ y hb ht =>
      have hy := base_fits hk dbg _ hb s hg
      constructor
      · intro f l d q h
        exact base_learn dbg ⟨"ElementwiseInteraction", _, nma⟩ y.1 (_, _) keep g.numBits s hg.ok.le31 l (hy.2 l) ⟨toNamespace_notRaw _ _ _, toNamespace_notRaw _ _ _⟩ f d q h
      · intro sh as l d q h
        exact (base_cb_learn dbg ⟨"ElementwiseInteraction", _, nma⟩ y.1 (_, _) keep g.numBits s _ _ d q h).elim
  | binary _ ih =>
    intro x hb s hg
    cases hb with
    | binary hb ht =>
      have := ih _ hb s hg
      constructor
      · intro f l d q h
        simp only [Red.learnImpl] at h
        obtain ⟨_, _, h⟩ := bind_ok.1 h
        obtain ⟨_, _, _, h, _⟩ := wrapCall_ok h
        exact this.1 _ _ _ _ h
      · intro sh as l d q h
        simp only [Red.learnImpl] at h
        obtain ⟨_, h1, h⟩ := bind_ok.1 h
        cases h1
  | cbAdf t _ ih =>
    intro x hb s hg
    cases hb with
    | @cbAdf _ _ y hb ht =>
      have := fun s hg => (ih _ hb s hg).1
      constructor
      · intro f l d q h
        simp [Red.learnImpl, Features.asCb, bind, Except.bind] at h
      · intro sh as l d q h
        simp only [Red.learnImpl, Features.asCb, Label.asCb, ok_bind] at h
        cases t with
        | ips =>
          refine ⟨fun _ a ha f hf => ?_, fun e => (nomatch e)⟩
          simp only at h
          obtain ⟨_, h, _⟩ := bind_ok.1 h
          have hk : ∀ (t : y.1.State) ft lab d z, CoinGood g.numBits (y.1.coinOf t) → wrapCall dbg y.1.meta ft d 0 (fun ft d => y.1.learnImpl dbg t ft lab d) = .ok z →
              CoinGood g.numBits (y.1.coinOf z.1) := by
            intro t ft lab d z hg hz
            obtain ⟨_, _, _, hz, _⟩ := wrapCall_ok hz
            have q := learnImpl_trains dbg y.1 _ _ _ _ _ hz
            exact hg.trains q
          obtain ⟨f1, t1, lab, d1, q, q0, q1, q2⟩ := ipsLoop_calls (fun t => CoinGood g.numBits (y.1.coinOf t)) hk hg h a ha
          rw [hf] at q1
          cases q1
          obtain ⟨_, _, _, q2, _⟩ := wrapCall_ok q2
          exact this t1 q0 _ _ _ _ q2
        | mtr =>
          refine ⟨fun e => (nomatch e), fun _ a ha f hf => ?_⟩
          simp only at h
          obtain ⟨_, h, _⟩ := bind_ok.1 h
          obtain ⟨s1, a1, f1, lab, d1, q, e1, e2, e3, q2⟩ := mtr_calls h
          cases e1
          simp only at e2
          rw [ha] at e2
          cases e2
          rw [hf] at e3
          cases e3
          obtain ⟨_, _, _, q2, _⟩ := wrapCall_ok q2
          exact this s.2 hg _ _ _ _ q2
  | greedy e _ ih =>
    intro x hb s hg
    cases hb with
    | greedy hb ht =>
      have := ih _ hb s hg
      constructor
      · intro f l d q h
        simp only [Red.learnImpl] at h
        obtain ⟨_, _, _, h, _⟩ := wrapCall_ok h
        exact this.1 _ _ _ _ h
      · intro sh as l d q h
        simp only [Red.learnImpl] at h
        obtain ⟨_, _, _, h, _⟩ := wrapCall_ok h
        exact this.2 _ _ _ _ _ h
  | softmax e l _ ih =>
    intro x hb s hg
    cases hb with
    | softmax hb ht =>
      have := ih _ hb s.2 hg
      constructor
      · intro f l d q h
        simp only [Red.learnImpl] at h
        obtain ⟨_, h, _⟩ := bind_ok.1 h
        obtain ⟨_, _, _, h, _⟩ := wrapCall_ok h
        exact this.1 _ _ _ _ h
      · intro sh as l d q h
        simp only [Red.learnImpl] at h
        obtain ⟨_, h, _⟩ := bind_ok.1 h
        obtain ⟨_, _, _, h, _⟩ := wrapCall_ok h
        exact this.2 _ _ _ _ _ h
  | squareCb e l y _ ih =>
    intro x hb s hg
    cases hb with
    | squareCb _ hb ht =>
      have := ih _ hb s.2 hg
      constructor
      · intro f l d q h
        simp only [Red.learnImpl] at h
        obtain ⟨_, _, h⟩ := bind_ok.1 h
        obtain ⟨_, h, _⟩ := bind_ok.1 h
        obtain ⟨_, _, _, h, _⟩ := wrapCall_ok h
        exact this.1 _ _ _ _ h
      · intro sh as l d q h
        simp only [Red.learnImpl] at h
        obtain ⟨_, e, h⟩ := bind_ok.1 h
        cases e
        obtain ⟨_, h, _⟩ := bind_ok.1 h
        obtain ⟨_, _, _, h, _⟩ := wrapCall_ok h
        exact this.2 _ _ ⟨l.action, l.cost, Flt.one⟩ _ _ h
  | debug _ ih =>
    intro x hb s hg
    cases hb with
    | debug hb ht =>
      have := ih _ hb s hg
      constructor
      · intro f l d q h
        simp only [Red.learnImpl] at h
        obtain ⟨_, _, _, h, _⟩ := wrapCall_ok h
        exact this.1 _ _ _ _ h
      · intro sh as l d q h
        simp only [Red.learnImpl] at h
        obtain ⟨_, _, _, h, _⟩ := wrapCall_ok h
        exact this.2 _ _ _ _ _ h

/-- C116 fails in every stack that multiplies the vectors of two namespaces, with any reductions above (CbAdf, explorers, Binary, Debug) and Coin below (or Debug and Coin), in both build profiles
and after any history. If the products of two vectors do not fit into the table, then predicting and learning panic: for an example with the two vectors, whatever the label, and for a bandit
example with an action that, with the shared features, has the two vectors. Learning in mtr mode panics if the chosen action is one of these. -/
theorem C116_stack_false (dbg : Bool) (hash : HashFn) (g : GlobalConfig) (one two : NamespaceDef) (keep : Bool) (k c : RedConfig F) (hk : k.Base)
    (hc : RedConfig.Above (.elementwise one two keep k) c) (w0 : Workspace F) (hw : Workspace.new hash g c = .ok w0) (ns1 ns2 : Namespace)
    (hn1 : ns1 = one.toNamespace hash g.hashSeed) (hn2 : ns2 = two.toNamespace hash g.hashSeed) (ex : Nat → Features F) (calls : List (Call F)) (S : Session F) (os)
    (hr : Session.run dbg ⟨w0, ex⟩ calls = .ok (S, os)) (f : SparseFeatures F) (xs ys : List F) (hf : TwoVectors g.numBits ns1 ns2 f xs ys)
    (hout : 2 ^ g.numBits < baseOf g.numBits (productNs ns1 ns2) + min xs.length ys.length) :
    (∀ r, S.w.predict dbg (.simple f) ≠ .ok r) ∧ (∀ l r, S.w.learn dbg (.simple f) l ≠ .ok r) ∧
    ∀ s a actions, a ∈ actions → (a.append s = .ok f → ∀ r, S.w.predict dbg (.cbAdf ⟨some s, actions⟩) ≠ .ok r) ∧
      (a.append s = .ok f → S.w.red.cbMode = some .ips → ∀ (l : CBLabel F) r, S.w.learn dbg (.cbAdf ⟨some s, actions⟩) (.cb l) ≠ .ok r) ∧
      (s.append a = .ok f → S.w.red.cbMode = some .mtr → ∀ (l : CBLabel F), actions[l.action]? = some a → ∀ r, S.w.learn dbg (.cbAdf ⟨some s, actions⟩) (.cb l) ≠ .ok r) := by
  have hg := (new_good hw).trains (run_trains calls hr)
  have hred := Py.run_red calls hr
  have hb := built_of_new hw
  obtain ⟨w, ex'⟩ := S
  obtain ⟨wr, ws⟩ := w
  obtain ⟨vr, vs⟩ := w0
  simp only at hred hg
  subst hred
  have hP := above_predict hk hc dbg _ hb ws hg
  have hL := above_learn hk hc dbg _ hb ws hg
  rw [← hn1, ← hn2] at hP hL
  have bad : ¬ ProductsFit g.numBits ns1 ns2 f := fun h => by
    have := h xs ys hf
    omega
  have predict : ∀ ft r, Workspace.predict dbg ⟨wr, ws⟩ ft = .ok r → ∃ d q, wr.predictImpl dbg ws ft d = .ok q := by
    intro ft r h
    unfold Workspace.predict Red.predict at h
    obtain ⟨_, h, _⟩ := bind_ok.1 h
    obtain ⟨_, _, _, h, _⟩ := wrapCall_ok h
    exact ⟨_, _, h⟩
  have learn : ∀ ft l r, Workspace.learn dbg ⟨wr, ws⟩ ft l = .ok r → ∃ d q, wr.learnImpl dbg ws ft l d = .ok q := by
    intro ft l r h
    unfold Workspace.learn Red.learn at h
    obtain ⟨_, h, _⟩ := bind_ok.1 h
    obtain ⟨_, _, _, h, _⟩ := wrapCall_ok h
    exact ⟨_, _, h⟩
  refine ⟨fun r h => ?_, fun l r h => ?_, fun s a actions ha => ⟨fun happ r h => ?_, fun happ hm l r h => ?_, fun happ hm l hk r h => ?_⟩⟩
  · obtain ⟨_, _, h⟩ := predict _ _ h
    exact bad (hP.1 _ _ _ h)
  · obtain ⟨_, _, h⟩ := learn _ _ _ h
    exact bad (hL.1 _ _ _ _ h)
  · obtain ⟨_, _, h⟩ := predict _ _ h
    exact bad (hP.2 _ _ _ _ h a ha f happ)
  · obtain ⟨_, _, h⟩ := learn _ _ _ h
    exact bad ((hL.2 _ _ _ _ _ h).1 hm a ha f happ)
  · obtain ⟨_, _, h⟩ := learn _ _ _ h
    exact bad ((hL.2 _ _ _ _ _ h).2 hm a hk f happ)

section examples
attribute [local instance] transRatOrder fltRatOrder
local instance cmpRatStacks : LawfulCmp ℚ := lawfulCmp_field ℚ

/-- SquareCB over CbAdf over the products of two vectors: predicting for an action whose products with the context do not fit panics. -/
example : ∃ w0 : Workspace ℚ, Workspace.new tinyHash tableGlobal (.squareCb 0 1 1 (.cbAdf .mtr (.debug (.elementwise (.name ['a', 'b', 'c']) (.name ['a', 'b', 'c', 'd', 'e']) true (.debug (.coin CoinConfig.dflt)))))) = .ok w0 ∧
    ∀ r, w0.predict false (.cbAdf ⟨some tableShared, [tableAction]⟩) ≠ .ok r := by
  obtain ⟨f, h1, h2⟩ := tableMerged_two
  exact ⟨_, rfl, ((C116_stack_false false tinyHash tableGlobal (.name ['a', 'b', 'c']) (.name ['a', 'b', 'c', 'd', 'e']) true (.debug (.coin CoinConfig.dflt)) _ (.debug (.coin _)) (.squareCb 0 1 1 (.cbAdf .mtr (.debug .refl))) _ rfl
    (.named 3#32) (.named 5#32) rfl rfl (fun _ => .simple tableAction) [] _ _ rfl f _ _ h2 (by decide)).2.2 tableShared tableAction [tableAction] (by simp)).1 h1⟩

end examples

end Rml
