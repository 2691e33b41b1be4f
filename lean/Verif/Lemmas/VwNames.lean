import Verif.SpecNames
import Verif.Lemmas.VwText
import Mathlib.Data.List.TakeWhile

namespace Rml
namespace Vw
open Text
variable {F : Type} [Flt F]

/-- One feature. -/
theorem parseFeature_ok (pr : Parser F) (k : Nat) (f : VwFeat) (hf : f.Valid pr.parseFloat) (hk : pr.dbg = true → k + anons [f] < 2 ^ 32) :
    ∃ pf v, parseFeature pr f.render (BitVec.ofNat 32 k) = .ok (pf, v, BitVec.ofNat 32 (k + anons [f])) ∧
      ∀ fs, names k (f :: fs) = pf :: names (k + anons [f]) fs := by
  cases f with
  | name m =>
    refine ⟨_, Flt.one, ?_, fun fs => rfl⟩
    have h1 : startsWith ':' (VwFeat.name m).render = false := by
      have := startsWith_plain (r := []) (plain_colon hf.2) hf.1
      rw [List.append_nil] at this; exact this
    unfold parseFeature
    simp only [h1, Bool.false_eq_true, if_false]
    rw [show (VwFeat.name m).render = m from rfl, split_none _ _ (plain_colon hf.2)]
    rfl
  | number m num =>
    obtain ⟨v, hv⟩ := Option.isSome_iff_exists.1 hf.2.2.2
    refine ⟨_, v, ?_, fun fs => rfl⟩
    have h1 : startsWith ':' (VwFeat.number m num).render = false := startsWith_plain (plain_colon hf.2.1) hf.1
    unfold parseFeature
    simp only [h1, Bool.false_eq_true, if_false]
    rw [show (VwFeat.number m num).render = m ++ ':' :: num from rfl, split_append _ _ _ (plain_colon hf.2.1), split_none _ _ (plain_colon hf.2.2.1)]
    simp only [List.getElem?_cons_zero, List.getElem?_cons_succ, unwrapP, bind, Except.bind, hv]
    rfl
  | text m value =>
    refine ⟨_, Flt.one, ?_, fun fs => rfl⟩
    by_cases hm : m = []
    · subst hm
      unfold parseFeature
      simp only [VwFeat.render, List.nil_append]
      simp only [startsWith, List.head?_cons, decide_true, if_true, List.tail_cons, hf.2.2, trim_plain hf.2.1]
      rfl
    · have h1 : startsWith ':' (VwFeat.text m value).render = false := startsWith_plain (plain_colon hf.1) hm
      unfold parseFeature
      simp only [h1, Bool.false_eq_true, if_false]
      rw [show (VwFeat.text m value).render = m ++ ':' :: value from rfl, split_append _ _ _ (plain_colon hf.1), split_none _ _ (plain_colon hf.2.1)]
      simp only [List.getElem?_cons_zero, List.getElem?_cons_succ, unwrapP, bind, Except.bind, hf.2.2, trim_plain hf.2.1]
      rfl
  | anon num =>
    obtain ⟨v, hv⟩ := Option.isSome_iff_exists.1 hf.2
    refine ⟨_, v, ?_, fun fs => rfl⟩
    unfold parseFeature
    simp only [VwFeat.render, startsWith, List.head?_cons, decide_true, if_true, List.tail_cons, hv]
    have e1 : addChecked pr.dbg (BitVec.ofNat 32 k) 1#32 = .ok (BitVec.ofNat 32 k + 1#32) := by
      apply addChecked_ok
      intro hd
      have := hk hd
      simp only [anons] at this
      simp only [BitVec.toNat_ofNat]
      have : k % 2 ^ 32 ≤ k := Nat.mod_le _ _
      omega
    simp only [bind, Except.bind, e1, liftM, anons]
    have : BitVec.ofNat 32 k + 1#32 = BitVec.ofNat 32 (k + (0 + 1)) := by
      apply BitVec.eq_of_toNat_eq
      simp [BitVec.toNat_add]
    rw [this]

/-- All features. -/
theorem nameSteps_ok (pr : Parser F) : ∀ (fs : List VwFeat) (acc : List ParsedFeature) (k : Nat), (∀ f ∈ fs, f.Valid pr.parseFloat) →
    (pr.dbg = true → k + anons fs < 2 ^ 32) →
    ∃ c, (fs.map VwFeat.render).foldlM (nameStep pr) (acc, BitVec.ofNat 32 k) = .ok (acc ++ names k fs, c)
  | [], acc, k, _, _ => ⟨_, by simp [names]; rfl⟩
  | f :: fs, acc, k, hv, hk => by
    rw [anons_cons] at hk
    obtain ⟨pf, v, h1, h2⟩ := parseFeature_ok pr k f (hv f (by simp)) (fun hd => by have := hk hd; omega)
    obtain ⟨c, q⟩ := nameSteps_ok pr fs (acc ++ [pf]) (k + anons [f]) (fun g hg => hv g (by simp [hg])) (fun hd => by have := hk hd; omega)
    refine ⟨c, ?_⟩
    rw [List.map_cons, List.foldlM_cons, nameStep]
    simp only [h1, bind, Except.bind] at q ⊢
    rw [q, h2]
    simp

/-- The hashes of the names are those of the parsed features. -/
theorem names_hash (hash : HashFn) (dbg : Bool) (numBits : Nat) (pf : Str → Option F) (nsHash : U32) (scale : F) : ∀ (fs : List VwFeat) (k : Nat),
    (dbg = true → nsHash.toNat + k + anons fs < 2 ^ 32) →
    ∃ hs, (names k fs).mapM (fun f => f.hash hash dbg nsHash) = .ok hs ∧
      hs.map (lowBits numBits) = (meant hash numBits pf nsHash scale k fs).map (·.1)
  | [], k, _ => ⟨[], rfl, rfl⟩
  | f :: fs, k, hk => by
    rw [anons_cons] at hk
    obtain ⟨hs, q1, q2⟩ := names_hash hash dbg numBits pf nsHash scale fs (k + anons [f]) (fun hd => by have := hk hd; omega)
    cases f with
    | name n =>
      refine ⟨hash n nsHash :: hs, ?_, ?_⟩
      · rw [names, List.mapM_cons]; simp only [anons, Nat.add_zero] at q1; rw [q1]; rfl
      · simp only [meant, List.map_cons, anons, Nat.add_zero] at q2 ⊢; rw [q2]
    | number n num =>
      refine ⟨hash n nsHash :: hs, ?_, ?_⟩
      · rw [names, List.mapM_cons]; simp only [anons, Nat.add_zero] at q1; rw [q1]; rfl
      · simp only [meant, List.map_cons, anons, Nat.add_zero] at q2 ⊢; rw [q2]
    | text n value =>
      refine ⟨hash value (hash n nsHash) :: hs, ?_, ?_⟩
      · rw [names, List.mapM_cons]; simp only [anons, Nat.add_zero] at q1; rw [q1]; rfl
      · simp only [meant, List.map_cons, anons, Nat.add_zero] at q2 ⊢; rw [q2]
    | anon num =>
      have e2 : addChecked dbg nsHash (BitVec.ofNat 32 k) = .ok (nsHash + BitVec.ofNat 32 k) := by
        apply addChecked_ok
        intro hd
        have := hk hd
        simp only [anons] at this
        simp only [BitVec.toNat_ofNat]
        have : k % 2 ^ 32 ≤ k := Nat.mod_le _ _
        omega
      refine ⟨(nsHash + BitVec.ofNat 32 k) :: hs, ?_, ?_⟩
      · rw [names, List.mapM_cons, ParsedFeature.hash, e2]; simp only [anons, Nat.zero_add] at q1; rw [q1]; rfl
      · simp only [meant, List.map_cons, anons, Nat.zero_add] at q2 ⊢; rw [q2]

theorem takeWhile_stop {s r : Str} (h : ' ' ∉ s) : (s ++ ' ' :: r).takeWhile (· != ' ') = s ∧ (s ++ ' ' :: r).dropWhile (· != ' ') = ' ' :: r := by
  induction s with
  | nil => exact ⟨rfl, rfl⟩
  | cons c s ih =>
    have hc : (c != ' ') = true := by
      simp only [List.mem_cons, not_or] at h
      simpa using fun he => h.1 he.symm
    have := ih (fun hm => h (by simp [hm]))
    simp [hc, this]

/-- A head holds no space. -/
theorem head_noSpace {pf : Str → Option F} {n : VwNs} (h : n.Valid pf) : ' ' ∉ n.head := by
  have hp : ∀ s : Str, Plain s → ' ' ∉ s := fun s hs hc => absurd (hs _ hc).1 (by decide)
  have hh := h.head
  unfold VwNs.head
  cases hname : n.name with
  | none => simp
  | some e =>
    obtain ⟨s, sc⟩ := e
    rw [hname] at hh
    cases sc with
    | none => exact hp _ hh.2
    | some sc =>
      simp only [List.mem_append, List.mem_cons, not_or]
      exact ⟨hp _ hh.2.1, by decide, hp _ hh.2.2.1⟩

theorem head_ne {pf : Str → Option F} {n : VwNs} (h : n.Valid pf) (hn : n.name ≠ none) : n.head ≠ [] := by
  have hh := h.head
  unfold VwNs.head
  cases hname : n.name with
  | none => exact absurd hname hn
  | some e =>
    obtain ⟨s, sc⟩ := e
    rw [hname] at hh
    cases sc with
    | none => exact hh.1
    | some sc => simp

/-- One namespace. -/
theorem extract_ok (pr : Parser F) (n : VwNs) (h : n.Valid pr.parseFloat) (ho : n.NoOverflow pr) (hs : n.Spaced) :
    extractNamespaceFeatures pr (n.head ++ n.body) = .ok (n.info, n.names) := by
  have hfeats : ∀ f ∈ n.feats.map (·.2), f.Valid pr.parseFloat := by
    intro f hf
    obtain ⟨e, he, rfl⟩ := List.mem_map.1 hf
    exact (h.feats e he).2
  obtain ⟨c, hc⟩ := nameSteps_ok pr (n.feats.map (·.2)) [] 0 hfeats (fun hd => by have := ho hd; omega)
  have htok : ∀ s, (s = n.body ∨ ' ' :: s = n.body) → splitAsciiWhitespace s = (n.feats.map (·.2)).map VwFeat.render := by
    intro s hs
    have := (tokens_ok h).2
    rw [List.map_map]
    rcases hs with rfl | hs
    · exact this
    · rw [← hs, show (' ' :: s) = [' '] ++ s from rfl, runs_skip _ _ _ (by simp [isAsciiWs])] at this
      exact this
  obtain ⟨r, hr⟩ : ∃ r, n.body = ' ' :: r := by
    unfold VwNs.Spaced at hs
    cases hb : n.body with
    | nil => rw [hb] at hs; simp at hs
    | cons x r => rw [hb] at hs; simp at hs; exact ⟨r, by rw [hs]⟩
  suffices hinfo : ∃ rem v, (rem = n.body ∨ ' ' :: rem = n.body) ∧ parseNamespaceInfo pr (n.head ++ n.body) = .ok (rem, n.info, v) by
    obtain ⟨rem, v, h1, h2⟩ := hinfo
    unfold extractNamespaceFeatures
    rw [h2]
    simp only [bind, Except.bind]
    rw [htok rem h1, show (0#32 : U32) = BitVec.ofNat 32 0 from rfl, hc]
    rfl
  cases hname : n.name with
  | none =>
    have hhead : n.head = [] := by simp [VwNs.head, hname]
    refine ⟨r, Flt.one, Or.inr hr.symm, ?_⟩
    rw [hhead, List.nil_append, hr]
    simp [parseNamespaceInfo, startsWith, VwNs.info, hname]
  | some e =>
    have hne := head_ne h (by simp [hname])
    have hsp := head_noSpace h
    have hst : startsWith ' ' (n.head ++ n.body) = false := startsWith_plain hsp hne
    obtain ⟨t1, t2⟩ := takeWhile_stop (r := r) hsp
    have hh := h.head
    rw [hname] at hh
    suffices htk : ∃ v, parseNamespaceInfoToken pr n.head = .ok (e.1, v) by
      obtain ⟨v, hv⟩ := htk
      refine ⟨n.body, v, Or.inl rfl, ?_⟩
      unfold parseNamespaceInfo
      rw [hst, hr, t1, t2]
      simp only [Bool.false_eq_true, if_false, hv, bind, Except.bind]
      simp [VwNs.info, hname]
    obtain ⟨s, sc⟩ := e
    cases sc with
    | none =>
      have hhead : n.head = s := by simp [VwNs.head, hname]
      refine ⟨Flt.one, ?_⟩
      unfold parseNamespaceInfoToken
      rw [hhead, split_none _ _ (plain_colon hh.2)]
      rfl
    | some sc =>
      have hhead : n.head = s ++ ':' :: sc := by simp [VwNs.head, hname]
      obtain ⟨v, hv⟩ := Option.isSome_iff_exists.1 hh.2.2.2
      refine ⟨v, ?_⟩
      unfold parseNamespaceInfoToken
      rw [hhead, split_append _ _ _ (plain_colon hh.2.1), split_none _ _ (plain_colon hh.2.2.1)]
      simp [hv]

theorem lookup_filter_ne {β : Type} (i j : NsInfo) (h : i ≠ j) : ∀ m : List (NsInfo × β), (m.filter (fun x => x.1 ≠ j)).lookup i = m.lookup i
  | [] => rfl
  | (k, v) :: m => by
    rw [List.filter_cons]
    by_cases hk : k = j
    · subst hk
      have : (i == k) = false := by simpa using h
      simp [List.lookup_cons, this]
      simpa using lookup_filter_ne i k h m
    · simp only [ne_eq, hk, not_false_eq_true, decide_true, if_true, List.lookup_cons]
      rw [show (List.filter (fun x => decide ¬x.1 = j) m).lookup i = m.lookup i from lookup_filter_ne i j h m]

theorem lastNames_step {nss : List VwNs} {n : VwNs} {m : List (NsInfo × List ParsedFeature)} (h : LastNames nss m) :
    LastNames (nss ++ [n]) (insertName m (n.info, n.names)) := by
  intro i
  unfold insertName
  rw [List.lookup_cons, List.filter_append]
  by_cases hi : n.info = i
  · subst hi; simp
  · have : (i == n.info) = false := by simpa using fun he => hi he.symm
    rw [this]
    simp only [List.filter_cons, List.filter_nil, hi, decide_false, Bool.false_eq_true, if_false, List.append_nil]
    rw [lookup_filter_ne i n.info (fun he => hi he.symm)]
    exact h i

theorem extracts_ok (pr : Parser F) : ∀ (nss pre : List VwNs) (m : List (NsInfo × List ParsedFeature)),
    (∀ n ∈ nss, n.Valid pr.parseFloat ∧ n.NoOverflow pr ∧ n.Spaced) → LastNames pre m →
    ∃ m', (nss.map (fun n => n.head ++ n.body)).foldlM (fun m s => do
      let e ← extractNamespaceFeatures pr s
      (.ok (insertName m e) : P _)) m = .ok m' ∧ LastNames (pre ++ nss) m'
  | [], pre, m, _, hm => ⟨m, rfl, by rw [List.append_nil]; exact hm⟩
  | n :: nss, pre, m, h, hm => by
    have hn := h n (by simp)
    obtain ⟨m', q1, q2⟩ := extracts_ok pr nss (pre ++ [n]) (insertName m (n.info, n.names)) (fun a ha => h a (by simp [ha])) (lastNames_step hm)
    refine ⟨m', ?_, by rw [List.append_assoc] at q2; exact q2⟩
    rw [List.map_cons, List.foldlM_cons, extract_ok pr n hn.1 hn.2.1 hn.2.2]
    exact q1

theorem segments_ok {pf : Str → Option F} {h : VwHead} (hv : h.Valid) (nss : List VwNs) (hn : ∀ n ∈ nss, n.Valid pf) :
    namespaceSegments (h.render ++ nss.flatMap VwNs.render) = nss.map (fun n => n.head ++ n.body) := by
  unfold namespaceSegments
  rw [split_line nss _ (head_bar hv) hn]
  rfl

/-- A named namespace without any space cannot be read. -/
theorem extract_noSpace (pr : Parser F) (n : VwNs) (h : n.Valid pr.parseFloat) (hn : n.name ≠ none) (hb : ' ' ∉ n.body) :
    extractNamespaceFeatures pr (n.head ++ n.body) = .error (.panic .unwrap) := by
  have hsp : ' ' ∉ n.head ++ n.body := by
    rw [List.mem_append, not_or]; exact ⟨head_noSpace h, hb⟩
  have hst : startsWith ' ' (n.head ++ n.body) = false := startsWith_plain (head_noSpace h) (head_ne h hn)
  have hd : (n.head ++ n.body).dropWhile (· != ' ') = [] := by
    rw [List.dropWhile_eq_nil_iff]
    intro x hx
    simpa using fun he : x = ' ' => hsp (he ▸ hx)
  unfold extractNamespaceFeatures parseNamespaceInfo
  rw [hst, hd]
  rfl

theorem foldlM_fails {α β : Type} (f : β → α → P β) : ∀ (l : List α) (b : β), (∃ a ∈ l, ∀ b, ∃ e, f b a = .error e) → ∃ e, l.foldlM f b = .error e
  | [], _, h => by obtain ⟨a, ha, _⟩ := h; simp at ha
  | x :: l, b, h => by
    rw [List.foldlM_cons]
    cases hx : f b x with
    | error e => exact ⟨e, rfl⟩
    | ok b' =>
      obtain ⟨a, ha, hf⟩ := h
      simp only [List.mem_cons] at ha
      rcases ha with rfl | ha
      · obtain ⟨e, he⟩ := hf b; rw [hx] at he; exact absurd he (by simp)
      · exact foldlM_fails f l b' ⟨a, ha, hf⟩

end Vw
end Rml
