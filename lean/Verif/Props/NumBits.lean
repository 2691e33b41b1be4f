import Verif.Model.Shift
import Verif.Lemmas.Create
import Verif.Lemmas.Coin
import Verif.Props.Stack

/-! C113: the number of hash bits. -/

namespace Rml
variable {F : Type} [Flt F]

/-- C113 for the numbers the table can have: both profiles compute the mask, the size of the table and the index of the constant, and create the workspace, as in all other
theorems. -/
theorem C113_small (dbg : Bool) (n : Nat) (h : n ≤ 31) : fromNumBits dbg n = .ok (maskBits n) ∧ bitsToMax dbg n = .ok (bitsToMaxFeatureIndex n) ∧
    constantIndex dbg n = .ok (constantFeatureIndex n) ∧
    ∀ (hash : HashFn) (g : GlobalConfig) (c : RedConfig F), g.numBits = n → Workspace.newIn dbg hash g c = Workspace.new hash g c := by
  have h' : n < 32 := by omega
  refine ⟨?_, ?_, ?_, ?_⟩
  · unfold fromNumBits shl32; rw [if_pos h']; rfl
  · unfold bitsToMax shl32; rw [if_pos h']; rfl
  · unfold constantIndex bitsToMax shl32; rw [if_pos h']; rfl
  · intro hash g c hg
    unfold Workspace.newIn
    cases dbg
    · simp only [Bool.false_eq_true, if_false]
      rw [hg, Nat.mod_eq_of_lt h', ← hg]
    · rfl

/-- C113 in debug builds: larger numbers give no workspace, whatever the stack is, and the mask that every parser computes panics. -/
theorem C113_debug (n : Nat) (h : 32 ≤ n) : maskChecked n = .error .overflow ∧ fromNumBits true n = maskChecked n ∧
    ∀ (hash : HashFn) (g : GlobalConfig) (c : RedConfig F), g.numBits = n → ∀ w, Workspace.newIn true hash g c ≠ .ok w := by
  have h' : ¬ n < 32 := by omega
  refine ⟨by unfold maskChecked; rw [if_neg h'], ?_, ?_⟩
  · unfold fromNumBits shl32 maskChecked; rw [if_neg h', if_neg h']; rfl
  · intro hash g c hg w hw
    have hb := built_of_new (show Workspace.new hash g c = .ok w from hw)
    clear hw
    generalize (⟨w.red, w.st⟩ : (r : Red F) × r.State) = x at hb
    induction hb with
    | coin hc => have := (Coin.new_ok (by decide) hc).1.le31; omega
    | binary _ _ ih => exact ih
    | cbAdf _ _ ih => exact ih
    | greedy _ _ ih => exact ih
    | softmax _ _ ih => exact ih
    | squareCb _ _ _ ih => exact ih
    | debug _ _ ih => exact ih
    | elementwise _ _ ih => exact ih

/-- What release builds do: the number counts modulo 32. -/
theorem C113_release (n : Nat) : fromNumBits false n = .ok (maskBits (n % 32)) ∧ bitsToMax false n = .ok (bitsToMaxFeatureIndex (n % 32)) ∧
    constantIndex false n = .ok (constantFeatureIndex (n % 32)) ∧ (n % 32 = 0 → ∀ h h' : U32, h &&& maskBits (n % 32) = h' &&& maskBits (n % 32)) := by
  have hs : shl32 false 1#32 n = .ok (1#32 <<< (n % 32)) := by
    unfold shl32
    split
    · rename_i h; rw [Nat.mod_eq_of_lt h]
    · rfl
  refine ⟨?_, hs, ?_, ?_⟩
  · unfold fromNumBits; rw [hs]; rfl
  · unfold constantIndex bitsToMax; rw [hs]; rfl
  · intro h0 h h'
    rw [h0]
    simp [maskBits]

section
attribute [local instance] intFlt

/-- C113 fails in release builds: with 32 bits a workspace is created, its table has room for one feature, and every feature is mapped to it. -/
theorem C113_release_false : ∃ (g : GlobalConfig) (m : Meta) (coin : Coin Int) (mask : U32), g.numBits = 32 ∧
    Workspace.newIn false tinyHash g (.coin CoinConfig.dflt) = .ok ⟨.coin m, coin⟩ ∧ coin.weights.weights.length = 8 ∧ fromNumBits false g.numBits = .ok mask ∧
    ∀ h h' : U32, h &&& mask = h' &&& mask := by
  refine ⟨{ tinyGlobal with numBits := 32 }, _, _, _, rfl, rfl, rfl, rfl, fun h h' => ?_⟩
  exact (C113_release 32).2.2.2 rfl h h'

example : ∃ w, Workspace.newIn true tinyHash tinyGlobal (.coin (CoinConfig.dflt (F := Int))) = .ok w ∧ tinyGlobal.numBits ≤ 31 := ⟨_, rfl, by decide⟩

example : ∀ w, Workspace.newIn true tinyHash { tinyGlobal with numBits := 40 } (.debug (.coin (CoinConfig.dflt (F := Int)))) ≠ .ok w :=
  (C113_debug 40 (by decide)).2.2 _ _ _ rfl

end

end Rml
