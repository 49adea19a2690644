import Verif.Spec.Learn
import Mathlib.Analysis.SpecialFunctions.Log.Basic
/-
What a run of soft discriminative learning is, and what it should be.
-/
namespace Gospn.Spec
open Gospn
variable {ι : Type} [DecidableEq ι]

/-- `S` gives the instance `I` the probability `x`. -/
def HasProb (N : Net ι XR) (S : ι) (I : VarSet) (x : ℝ) : Prop := ∃ p, IsValuation N S p ∧ LeafProbs N S I p ∧ p S = x

/-- `d` is the partial derivative of `log S(I) - log S(I without Y)`, the conditional log-likelihood of the query variables `Y`, with respect to weight `j` of `n`, which is `a` now. -/
def IsCondGradient (N : Net ι XR) (S : ι) (Y : List Int) (I : VarSet) (n : ι) (j : Nat) (a d : ℝ) : Prop :=
  ∃ p q, (IsValuation N S p ∧ LeafProbs N S I p ∧ 0 < p S) ∧ (IsValuation N S q ∧ LeafProbs N S (hide Y I) q ∧ 0 < q S) ∧
    (∃ v v', WeightPerturbed N S p n j v ∧ WeightPerturbed N S q n j v') ∧
    ∀ v v', WeightPerturbed N S p n j v → WeightPerturbed N S q n j v' → HasDerivAt (fun x => Real.log (v x S) - Real.log (v' x S)) d a

/-- What the instance `I` adds to weight `j` of the root: for the first weight the conditional gradient, for the others the difference of the derivatives of `S(I)` and of `S(I without Y)`. -/
def IsRootGain (N : Net ι XR) (S : ι) (Y : List Int) (I : VarSet) (j : Nat) (a x : ℝ) : Prop :=
  (j = 0 → IsCondGradient N S Y I S 0 a x) ∧ (j ≠ 0 → ∃ d d', IsGradient N S I S j a d ∧ IsGradient N S (hide Y I) S j a d' ∧ x = d - d')

/-- How the weights `w` of a sum node come to be `w'` when the new weights are `r'`: if `norm` is set the least weight is subtracted from all if it is negative, and the weights are then divided by their
sum: they are NaN if that is zero. -/
def Normalized (norm : Bool) (r' : List ℝ) (w' : List XR) : Prop :=
  (norm = false → w' = r'.map XR.fin) ∧
  (norm = true → 0 < (shiftNonneg r').sum → w' = ((shiftNonneg r').map (· / (shiftNonneg r').sum)).map XR.fin) ∧
  (norm = true → (shiftNonneg r').sum = 0 → w' = r'.map fun _ => .nan)

/-- One step at the root on a block of instances: no other node changes, and every weight `a` of the root moves by `eta / b` times the sum of what the instances of the block add to it, less
`2 * lambda * a`. -/
def RootStep (S : ι) (eta lambda b : ℝ) (norm : Bool) (Y : List Int) (B : List VarSet) (N N' : Net ι XR) : Prop :=
  (∀ n, n ≠ S → N'.kind n = N.kind n) ∧ ∃ (cs : List ι) (r r' : List ℝ) (w' : List XR), N.kind S = .sum cs (r.map XR.fin) ∧ N'.kind S = .sum cs w' ∧ r'.length = r.length ∧ Normalized norm r' w' ∧
    ∀ j a, r[j]? = some a → ∃ xs, List.Forall₂ (fun I x => IsRootGain N S Y I j a x) B xs ∧ r'[j]? = some (a + eta / b * xs.sum - 2 * lambda * a)

/-- A run of such steps, one per block, each at the weights the one before has left. -/
inductive RootRun (S : ι) (eta lambda b : ℝ) (norm : Bool) (Y : List Int) : List (List VarSet) → Net ι XR → Net ι XR → Prop
  | nil (N : Net ι XR) : RootRun S eta lambda b norm Y [] N N
  | cons {B : List VarSet} {Bs : List (List VarSet)} {N N' N'' : Net ι XR} : RootStep S eta lambda b norm Y B N N' → RootRun S eta lambda b norm Y Bs N' N'' →
      RootRun S eta lambda b norm Y (B :: Bs) N N''

/-- What a step should be: every weight `a` of every sum node below `S` moves by `eta / b` times the sum of the conditional gradients, less `2 * lambda * a`. -/
def CondStep (S : ι) (eta lambda b : ℝ) (norm : Bool) (Y : List Int) (B : List VarSet) (N N' : Net ι XR) : Prop :=
  ∀ n, Reach N.ch S n → ∀ cs w, N.kind n = .sum cs w → ∃ (r r' : List ℝ) (w' : List XR), w = r.map XR.fin ∧ N'.kind n = .sum cs w' ∧ r'.length = r.length ∧ Normalized norm r' w' ∧
    ∀ j a, r[j]? = some a → ∃ xs, List.Forall₂ (fun I x => IsCondGradient N S Y I n j a x) B xs ∧ r'[j]? = some (a + eta / b * xs.sum - 2 * lambda * a)

/-- The next step would be at negative weights, or on an instance that is impossible (with or without the values of `Y`). -/
def Blocked (N : Net ι XR) (S : ι) (Y : List Int) (B : List VarSet) : Prop :=
  ¬ NonnegWeights N S ∨ ∃ I ∈ B, HasProb N S I 0 ∨ HasProb N S (hide Y I) 0

end Gospn.Spec
