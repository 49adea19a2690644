/-
What the distributions that structure learning returns should have to do with the data.
-/
import Verif.Spec.Stats
import Verif.Spec.Leaves
import Verif.Model.Data
import Verif.Model.Spn
import Verif.Model.Real

namespace Gospn.Spec

/-- Relative frequency of `x` in a column. -/
noncomputable def freq (g : List Int) (x : Int) : ℝ := (g.count x : ℝ) / g.length

/-- Relative frequency of `x` if every one of the `c` categories had been seen once more. -/
noncomputable def smoothFreq (c : Int) (g : List Int) (x : Int) : ℝ := ((g.count x : ℝ) + 1) / (g.length + c)

/-- The leaf is estimated from the values `col`: a multinomial by smoothed relative frequencies, a Gaussian by mean and standard deviation of a consecutive part (with one half
instead of a standard deviation of zero, and without any parameters if the part is empty). -/
def LeafFrom (cats : Int → Int) (l : Leaf XR) (col : List Int) : Prop :=
  match l with
  | .multinomial _ v pr _ _ => pr = (List.range (cats v).toNat).map fun (i : Nat) => XR.fin (smoothFreq (cats v) col i)
  | .gaussian _ mu sigma => ∃ Q, Q <:+: col ∧
      ((Q = [] ∧ mu = .nan ∧ sigma = .nan) ∨ (Q ≠ [] ∧ mu = .fin (sampleMean Q) ∧ sigma = .fin (if sampleSd Q = 0 then 1 / 2 else sampleSd Q)))
  | .indicator _ _ => False

end Gospn.Spec
