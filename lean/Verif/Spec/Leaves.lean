import Verif.Spec.Stats
import Verif.Model.Spn
/-
What a user expects of the Gaussian leaves of a learned network.
-/
namespace Gospn.Spec
open Gospn

/-- The values of variable `v` in the data, in order; 0 where there is none. -/
def column (v : Int) (D : List VarSet) : List Int := D.map fun I => (I v).getD 0

/-- `mu` lies within the data and `sigma` is positive. -/
def Describes (X : List Int) (mu sigma : ℝ) : Prop := (∃ a ∈ X, (a : ℝ) ≤ mu) ∧ (∃ b ∈ X, mu ≤ (b : ℝ)) ∧ 0 < sigma

/-- The deviation fitted to a sample: that of the sample, or one half if all numbers are equal. -/
noncomputable def fittedSd (Q : List Int) : ℝ := if sampleSd Q = 0 then 1 / 2 else sampleSd Q

/-- `G` cuts `X` into `g` parts that are not empty. -/
structure CutsInto (g : Nat) (X : List Int) (G : List (List Int)) : Prop where
  length : G.length = g
  all : G.flatten = X
  nonempty : ∀ Q ∈ G, Q ≠ []

/-- The parts are quantiles: what is in a part is not larger than what is in a later one. -/
def InOrder (G : List (List Int)) : Prop := G.Pairwise fun P Q => ∀ a ∈ P, ∀ b ∈ Q, a ≤ b

end Gospn.Spec
