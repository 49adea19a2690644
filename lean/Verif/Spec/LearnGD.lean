import Verif.Spec.Learn
import Verif.Spec.Shape
import Verif.Model.Matrix
/-
What a user expects of the network after structure and parameter learning.
-/
namespace Gospn.Spec
open Gospn
variable {ι : Type}

/-- `N'` is a valid network of alternating sums and products with the edges, leaves and scopes of `N`, and weights that are not negative; they are probability vectors if `norm` is set. -/
structure TrainedFrom (N : Net ι XR) (S : ι) (norm : Bool) (N' : Net ι XR) : Prop where
  only : OnlyWeights S N N'
  layered : Layered N' S
  scope : ∀ n v, InScope N' n v ↔ InScope N n v
  weights : NonnegWeights N' S
  normalised : norm = true → DistWeights N' S

/-- Every leaf below `S` is a Gaussian with real mean and a real deviation that is not negative. -/
def RealGaussians (N : Net ι XR) (S : ι) : Prop :=
  ∀ n l, Reach N.ch S n → N.kind n = .leaf l → ∃ v, ∃ mu sigma : ℝ, 0 ≤ sigma ∧ l = .gaussian v (.fin mu) (.fin sigma)

/-- Data from which learn/dennis can compute `g` Gaussians for each of the variables 0, …, n-1: at least as many instances as Gaussians, and no quantile is empty; or fewer
instances, and no column is all zeros or has a negative number. -/
def GaussianData (D : List VarSet) (n g : Nat) : Prop :=
  (g ≤ D.length ∧ (D.length < 2 * g ∨ g * (g - 1) < 2 * D.length)) ∨
  (D.length < g ∧ ∀ v : Int, 0 ≤ v → v < n → (∀ I ∈ D, 0 ≤ I.get v) ∧ ∃ I ∈ D, I.get v ≠ 0)

end Gospn.Spec
