import Verif.Model.Spn
import Verif.Spec.Graph
import Verif.Spec.LogSpace
import Mathlib.Data.Finset.Basic
/-
What it means for an SPN to be valid, and what a completion of evidence is. Only the node kinds and `ch` of the model are used.
-/
namespace Gospn.Spec
open Gospn
variable {ι F : Type}

/-- The variable a leaf is a distribution of. -/
def leafVar : Leaf F → Int
  | .indicator v _ => v
  | .multinomial _ v _ _ _ => v
  | .gaussian v _ _ => v

/-- `v` is in the scope of `n`: some leaf below `n` is a distribution of `v`. -/
def InScope (N : Net ι F) (n : ι) (v : Int) : Prop := ∃ m l, Reach N.ch n m ∧ N.kind m = .leaf l ∧ leafVar l = v

/-- At every sum node below `S` all children have the same scope. -/
def IsComplete (N : Net ι F) (S : ι) : Prop :=
  ∀ n, Reach N.ch S n → ∀ cs w, N.kind n = .sum cs w → ∀ c ∈ cs, ∀ d ∈ cs, ∀ v, InScope N c v → InScope N d v

/-- At every product node below `S` the children have pairwise disjoint scopes. -/
def IsDecomposable (N : Net ι F) (S : ι) : Prop :=
  ∀ n, Reach N.ch S n → ∀ cs, N.kind n = .product cs → cs.Pairwise (fun c d => ∀ v, ¬ (InScope N c v ∧ InScope N d v))

/-- At every sum node below `S` there are children and one non-negative real weight per child. -/
def NonnegWeights (N : Net ι XR) (S : ι) : Prop :=
  ∀ n, Reach N.ch S n → ∀ cs w, N.kind n = .sum cs w →
    cs ≠ [] ∧ ∃ r : List ℝ, w = r.map XR.fin ∧ r.length = cs.length ∧ ∀ x ∈ r, 0 ≤ x

/-- At every sum node below `S` the weights are a probability vector with one entry per child. -/
def DistWeights (N : Net ι XR) (S : ι) : Prop :=
  ∀ n, Reach N.ch S n → ∀ cs w, N.kind n = .sum cs w →
    ∃ r : List ℝ, w = r.map XR.fin ∧ r.length = cs.length ∧ (∀ x ∈ r, 0 ≤ x) ∧ r.sum = 1

/-- A discrete distribution on the domain `dom` of its variable. -/
def DiscreteLeaf (dom : Int → Finset Int) : Leaf XR → Prop
  | .indicator v x => x ∈ dom v
  | .multinomial _ v pr _ _ => ∃ q : List ℝ, pr = q.map XR.fin ∧ (∀ x ∈ q, 0 ≤ x) ∧ q.sum = 1 ∧ ∀ x, x ∈ dom v ↔ 0 ≤ x ∧ x < q.length
  | .gaussian _ _ _ => False

/-- Every leaf below `S` is a discrete distribution. -/
def DiscreteLeaves (N : Net ι XR) (S : ι) (dom : Int → Finset Int) : Prop :=
  ∀ n l, Reach N.ch S n → N.kind n = .leaf l → DiscreteLeaf dom l

/-- `J` completes the evidence `I` on the scope of `S`: every variable of the scope has a value of its domain, the one `I` gives if it gives one;
outside the scope nothing changes. -/
def Completion (N : Net ι F) (S : ι) (dom : Int → Finset Int) (I J : VarSet) : Prop :=
  ∀ v, (InScope N S v → (∃ x ∈ dom v, J v = some x) ∧ ∀ x, I v = some x → J v = some x) ∧ (¬ InScope N S v → J v = I v)

/-- The evidence stays within the domains of the variables of `S`. -/
def InDomain (N : Net ι F) (S : ι) (dom : Int → Set Int) (I : VarSet) : Prop :=
  ∀ v, InScope N S v → ∀ x, I v = some x → x ∈ dom v

/-- A leaf with a proper MAP value: the mode recorded in a multinomial is a category of maximal probability and its categories include the
domain of its variable; a Gaussian has a positive standard deviation. -/
def MaxLeaf (dom : Int → Set Int) : Leaf XR → Prop
  | .indicator _ _ => True
  | .multinomial _ v pr mi mv => ∃ (q : List ℝ) (k : Nat) (m : ℝ), pr = q.map XR.fin ∧ (∀ x ∈ q, 0 ≤ x) ∧ mi = k ∧ q[k]? = some m ∧ mv = .fin m ∧
      (∀ x ∈ q, x ≤ m) ∧ (k : Int) ∈ dom v ∧ ∀ x ∈ dom v, 0 ≤ x ∧ x < q.length
  | .gaussian _ mu sigma => ∃ m s, mu = .fin m ∧ sigma = .fin s ∧ 0 < s

/-- A leaf whose most probable value under `I` is the one the code reports: an indicator of the value 0, a Gaussian with an integer mean, or the
variable is observed. -/
def ModeLeaf (dom : Int → Set Int) (I : VarSet) : Leaf XR → Prop
  | .indicator v x => I v ≠ none ∨ (x = 0 ∧ 0 ∈ dom v)
  | .multinomial _ _ _ _ _ => True
  | .gaussian v mu _ => I v ≠ none ∨ ∃ k ∈ dom v, mu = .fin (k : Int)

/-- `J` says at least what `I` says about the variables of `S`. -/
def Extends (N : Net ι F) (S : ι) (I J : VarSet) : Prop := ∀ v, InScope N S v → ∀ x, I v = some x → J v = some x

end Gospn.Spec
