import Verif.Spec.Spn
import Mathlib.Analysis.Calculus.Deriv.Basic
/-
Partial derivatives of an SPN. Values are probabilities (not logarithms) here.
-/
namespace Gospn.Spec
open Gospn
variable {ι : Type}

/-- The real number of a finite weight. -/
def realOf : XR → ℝ
  | .fin r => r
  | _ => 0

/-- What a node computes from the values `v` of its children, `x` being its value if it is a leaf. -/
noncomputable def nodeValue (k : Kind ι XR) (x : ℝ) (v : ι → ℝ) : ℝ :=
  match k with
  | .leaf _ => x
  | .sum cs w => (List.zipWith (fun c w => realOf w * v c) cs w).sum
  | .product cs => (cs.map v).prod

/-- `p` gives every node below `S` the value it computes from its children, except that leaves may have any non-negative value. -/
def IsValuation (N : Net ι XR) (S : ι) (p : ι → ℝ) : Prop :=
  ∀ m, Reach N.ch S m → p m = nodeValue (N.kind m) (p m) p ∧ 0 ≤ p m

/-- `v x` is the valuation of the nodes below `S` when the value of node `n` is held at `x`: all other nodes compute their values, leaves keep theirs. -/
def Perturbed (N : Net ι XR) (S : ι) (p : ι → ℝ) (n : ι) (v : ℝ → ι → ℝ) : Prop :=
  ∀ x, v x n = x ∧ ∀ m, Reach N.ch S m → m ≠ n → v x m = nodeValue (N.kind m) (p m) (v x)

/-- `d` is the partial derivative of the value of `S` with respect to the value of `n`, at the valuation `p`. -/
def IsPartial (N : Net ι XR) (S : ι) (p : ι → ℝ) (n : ι) (d : ℝ) : Prop :=
  (∃ v, Perturbed N S p n v) ∧ ∀ v, Perturbed N S p n v → HasDerivAt (fun x => v x S) d (p n)

/-- `k` with weight `j` replaced by `x`. -/
def setWeight (k : Kind ι XR) (j : Nat) (x : ℝ) : Kind ι XR :=
  match k with
  | .sum cs w => .sum cs (w.set j (.fin x))
  | k => k

/-- `v x` is the valuation of the nodes below `S` when weight `j` of sum node `n` is `x`. -/
def WeightPerturbed [DecidableEq ι] (N : Net ι XR) (S : ι) (p : ι → ℝ) (n : ι) (j : Nat) (v : ℝ → ι → ℝ) : Prop :=
  ∀ x m, Reach N.ch S m → v x m = nodeValue (if m = n then setWeight (N.kind m) j x else N.kind m) (p m) (v x)

/-- `d` is the partial derivative of the value of `S` with respect to weight `j` of `n`, which is `w` now. -/
def IsWeightPartial [DecidableEq ι] (N : Net ι XR) (S : ι) (p : ι → ℝ) (n : ι) (j : Nat) (w d : ℝ) : Prop :=
  (∃ v, WeightPerturbed N S p n j v) ∧ ∀ v, WeightPerturbed N S p n j v → HasDerivAt (fun x => v x S) d w

/-- Inner nodes below `S` are arranged in levels: every edge between inner nodes goes down one level. -/
def Levelled (N : Net ι XR) (S : ι) : Prop :=
  ∃ level : ι → Nat, ∀ u, Reach N.ch S u → ∀ c ∈ N.ch u, N.type c ≠ .leaf → level c = level u + 1

/-- Inner nodes below `S` form a tree: no inner node has two parents (leaves may be shared). -/
def InnerTree (N : Net ι XR) (S : ι) : Prop :=
  ∀ u, Reach N.ch S u → ∀ u', Reach N.ch S u' → ∀ c, c ∈ N.ch u → c ∈ N.ch u' → N.type c ≠ .leaf → u = u'

end Gospn.Spec
