import Mathlib.Analysis.SpecialFunctions.Log.Basic
import Mathlib.Algebra.BigOperators.Group.Finset.Basic
/-
Contingency tables of two observed variables.
-/
namespace Gospn.Spec

/-- How many observations have the value `i` of the first and `j` of the second variable. -/
def jointCount (X Y : List Int) (i j : Nat) : Nat := (X.zip Y).count ((i : Int), (j : Int))

/-- How many observations have the value `i`. -/
def valueCount (X : List Int) (i : Nat) : Nat := X.count (i : Int)

/-- `X` has values below `p` only. -/
def Categorical (p : Nat) (X : List Int) : Prop := ∀ x ∈ X, 0 ≤ x ∧ x < p

/-- `m` is the table of the counts of `X` and `Y` with `p` and `q` categories; the last row and column hold the totals. -/
def IsTable (p q : Nat) (X Y : List Int) (m : List (List Int)) : Prop :=
  m.length = p + 1 ∧ (∀ r ∈ m, r.length = q + 1) ∧
  (∀ i j, i < p → j < q → (m[i]?).bind (·[j]?) = some (jointCount X Y i j : Int)) ∧
  (∀ i, i < p → (m[i]?).bind (·[q]?) = some (valueCount X i : Int)) ∧
  (∀ j, j < q → (m[p]?).bind (·[j]?) = some (valueCount Y j : Int)) ∧
  (m[p]?).bind (·[q]?) = some (X.length : Int)

/-- The observed values are exactly independent: each pair of values occurs in proportion to the counts of its values. -/
def ExactlyIndependent (p q : Nat) (X Y : List Int) : Prop :=
  ∀ i j, i < p → j < q → X.length * jointCount X Y i j = valueCount X i * valueCount Y j

/-- The contribution of a cell to the log-likelihood ratio. -/
noncomputable def gTerm (X Y : List Int) (i j : Nat) : ℝ :=
  (jointCount X Y i j : ℝ) * Real.log ((X.length : ℝ) * jointCount X Y i j / ((valueCount X i : ℝ) * valueCount Y j))

/-- The log-likelihood ratio statistic G (a cell without observations contributes 0). -/
noncomputable def gValue (p q : Nat) (X Y : List Int) : ℝ := 2 * ∑ i ∈ Finset.range p, ∑ j ∈ Finset.range q, gTerm X Y i j

/-- Pearson's statistic; a cell whose row or column is empty contributes 0 (division by zero is 0 here). -/
noncomputable def chiValue (p q : Nat) (X Y : List Int) : ℝ :=
  ∑ i ∈ Finset.range p, ∑ j ∈ Finset.range q,
    ((jointCount X Y i j : ℝ) - (valueCount X i : ℝ) * valueCount Y j / X.length) ^ 2 / ((valueCount X i : ℝ) * valueCount Y j / X.length)

end Gospn.Spec
