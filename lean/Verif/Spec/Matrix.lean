/-
Datasets and their columns.
-/
import Verif.Spec.Data
import Verif.Model.Matrix

namespace Gospn.Spec

/-- All instances have the same variables (the dataset is consistent). -/
def SameVars (D : List VarSet) : Prop := ∀ x ∈ D, ∀ y ∈ D, ∀ k, (x k).isSome = (y k).isSome

/-- The map from column numbers to the variables `cols`. -/
def columnVars (cols : List Int) : VarSet := fun u => if 0 ≤ u then cols[u.toNat]? else none

/-- The dataset has the variables 0, …, m-1 (it is complete). -/
def CompleteVars (m : Nat) (D : List VarSet) : Prop := ∀ x ∈ D, ∀ k, (x k).isSome ↔ 0 ≤ k ∧ k < m

end Gospn.Spec
