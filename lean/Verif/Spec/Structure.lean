import Verif.Model.Structure
import Verif.Spec.Spn
/-
Normalised weight vectors and paths.
-/
namespace Gospn.Spec
open Gospn
variable {ι : Type}

/-- A probability vector. -/
def IsDist (r : List ℝ) : Prop := (∀ x ∈ r, 0 ≤ x) ∧ r.sum = 1

/-- The smallest entry, or 0 if all are positive. -/
def minOrZero (v : List ℝ) : ℝ := v.foldl min 0

/-- The vector shifted so that no entry is negative; not changed if none was. -/
noncomputable def shiftNonneg (v : List ℝ) : List ℝ := v.map (fun x => x - minOrZero v)

/-- There is a path of `k` edges from `a` to `b`. -/
inductive Steps (ch : ι → List ι) : Nat → ι → ι → Prop
  | zero (a : ι) : Steps ch 0 a a
  | succ {k : Nat} {a b c : ι} : Steps ch k a b → c ∈ ch b → Steps ch (k + 1) a c

/-- `k` is the number of edges on a longest path from `a` to a node without children. -/
def IsLongestPath (ch : ι → List ι) (a : ι) (k : Nat) : Prop :=
  (∃ b, Steps ch k a b ∧ ch b = []) ∧ ∀ j b, Steps ch j a b → ch b = [] → j ≤ k

/-- All paths from `S` to the same node have the same length. -/
def Graded (ch : ι → List ι) (S : ι) : Prop := ∀ n j k, Steps ch j S n → Steps ch k S n → j = k

/-- Exactly the leaves have no children. -/
def LeavesAreLeaves {F : Type} (N : Net ι F) (S : ι) : Prop := ∀ n, Reach N.ch S n → N.type n ≠ .leaf → N.ch n ≠ []

/-- The field `sc` of every leaf is what the constructors set it to. -/
def LeafScopes {F : Type} (N : Net ι F) (S : ι) (raw : ι → List Int) : Prop :=
  ∀ n l, Reach N.ch S n → N.kind n = .leaf l → raw n = [leafVar l]

end Gospn.Spec
