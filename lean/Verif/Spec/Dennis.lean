/-
Vocabulary for the structure learning of learn/dennis.
-/
import Verif.Model.Dennis
import Verif.Spec.Matrix

namespace Gospn.Spec
open GoFloat

/-- `a` and `b` are two non-empty sets that split `s`. -/
def ProperSplit (s a b : Finset Int) : Prop := a ∪ b = s ∧ Disjoint a b ∧ a.Nonempty ∧ b.Nonempty

/-- The variables 0, …, n-1. -/
def firstVars (n : Nat) : Finset Int := (Finset.range n).image fun (i : Nat) => (i : Int)

/-- A clustering into `k` clusters, none of them empty. -/
def IsClustering (k : Nat) (n : Nat) (G : List Int) : Prop := G.length = n ∧ (∀ g ∈ G, 0 ≤ g ∧ g < k) ∧ ∀ a : Nat, a < k → (a : Int) ∈ G

/-- What is asked of the clustering library, the map iteration order and the random numbers: k-means of at least as many points as clusters returns a clustering without empty clusters,
ranging over a map yields each key once, and `RandIntn(10)` is below 10. -/
structure GoodEnv {F : Type} (E : DEnv F) (D : List VarSet) (k : Int) : Prop where
  km : ∀ t M, 2 ≤ M.length → ∃ G, E.km t M = some G ∧ IsClustering 2 M.length G
  order : ∀ t C, (E.order t C).Perm C
  assign : 1 < k → ∀ M, M.length = D.length → ∃ G, E.assign k M = some G ∧ IsClustering k.toNat D.length G
  ord : OrdersOf E.ord D
  ords : ∀ i t, ∀ x ∈ D, Enumerates x (E.ords i t x)
  pick : ∀ t, E.pick t 10 < 10

end Gospn.Spec
