import Verif.Model.Multinom
import Verif.Spec.Graph
import Mathlib.Logic.Function.Basic
/-
What a copy of a network is.
-/
namespace Gospn.Spec
open Gospn
variable {ι κ F : Type}

/-- The node with `f` applied to its children. -/
def relabel (f : κ → ι) : Kind κ F → Kind ι F
  | .sum cs w => .sum (cs.map f) w
  | .product cs => .product (cs.map f)
  | .leaf l => .leaf l

/-- `N'` is the part of `N` below `S` up to the names of the nodes: same types, same parameters, same order of children, same sharing; `S'` is the root. -/
def IsCopy (N : Net ι F) (S : ι) (N' : Net κ F) (S' : κ) : Prop :=
  ∃ f : κ → ι, Function.Injective f ∧ f S' = S ∧ (∀ x, Reach N.ch S x ↔ ∃ i, f i = x) ∧ ∀ i, relabel f (N'.kind i) = N.kind (f i)

/-- The numbers below `n` among the children. -/
def finKind (n : Nat) : Kind Nat F → Kind (Fin n) F
  | .sum cs w => .sum (cs.filterMap (fun c => if h : c < n then some ⟨c, h⟩ else none)) w
  | .product cs => .product (cs.filterMap (fun c => if h : c < n then some ⟨c, h⟩ else none))
  | .leaf l => .leaf l

/-- The network given by a list of nodes that refer to each other by position; positions out of range and missing nodes count as no node. -/
def netOf (ks : List (Option (Kind Nat F))) : Net (Fin ks.length) F where
  kind i := match ks[i] with
    | some k => finKind ks.length k
    | none => .product []

/-- The parameters of a node after weights and probabilities have gone through `f6`. The mode of a multinomial is found again, its scope is its variable. -/
def storedKind [GoFloat F] (f6 : F → F) : Kind ι F → Kind ι F
  | .sum cs w => .sum cs (w.map f6)
  | .product cs => .product cs
  | .leaf (.indicator v x) => .leaf (.indicator v x)
  | .leaf (.multinomial _ v pr _ _) => .leaf (.multinomial [v] v (pr.map f6) (computeMode (pr.map f6)).1 (computeMode (pr.map f6)).2)
  | .leaf (.gaussian v mu sigma) => .leaf (.gaussian v mu sigma)

/-- The network after that. -/
def stored [GoFloat F] (f6 : F → F) (N : Net ι F) : Net ι F := ⟨fun n => storedKind f6 (N.kind n)⟩

/-- The parameters of a node survive: weights and probabilities are not changed by `f6`, scope and mode of a multinomial are the standard ones. -/
def Survives [GoFloat F] (f6 : F → F) : Kind ι F → Prop
  | .sum _ w => ∀ x ∈ w, f6 x = x
  | .leaf (.multinomial sc v pr mi mv) => (∀ x ∈ pr, f6 x = x) ∧ sc = [v] ∧ computeMode pr = (mi.toNat, mv) ∧ 0 ≤ mi
  | _ => True

end Gospn.Spec
