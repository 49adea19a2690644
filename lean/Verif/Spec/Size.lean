/-
The number of nodes of a network below a node.
-/
import Verif.Spec.Graph

namespace Gospn.Spec

/-- At most `b` nodes can be reached from `u` (including `u`). -/
def AtMostNodes {ι : Type} (ch : ι → List ι) (u : ι) (b : Nat) : Prop := ∃ l : List ι, l.length ≤ b ∧ ∀ v, Reach ch u v → v ∈ l

/-- At least `b` different nodes can be reached from `u` (including `u`). -/
def AtLeastNodes {ι : Type} (ch : ι → List ι) (u : ι) (b : Nat) : Prop := ∃ l : List ι, l.Nodup ∧ l.length = b ∧ ∀ v ∈ l, Reach ch u v

/-- `f 0`, …, `f n` is a path of `n` links. -/
def IsPath {ι : Type} (ch : ι → List ι) (f : Nat → ι) (n : Nat) : Prop := ∀ i < n, f (i + 1) ∈ ch (f i)

/-- All paths from `u` have at most `b` links. -/
def HeightAtMost {ι : Type} (ch : ι → List ι) (u : ι) (b : Nat) : Prop := ∀ f n, f 0 = u → IsPath ch f n → n ≤ b

/-- No node that can be reached from `u` lies on a cycle. -/
def NoCycleBelow {ι : Type} (ch : ι → List ι) (u : ι) : Prop := ∀ v, Reach ch u v → ∀ c ∈ ch v, ¬ Reach ch c v

end Gospn.Spec
