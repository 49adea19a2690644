/-
Structure learning followed by parameter learning: `LearnGD` of learn/dennis and learn/poon.

The networks that `Structure` makes have names of nodes from an infinite type; what follows is a function of a network with finitely many nodes, of which one is the root,
and is applied to a copy (`IsCopy`) of what `Structure` returns: the nodes in memory, under other names. Counting nodes, printing and timing have no effect on what is returned.
-/
import Verif.Model.Learn
import Verif.Model.Structure

namespace Gospn
open GoFloat
variable {ι F : Type} [GoFloat F] [DecidableEq ι] [Fintype ι]

/-- learn/dennis/dennis.go:217-219 in `LearnGD`: `parameters.Bind(S, P)` and `learn.Generative(S, D)`, where `P` is the pointer `p`. -/
def Net.dennisLearnGD (N : Net ι F) (S : ι) (D : List VarSet) (p : Nat) (B : Bindings ι F) (mo : RangeOrder ι F) (pick : Nat → ι → Nat → Nat) : Option (Net ι F × Bindings ι F) :=
  N.generative S D (B.bind (.obj S) p) mo pick

/-- learn/poon/poon.go:638-654 in `LearnGD`: `NormalizeSPN(S)` and `GenerativeHardBGD(S, eta, eps, D, nil, true, 50)`, which looks up `S.Parameters()` (learn/generative.go:216)
and does not use `eps`. -/
def Net.poonLearnGD (N : Net ι F) (S : ι) (D : List VarSet) (eta : F) (B : Bindings ι F) (mo : RangeOrder ι F) (pick : Nat → ι → Nat → Nat) : Option (Net ι F × Bindings ι F) :=
  (N.normalizeSPN S).bind fun N' =>
  let r := N'.parameters B S
  (r.2.heap[r.1]?).bind fun Q => (N'.generativeHardBGD S Q eta D true 50 mo pick).map (·, r.2)

end Gospn
