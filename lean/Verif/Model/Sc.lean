/-
Model of the method `Sc` of the nodes.

The field `sc` of the nodes is a map from nodes to lists, as in Verif/Model/Structure.lean; nil and the empty list are the same: the only places that write the field
(spn/utils.go:350-354, spn/product.go:26) never leave an empty list that is not nil.
-/
import Verif.Model.Structure

namespace Gospn
variable {ι F : Type} [DecidableEq ι]

/-- spn/product.go:25-27: one child; the state is the fields of all nodes. -/
def productScStep (rec : (ι → List Int) → ι → Option (List Int × (ι → List Int))) (n : ι) (raw : ι → List Int) (c : ι) : Option (ι → List Int) :=
  (rec raw c).map fun r => Function.update r.2 n (r.2 n ++ r.1)

/-- One call of `Sc` with the calls on children given by `rec`: spn/node.go:84-86 for leaves, spn/sum.go:34-39, spn/product.go:23-30. The result and the fields afterwards.
`copy(s.sc, …)` copies as many elements as `s.sc`, which is nil there, has: none. `s.ch[0]` panics without children. -/
def Net.scStep (N : Net ι F) (rec : (ι → List Int) → ι → Option (List Int × (ι → List Int))) (raw : ι → List Int) (n : ι) : Option (List Int × (ι → List Int)) :=
  match N.kind n with
  | .leaf _ => some (raw n, raw)
  | .sum cs _ =>
    if raw n = [] then (cs.head?).bind fun c => (rec raw c).map fun r => (r.2 n, r.2)
    else some (raw n, raw)
  | .product cs =>
    if raw n = [] then (cs.foldlM (productScStep rec n) raw).map fun raw' => (raw' n, raw')
    else some (raw n, raw)

/-- `n.Sc()` with calls nested at most `k` deep. -/
def Net.scGo (N : Net ι F) : Nat → (ι → List Int) → ι → Option (List Int × (ι → List Int))
  | 0, _, _ => none
  | k + 1, raw, n => N.scStep (N.scGo k) raw n

/-- `n.Sc()`: without a cycle, calls are not nested deeper than there are nodes. -/
def Net.sc [Fintype ι] (N : Net ι F) (raw : ι → List Int) (n : ι) : Option (List Int × (ι → List Int)) := N.scGo (Fintype.card ι) raw n

end Gospn
