/-
Model of test/init.go.
-/
import Verif.Model.Search
import Verif.Model.Real
import Verif.Model.Spn

namespace Gospn

/-- test/init.go:10-42 `SampleSPN`, the network: node 0 is `R`, 1 and 2 `P1` and `P2`, 3 and 4 `f1` and `f2`, 5 to 8 `S1` to `S4`, 9 and 10 `Y11` and `Y12`, 11 and 12 `Y21` and `Y22`. The modes that `NewMultinomial`
computes are written out, as is the result of the calls of `AddChild` and `AddChildW`. In exact arithmetic. The second result, the instance in which the four variables are 0, is `fourValues 0 0 0 0` in Props/TestInit. -/
noncomputable def sampleSPN : Net (Fin 13) XR := ⟨![.sum [1, 2] [.fin (3 / 10), .fin (7 / 10)], .product [3, 5, 7], .product [6, 8, 4],
  .leaf (.multinomial [0] 0 [.fin (9 / 10), .fin (1 / 10)] 0 (.fin (9 / 10))), .leaf (.multinomial [1] 1 [.fin (6 / 10), .fin (4 / 10)] 0 (.fin (6 / 10))),
  .sum [9, 10] [.fin (6 / 10), .fin (4 / 10)], .sum [9, 10] [.fin (2 / 10), .fin (8 / 10)], .sum [11, 12] [.fin (9 / 10), .fin (1 / 10)], .sum [11, 12] [.fin (5 / 10), .fin (5 / 10)],
  .leaf (.multinomial [2] 2 [.fin (8 / 10), .fin (2 / 10)] 0 (.fin (8 / 10))), .leaf (.multinomial [2] 2 [.fin (3 / 10), .fin (7 / 10)] 1 (.fin (7 / 10))),
  .leaf (.multinomial [3] 3 [.fin (4 / 10), .fin (6 / 10)] 1 (.fin (6 / 10))), .leaf (.multinomial [3] 3 [.fin (9 / 10), .fin (1 / 10)] 0 (.fin (9 / 10)))]⟩

/-- test/init.go:47-70 `DoBFS`: without a collection it uses a queue; the callback reads and writes outside state, and the search ends when it returns false. The collection is empty at first. -/
def doBFS {ι σ : Type} [DecidableEq ι] [Fintype ι] (ch : ι → List ι) (S : ι) (f : σ → ι → σ × Bool) (isStack : Option Bool) (x : σ) : Option σ :=
  work (fun x s =>
    let r := f x s
    if !r.2 then some (r.1, none) else some (r.1, some (ch s))) (isStack.getD false) S x

end Gospn
