/-
The functions that use the graph search of package test: testClassify of app/image.go and the counts of learn/poon/poon.go.
-/
import Verif.Model.TestInit

namespace Gospn
open GoFloat
variable {ι F : Type} [DecidableEq ι] [Fintype ι] [GoFloat F]

/-- app/image.go:59-78 `testClassify`: the pairs of values printed as different and the storage. The loop is that of `doBFS` with a queue, written with `work` as the callback's call of `Value` can panic. An entry that is missing reads as 0. -/
def testClassify (N : Net ι F) (S : ι) (val : VarSet) (st : Storer ι F) (itk : Int) : Option (List (F × F) × Storer ι F) :=
  (N.storeInference S val itk st).bind fun r =>
    (work (fun (log : List (F × F)) s =>
      (N.value val s).map fun u =>
        let v := (r.2.single itk s).getD (ofInt 0)
        (if !GoFloat.eq v u then log ++ [(v, u)] else log, some (N.ch s))) false S []).map fun log => (log, r.2.reset itk)

/-- learn/poon/poon.go:611-623 and 638-649, the counts of sums, products and leaves printed by `Test` and `LearnGD`. -/
def poonCounts (ch : ι → List ι) (ty : ι → NodeType) (S : ι) : Option (Nat × Nat × Nat) :=
  doBFS ch S (fun q s =>
    (if ty s = .sum then (q.1 + 1, q.2.1, q.2.2) else if ty s = .product then (q.1, q.2.1 + 1, q.2.2) else (q.1, q.2.1, q.2.2 + 1), true)) none (0, 0, 0)

end Gospn
