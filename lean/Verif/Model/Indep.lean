/-
Independence tests: utils/indep/gtest.go, the tests of utils/indep/chisq.go, and the contingency tables of utils/indep/indgraph.go.

`chi x df` stands for `ChiSquare(x, df)` (chisq.go:14-17), the distribution function of gonum. `none` is a panic.
`lgamma`, `ugamma`, `Chisquare`, `Chisqr` of chisq.go, which nothing calls, are in Verif/Model/Chisq.lean.
-/
import Verif.Model.Data
import Verif.Model.UnionFind

namespace Gospn
open GoFloat
variable {F : Type} [GoFloat F]

/-- `m[i][j]`. -/
def goIdx2 {α : Type} (m : List (List α)) (i j : Int) : Option α := (goIdx m i).bind fun r => goIdx r j

/-- `m[i][j] = a`. -/
def goSet2 {α : Type} (m : List (List α)) (i j : Int) (a : α) : Option (List (List α)) :=
  (goIdx m i).bind fun r => (goSet r j a).bind fun r' => goSet m i r'

/-- utils/vardata.go:6-13 `VarData`. -/
structure VarData where
  varid : Int
  categories : Int
  data : List Int

/-- utils/indep/indgraph.go:81-91 and 208-218: the matrix of zeros, and one more in the cell of each pair of values. -/
def countPairs (p q : Int) (X Y : List Int) : Option (List (List Int)) :=
  goFor X.length (List.replicate (p + 1).toNat (List.replicate (q + 1).toNat 0)) fun m k =>
    (goIdx X k).bind fun a => (goIdx Y k).bind fun b => (goIdx2 m a b).bind fun c => goSet2 m a b (c + 1)

/-- utils/indep/indgraph.go:226-229 (and 99-102): the loop over the columns of row `x`; the state is `tx` and `ty`. -/
def rowTotal (m : List (List Int)) (x q : Int) (tx : List Int) : Option (List Int × Int) :=
  goFor q (tx, (0 : Int)) fun st y =>
    (goIdx2 m x y).bind fun c => (goIdx st.1 y).bind fun t => (goSet st.1 y (t + c)).map fun tx => (tx, st.2 + c)

/-- utils/indep/indgraph.go:222-231 (and 95-104): totals of the rows; the state is the matrix and `tx`. -/
def rowTotals (p q : Int) (m : List (List Int)) : Option (List (List Int) × List Int) :=
  goFor p (m, List.replicate q.toNat (0 : Int)) fun st x =>
    (rowTotal st.1 x q st.2).bind fun r => (goSet2 st.1 x q r.2).map fun m => (m, r.1)

/-- utils/indep/indgraph.go:234-239 (and 107-112): totals of the columns and of everything. -/
def colTotals (p q : Int) (m : List (List Int)) (tx : List Int) : Option (List (List Int)) :=
  (goFor q (m, (0 : Int)) fun st y => (goIdx tx y).bind fun t => (goSet2 st.1 p y t).map fun m => (m, st.2 + t)).bind fun r =>
    goSet2 r.1 p q r.2

/-- utils/indep/indgraph.go:206-239 and 79-112: the contingency table of two variables. -/
def contingency (p q : Int) (X Y : List Int) : Option (List (List Int)) :=
  (countPairs p q X Y).bind fun m => (rowTotals p q m).bind fun r => colTotals p q r.1 r.2

/-- utils/indep/gtest.go:20 and chisq.go:171: the expected frequency of a cell. -/
def expectedFreq (p q : Int) (m : List (List Int)) (i j : Int) : Option F :=
  (goIdx2 m p j).bind fun c => (goIdx2 m i q).bind fun r => (goIdx2 m p q).map fun n => div (ofInt (c * r)) (ofInt n)

/-- utils/indep/gtest.go:13-22 and chisq.go:160-174: the expected frequencies `E`. -/
def expectedAll (p q : Int) (m : List (List Int)) : Option (List (List F)) :=
  (List.range p.toNat).mapM fun (i : Nat) => (List.range q.toNat).mapM fun (j : Nat) => expectedFreq p q m i j

/-- utils/indep/gtest.go:30-42: one cell. -/
def gCell (m : List (List Int)) (E : List (List F)) (i : Int) (s : F) (j : Int) : Option F :=
  (goIdx2 E i j).bind fun e =>
    if eq e (ofInt 0) then some s
    else (goIdx2 m i j).map fun c =>
      let o : F := ofInt c
      if eq o (ofInt 0) then s else add s (mul o (log (div o e)))

/-- utils/indep/gtest.go:25-46: the statistic. -/
def gStatistic (p q : Int) (m : List (List Int)) : Option F :=
  (expectedAll p q m).bind fun E =>
    (goFor p (ofInt 0) fun s i => goFor q s (gCell m E i)).map fun s => mul s (ofInt 2)

/-- utils/indep/gtest.go:11-51 `GTest`; the argument `n` is not used by the code. -/
def gTest (chi : F → Int → F) (p q : Int) (m : List (List Int)) (sigval : F) : Option Bool :=
  (gStatistic p q m).map fun s => le sigval (sub (ofInt 1) (chi s ((p - 1) * (q - 1))))

/-- utils/indep/chisq.go:180-184: one cell. -/
def chiCell (m : List (List Int)) (E : List (List F)) (i : Int) (s : F) (j : Int) : Option F :=
  (goIdx2 E i j).bind fun e => (goIdx2 m i j).map fun c =>
    if eq e (ofInt 0) && c == 0 then s
    else
      let d := sub (ofInt c) e
      add s (div (mul d d) e)

/-- utils/indep/chisq.go:177-186: the statistic. -/
def chiStatistic (p q : Int) (m : List (List Int)) : Option F :=
  (expectedAll p q m).bind fun E => goFor p (ofInt 0) fun s i => goFor q s (chiCell m E i)

/-- utils/indep/chisq.go:154-196 `ChiSquareTest`. -/
def chiSquareTest (chi : F → Int → F) (p q : Int) (m : List (List Int)) (sigval : F) : Option Bool :=
  (chiStatistic p q m).map fun s => le sigval (sub (ofInt 1) (chi s ((p - 1) * (q - 1))))

/-- utils/indep/indgraph.go:206-245: the test of the variables at positions `i` and `j`. -/
def testPair (chi : F → Int → F) (data : List VarData) (pval : F) (i j : Nat) : Option Bool :=
  (data[i]?).bind fun x => (data[j]?).bind fun y =>
    (contingency x.categories y.categories x.data y.data).bind fun m => gTest chi x.categories y.categories m pval

/-- utils/indep/indgraph.go:170-269 `NewUFIndepGraph`, the result `Kset`: as `newUFIndepGraph`, with the test in its place. -/
def newUFIndepGraphOf (chi : F → Int → F) (data : List VarData) (pval : F) : Option (List (List Int)) :=
  ((pairsBelow data.length).foldlM (fun (u : UF) (p : Nat × Nat) =>
      (u.find p.1).bind fun (u1, a) =>
      (u1.find p.2).bind fun (u2, b) =>
        if a = b then some u2
        else (testPair chi data pval p.1 p.2).bind fun indep =>
          if !indep then (u2.union p.1 p.2).map (·.1)
          else some u2) (makeAll (data.map (·.varid)))).bind fun u => collectSets u data.length

end Gospn
