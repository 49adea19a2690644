/-
Model of the recursion of structure learning (learn/gens/gens.go): which calls a call of `Learn` (or of `LearnGauss`, or of their concurrent variants) can
make. The arguments that a call passes on unchanged (the number of clusters, the parameters of DBSCAN, the p-value, the number of Gaussians) are parameters;
what the code leaves open (the order of maps, the outcomes of the tests, the k-means library) is existentially quantified, as in Model/Gens.lean.
Whether the call made returns is no part of it, so that it can be asked how deep calls can be nested.
-/
import Verif.Model.Gens

namespace Gospn
open GoFloat
variable {F : Type} [GoFloat F]

/-- `LearnCalls k eps mp a b`: the call with the scope and the data `a` can call itself with the scope and the data `b`.
learn/gens/gens.go:45-70 `Learn`, 116-157 `indepStep` and 159-199 `clusterStep`. -/
inductive LearnCalls (k : Int) (eps : F) (mp : Int) : VarScope × List VarSet → VarScope × List VarSet → Prop
  /-- Lines 65-67 and 123-151: the call for the set `s` of the independence graph. -/
  | indep {Sc Sc' : VarScope} {D : List VarSet} (keys : List Int) (K : List (List Int)) (s : List Int) :
      Sc.Order keys → keys.length ≠ 1 → IndepSets Sc D K → 1 < K.length → s ∈ K → subScope Sc s = some Sc' →
      LearnCalls k eps mp (Sc, D) (Sc', subData D s)
  /-- Lines 68-69 and 162-187: the call for the cluster `d`. -/
  | cluster {Sc : VarScope} {D : List VarSet} (keys : List Int) (K : List (List Int)) (C : List (List VarSet)) (d : List VarSet) (order : List Int) :
      Sc.Order keys → keys.length ≠ 1 → IndepSets Sc D K → ¬ 1 < K.length → Clustered k eps mp D C → C.length ≠ 1 → d ∈ C → Sc.Order order →
      LearnCalls k eps mp (Sc, D) (reflectScope Sc order, d)

end Gospn
