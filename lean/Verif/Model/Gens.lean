/-
Model of structure learning (learn/gens/gens.go) and of the scopes it passes around (learn/variable.go).

Learning builds a network by allocating nodes and adding children to them. `Learned N … Sc D u` says: in the finished network `N` the node `u` can be what
`Learn(Sc, D, …)` returned. The rules follow the branches of the code. What the code leaves open is existentially quantified in the rules: the order in which
maps are gone through, the random choice of the mode of a leaf, the result of every independence test, the result of the k-means library and, for the
concurrent variants, the order in which the children are added. A panic anywhere means that nothing is returned, hence that no rule applies.
How deep calls are nested, and whether they end, is in Model/LearnCalls.lean. Not modelled: the names of variables, goroutines as such (their effects are the additions
of the children under a lock, in some order).
-/
import Verif.Model.Matrix
import Verif.Model.Multinom
import Verif.Model.Stats

namespace Gospn
open GoFloat

/-- learn/variable.go:13-20 `Variable`, without the name. -/
structure Variable where
  varid : Int
  categories : Int

/-- A `map[int]*learn.Variable`. -/
abbrev VarScope := Int → Option Variable

/-- `keys` is an order in which a loop over the map can go. -/
def VarScope.Order (Sc : VarScope) (keys : List Int) : Prop := keys.Nodup ∧ ∀ k, k ∈ keys ↔ (Sc k).isSome

/-- learn/gens/gens.go:73-76, 96-99: count the values of a variable. An instance without the variable counts as value 0. -/
def countValues (v : Variable) (D : List VarSet) : Option (List Int) :=
  if v.categories < 0 then none
  else D.foldlM (fun counts I => (goIdx counts (I.get v.varid)).bind fun c => goSet counts (I.get v.varid) (c + 1)) (List.replicate v.categories.toNat 0)

/-- learn/gens/gens.go:131-138: the values of the variables `s` in all instances, copied. -/
def subData (D : List VarSet) (s : List Int) : List VarSet :=
  D.map fun I => s.foldl (fun m k => m.set k (I.get k)) VarSet.empty

/-- learn/gens/gens.go:139-143: the scope of the variables `s`; a variable that is not in the scope is a nil pointer. -/
def subScope (Sc : VarScope) (s : List Int) : Option VarScope :=
  s.foldlM (fun (m : VarScope) t => (Sc t).map fun v => fun k => if k = t then some ⟨t, v.categories⟩ else m k) (fun _ => none)

/-- learn/variable.go:177-190 `DataToVarData`: ids, categories and columns of the variables, in the order of the map. -/
def dataToVarData (Sc : VarScope) (keys : List Int) (D : List VarSet) : Option (List (Variable × List Int)) :=
  keys.mapM fun k => (Sc k).map fun v => (v, D.map fun I => I.get v.varid)

/-- learn/variable.go:161-167 `ReflectScope`, along the order `keys`. -/
def reflectScope (Sc : VarScope) (keys : List Int) : VarScope :=
  keys.foldl (fun (m : VarScope) u => fun k => if k = u then Sc u else m k) (fun _ => none)

section
variable {ι F : Type} [GoFloat F]

/-- learn/gens/gens.go:72-78 `newMultinom`: `u` is the leaf it returns. -/
def IsMultinom (N : Net ι F) (v : Variable) (D : List VarSet) (u : ι) : Prop :=
  ∃ (rand : Nat → Nat) (counts : List Int) (l : Leaf F), (∀ n, 0 < n → rand n < n) ∧ countValues v D = some counts ∧
    newCountingMultinomial rand v.varid counts = some l ∧ N.kind u = .leaf l

/-- learn/gens/gens.go:80-88 `newGaussMix`, 103-110: `u` is the sum it returns, `cs` are the leaves added in the loop. -/
def IsGaussMix (N : Net ι F) (varid g : Int) (D : List VarSet) (u : ι) : Prop :=
  ∃ (Q : List (List F)) (cs : List ι), partitionQuantiles (extractInstance varid D) g = some Q ∧ cs.length = Q.length ∧
    N.kind u = .sum cs (Q.map fun _ => div (ofInt 1) (ofInt (Q.length : Int))) ∧
    ∀ (i : Nat) q c, Q[i]? = some q → cs[i]? = some c → ∃ mu sigma, q[0]? = some mu ∧ q[1]? = some sigma ∧ N.kind c = .leaf (.gaussian varid mu sigma)

/-- The univariate distribution: a multinomial for `g <= 0` (learn/gens/gens.go:48-54, 92-101), else a mixture of `g` Gaussians (223-229, 102-110). -/
def IsUnivariate (N : Net ι F) (g : Int) (v : Variable) (D : List VarSet) (u : ι) : Prop :=
  if g ≤ 0 then IsMultinom N v D u else IsGaussMix N v.varid g D u

/-- learn/gens/gens.go:90-114 `newFullyFactorized`. -/
def IsFactorized (N : Net ι F) (g : Int) (Sc : VarScope) (D : List VarSet) (u : ι) : Prop :=
  ∃ (keys : List Int) (cs : List ι), Sc.Order keys ∧ cs.length = keys.length ∧ N.kind u = .product cs ∧
    ∀ (i : Nat) k c, keys[i]? = some k → cs[i]? = some c → ∃ v, Sc k = some v ∧ IsUnivariate N g v D c

/-- learn/gens/gens.go:162-171: a possible result of clustering. `ord` is the order in which the maps are gone through; `assign` is the k-means library, which
returns one number per row. -/
def Clustered (k : Int) (eps : F) (mp : Int) (D : List VarSet) (C : List (List VarSet)) : Prop :=
  ∃ ord : MapOrder, (∀ t, ∀ x ∈ D, (ord t x).Nodup ∧ ∀ v, v ∈ ord t x ↔ (x v).isSome) ∧ if k > 0 then
    k ≤ D.length ∧ ∃ assign : Int → List (List F) → Option (List Int), (∀ M G, assign k M = some G → G.length = M.length) ∧ kMeansDataI assign ord k D = some C
  else dbscanData ord D eps mp = some C

/-- The sets `Kset` of the independence graph of the variables of the scope, for some outcome of the tests (learn/gens/gens.go:58-60; utils/indep/indgraph.go). -/
def IndepSets (Sc : VarScope) (D : List VarSet) (K : List (List Int)) : Prop :=
  ∃ (keys : List Int) (vd : List (Variable × List Int)) (test : Nat → Nat → Bool), Sc.Order keys ∧ dataToVarData Sc keys D = some vd ∧
    newUFIndepGraph (vd.map fun x => x.1.varid) test = some K

/-- learn/gens/gens.go:45-70 `Learn` (`g <= 0`) and 221-238 `LearnGauss` (`g > 0`), with 21-38 and 201-218, their concurrent variants. -/
inductive Learned (N : Net ι F) (g k : Int) (eps : F) (mp : Int) : VarScope → List VarSet → ι → Prop
  /-- Lines 48-54, 223-229: a scope of one variable. -/
  | leaf {Sc : VarScope} {D : List VarSet} {u : ι} (key : Int) (v : Variable) : Sc.Order [key] → Sc key = some v → IsUnivariate N g v D u → Learned N g k eps mp Sc D u
  /-- `indepStep` (lines 116-157): `cs i` is the SPN learned for the set number `i`; `ds` are the children in the order in which they were added. -/
  | product {Sc : VarScope} {D : List VarSet} {u : ι} (keys : List Int) (K : List (List Int)) (scs : Nat → VarScope) (cs ds : List ι) :
      Sc.Order keys → keys.length ≠ 1 → IndepSets Sc D K → 1 < K.length → cs.length = K.length →
      (∀ (i : Nat) s, K[i]? = some s → subScope Sc s = some (scs i)) →
      (∀ (i : Nat) s c, K[i]? = some s → cs[i]? = some c → Learned N g k eps mp (scs i) (subData D s) c) →
      N.kind u = .product ds → ds.Perm cs → Learned N g k eps mp Sc D u
  /-- `clusterStep`, lines 163-165 and 172-174: too few instances, or one cluster. -/
  | factorized {Sc : VarScope} {D : List VarSet} {u : ι} (keys : List Int) (K : List (List Int)) :
      Sc.Order keys → keys.length ≠ 1 → IndepSets Sc D K → ¬ 1 < K.length →
      ((0 < k ∧ (D.length : Int) < k) ∨ ∃ C, Clustered k eps mp D C ∧ C.length = 1) → IsFactorized N g Sc D u → Learned N g k eps mp Sc D u
  /-- `clusterStep`, lines 175-197: `cs i` is the SPN learned for cluster number `i`; `ps` are the children and weights in the order in which they were added. -/
  | sum {Sc : VarScope} {D : List VarSet} {u : ι} (keys : List Int) (K : List (List Int)) (C : List (List VarSet)) (orders : Nat → List Int) (cs : List ι) (ps : List (ι × F)) :
      Sc.Order keys → keys.length ≠ 1 → IndepSets Sc D K → ¬ 1 < K.length → Clustered k eps mp D C → C.length ≠ 1 → cs.length = C.length →
      (∀ i, Sc.Order (orders i)) →
      (∀ (i : Nat) d c, C[i]? = some d → cs[i]? = some c → Learned N g k eps mp (reflectScope Sc (orders i)) d c) →
      ps.Perm (cs.zip (C.map fun d => div (ofInt (d.length : Int)) (ofInt (D.length : Int)))) →
      N.kind u = .sum (ps.map Prod.fst) (ps.map Prod.snd) → Learned N g k eps mp Sc D u

end
end Gospn
