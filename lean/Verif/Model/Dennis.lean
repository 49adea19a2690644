/-
Structure learning after Dennis and Ventura: learn/dennis.

A scope (`map[int]*learn.Variable`) is the finite set of its keys: the variables it points to are never looked at. Regions are only made by
`newGraph` and `validateRegion`, which makes none for a scope that has one, so a region is named by its scope; its position in `G.R` gives its id.
A partition is named by the region it belongs to and the two scopes it splits it into (`existsPartition` lets none in twice). Random draws, the
results of the k-means library and the orders of ranging over maps are given by a `DEnv`; `none` as a result is a panic.
-/
import Verif.Model.Matrix
import Verif.Model.Gauss
import Verif.Model.Stats
import Verif.Model.Structure
import Verif.Model.Topo
import Mathlib.Data.Finset.Sort

namespace Gospn
open GoFloat
variable {F : Type} [GoFloat F]

/-- learn/dennis/scope.go:8 `scope`. -/
abbrev Scope := Finset Int

/-- learn/dennis/scope.go:22-29 `subsetOf`. -/
def Scope.subsetOf (s t : Scope) : Bool := decide (∀ q ∈ s, q ∈ t)

/-- learn/dennis/scope.go:32-49 `lenUnion`: the smaller set is ranged over. -/
def Scope.lenUnion (s t : Scope) : Nat :=
  let (l, T, S) := if t.card > s.card then (t.card, s, t) else (s.card, t, s)
  l + (T.filter fun k => k ∉ S).card

/-- learn/dennis/scope.go:52-60 `lenIntersect`. -/
def Scope.lenIntersect (s t : Scope) : Nat := (t.filter fun k => k ∈ s).card

/-- learn/dennis/scope.go:63-71 `minus`. -/
def Scope.minus (s t : Scope) : Scope := s.filter fun k => k ∉ t

/-- learn/dennis/scope.go:74-91 `equal`. -/
def Scope.equal (s t : Scope) : Bool :=
  if s.card ≠ t.card then false
  else
    let (S, T) := if s.card > t.card then (s, t) else (t, s)
    decide (∀ k ∈ S, k ∈ T)

/-- learn/dennis/scope.go:11-18 `contains`. -/
def scopesContain (S : List Scope) (s : Scope) : Bool := S.any fun r => s.equal r

/-- learn/dennis/scope.go:101-108 `similarTo`. The two quotients are finite, so their maximum is above `d` iff one of them is. -/
def Scope.similarTo (s r t : Scope) (d : F) : Bool :=
  if s.card = 0 ∨ t.card = 0 then false
  else
    let p1 : F := div (ofInt (s.lenIntersect r)) (ofInt (s.lenUnion r))
    let p2 : F := div (ofInt (s.lenIntersect t)) (ofInt (s.lenUnion t))
    lt d p1 || lt d p2

/-- learn/dennis/graph.go:11-16 `graph`: `G.R` (the root comes first), the keys of `G.P`, and the partitions of every region, each by the scopes of its two children. -/
structure RGraph where
  R : List Scope
  P : List (Nat × Nat × Nat)
  ch : Scope → List (Scope × Scope)

/-- learn/dennis/graph.go:18-21 `newGraph`. -/
def newRGraph (sc : Scope) : RGraph := ⟨[sc], [], fun _ => []⟩

/-- The field `id` of a region: the root has id 0 (graph.go:19, region.go:17), and the first region that is registered has it too, since `gId` starts at 0
(graph.go:20, 23-27). -/
def RGraph.id (G : RGraph) (s : Scope) : Nat := G.R.idxOf s - 1

/-- learn/dennis/graph.go:42-51 `validateRegion` with 23-27 `registerRegion`. -/
def RGraph.validate (G : RGraph) (s : Scope) : RGraph := if G.R.any fun r => s.equal r then G else { G with R := G.R ++ [s] }

/-- learn/dennis/graph.go:34-38 `existsPartition`. -/
def RGraph.existsPartition (G : RGraph) (r s t : Scope) : Bool := decide ((G.id r, G.id s, G.id t) ∈ G.P)

/-- learn/dennis/dennis.go:97-105 with graph.go:29-32 `registerPartition`: make the partition unless it exists. -/
def RGraph.link (G : RGraph) (r s t : Scope) : RGraph :=
  if G.existsPartition r s t then G
  else { G with ch := Function.update G.ch r (G.ch r ++ [(s, t)]), P := (G.id r, G.id s, G.id t) :: G.P }

/-- What the code does not decide: the labels that `KMeansI(2, ·)` gives in its `t`-th call and `kmeansMuesli(k, ·)` in `KMeansDataI` (both in a library), the order in which the
`t`-th call of `clusterToMatrix` ranges over `C`, in which the conversion to a matrix and, for cluster `i`, `dataToCluster` range over instances, and the `t`-th value of `RandIntn(n)`. -/
structure DEnv (F : Type) where
  km : Nat → List (List F) → Option (List Int)
  order : Nat → List (Int × List Int) → List (Int × List Int)
  assign : Int → List (List F) → Option (List Int)
  ord : MapOrder
  ords : Nat → MapOrder
  pick : Nat → Nat → Nat

/-- learn/dennis/dennis.go:117-136 `clusterToMatrix`: rows are made for as many variables as `S` has; `V` gives the variable of a row, zero if there is none. -/
def clusterToMatrix (C : List (Int × List Int)) (S : Scope) : List (List F) × (Nat → Int) :=
  let rows := C.filter fun x => x.1 ∈ S
  (rows.map (fun x => x.2.map (ofInt : Int → F)) ++ List.replicate (S.card - rows.length) [], fun i => (rows[i]?.map (·.1)).getD 0)

/-- Body of learn/dennis/dennis.go:142-145: put the variable of row `i` into the scope its label tells. -/
def placeVar (V : Nat → Int) (s : Scope × Scope) (x : Int × Nat) : Option (Scope × Scope) :=
  if x.1 = 0 then some (insert (V x.2) s.1, s.2)
  else if x.1 = 1 then some (s.1, insert (V x.2) s.2)
  else none

/-- learn/dennis/dennis.go:138-147 `partitionScope`. -/
def partitionScope (E : DEnv F) (t : Nat) (sn : Scope) (C : List (Int × List Int)) : Option (Scope × Scope) :=
  let MV : List (List F) × (Nat → Int) := clusterToMatrix (E.order t C) sn
  (E.km t MV.1).bind fun S => S.zipIdx.foldlM (placeVar MV.2) (∅, ∅)

/-- learn/dennis/dennis.go:84-93: the scopes to split into, given those that `partitionScope` found. -/
def chooseScopes (S : List Scope) (sn : Scope) (d : F) (s : Scope × Scope) : Scope × Scope :=
  match S.find? fun r => r.subsetOf sn && !r.equal sn && r.similarTo s.1 s.2 d with
  | some r => (r, sn.minus r)
  | none => s

/-- learn/dennis/dennis.go:81-114 `expandRegionGraph`; the counter is the number of calls of `partitionScope`. -/
def expandRegionGraph (E : DEnv F) (d : F) (C : List (Int × List Int)) : Nat → Scope → RGraph × Nat → Option (RGraph × Nat)
  | 0, _, _ => none
  | fuel + 1, sn, x =>
    (partitionScope E x.2 sn C).bind fun p =>
    let S := x.1.R
    let s := chooseScopes S sn d p
    let G := ((x.1.validate s.1).validate s.2).link sn s.1 s.2
    (if !scopesContain S s.1 && decide (s.1.card > 1) then expandRegionGraph E d C fuel s.1 (G, x.2 + 1) else some (G, x.2 + 1)).bind fun x =>
    if !scopesContain S s.2 && decide (s.2.card > 1) then expandRegionGraph E d C fuel s.2 x else some x

/-- learn/dennis/dennis.go:44-53 `dataToCluster`; the map has the keys 0, …, len(D)-1, in order here. -/
def dataToCluster (ord : MapOrder) (D : List VarSet) : Option (List (List Int)) :=
  D.zipIdx.mapM fun (x : VarSet × Nat) => (ord x.2 x.1).foldlM (fun row k => (x.1 k).bind fun v => goSet row k v) (List.replicate (ord x.2 x.1).length 0)

/-- learn/dennis/dennis.go:12-26 `transpose`, given the rows in the order of their keys. -/
def transposeRows (rows : List (List Int)) : List (Int × List Int) :=
  (List.range (rows.foldl (fun n r => max n r.length) 0)).map fun (i : Nat) => ((i : Int), rows.filterMap (·[i]?))

/-- learn/dennis/dennis.go:55-77 `buildRegionGraph`. -/
def buildRegionGraph (E : DEnv F) (D : List VarSet) (sc : Scope) (k : Int) (d : F) : Option RGraph :=
  ((if k > 1 then
      (kMeansDataI E.assign E.ord k D).bind fun C => C.zipIdx.mapM fun x => (dataToCluster (E.ords x.2) x.1).map transposeRows
    else if k = 1 then (dataToCluster (E.ords 0) D).map fun C => [transposeRows C]
    else (completeDataToMatrix id 0 E.ord D).bind fun M => (dbscan M (ofInt 4 : F) 4).map fun C =>
      C.map fun c => transposeRows ((List.range M.length).filterMap fun (i : Nat) => c (i : Int))).bind fun Cs =>
    Cs.foldlM (fun x P => expandRegionGraph E d P (sc.card + 1) sc x) (newRGraph sc, 0)).map (·.1)

/-- The nodes of the network: the Gaussians of a variable, the sums of a region and the products of a partition, by their positions. -/
inductive DNode
  | leaf (v : Int) (i : Nat)
  | sum (s : Scope) (i : Nat)
  | prod (s s1 s2 : Scope) (i : Nat)
deriving DecidableEq

/-- The memory of `buildSPN`: the nodes of the regions (`rep`), the parameters of the Gaussians, children and weights of sums, children of products, and the number of random draws. -/
structure DState (F : Type) where
  rep : Scope → List DNode
  gauss : Int → List (F × F)
  kids : DNode → List (DNode × F)
  pch : DNode → List DNode
  draws : Nat

/-- learn/dennis/region.go:24-50 `translate`: the nodes of a region, and the parameters of its Gaussians. A scope with one variable is recognised by its sorted list of elements. -/
def translateRegion (D : List VarSet) (m g : Nat) (s : Scope) (st : DState F) : Option (DState F × List DNode) :=
  match s.sort (· ≤ ·) with
  | [v] =>
    let X := extractInstance v D
    (if g > D.length then some [statMuSigma X]
     else (partitionQuantiles (F := F) X (g : Int)).bind fun Q => Q.mapM fun q => q[0]?.bind fun a => q[1]?.map fun b => (a, b)).map fun gs =>
    let N := (List.range gs.length).map (DNode.leaf v)
    ({ st with rep := Function.update st.rep s N, gauss := Function.update st.gauss v gs }, N)
  | _ =>
    let N := (List.range m).map (DNode.sum s)
    some ({ st with rep := Function.update st.rep s N }, N)

/-- learn/dennis/dennis.go:169-176: the products become children of a sum, with random weights from 1 to 10; a node that is not a sum panics. -/
def addProducts (pick : Nat → Nat → Nat) (O : List DNode) (x : (DNode → List (DNode × F)) × Nat) (n : DNode) : Option ((DNode → List (DNode × F)) × Nat) :=
  match n with
  | .sum _ _ => some (O.foldl (fun x o => (Function.update x.1 n (x.1 n ++ [(o, ofInt ((pick x.2 10 : Int) + 1))]), x.2 + 1)) x)
  | _ => none

/-- Body of learn/dennis/dennis.go:162-188: the products of one partition. -/
def buildPartition (pick : Nat → Nat → Nat) (s : Scope) (N : List DNode) (st : DState F) (p : Scope × Scope) : Option (DState F) :=
  let S1 := st.rep p.1
  let S2 := st.rep p.2
  let O := (List.range (S1.length * S2.length)).map (DNode.prod s p.1 p.2)
  (N.foldlM (addProducts pick O) (st.kids, st.draws)).map fun x =>
  { st with kids := x.1, draws := x.2,
            pch := (O.zip (S1.flatMap fun a => S2.map fun b => [a, b])).foldl (fun f y => Function.update f y.1 (f y.1 ++ y.2)) st.pch }

/-- Body of learn/dennis/dennis.go:152-189 for one region. -/
def buildRegion (pick : Nat → Nat → Nat) (D : List VarSet) (m g : Nat) (root : Scope) (G : RGraph) (st : DState F) (s : Scope) : Option (DState F) :=
  (if s = root then some ({ st with rep := Function.update st.rep s [DNode.sum s 0] }, [DNode.sum s 0]) else translateRegion D m g s st).bind fun x =>
  (G.ch s).foldlM (buildPartition pick s x.2) x.1

/-- The nodes of the region graph (learn/dennis/graph.go:7-9). -/
inductive RNode
  | region (s : Scope)
  | part (s s1 s2 : Scope)
deriving DecidableEq

/-- The fields `ch` of regions and partitions. -/
def RGraph.children (G : RGraph) : RNode → List RNode
  | .region s => (G.ch s).map fun p => .part s p.1 p.2
  | .part _ s1 s2 => [.region s1, .region s2]

/-- learn/dennis/graph.go:61-91 `postorderRec` and `postorder`: the recursion is that of `PostOrder`, except that only regions are put into the slice.
The depth suffices if every partition splits its region into smaller ones (`postorder_spec`). -/
def RGraph.postorder (G : RGraph) (root : Scope) : List Scope :=
  (postOrderRec G.children (2 * root.card + 1) (.region root) ({.region root}, ⟨false, []⟩)).2.items.filterMap fun n =>
    match n with
    | .region s => some s
    | .part _ _ _ => none

/-- learn/dennis/dennis.go:149-192 `buildSPN`. -/
def buildSPN (pick : Nat → Nat → Nat) (D : List VarSet) (m g : Nat) (root : Scope) (G : RGraph) : Option (DNode × DState F) :=
  ((G.postorder root).foldlM (buildRegion pick D m g root G) ⟨fun _ => [], fun _ => [], fun _ => [], fun _ => [], 0⟩).bind fun st =>
  (st.rep root)[0]?.map fun n => (n, st)

/-- The network in memory. -/
def DState.net (st : DState F) : Net DNode F :=
  ⟨fun n => match n with
    | .leaf v i => match (st.gauss v)[i]? with
      | some g => .leaf (newGaussianParams v g.1 g.2)
      | none => .sum [] []
    | .sum s i => .sum ((st.kids (.sum s i)).map (·.1)) ((st.kids (.sum s i)).map (·.2))
    | .prod s s1 s2 i => .product (st.pch (.prod s s1 s2 i))⟩

/-- The effect of `NormalizeSPN` on the sums of a network, according to C26. -/
def Net.normalized {ι : Type} (N : Net ι F) : Net ι F :=
  ⟨fun n => match N.kind n with
    | .sum cs w => .sum cs (spnNorm w)
    | k => k⟩

/-- learn/dennis/dennis.go:194-201 `Structure`: the root and the network. -/
def dennisStructure (E : DEnv F) (D : List VarSet) (sc : Scope) (k : Int) (m g : Nat) (d : F) : Option (DNode × Net DNode F) :=
  (buildRegionGraph E D sc k d).bind fun G => (buildSPN E.pick D m g sc G).map fun x => (x.1, x.2.net.normalized)

end Gospn
