/-
Model of the conversion of datasets to matrices and back (learn/variable.go), of the distances (utils/cluster/metrics) and of density-based clustering
(utils/cluster/dbscan.go, utils/cluster/cluster.go).

These functions only read their arguments, and everything they return is newly made, so instances are values here. `none` is a panic.
`ord i I` is the order in which the loop over the map `I` of instance number `i` visits the keys; `len(I)` is the number of keys.
Not modelled: nil datasets (for which the conversions return nil), nil maps, integer overflow.
-/
import Verif.Model.Data
import Verif.Model.UnionFind

namespace Gospn
open GoFloat
variable {F : Type} [GoFloat F]

/-! ### Matrices -/

/-- State of the loops of `DataToMatrix`: rows so far, `Z` (column of a variable), `S` (variable of a column), next free column. -/
structure MatState (α : Type) where
  rows : List (List α)
  Z : VarSet
  S : VarSet
  u : Int

/-- learn/variable.go:82-91, 130-141: write the value of variable `k` to row `row`. -/
def putColumn {α : Type} (conv : Int → α) (I : VarSet) (st : List α × VarSet × VarSet × Int) (k : Int) : Option (List α × VarSet × VarSet × Int) :=
  let (row, Z, S, u) := st
  (I k).bind fun v =>
  match Z k with
  | none => (goSet row u (conv v)).map fun row => (row, Z.set k u, S.set u k, u + 1)
  | some t => (goSet row t (conv v)).map fun row => (row, Z, S, u)

/-- learn/variable.go:79-92, 129-143: add the row of instance number `x.2`. `m` is the length of the rows. -/
def addRow {α : Type} (conv : Int → α) (zero : α) (ord : MapOrder) (m : Nat) (st : MatState α) (x : VarSet × Nat) : Option (MatState α) :=
  ((ord x.2 x.1).foldlM (putColumn conv x.1) (List.replicate m zero, st.Z, st.S, st.u)).map fun r => ⟨st.rows ++ [r.1], r.2.1, r.2.2.1, r.2.2.2⟩

/-- learn/variable.go:68-95 `DataToMatrix` (`conv` is the identity) and 117-147 `DataToMatrixF` (`conv` is `float64`). `zero` is the value `make` fills in. -/
def dataToMatrix {α : Type} (conv : Int → α) (zero : α) (ord : MapOrder) (D : List VarSet) : Option (List (List α) × VarSet) :=
  (D[0]?).bind fun I0 =>
  (D.zipIdx.foldlM (addRow conv zero ord (ord 0 I0).length) ⟨[], VarSet.empty, VarSet.empty, 0⟩).map fun st => (st.rows, st.S)

/-- learn/variable.go:51-65 `CompleteDataToMatrix` and 100-114 `CompleteDataToMatrixF`. -/
def completeDataToMatrix {α : Type} (conv : Int → α) (zero : α) (ord : MapOrder) (D : List VarSet) : Option (List (List α)) :=
  (D[0]?).bind fun I0 =>
  let m := (ord 0 I0).length
  D.zipIdx.mapM fun (x : VarSet × Nat) => (ord x.2 x.1).foldlM (fun row k => (x.1 k).bind fun v => goSet row k (conv v)) (List.replicate m zero)

/-- learn/variable.go:150-159 `MatrixToData`. -/
def matrixToData (M : List (List Int)) : List VarSet :=
  M.map fun L => L.zipIdx.foldl (fun (I : VarSet) (x : Int × Nat) => I.set x.2 x.1) VarSet.empty

/-- learn/variable.go:40-46 `ExtractInstance`. -/
def extractInstance (v : Int) (D : List VarSet) : List Int := D.map fun I => I.get v

/-- utils/cluster/cluster.go:62-72 `guessToData`. -/
def guessToData (k : Int) (G : List Int) (M : List (List F)) (Sc : VarSet) : Option (List (List VarSet)) :=
  if k < 0 then none else
  G.zipIdx.foldlM (fun C (g : Int × Nat) => (M[g.2]?).bind fun row =>
    goPush C g.1 (row.zipIdx.foldl (fun (I : VarSet) (x : F × Nat) => I.set (Sc.get x.2) (toInt x.1)) VarSet.empty)) (List.replicate k.toNat [])

/-- utils/cluster/kmeans.go:115-119 `KMeansDataI`; `assign` is `kmeansMuesli`, which calls a library for k-means. -/
def kMeansDataI (assign : Int → List (List F) → Option (List Int)) (ord : MapOrder) (k : Int) (D : List VarSet) : Option (List (List VarSet)) :=
  (dataToMatrix (ofInt : Int → F) (ofInt 0) ord D).bind fun (M, Sc) => (assign k M).bind fun G => guessToData k G M Sc

/-! ### Distances -/

/-- utils/cluster/metrics/euclid.go:6-14 `Euclidean`. -/
def euclidean (p q : List Int) : Option F :=
  (p.zipIdx.foldlM (fun (s : F) (x : Int × Nat) => (q[x.2]?).map fun y => add s (mul (ofInt (x.1 - y)) (ofInt (x.1 - y)))) (ofInt 0)).map sqrt

/-- utils/cluster/metrics/euclid.go:16-23 `EuclideanF`. -/
def euclideanF (p q : List F) : Option F :=
  (p.zipIdx.foldlM (fun (s : F) (x : F × Nat) => (q[x.2]?).map fun y => add s (mul (sub x.1 y) (sub x.1 y))) (ofInt 0)).map sqrt

/-- utils/cluster/metrics/hamming.go:4-13 `Hamming`. -/
def hamming (p q : List Int) : Option Int :=
  p.zipIdx.foldlM (fun s (x : Int × Nat) => (q[x.2]?).map fun y => if x.1 ≠ y then s + 1 else s) 0

/-- utils/cluster/metrics/hamming.go:15-24 `HammingF`. -/
def hammingF (p q : List Int) : Option F :=
  p.zipIdx.foldlM (fun (s : F) (x : Int × Nat) => (q[x.2]?).map fun y => if x.1 ≠ y then add s (ofInt 1) else s) (ofInt 0)

/-! ### DBSCAN -/

/-- State of the loop of `dbscanInternal`: the union-find nodes, `vst`, `vindex` and `queue`. -/
structure ScanState where
  uf : UF
  vst : Nat → Bool
  vindex : Nat
  queue : List Nat

/-- utils/cluster/dbscan.go:37-50: the neighbours of `p` that are not in its cluster. `near p i` is `dmatrix[p][i] <= eps`. -/
def neighbours (near : Nat → Nat → Bool) (n p : Nat) (u : UF) : Option (UF × List Nat) :=
  (List.range n).foldlM (fun (st : UF × List Nat) i =>
    if i ≠ p ∧ near p i then
      (st.1.find i).bind fun (u1, a) => (u1.find p).bind fun (u2, b) => some (u2, if a ≠ b then st.2 ++ [i] else st.2)
    else some st) (u, [])

/-- utils/cluster/dbscan.go:54-59. -/
def absorb (p : Nat) (nbh : List Nat) (st : ScanState) : Option ScanState :=
  nbh.foldlM (fun (st : ScanState) q =>
    (st.uf.union p q).map fun (u, _) => { st with uf := u, vst := setAt (setAt st.vst p true) q true, queue := st.queue ++ [q] }) st

/-- utils/cluster/dbscan.go:64-69. -/
def select (n : Nat) (st : ScanState) : ScanState :=
  (List.range' st.vindex (n - st.vindex)).foldl (fun (st : ScanState) i =>
    if st.vst i = false then { st with queue := st.queue ++ [i], vindex := i + 1 } else st) st

/-- utils/cluster/dbscan.go:33-71, the loop. -/
def scanLoop (near : Nat → Nat → Bool) (n : Nat) (mp : Int) : Nat → ScanState → Option UF
  | 0, _ => none
  | fuel + 1, st =>
    match st.queue with
    | [] => some st.uf
    | p :: rest =>
      (neighbours near n p st.uf).bind fun (u, nbh) =>
      (if mp ≤ (nbh.length : Int) then absorb p nbh { st with uf := u, queue := rest } else some { st with uf := u, queue := rest }).bind fun st =>
      scanLoop near n mp fuel (if st.queue = [] then select n st else st)

/-- utils/cluster/dbscan.go:23-74, after the distance matrix. The number of iterations suffices for every input (`scan_spec`). -/
def scan (near : Nat → Nat → Bool) (n : Nat) (mp : Int) : Option UF :=
  scanLoop near n mp (n * n + n + 2) ⟨makeAll ((List.range n).map fun (i : Nat) => (i : Int)), fun _ => false, 0, [0]⟩

/-- utils/cluster/dbscan.go:15-22: the distance matrix. -/
def distances (data : List (List F)) : Option (List (List F)) :=
  data.mapM fun x => data.mapM fun y => euclideanF x y

/-- `dmatrix[p][i] <= eps`. -/
def nearBy (dm : List (List F)) (eps : F) (p i : Nat) : Bool :=
  match (dm[p]?).bind (·[i]?) with
  | some d => le d eps
  | none => false

/-- utils/cluster/dbscan.go:10-75 `dbscanInternal`. -/
def dbscanInternal (data : List (List F)) (eps : F) (mp : Int) : Option UF :=
  (distances data).bind fun dm => scan (nearBy dm eps) data.length mp

/-- utils/cluster/dbscan.go:82-104 `DBSCAN`. A cluster is a map from row numbers to rows; a row that is shorter than the first is filled with zeros
(`make([]int, m)`, then `copy`), a longer one is cut. -/
def dbscan (data : List (List Int)) (eps : F) (mp : Int) : Option (List (Int → Option (List Int))) :=
  (dbscanInternal (data.map (·.map (ofInt : Int → F))) eps mp).bind fun u =>
  (data[0]?).bind fun d0 =>
  (collectSets u data.length).bind fun K => K.mapM fun s =>
    s.foldlM (fun (c : Int → Option (List Int)) l => (goIdx data l).map fun row =>
      fun z => if z = l then some (row.take d0.length ++ List.replicate (d0.length - row.length) 0) else c z) (fun _ => none)

/-- utils/cluster/dbscan.go:106-121 `DBSCANData`. -/
def dbscanData (ord : MapOrder) (D : List VarSet) (eps : F) (mp : Int) : Option (List (List VarSet)) :=
  (dataToMatrix (ofInt : Int → F) (ofInt 0) ord D).bind fun (M, Sc) =>
  (dbscanInternal M eps mp).bind fun u =>
  ((List.range M.length).foldlM (fun (st : List Int × Int) (i : Nat) =>
      if u.pa i = i then
        (u.varids i).bind fun ch => (ch.foldlM (fun G c => goSet G c (i : Int)) st.1).map fun G => (G, st.2 + 1)
      else some st) (List.replicate M.length (0 : Int), (0 : Int))).bind fun (G, k) => guessToData k G M Sc

end Gospn
