/-
Model of the clusterings by reassignment: KMode (utils/cluster/kmode.go), OldKMeans and OldKMeansF (utils/cluster/kmeans.go), KMedoid
(utils/cluster/kmedoid.go).

All of them only read `data`, and the rows they return are copies, so rows are values here. `none` is a panic. `k` is taken to be a natural number
(`make` panics for a negative one, in KMedoid at the end only).

Random draws: each inner loop `for ok := true; ok; _, ok = chkrnd[r] { r = sys.RandIntn(n) }` draws rows until one comes up that was not drawn before. The
model gets the rows these loops end with, in order, as the list `picks` of distinct rows. If all rows have been drawn the loop does not end; then there is no
such list.

A loop that may not end is given as the number `m` of iterations to follow: `none` if one of them panics, `some none` if the loop has not ended after `m`
iterations, `some (some r)` if it has. Not modelled: integer overflow, the output of `fmt.Println`.
-/
import Verif.Model.Matrix

namespace Gospn
open GoFloat

/-! ### The loop shared by KMode, OldKMeans and KMedoid -/

/-- What the loop does with its centres: the distance of a row to centre `j`, adding row number `i` to cluster `which`, taking it out. -/
structure CentreOps (σ : Type) where
  dist : σ → Nat → List Int → Option Int
  insert : σ → Nat → List Int → Nat → Option σ
  remove : σ → Nat → List Int → Nat → Option σ

/-- Variables of the loop: centres and counts, `chkdata` (a map whose keys are row numbers, here a list with one entry per row), `nochange`, `i`. -/
structure CentreLoop (σ : Type) where
  st : σ
  chk : List (Option Nat)
  nochange : Nat
  i : Nat
deriving DecidableEq

variable {σ : Type}

/-- utils/cluster/kmode.go:75-87, kmeans.go:170-182, kmedoid.go:89-101: `min`, `which`, and the loop over the centres. `none` for `which` is -1. -/
def nearestCentre (O : CentreOps σ) (k : Nat) (L : CentreLoop σ) (row : List Int) : Option (Option Nat) :=
  (match L.chk.getD L.i none with
    | some v => (O.dist L.st v row).map fun m => (m, some v)
    | none => some ((row.length : Int) + 1, (none : Option Nat))).bind fun s =>
  ((List.range k).foldlM (fun (s : Int × Option Nat) j =>
    if some j ≠ s.2 then (O.dist L.st j row).map fun t => if t < s.1 then (t, some j) else s else some s) s).map Prod.snd

/-- utils/cluster/kmode.go:75-109, kmeans.go:170-204, kmedoid.go:89-123: one iteration. `which` stays -1 only for `k = 0`, which ends in a panic: at once in
KMedoid, when the result is built (`clusters[-1]`) in the others. -/
def centreStep (O : CentreOps σ) (k : Nat) (data : List (List Int)) (L : CentreLoop σ) : Option (CentreLoop σ) :=
  (data[L.i]?).bind fun row =>
  (nearestCentre O k L row).bind fun which =>
  which.bind fun w =>
  let next := if data.length ≤ L.i + 1 then 0 else L.i + 1
  match L.chk.getD L.i none with
  | none => (O.insert L.st w row L.i).map fun st => ⟨st, L.chk.set L.i (some w), 0, next⟩
  | some v =>
    if v ≠ w then
      (O.remove L.st v row L.i).bind fun st => (O.insert st w row L.i).map fun st => ⟨st, L.chk.set L.i (some w), 0, next⟩
    else some { L with nochange := L.nochange + 1, i := next }

/-- `for nochange < n { … }`, followed for `m` iterations. -/
def centreRun (O : CentreOps σ) (k : Nat) (data : List (List Int)) : Nat → CentreLoop σ → Option (CentreLoop σ)
  | 0, L => some L
  | m + 1, L => if L.nochange < data.length then (centreStep O k data L).bind (centreRun O k data m) else some L

/-- utils/cluster/kmode.go:112-122, kmeans.go:207-215, kmedoid.go:126-137: the result; `chkdata[i]` is 0 for a missing key. -/
def buildClusters (k : Nat) (data : List (List Int)) (chk : List (Option Nat)) : Option (List (Nat → Option (List Int))) :=
  data.zipIdx.foldlM (fun (C : List (Nat → Option (List Int))) x =>
    let c := (chk.getD x.2 none).getD 0
    (C[c]?).map fun G => C.set c (Function.update G x.2 (some x.1))) (List.replicate k (fun _ => none))

/-! ### KMode and OldKMeans -/

/-- `means` (one row per cluster) and `clusters` (per cluster and column the number of rows with each value). -/
structure ModeState where
  means : List (List Int)
  counts : List (List (List Int))
deriving DecidableEq

/-- utils/cluster/kmode.go:13-16, kmeans.go:16-19: one column of `kModeInsert`, on the mean and the counts of the cluster. -/
def modeInsertCol (v : List Int) (s : List Int × List (List Int)) (k : Nat) : Option (List Int × List (List Int)) :=
  (v[k]?).bind fun x => (s.2[k]?).bind fun c => (goIdx c x).bind fun a => (goSet c x (a + 1)).bind fun c' =>
  (s.1[k]?).bind fun m => (goIdx c' m).map fun b => (if b < a + 1 then s.1.set k x else s.1, s.2.set k c')

/-- utils/cluster/kmode.go:25-30, kmeans.go:28-33: the search for the new mean after a removal, which compares a count with a value. -/
def modeRescan (c : List Int) : Int :=
  c.zipIdx.foldl (fun mx (x : Int × Nat) => if mx < 0 ∨ mx < x.1 then (x.2 : Int) else mx) (-1)

/-- utils/cluster/kmode.go:23-32, kmeans.go:26-35: one column of `kModeRemove`. -/
def modeRemoveCol (v : List Int) (s : List Int × List (List Int)) (k : Nat) : Option (List Int × List (List Int)) :=
  (v[k]?).bind fun x => (s.2[k]?).bind fun c => (goIdx c x).bind fun a => (goSet c x (a - 1)).bind fun c' =>
  (s.1[k]?).map fun m => (if m = x then s.1.set k (modeRescan c') else s.1, s.2.set k c')

/-- A loop over the columns of cluster `which`. -/
def modeCols (f : List Int → List Int × List (List Int) → Nat → Option (List Int × List (List Int))) (st : ModeState) (which : Nat) (v : List Int) :
    Option ModeState :=
  (st.means[which]?).bind fun m => (st.counts[which]?).bind fun c =>
  ((List.range m.length).foldlM (f v) (m, c)).map fun r => ⟨st.means.set which r.1, st.counts.set which r.2⟩

/-- The operations of KMode and OldKMeans: utils/cluster/kmode.go:9-34 and kmeans.go:12-37 `kModeInsert`, `kModeRemove`, `kMeansInsert`, `kMeansRemove`;
`metrics.Hamming(means[j], data[i])`. -/
def modeOps : CentreOps ModeState where
  dist st j row := (st.means[j]?).bind fun m => hamming m row
  insert st which v _ := modeCols modeInsertCol st which v
  remove st which v _ := modeCols modeRemoveCol st which v

/-- utils/cluster/kmode.go:56-61, kmeans.go:151-156: the largest value of column `j`, or -1; `data[z][j]` panics for a short row. -/
def columnMax (data : List (List Int)) (j : Nat) : Option Int :=
  data.foldlM (fun mx row => (row[j]?).map fun x => if mx < x then x else mx) (-1)

/-- utils/cluster/kmode.go:46-68, kmeans.go:141-163: cluster `i` starts with row `r`. -/
def modeInit (data : List (List Int)) (s : ModeState × List (Option Nat) × Nat) (r : Nat) : Option (ModeState × List (Option Nat) × Nat) :=
  (data[r]?).bind fun row =>
  ((List.range row.length).mapM fun j => (columnMax data j).map fun mx => List.replicate (mx + 1).toNat (0 : Int)).bind fun cs =>
  (modeOps.insert ⟨s.1.means ++ [row], s.1.counts ++ [cs]⟩ s.2.2 row r).map fun st => (st, s.2.1.set r (some s.2.2), s.2.2 + 1)

/-- utils/cluster/kmode.go:36-123 `KMode` and kmeans.go:130-216 `OldKMeans`, which differ in what they print only; followed for `m` iterations of the main
loop. -/
def kMode (picks : List Nat) (k : Nat) (data : List (List Int)) (m : Nat) : Option (Option (List (Nat → Option (List Int)))) :=
  (picks.foldlM (modeInit data) (⟨[], []⟩, List.replicate data.length none, 0)).bind fun s =>
  (centreRun modeOps k data m ⟨s.1, s.2.1, 0, 0⟩).bind fun L =>
  if L.nochange < data.length then some none else (buildClusters k data L.chk).map some

/-! ### KMedoid -/

/-- `means` (the row number of the medoid of each cluster) and `clusters`. The row stored under key `i` is a copy of `data[i]` and never changes, so a
cluster is the list of its keys; `ord` is the order of ranging over them. -/
structure MedoidState where
  means : List Nat
  clusters : List (List Nat)
deriving DecidableEq

/-- `clusters[which][means[which]]`: nil if the medoid is not in the cluster. -/
def medoidRow (data : List (List Int)) (cl : List Nat) (m : Nat) : List Int := if m ∈ cl then data.getD m [] else []

/-- `for _, value := range clusters[which] { s += metrics.Hamming(v, value) }`. -/
def sumHamming (data : List (List Int)) (v : List Int) (keys : List Nat) : Option Int :=
  keys.foldlM (fun s j => (hamming v (data.getD j [])).map fun d => s + d) 0

/-- utils/cluster/kmedoid.go:8-19 `kMedoidInsert`. -/
def medoidInsert (ord : List Nat → List Nat) (data : List (List Int)) (st : MedoidState) (which : Nat) (v : List Int) (i : Nat) : Option MedoidState :=
  (st.clusters[which]?).bind fun cl => (st.means[which]?).bind fun m =>
  let cl' := if i ∈ cl then cl else cl ++ [i]
  (sumHamming data (medoidRow data cl' m) (ord cl')).bind fun smean => (sumHamming data v (ord cl')).map fun s =>
    ⟨if s < smean then st.means.set which i else st.means, st.clusters.set which cl'⟩

/-- utils/cluster/kmedoid.go:21-36 `kMedoidRemove`. -/
def medoidRemove (ord : List Nat → List Nat) (data : List (List Int)) (st : MedoidState) (which : Nat) (_v : List Int) (i : Nat) : Option MedoidState :=
  (st.clusters[which]?).bind fun cl => (st.means[which]?).bind fun m =>
  let cl' := cl.filter (· ≠ i)
  if m = i then
    ((ord cl').foldlM (fun (b : Int × Nat) j =>
      ((ord cl').foldlM (fun s l => (hamming (data.getD l []) (data.getD j [])).map fun d => s + d) 0).map fun s => if s < b.1 then (s, j) else b)
      (2000000000, m)).map fun b => ⟨st.means.set which b.2, st.clusters.set which cl'⟩
  else some ⟨st.means, st.clusters.set which cl'⟩

/-- The operations of KMedoid; `metrics.Hamming(clusters[j][means[j]], data[i])` panics for a `j` beyond the clusters that were started. -/
def medoidOps (ord : List Nat → List Nat) (data : List (List Int)) : CentreOps MedoidState where
  dist st j row := (st.clusters[j]?).bind fun cl => (st.means[j]?).bind fun m => hamming (medoidRow data cl m) row
  insert := medoidInsert ord data
  remove := medoidRemove ord data

/-- utils/cluster/kmedoid.go:56-66: whether row `p` equals row `q`, as far as `p` goes. -/
def rowMatches : List Int → List Int → Option Bool
  | [], _ => some true
  | x :: p, y :: q => if x ≠ y then some false else rowMatches p q
  | _ :: _, [] => none

/-- utils/cluster/kmedoid.go:55-67: whether row `r` equals the row of some medoid; no further medoid is looked at after the first such. -/
def matchesSome (data : List (List Int)) (row : List Int) : List Nat → Option Bool
  | [] => some false
  | m :: ms => (rowMatches row (data.getD m [])).bind fun b => if b then some true else matchesSome data row ms

/-- utils/cluster/kmedoid.go:43-82: start clusters with the rows of `picks` that equal no earlier medoid until there are `k` or no row is left. If no cluster
was started there is one slot with a nil map, which only matters when there is no data. -/
def medoidInit (ord : List Nat → List Nat) (data : List (List Int)) (k : Nat) :
    List Nat → MedoidState × List (Option Nat) → Option (MedoidState × List (Option Nat))
  | [], s => some s
  | r :: rs, s =>
    if s.1.means.length = k then some s else
    (data[r]?).bind fun row => (matchesSome data row s.1.means).bind fun b =>
    if b then medoidInit ord data k rs s
    else ((medoidOps ord data).insert ⟨s.1.means ++ [r], s.1.clusters ++ [[]]⟩ s.1.means.length row r).bind fun st =>
      medoidInit ord data k rs (st, s.2.set r (some s.1.means.length))

/-- utils/cluster/kmedoid.go:38-138 `KMedoid`, followed for `m` iterations of the main loop. -/
def kMedoid (ord : List Nat → List Nat) (picks : List Nat) (k : Nat) (data : List (List Int)) (m : Nat) :
    Option (Option (List (Nat → Option (List Int)))) :=
  (medoidInit ord data k picks (⟨[], []⟩, List.replicate data.length none)).bind fun s =>
  (centreRun (medoidOps ord data) k data m ⟨s.1, s.2, 0, 0⟩).bind fun L =>
  if L.nochange < data.length then some none else (buildClusters k data L.chk).map some

/-! ### OldKMeansF -/

section Lloyd
variable {F : Type} [GoFloat F]

/-- utils/cluster/kmeans.go:263-276: the cluster of instance `d`, which had cluster `c` (`none` is -1). -/
def lloydPick (dist : List F → List F → Option F) (k : Nat) (M : List (List F)) (d : List F) (c : Option Nat) : Option (Option Nat) :=
  (match c with
    | none => some (pinf : F)
    | some j => (M[j]?).bind fun m => dist d m).bind fun mn =>
  ((List.range k).foldlM (fun (s : Option Nat × F) j => (M[j]?).bind fun m => (dist d m).map fun u => if lt u s.2 then (some j, u) else s) (c, mn)).map Prod.fst

/-- utils/cluster/kmeans.go:279-298: the update step; `S[p]` panics for `p = -1`, `D[i][j]` for a short row. -/
def lloydMeans (n k : Nat) (D : List (List F)) (C : List (Option Nat)) : Option (List (List F)) :=
  ((D.zip C).foldlM (fun (s : List (List F) × List Nat) (x : List F × Option Nat) =>
    x.2.bind fun p => (s.2[p]?).bind fun c => (s.1[p]?).bind fun row =>
    ((List.range n).mapM fun j => (row[j]?).bind fun a => (x.1[j]?).map fun b => add a b).map fun row' => (s.1.set p row', s.2.set p (c + 1)))
    (List.replicate k (List.replicate n (ofInt 0 : F)), List.replicate k 0)).map fun s =>
  List.zipWith (fun (row : List F) c => if 0 < c then row.map fun x => div x (ofInt (c : Nat)) else row) s.1 s.2

/-- utils/cluster/kmeans.go:256-299, followed for `m` iterations: the final means and clusters. -/
def lloydRun (dist : List F → List F → Option F) (n k : Nat) (D : List (List F)) :
    Nat → List (List F) × List (Option Nat) → Option (Option (List (List F) × List (Option Nat)))
  | 0, _ => some none
  | m + 1, s =>
    ((D.zip s.2).mapM fun x => lloydPick dist k s.1 x.1 x.2).bind fun C =>
    (lloydMeans n k D C).bind fun M => if C = s.2 then some (some (M, C)) else lloydRun dist n k D m (M, C)

/-- `b := make([]float64, n); copy(b, a)`. -/
def copyTo (n : Nat) (a : List F) : List F := a.take n ++ List.replicate (n - a.length) (ofInt 0)

/-- utils/cluster/kmeans.go:239-254: the draws; one row for each of the `k` clusters. -/
def lloydInit (n : Nat) (D : List (List F)) (picks : List Nat) : Option (List (List F) × List (Option Nat)) :=
  picks.zipIdx.foldlM (fun (s : List (List F) × List (Option Nat)) (r : Nat × Nat) =>
    (D[r.1]?).map fun d => (s.1 ++ [copyTo n d], s.2.set r.1 (some r.2))) ([], List.replicate D.length none)

/-- utils/cluster/kmeans.go:303-312: the result. -/
def lloydBuild (n k : Nat) (D : List (List F)) (C : List (Option Nat)) : Option (List (Nat → Option (List F))) :=
  (D.zip C).zipIdx.foldlM (fun (O : List (Nat → Option (List F))) x =>
    x.1.2.bind fun c => (O[c]?).map fun G => O.set c (Function.update G x.2 (some (copyTo n x.1.1)))) (List.replicate k (fun _ => none))

/-- utils/cluster/kmeans.go:227-313 `OldKMeansF`, followed for `m` iterations of the main loop. -/
def oldKMeansF (dist : List F → List F → Option F) (picks : List Nat) (k : Nat) (D : List (List F)) (m : Nat) :
    Option (Option (List (Nat → Option (List F)))) :=
  if D.length < k then none else
  (D[0]?).bind fun d0 => (lloydInit d0.length D picks).bind fun s => (lloydRun dist d0.length k D m s).bind fun r =>
  match r with
  | none => some none
  | some s => (lloydBuild d0.length k D s.2).map some

end Lloyd
end Gospn
