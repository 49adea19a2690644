/-
Model of OPTICS (utils/cluster/optics.go) and of the clusterings that call a library for k-means (utils/cluster/kmeans.go: KMeans, KMeansF, KMeansData,
KMeansFData). `none` is a panic.

OPTICS: an object is its row number; `vst`, `rdist` and `cdist` are kept in lists. `srt` is `sort.Sort` on distances. Of the library it is used that a sort of
two or more elements calls `Less` on each of them, so that a nil element panics. The code after a defined core distance (optics.go:161-172, with
`seedsUpdate` and the priority queue) is the argument `rest`: the theorems hold for every `rest`, because it is never reached.

K-means: the library (github.com/RenatoGeh/kmeans) is the argument `assign`, which returns a label for each row, or `none` for an error (the code panics).
-/
import Verif.Model.Matrix

namespace Gospn
open GoFloat
variable {F : Type} [GoFloat F]

/-! ### OPTICS -/

/-- The objects, without their data, and the queue `order`. -/
structure OpticsState (F : Type) where
  vst : List Bool
  rdist : List F
  cdist : List F
  order : List Nat

/-- utils/cluster/optics.go:50-62 `getNeighbors`. -/
def opticsNeighbours (data : List (List Int)) (eps : F) (o : Nat) : Option (List Nat) :=
  (data[o]?).bind fun p => (List.range data.length).foldlM (fun (nset : List Nat) i =>
    if o = i then some nset
    else (data[i]?).bind fun q => (euclidean p q : Option F).map fun d => if le d eps then nset ++ [i] else nset) []

/-- `sort.Sort(objDists(dists))`: `none` elements are nil pointers. -/
def sortDists (srt : List F → List F) (l : List (Option F)) : Option (List (Option F)) :=
  if l.length < 2 then some l else (l.mapM id).map fun ds => (srt ds).map some

/-- utils/cluster/optics.go:81-94 `getCoreDist`; `make([]*objDist, n)` makes `n` nil pointers, and the distances are appended to them. -/
def getCoreDist (srt : List F → List F) (data : List (List Int)) (nb : List Nat) (o : Nat) (mp : Int) : Option F :=
  if (nb.length : Int) < mp then some pinf
  else (nb.mapM fun i => (data[o]?).bind fun p => (data[i]?).bind fun q => (euclidean p q : Option F)).bind fun ds =>
    (sortDists srt (List.replicate nb.length none ++ ds.map some)).bind fun l => (goIdx l (mp - 1)).bind id

/-- utils/cluster/optics.go:155-174 `expand`; `rest` is lines 161-172. -/
def opticsExpand (srt : List F → List F) (rest : OpticsState F → Nat → List Nat → Option (OpticsState F)) (data : List (List Int)) (eps : F) (mp : Int)
    (st : OpticsState F) (o : Nat) : Option (OpticsState F) :=
  (opticsNeighbours data eps o).bind fun nb => (getCoreDist srt data nb o mp).bind fun cd =>
  let st' : OpticsState F := ⟨st.vst.set o true, st.rdist.set o pinf, st.cdist.set o cd, st.order ++ [o]⟩
  if eq cd pinf then some st' else rest st' o nb

/-- utils/cluster/optics.go:177-197: one object of the loop of `extract`; the state is `idtrk` and `cids`. -/
def extractStep (st : OpticsState F) (eps : F) (s : Nat × List (List Nat)) (o : Nat) : Option (Nat × List (List Nat)) :=
  (st.rdist[o]?).bind fun r => (st.cdist[o]?).bind fun c =>
  if lt eps r then
    if le c eps then some (s.1 + 1, s.2 ++ [[o]])
    else (s.2[0]?).map fun l => (s.1, s.2.set 0 (l ++ [o]))
  else (s.2[s.1]?).map fun l => (s.1, s.2.set s.1 (l ++ [o]))

/-- utils/cluster/optics.go:176-210 `extract`. -/
def opticsExtract (data : List (List Int)) (st : OpticsState F) (eps : F) : Option (List (Nat → Option (List Int))) :=
  (st.order.foldlM (extractStep st eps) (0, [[]])).map fun s =>
    s.2.map fun l => l.foldl (fun (G : Nat → Option (List Int)) o => fun z => if z = o then data[o]? else G z) (fun _ => none)

/-- utils/cluster/optics.go:220-238 `OPTICS`. -/
def optics (srt : List F → List F) (rest : OpticsState F → Nat → List Nat → Option (OpticsState F)) (data : List (List Int)) (eps : F) (mp : Int) :
    Option (List (Nat → Option (List Int))) :=
  ((List.range data.length).foldlM (fun (st : OpticsState F) i => (st.vst[i]?).bind fun v => if v then some st else opticsExpand srt rest data eps mp st i)
    ⟨List.replicate data.length false, List.replicate data.length pinf, List.replicate data.length pinf, []⟩).bind fun st => opticsExtract data st eps

/-! ### K-means by a library -/

/-- utils/cluster/kmeans.go:62-77, 91-108: the maps of row vectors. Row `i` goes to the key `i`, or, if there is a map `sc`, to the key `sc[i]`. `conv` is the
copy of a row. -/
def storeRows {α β : Type} (conv : List α → List β) (k : Int) (D : List (List α)) (sc : Option VarSet) (C : List Int) : Option (List (Int → Option (List β))) :=
  if k < 0 then none else
  C.zipIdx.foldlM (fun (G : List (Int → Option (List β))) (x : Int × Nat) => (D[x.2]?).bind fun J => (goIdx G x.1).bind fun g =>
    goSet G x.1 fun z => if z = (sc.elim (x.2 : Int) fun s => s.get x.2) then some (conv J) else g z) (List.replicate k.toNat fun _ => none)

/-- utils/cluster/kmeans.go:80-109 `KMeansMuesli`, with `copyMatrixF` (utils/cluster/cluster.go:3-13). -/
def kMeansMuesli (assign : Int → List (List F) → Option (List Int)) (k : Int) (M : List (List Int)) (sc : Option VarSet) : Option (List (Int → Option (List Int))) :=
  let D := M.map fun row => row.map (ofInt : Int → F)
  (assign k D).bind fun C => storeRows (fun row => row.map toInt) k D sc C

/-- utils/cluster/kmeans.go:52-78 `KMeansMuesliF`. -/
def kMeansMuesliF (assign : Int → List (List F) → Option (List Int)) (k : Int) (D : List (List F)) (sc : Option VarSet) : Option (List (Int → Option (List F))) :=
  (assign k D).bind fun C => storeRows id k D sc C

/-- utils/cluster/kmeans.go:121-123 `KMeans`. -/
def kMeansLib (assign : Int → List (List F) → Option (List Int)) (k : Int) (data : List (List Int)) : Option (List (Int → Option (List Int))) :=
  kMeansMuesli assign k data none

/-- utils/cluster/kmeans.go:125-128 `KMeansData`. -/
def kMeansData (assign : Int → List (List F) → Option (List Int)) (ord : MapOrder) (k : Int) (D : List VarSet) : Option (List (Int → Option (List Int))) :=
  (dataToMatrix id 0 ord D).bind fun (M, Sc) => kMeansMuesli assign k M (some Sc)

/-- utils/cluster/kmeans.go:218-220 `KMeansF`. -/
def kMeansF (assign : Int → List (List F) → Option (List Int)) (k : Int) (D : List (List F)) (_sc : Option VarSet) : Option (List (Int → Option (List F))) :=
  kMeansMuesliF assign k D none

/-- utils/cluster/kmeans.go:222-225 `KMeansFData`. -/
def kMeansFData (assign : Int → List (List F) → Option (List Int)) (ord : MapOrder) (k : Int) (D : List VarSet) : Option (List (Int → Option (List F))) :=
  (dataToMatrix (ofInt : Int → F) (ofInt 0) ord D).bind fun (M, Sc) => kMeansMuesliF assign k M (some Sc)

end Gospn
