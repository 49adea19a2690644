/-
Structure learning after Poon and Domingos: learn/poon/poon.go:44-67, 87-181, 337-608.

Regions are kept under their rectangles instead of the codes `Encode` makes of them: C53 says that no two rectangles of an image share a code as long
as the codes fit in 64 bits. Sizes and positions are natural numbers. A product node is made at most once for every decomposition (the maps
`existingDecomps`, `existingProds` and `decompToProd` are filled together, poon.go:459-477, 484-504), so a product is named by its decomposition and the two maps
between them are the identity. `StoreInference` (poon.go:409) is any function `infer` that overwrites the table of values or panics; `poonInfer` at the end of
this file is the one of the code. The values drawn by `sys.RandIntn` are given by `pick`: the `t`-th call with argument `n` gives `pick t n`; `none` as a result is a panic.
-/
import Verif.Model.Gauss
import Verif.Model.Stats
import Verif.Model.Log

namespace Gospn
open GoFloat
variable {F : Type}

/-- A rectangle of pixels: `x1 ≤ x < x2`, `y1 ≤ y < y2`. -/
structure Rect where
  x1 : Nat
  y1 : Nat
  x2 : Nat
  y2 : Nat
deriving DecidableEq

/-- learn/poon/poon.go:54-57 `decomp`. -/
structure Decomp where
  p : Rect
  q : Rect
  r : Nat
  s : Nat
deriving DecidableEq

/-- The nodes made by the algorithm: the Gaussians and sums of a region by their position in it, and one product per decomposition. -/
inductive PNode
  | gauss (k : Rect) (i : Nat)
  | sum (k : Rect) (i : Nat)
  | prod (d : Decomp)
deriving DecidableEq

/-- The slice `inner` of a region (poon.go:46): Gaussians given by mean and deviation, or sums given by their children and weights. -/
inductive Inner (F : Type)
  | gauss (gs : List (F × F))
  | sums (ss : List (List (Decomp × F)))

/-- learn/poon/poon.go:44-52 `region`. A `mapIndex` of -1 is `none`; `maxProd` and `maxSum` are used within `compMap` only, which resets them. -/
structure PRegion (F : Type) where
  inner : Inner F
  step : Nat
  mapIndex : Option Nat
  best : List (Option Decomp)

/-- The number of inner nodes. -/
def Inner.len : Inner F → Nat
  | .gauss gs => gs.length
  | .sums ss => ss.length

/-- learn/poon/poon.go:59-67 `newRegion`: with step 1 there is no room for decompositions. -/
def newRegion (inner : Inner F) (step : Nat) : PRegion F :=
  ⟨inner, step, none, if step = 1 then [] else List.replicate inner.len none⟩

/-- The memory: regions, tables `infTk` and `countTk` of the storer, `existingDecomps`, and the number of random draws so far. -/
structure PState (F : Type) where
  L : Rect → Option (PRegion F)
  tab : PNode → Option F
  counts : PNode → Option F
  made : Decomp → Bool
  draws : Nat

/-- `S.inner[i]` as a node; an index out of range panics. -/
def PRegion.node (R : PRegion F) (k : Rect) (i : Nat) : Option PNode :=
  match R.inner with
  | .gauss gs => if i < gs.length then some (.gauss k i) else none
  | .sums ss => if i < ss.length then some (.sum k i) else none

/-- Writing to a slice; an index out of range panics. -/
def setIdx {α : Type} (l : List α) (i : Nat) (a : α) : Option (List α) := if i < l.length then some (l.set i a) else none

/-- `l[sys.RandIntn(len(l))]`: `RandIntn(0)` panics. -/
def drawFrom {α : Type} (pick : Nat → Nat → Nat) (t : Nat) (l : List α) : Option α := if l.length = 0 then none else l[pick t l.length]?

section Float
variable [GoFloat F]

/-- learn/poon/poon.go:91-97 `createRegion`: `m` sums without children. -/
def createRegion (m r : Nat) : PRegion F := newRegion (.sums (List.replicate m [])) r

/-- learn/poon/poon.go:87-89 `createSum`. -/
def createSumRegion (r : Nat) : PRegion F := newRegion (.sums [[]]) r

/-- learn/poon/poon.go:99-124 `createUnitRegion`. -/
def createUnitRegion (w x y n : Nat) (D : List VarSet) : Option (PRegion F) :=
  let p : Int := (x : Int) + (y : Int) * (w : Int)
  let V := D.map fun I => (I p).getD 0
  if n = 1 then some (newRegion (.gauss [statMuSigma V]) 1)
  else
    (partitionQuantiles (F := F) (V.mergeSort (· ≤ ·)) (n : Int)).bind fun Q =>
      (Q.mapM fun q => q[0]?.bind fun a => q[1]?.map fun b => (a, b)).map fun gs => newRegion (.gauss gs) 1

/-- The rectangles of learn/poon/poon.go:130-151 and 553-568 in the order of the loops: those made of more than one block of `r` times `r` pixels.
The Boolean tells the whole image. -/
def coarseRects (w h r : Nat) : List (Rect × Bool) :=
  (List.range (w / r)).flatMap fun a => (List.range (h / r)).flatMap fun b =>
    if a = 0 ∧ b = 0 then []
    else (List.range ((w - (a + 1) * r) / r + 1)).flatMap fun i => (List.range ((h - (b + 1) * r) / r + 1)).map fun j =>
      (⟨i * r, j * r, i * r + (a + 1) * r, j * r + (b + 1) * r⟩, decide (a + 1 = w / r ∧ b + 1 = h / r))

/-- The rectangles of learn/poon/poon.go:154-178 and 532-551 in the order of the loops: those within one block. -/
def fineRects (w h r : Nat) : List Rect :=
  (List.range (w / r)).flatMap fun ca => (List.range (h / r)).flatMap fun cb => (List.range r).flatMap fun x => (List.range r).flatMap fun y =>
    (List.range (r - x)).flatMap fun i => (List.range (r - y)).map fun j =>
      ⟨ca * r + i, cb * r + j, ca * r + i + (x + 1), cb * r + j + (y + 1)⟩

/-- A rectangle of one pixel. -/
def Rect.isUnit (k : Rect) : Bool := k.x2 = k.x1 + 1 ∧ k.y2 = k.y1 + 1

/-- Body of learn/poon/poon.go:163-172: the region of a rectangle within a block; its step is set to 1 after the slice of decompositions was made. -/
def fineRegion (D : List VarSet) (w m g r : Nat) (k : Rect) : Option (PRegion F) :=
  if k.isUnit then createUnitRegion w k.x1 k.y1 g D
  else some { (createRegion m r : PRegion F) with step := 1 }

/-- learn/poon/poon.go:126-181 `createRegions`; a division by zero panics. -/
def createRegions (D : List VarSet) (w h m g r : Nat) : Option (Rect → Option (PRegion F)) :=
  if r = 0 then none
  else
    let L : Rect → Option (PRegion F) := (coarseRects w h r).foldl (fun L k =>
      Function.update L k.1 (some (if k.2 then createSumRegion r else createRegion m r))) (fun _ => none)
    (fineRects w h r).foldlM (fun L k => (fineRegion D w m g r k).map fun R => Function.update L k (some R)) L

/-- Positions `a + step, a + 2 * step, …` below `b`. -/
def cuts (a b step : Nat) : List Nat := (List.range ((b - a - 1) / step)).map fun i => a + (i + 1) * step

/-- The pairs `p, q` of learn/poon/poon.go:357-358 and 377-378. -/
def splits (k : Rect) (step : Nat) : List (Rect × Rect) :=
  ((cuts k.x1 k.x2 step).map fun x => (⟨x, k.y1, k.x2, k.y2⟩, ⟨k.x1, k.y1, x, k.y2⟩)) ++
  ((cuts k.y1 k.y2 step).map fun y => (⟨k.x1, y, k.x2, k.y2⟩, ⟨k.x1, k.y1, k.x2, y⟩))

/-- Reading a table: 0 where there is no entry. -/
def single (t : PNode → Option F) (n : PNode) : F := (t n).getD (ofInt 0)

/-- Body of learn/poon/poon.go:358-375 (and 378-395): the list `D` of best decompositions so far and `R.maxProd`. -/
def candStep (st : PState F) (acc : List Decomp × F) (pq : Rect × Rect) : Option (List Decomp × F) :=
  (st.L pq.1).bind fun S => (st.L pq.2).bind fun T =>
  S.mapIndex.bind fun i => T.mapIndex.bind fun j =>
  (S.node pq.1 i).bind fun s => (T.node pq.2 j).bind fun t =>
  let sv := single st.tab s
  let tv := single st.tab t
  let m := if eq sv ninf || eq tv ninf then ninf else add sv tv
  let acc := if acc.1.isEmpty || lt acc.2 m then ([], m) else acc
  some (if eq m acc.2 then (acc.1 ++ [⟨pq.1, pq.2, i, j⟩], acc.2) else acc)

/-- learn/poon/poon.go:415-425: the children of a sum with the best value, after those found for the sums before (the list is not reset). -/
def childStep (tab : PNode → Option F) (z : F) (acc : List Decomp × F) (c : Decomp × F) : List Decomp × F :=
  let v := logSumExpPair z (single tab (.prod c.1))
  let acc := if acc.1.isEmpty || lt acc.2 v then ([], v) else acc
  if eq acc.2 v then (acc.1 ++ [c.1], acc.2) else acc

/-- Variables of the loop of learn/poon/poon.go:402-445. -/
structure Used (F : Type) where
  tab : PNode → Option F
  best : List (Option Decomp)
  bd : List Decomp
  opts : List Nat
  maxSum : F
  draws : Nat

/-- Body of learn/poon/poon.go:406-444 for the `i`-th sum. -/
def usedStep (pick : Nat → Nat → Nat) (infer : PState F → PNode → Option (PNode → Option F)) (st : PState F) (k : Rect) (cd : Decomp) (maxProd : F)
    (u : Used F) (x : List (Decomp × F) × Nat) : Option (Used F) :=
  if x.1.length = 0 then some u
  else
    let s : PNode := .sum k x.2
    (infer { st with tab := u.tab, draws := u.draws } s).bind fun tab =>
    let sv := single tab s
    let sc := single st.counts s
    let slc := log sc
    let a := x.1.foldl (childStep tab (add sv slc)) (u.bd, ofInt 0)
    let a := if st.made cd then a else
      let v := if eq sv ninf then maxProd else logSumExpPair maxProd (add sv slc)
      if a.1.isEmpty || lt a.2 v then ([cd], v) else a
    let tab := Function.update tab s (some (sub a.2 (log (add sc (ofInt 1)))))
    (drawFrom pick u.draws a.1).bind fun d =>
    (setIdx u.best x.2 (some d)).bind fun best =>
    let o := if u.opts.isEmpty || lt u.maxSum sv then ([], sv) else (u.opts, u.maxSum)
    let o := if eq sv o.2 then (o.1 ++ [x.2], o.2) else o
    some ⟨tab, best, a.1, o.1, o.2, u.draws + 1⟩

/-- learn/poon/poon.go:458-477: the product of the chosen decomposition is made a child of the chosen sum unless it exists; either way it is counted. -/
def placeProduct (st : PState F) (k : Rect) (R : PRegion F) (ss : List (List (Decomp × F))) (i : Nat) (bd : Decomp) : Option (PState F) :=
  let count := Function.update st.counts (.prod bd) (some (add (single st.counts (.prod bd)) (ofInt 1)))
  if st.made bd then some { st with L := Function.update st.L k (some R), counts := count }
  else
    (st.L bd.p).bind fun S => (st.L bd.q).bind fun T => (S.node bd.p bd.r).bind fun _ => (T.node bd.q bd.s).bind fun _ =>
    ss[i]?.bind fun kids =>
    some { st with L := Function.update st.L k (some { R with inner := .sums (ss.set i (kids ++ [(bd, ofInt 1)])) }), counts := count,
                   made := Function.update st.made bd true }

/-- learn/poon/poon.go:337-478 `compMap` of the region at `k`. -/
def compMap (pick : Nat → Nat → Nat) (infer : PState F → PNode → Option (PNode → Option F)) (st : PState F) (k : Rect) : Option (PState F) :=
  (st.L k).bind fun R =>
  match R.inner with
  | .gauss _ => none
  | .sums ss =>
    let R := { R with mapIndex := none }
    let st := { st with L := Function.update st.L k (some R) }
    let U := (ss.zipIdx.filter fun x => x.1.length = 0).map (·.2)
    (if U.length = 0 then some (0, st.draws) else (drawFrom pick st.draws U).map fun i => (i, st.draws + 1)).bind fun ct =>
    ((splits k R.step).foldlM (candStep st) ([], ninf)).bind fun D =>
    (drawFrom pick ct.2 D.1).bind fun cd =>
    (ss.zipIdx.foldlM (usedStep pick infer st k cd D.2) ⟨st.tab, R.best, [], [], ninf, ct.2 + 1⟩).bind fun u =>
    (R.node k ct.1).bind fun n =>
    let v := sub D.2 (log (add (single st.counts n) (ofInt 1)))
    let tab := Function.update u.tab n (some v)
    (setIdx u.best ct.1 (some cd)).bind fun best =>
    let opts := if u.opts.isEmpty || lt u.maxSum v then [ct.1] else u.opts
    (drawFrom pick u.draws opts).bind fun i =>
    best[i]?.bind fun o => o.bind fun bd =>
    placeProduct { st with tab := tab, draws := u.draws + 1 } k { R with mapIndex := some i, best := best } ss i bd

/-- learn/poon/poon.go:514-522: the Gaussian of largest value; `m` is 0 at the start. -/
def bestGauss (vals : List F) : Option Nat :=
  (vals.zipIdx.foldl (fun (a : Option Nat × F) x => if a.1.isNone || lt a.2 x.1 then (some x.2, x.1) else a) (none, ofInt 0)).1

/-- learn/poon/poon.go:506-526 `compUnitRegions`, the body for one pixel. -/
def compUnit (w : Nat) (I : VarSet) (st : PState F) (xy : Nat × Nat) : Option (PState F) :=
  let k : Rect := ⟨xy.1, xy.2, xy.1 + 1, xy.2 + 1⟩
  (st.L k).bind fun R =>
  match R.inner with
  | .sums _ => none
  | .gauss gs =>
    (gs.mapM fun g => (newGaussianParams ((xy.1 : Int) + (xy.2 : Int) * (w : Int)) g.1 g.2).value I).map fun vals =>
    { st with L := Function.update st.L k (some { R with mapIndex := bestGauss vals }),
              tab := vals.zipIdx.foldl (fun t x => Function.update t (.gauss k x.2) (some x.1)) st.tab }

/-- learn/poon/poon.go:528-569 `mapInference`. -/
def mapInference (pick : Nat → Nat → Nat) (infer : VarSet → PState F → PNode → Option (PNode → Option F)) (w h r : Nat) (st : PState F) (I : VarSet) :
    Option (PState F) :=
  (((List.range w).flatMap fun x => (List.range h).map fun y => (x, y)).foldlM (compUnit w I) st).bind fun st =>
  (((fineRects w h r).filter fun k => !k.isUnit).foldlM (compMap pick (infer I)) st).bind fun st =>
  ((coarseRects w h r).map (·.1)).foldlM (compMap pick (infer I)) st

/-- learn/poon/poon.go:571-608 `maxThroughData` and `Structure`: the root and the memory. -/
def poonStructure (pick : Nat → Nat → Nat) (infer : VarSet → PState F → PNode → Option (PNode → Option F)) (D : List VarSet) (w h m g r : Nat) :
    Option (PNode × PState F) :=
  (createRegions D w h m g r).bind fun L =>
  (D.foldlM (mapInference pick infer w h r) ⟨L, fun _ => none, fun _ => none, fun _ => false, 0⟩).bind fun st =>
  (st.L ⟨0, 0, w, h⟩).bind fun R => (R.node ⟨0, 0, w, h⟩ 0).map fun n => (n, st)

end Float

/-- The node at position `i` of the region at `k` (the children that poon.go:462-464 adds to a product). -/
def PState.inner (st : PState F) (k : Rect) (i : Nat) : PNode :=
  match st.L k with
  | some ⟨.gauss _, _, _, _⟩ => .gauss k i
  | _ => .sum k i

/-- The network in memory (poon.go:99-124, 460-467): what the nodes are and how they are connected; a node that was never made has no children. -/
def PState.net (st : PState F) (w : Nat) : Net PNode F :=
  ⟨fun n => match n with
    | .gauss k i =>
      match st.L k with
      | some ⟨.gauss gs, _, _, _⟩ => match gs[i]? with
        | some g => .leaf (newGaussianParams ((k.x1 : Int) + (k.y1 : Int) * (w : Int)) g.1 g.2)
        | none => .sum [] []
      | _ => .sum [] []
    | .sum k i =>
      match st.L k with
      | some ⟨.sums ss, _, _, _⟩ => match ss[i]? with
        | some kids => .sum (kids.map fun c => .prod c.1) (kids.map (·.2))
        | none => .sum [] []
      | _ => .sum [] []
    | .prod d => .product [st.inner d.p d.r, st.inner d.q d.s]⟩

section Infer
variable [GoFloat F]

/-- The loop of spn/utils.go:121-156 (`StoreInference`, as in `Net.storeInfLoop`) over the nodes in the order `O`, on the table itself. A child without an entry ends the loop (line 137). -/
def storeInto (N : Net PNode F) (I : VarSet) : (PNode → Option F) → List PNode → Option (PNode → Option F)
  | t, [] => some t
  | t, s :: O =>
    match N.kind s with
    | .leaf l => (l.value I).bind fun v => storeInto N I (Function.update t s (some v)) O
    | .sum cs ws =>
      (storeVals t cs ws).bind fun r =>
        match r with
        | none => some t
        | some vs => (if cs.length = 0 then some ninf else logSumExp vs).bind fun v => storeInto N I (Function.update t s (some v)) O
    | .product cs => storeInto N I (Function.update t s (some (prodCompute (cs.map fun c => (t c).getD (ofInt 0))))) O

/-- spn/utils.go:106-159 `StoreInference` as called in learn/poon/poon.go:409; `ord` gives the order of the topological sort. -/
def poonInfer (w : Nat) (ord : PState F → PNode → List PNode) (I : VarSet) (st : PState F) (s : PNode) : Option (PNode → Option F) :=
  if ((st.net w).ch s).length = 0 then some st.tab else storeInto (st.net w) I st.tab (ord st s)

end Infer

end Gospn
