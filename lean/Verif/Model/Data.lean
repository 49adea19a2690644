/-
Model of data/manipulate.go: operations on datasets.

A dataset is a slice of maps, and a Go map is a reference. So memory is a list of maps, an instance is the address of its map, and the functions
run on the memory: a copy is a new address. `none` is a panic.
Random numbers and the iteration order of maps are arguments; `ord t m` is the order in which a loop over the map `m` started at time `t` visits the keys.
Not modelled: instances that are nil maps (they read as empty) and integer overflow of lengths.
-/
import Verif.Model.Spn

namespace Gospn
open GoFloat
variable {F : Type} [GoFloat F]

abbrev Addr := Nat

/-- All maps made so far. -/
abbrev Mem := List VarSet

/-- The iteration order of maps, which Go chooses at random for each loop. -/
abbrev MapOrder := Nat → VarSet → List Int

def VarSet.empty : VarSet := fun _ => none
/-- `m[k] = v`. -/
def VarSet.set (m : VarSet) (k v : Int) : VarSet := fun i => if i = k then some v else m i
/-- `delete(m, k)`. -/
def VarSet.del (m : VarSet) (k : Int) : VarSet := fun i => if i = k then none else m i
/-- `m[k]`, 0 if absent. -/
def VarSet.get (m : VarSet) (k : Int) : Int := (m k).getD 0

/-- `make(map[int]int)`. -/
def Mem.new (h : Mem) : Mem × Addr := (h ++ [VarSet.empty], h.length)
/-- `a[k] = v` for the map at `a`. -/
def Mem.put (h : Mem) (a : Addr) (k v : Int) : Option Mem := (h[a]?).map fun m => List.set h a (m.set k v)
/-- `delete(a, k)` for the map at `a`. -/
def Mem.delete (h : Mem) (a : Addr) (k : Int) : Option Mem := (h[a]?).map fun m => List.set h a (m.del k)

/-- data/manipulate.go:22-26 `copyMap`. -/
def copyMap (ord : MapOrder) (h : Mem) (d s : Addr) : Option Mem :=
  (h[s]?).bind fun ms => (ord h.length ms).foldlM (fun h k => (ms k).bind fun v => Mem.put h d k v) h

/-- `M := make(map[int]int); copyMap(M, s)`. -/
def newCopy (ord : MapOrder) (h : Mem) (s : Addr) : Option (Mem × Addr) :=
  (copyMap ord h.new.1 h.new.2 s).map fun h' => (h', h.new.2)

/-- `l[i] = a` in a slice. -/
def goSet {α : Type} (l : List α) (i : Int) (a : α) : Option (List α) :=
  if 0 ≤ i ∧ i < l.length then some (l.set i.toNat a) else none

/-- `l[i] = append(l[i], a)` in a slice of slices. -/
def goPush {α : Type} (l : List (List α)) (i : Int) (a : α) : Option (List (List α)) :=
  (goIdx l i).bind fun x => goSet l i (x ++ [a])

/-- Memory, groups of instances, groups of labels. -/
structure Groups where
  mem : Mem
  data : List (List Addr)
  labels : List (List Int)

/-- The loop body of 101-104, 135-142, 157-163, 175-178, 346-351, 355-359: append a copy of `D[p]` to group `g`, and `lab` to the labels of group `g`. -/
def place (ord : MapOrder) (D : List Addr) (st : Groups) (g p lab : Int) : Option Groups :=
  (goIdx D p).bind fun a => (newCopy ord st.mem a).bind fun (h, a') =>
  (goPush st.data g a').bind fun d => (goPush st.labels g lab).map fun l => ⟨h, d, l⟩

/-- data/manipulate.go:9-20. -/
def cascadeRounding (p : List F) : List Int :=
  (p.foldl (fun (s, t, q) x =>
    let s' := add s x
    let r := toInt (GoFloat.round (sub s' (ofInt t)))
    (s', t + r, q ++ [r])) ((ofInt 0 : F), (0 : Int), ([] : List Int))).2.2

/-- `for i := 0; i < n; i++ { body }`. -/
def goFor {α : Type} (n : Int) (st : α) (body : α → Int → Option α) : Option α :=
  (List.range n.toNat).foldlM (fun st (i : Nat) => body st (i : Int)) st

/-- data/manipulate.go:71-90 `Partition`; `R` is `rand.Perm(n)`. A part is filled in order; its labels (the positions `R[k]` here) are not in the code. -/
def partition (ord : MapOrder) (R : List Nat) (h : Mem) (D : List Addr) (p : List F) : Option Groups :=
  let S := cascadeRounding (p.map fun x => mul (ofInt D.length) x)
  (S.zipIdx.foldlM (fun (st : Groups × Int) (s : Int × Nat) =>
    if s.1 < 0 then none   -- make([]map[int]int, s) panics
    else goFor s.1 st fun (st, k) _ =>
      (goIdx R k).bind fun r => (place ord D st s.2 r r).map fun st => (st, k + 1))
    ((⟨h, List.replicate p.length [], List.replicate p.length []⟩ : Groups), (0 : Int))).map (·.1)

/-- data/manipulate.go:100-104: the indices of the instances of each class. -/
def classIndices (D : List Addr) (L : List Int) (c : Nat) : Option (List (List Int)) :=
  goFor D.length (List.replicate c []) fun C i => (goIdx L i).bind fun l => goPush C l i

/-- data/manipulate.go:133-144: take the next `z` instances of class `j` for part `i`, whose size is `s`. `K` are the counters. -/
def takeClass (ord : MapOrder) (D : List Addr) (C : List (List Int)) (R : List (List Nat)) (i s j z : Int) (st : Groups × List Int) :
    Option (Groups × List Int) :=
  goFor z st fun (st, K) _ =>
    (goIdx K j).bind fun kj => ((goIdx R j).bind (goIdx · kj)).bind fun l => ((goIdx C j).bind (goIdx · l)).bind fun u =>
    (goIdx st.data i).bind fun part =>
    if (part.length : Int) < s then   -- M[i] has length s[i]
      (place ord D st i u j).bind fun st => (goSet K j (kj + 1)).map fun K => (st, K)
    else none

/-- data/manipulate.go:147-155: the part that gets the leftovers. -/
def furthest (n : Nat) (sizes : List Nat) (p : List F) : Int :=
  ((sizes.zip p).zipIdx.foldl (fun (d, di) ((sz, pi), i) =>
    let du := GoFloat.abs (sub (div (ofInt n) (ofInt sz)) pi)
    if lt d du then (du, (i : Int)) else (d, di)) ((ofInt 0 : F), (0 : Int))).2

/-- data/manipulate.go:156-165: the leftovers of class `i`. Line 160 copies `D[l]`, where `l` is a position within class `i`. -/
def leftovers (ord : MapOrder) (D : List Addr) (R : List (List Nat)) (di i : Int) (st : Groups × List Int) : Option (Groups × List Int) :=
  (goIdx R i).bind fun Ri => (goIdx st.2 i).bind fun ki =>
  goFor (Ri.length - ki) st fun (st, K) _ =>
    (goIdx K i).bind fun k => (goIdx Ri k).bind fun l =>
    (place ord D st di l i).bind fun st => (goSet K i (k + 1)).map fun K => (st, K)

/-- data/manipulate.go:99-168 `PartitionByLabels`; `perm j` is the `rand.Perm` of class `j`. -/
def partitionByLabels (ord : MapOrder) (perm : Nat → List Nat) (h : Mem) (D : List Addr) (L : List Int) (c : Int) (p : List F) : Option Groups :=
  if c < 0 then none else
  (classIndices D L c.toNat).bind fun C =>
  let N := C.map List.length
  let S := p.map fun pi => cascadeRounding (N.map fun (nj : Nat) => GoFloat.floor (mul (ofInt nj) pi))
  let R := (List.range c.toNat).map perm
  (S.zipIdx.foldlM (fun st (Si : List Int × Nat) =>
      if Si.1.sum < 0 then none else   -- make with a negative length
      Si.1.zipIdx.foldlM (fun st (z : Int × Nat) => takeClass ord D C R Si.2 Si.1.sum z.2 z.1 st) st)
    ((⟨h, List.replicate p.length [], List.replicate p.length []⟩ : Groups), List.replicate c.toNat (0 : Int))).bind fun st =>
  let di := furthest D.length (st.1.data.map List.length) p
  (goFor c st fun st i => leftovers ord D R di i st).map (·.1)

/-- data/manipulate.go:173-181 `Split` (the labels of each group are not part of the result). -/
def split (ord : MapOrder) (h : Mem) (D : List Addr) (c : Int) (L : List Int) : Option Groups :=
  if c < 0 then none else
  L.zipIdx.foldlM (fun st (l : Int × Nat) => place ord D st l.1 l.2 l.1) ⟨h, List.replicate c.toNat [], List.replicate c.toNat []⟩

/-- `for i := range D { E[i] = make(map[int]int); copyMap(E[i], D[i]) }`: data/manipulate.go:194-196, 230-232, 237-239. -/
def copyAll (ord : MapOrder) (h : Mem) (D : List Addr) : Option (Mem × List Addr) :=
  D.foldlM (fun (st : Mem × List Addr) a => (newCopy ord st.1 a).map fun (h, b) => (h, st.2 ++ [b])) (h, [])

/-- data/manipulate.go:184-202 `Copy`. Labels that are nil are `none`. -/
def copyData (ord : MapOrder) (h : Mem) (D : List Addr) (L : Option (List Int)) : Option (Mem × List Addr × Option (List Int)) :=
  match L with
  | none => (copyAll ord h D).map fun (h, E) => (h, E, none)
  | some L => if D.length ≠ L.length then none else (copyAll ord h D).map fun (h, E) => (h, E, some L)

/-- `l[i], l[j] = l[j], l[i]`. -/
def goSwap {α : Type} (l : List α) (i j : Nat) : Option (List α) :=
  (l[i]?).bind fun x => (l[j]?).bind fun y => some ((l.set i y).set j x)

/-- data/manipulate.go:205-215 `Shuffle`; `swaps` are the calls that `rand.Shuffle` makes. The result is the new contents of the slices. -/
def shuffle (swaps : List (Nat × Nat)) (D : List Addr) (L : Option (List Int)) : Option (List Addr × Option (List Int)) :=
  match L with
  | none => (swaps.foldlM (fun D (s : Nat × Nat) => goSwap D s.1 s.2) D).map fun D => (D, none)
  | some L =>
    if D.length ≠ L.length then none else
    (swaps.foldlM (fun (st : List Addr × List Int) (s : Nat × Nat) =>
      (goSwap st.1 s.1 s.2).bind fun D => (goSwap st.2 s.1 s.2).map fun L => (D, L)) (D, L)).map fun (D, L) => (D, some L)

/-- data/manipulate.go:218-245 `Join`. -/
def join (ord : MapOrder) (h : Mem) (D E : List Addr) (L M : Option (List Int)) : Option (Mem × List Addr × Option (List Int)) :=
  match L, M with
  | some L, some M =>
    if L.length ≠ D.length ∨ M.length ≠ E.length then none
    else (copyAll ord h (D ++ E)).map fun (h, F) => (h, F, some (L ++ M))
  | _, _ => (copyAll ord h (D ++ E)).map fun (h, F) => (h, F, none)

/-- data/manipulate.go:250-271 `SubtractLabel`: group 0 is `S, P`, group 1 is `T, Q`. -/
def subtractLabel (ord : MapOrder) (h : Mem) (D : List Addr) (L : List Int) (l : Int) : Option Groups :=
  if L.length ≠ D.length then none else
  L.zipIdx.foldlM (fun st (x : Int × Nat) => if x.1 = l then place ord D st 1 x.2 l else place ord D st 0 x.2 x.1) ⟨h, [[], []], [[], []]⟩

/-- data/manipulate.go:280-285: the map without `u`. -/
def copyWithout (ord : MapOrder) (u : Int) (h : Mem) (s : Addr) : Option (Mem × Addr) :=
  (h.new.1[s]?).bind fun ms =>
  ((ord h.new.1.length ms).foldlM (fun h' k => (ms k).bind fun v => if k ≠ u then Mem.put h' h.new.2 k v else some h') h.new.1).map fun h' => (h', h.new.2)

/-- data/manipulate.go:276-288 `SubtractVariable`. -/
def subtractVariable (ord : MapOrder) (h : Mem) (D : List Addr) (u : Int) : Option (Mem × List Addr) :=
  D.foldlM (fun (st : Mem × List Addr) a => (copyWithout ord u st.1 a).map fun (h, b) => (h, st.2 ++ [b])) (h, [])

/-- Loops that may return early: `some true` is to go on, `some false` is `return false`. -/
def goAll {α : Type} (l : List α) (f : α → Option Bool) : Option Bool :=
  l.foldlM (fun b x => if b then f x else some false) true

/-- data/manipulate.go:299-303. -/
def sameInstance (ord : MapOrder) (h : Mem) (t : Nat) (a b : Addr) : Option Bool :=
  (h[a]?).bind fun I => (h[b]?).bind fun J => goAll (ord t I) fun k => (I k).map fun v => decide (v = J.get k)

/-- data/manipulate.go:293-294. -/
def labelsBad (D E : List Addr) : Option (List Int) → Option (List Int) → Bool
  | some L, some M => L.length != D.length || M.length != E.length
  | _, _ => false

/-- data/manipulate.go:292-311 `Identical`. -/
def identical (ord : MapOrder) (h : Mem) (D E : List Addr) (L M : Option (List Int)) : Option Bool :=
  if labelsBad D E L M then none else
  (goAll D.zipIdx fun (a, i) => (E[i]?).bind fun b => sameInstance ord h i a b).bind fun b =>
  if b then goAll (L.getD []).zipIdx fun (l, i) => ((M.getD [])[i]?).map fun m => decide (m = l) else some false

/-- data/manipulate.go:319-322. -/
def mergeOne (ord : MapOrder) (h : Mem) (a : Addr) (v l : Int) : Option (Mem × Addr) :=
  (newCopy ord h a).bind fun (h, b) => (Mem.put h b v l).map fun h => (h, b)

/-- data/manipulate.go:316-325 `MergeLabel`; `v` is `V.Varid`. -/
def mergeLabel (ord : MapOrder) (h : Mem) (D : List Addr) (L : List Int) (v : Int) : Option (Mem × List Addr) :=
  D.zipIdx.foldlM (fun (st : Mem × List Addr) (x : Addr × Nat) =>
    (L[x.2]?).bind fun l => (mergeOne ord st.1 x.1 v l).map fun (h, b) => (h, st.2 ++ [b])) (h, [])

/-- data/manipulate.go:51-61: copy the map, find its largest key (at least 0), return its value and delete it from the copy. -/
def extractOne (ord : MapOrder) (h : Mem) (a : Addr) : Option (Mem × Addr × Int) :=
  (h.new.1[a]?).bind fun I =>
  ((ord h.new.1.length I).foldlM (fun (st : Mem × Int) p => (I p).bind fun v =>
      (Mem.put st.1 h.new.2 p v).map fun h' => (h', if p > st.2 then p else st.2)) (h.new.1, 0)).bind fun (h', k) =>
  (Mem.delete h' h.new.2 k).map fun h' => (h', h.new.2, I.get k)

/-- data/manipulate.go:50-64 `ExtractLabels`: the datasets and labels it returns (the scope comes back unaltered, the label variable is looked up in it). -/
def extractLabels (ord : MapOrder) (h : Mem) (D : List Addr) : Option (Mem × List Addr × List Int) :=
  D.foldlM (fun (st : Mem × List Addr × List Int) a =>
    (extractOne ord st.1 a).map fun (h, b, l) => (h, st.2.1 ++ [b], st.2.2 ++ [l])) (h, [], [])

/-- data/manipulate.go:329-362 `Divide`. -/
def divide (ord : MapOrder) (h : Mem) (D : List Addr) (L : List Int) (n : Int) : Option Groups :=
  if n = 0 then none else   -- division by zero
  let m : Int := D.length
  let k := m.tdiv n
  let l := m.tmod n
  if k = 0 then
    D.zipIdx.foldlM (fun (st : Groups) (I : Addr × Nat) =>
      (newCopy ord st.mem I.1).bind fun (h, a) =>
      (goIdx st.data 0).bind fun g => (goSet g I.2 a).bind fun g =>
      (goIdx L I.2).bind fun li => (goIdx st.labels 0).bind fun gl => (goSet gl I.2 li).map fun gl => ⟨h, [g], [gl]⟩) ⟨h, [[]], [[]]⟩
  else if n < 0 then none   -- make with a negative length
  else
    (goFor n ⟨h, List.replicate n.toNat [], List.replicate n.toNat []⟩ fun st i => goFor k st fun st j =>
      (goIdx L (i * k + j)).bind fun lab => place ord D st i (i * k + j) lab).bind fun st =>
    goFor l st fun st i => (goIdx L (m - i - 1)).bind fun lab => place ord D st i (m - i - 1) lab

end Gospn
