/-
Model of utils/unionfind.go and of the construction of independence graphs (utils/indep/indgraph.go). Nodes are numbered in the order of their creation.
Recursive calls have fuel; the theorems show that the number of nodes always suffices (`none` is running out of fuel).
-/
namespace Gospn

/-- All nodes made so far: utils/unionfind.go:5-15. -/
structure UF where
  size : Nat
  rank : Nat → Nat
  pa : Nat → Nat
  varid : Nat → Int
  ch : Nat → List Nat

def UF.empty : UF := ⟨0, fun _ => 0, fun _ => 0, fun _ => 0, fun _ => []⟩

/-- `m[x] = v`. -/
def setAt {α : Type} (m : Nat → α) (x : Nat) (v : α) : Nat → α := fun z => if z = x then v else m z

/-- utils/unionfind.go:18-22 `MakeSet`: the new node is number `u.size`. -/
def UF.makeSet (u : UF) (varid : Int) : UF :=
  ⟨u.size + 1, setAt u.rank u.size 0, setAt u.pa u.size u.size, setAt u.varid u.size varid, setAt u.ch u.size []⟩

/-- utils/unionfind.go:25-30 `Find`. -/
def UF.findLoop : Nat → UF → Nat → Option (UF × Nat)
  | 0, _, _ => none
  | fuel + 1, u, x =>
    if x ≠ u.pa x then
      match UF.findLoop fuel u (u.pa x) with
      | none => none
      | some (u', r) => some ({ u' with pa := setAt u'.pa x r }, r)
    else some (u, u.pa x)

def UF.find (u : UF) (x : Nat) : Option (UF × Nat) := UF.findLoop u.size u x

/-- utils/unionfind.go:35-52 `Union`. The second result is `none` for `nil, -1`, otherwise the representative and 1 or 2. -/
def UF.union (u : UF) (x y : Nat) : Option (UF × Option (Nat × Nat)) :=
  (u.find x).bind fun (u1, x) =>
  (u1.find y).bind fun (u2, y) =>
    if x = y then some (u2, none)
    else if u2.rank x > u2.rank y then
      some ({ u2 with pa := setAt u2.pa y x, ch := setAt u2.ch x (u2.ch x ++ [y]) }, some (x, 1))
    else
      some ({ u2 with pa := setAt u2.pa x y, ch := setAt u2.ch y (u2.ch y ++ [x]),
                      rank := if u2.rank x = u2.rank y then setAt u2.rank y (u2.rank y + 1) else u2.rank }, some (y, 2))

/-- utils/unionfind.go:55-69 `UFVarids`. -/
def UF.varidsLoop (u : UF) : Nat → Nat → Option (List Int)
  | 0, _ => none
  | fuel + 1, x =>
    if (u.ch x).length = 0 then some [u.varid x]
    else (u.ch x).foldlM (fun ch c => (UF.varidsLoop u fuel c).map (fun l => ch ++ l)) [u.varid x]

def UF.varids (u : UF) (x : Nat) : Option (List Int) := u.varidsLoop u.size x

/-- A call on the nodes made so far. -/
inductive UFOp
  | make (v : Int)
  | find (x : Nat)
  | union (x y : Nat)

/-- A program that makes the calls in turn; it can only use nodes it has made. -/
def UF.step (u : UF) : UFOp → Option UF
  | .make v => some (u.makeSet v)
  | .find x => if x < u.size then (u.find x).map (·.1) else none
  | .union x y => if x < u.size ∧ y < u.size then (u.union x y).map (·.1) else none

def UF.run (u : UF) : List UFOp → Option UF
  | [] => some u
  | op :: ops => (u.step op).bind (fun u' => u'.run ops)

/-! ### Independence graphs -/

/-- The nested loops `for i := 0; i < n; i++ { for j := i + 1; j < n; j++ { … } }` -/
def pairsBelow (n : Nat) : List (Nat × Nat) :=
  (List.range n).flatMap (fun i => (List.range (n - (i + 1))).map (fun k => (i, i + 1 + k)))

/-- `sets[i] = utils.MakeSet(ids[i])` for all i (utils/indep/indgraph.go:138-140, 188-190). -/
def makeAll (ids : List Int) : UF := ids.foldl UF.makeSet UF.empty

/-- The collection of sets at the end: utils/indep/indgraph.go:159-164, 261-266. -/
def collectSets (u : UF) (n : Nat) : Option (List (List Int)) :=
  (List.range n).foldlM (fun ks i => if i = u.pa i then (u.varids i).map (fun l => ks ++ [l]) else some ks) []

/-- utils/indep/indgraph.go:170-269 `NewUFIndepGraph`, the result `Kset`. `indep i j` is the result of the independence test of the variables at positions
`i` and `j` (lines 206-245, which only read the data). The adjacency lists, which nobody reads, are left out. -/
def newUFIndepGraph (ids : List Int) (indep : Nat → Nat → Bool) : Option (List (List Int)) :=
  ((pairsBelow ids.length).foldlM (fun (u : UF) (p : Nat × Nat) =>
      (u.find p.1).bind fun (u1, a) =>
      (u1.find p.2).bind fun (u2, b) =>
        if a = b then some u2
        else if !indep p.1 p.2 then (u2.union p.1 p.2).map (·.1)
        else some u2) (makeAll ids)).bind fun u => collectSets u ids.length

/-- The adjacency lists of utils/indep/indgraph.go:59-128, a map from ids to ids. -/
def adjLists (ids : List Int) (indep : Nat → Nat → Bool) : Int → List Int :=
  (pairsBelow ids.length).foldl (fun adj (p : Nat × Nat) =>
    if !indep p.1 p.2 then
      let v1 := ids.getD p.1 0
      let v2 := ids.getD p.2 0
      let adj1 : Int → List Int := fun v => if v = v1 then adj v1 ++ [v2] else adj v
      fun v => if v = v2 then adj1 v2 ++ [v1] else adj1 v
    else adj) (fun _ => [])

/-- `rids`: the position of an id (utils/indep/indgraph.go:65-71), 0 for other ids. -/
def revIds (ids : List Int) : Int → Nat :=
  (ids.zipIdx).foldl (fun m (p : Int × Nat) => fun v => if v = p.1 then p.2 else m v) (fun _ => 0)

/-- utils/indep/indgraph.go:59-167 `NewIndepGraph`, the result `Kset`. -/
def newIndepGraph (ids : List Int) (indep : Nat → Nat → Bool) : Option (List (List Int)) :=
  let adj := adjLists ids indep
  let rids := revIds ids
  ((List.range ids.length).foldlM (fun (u : UF) (i : Nat) =>
    (adj (ids.getD i 0)).foldlM (fun (u : UF) (v2 : Int) =>
      (u.find i).bind fun (u1, a) =>
      (u1.find (rids v2)).bind fun (u2, b) =>
        if a = b then some u2 else (u2.union i (rids v2)).map (·.1)) u) (makeAll ids)).bind fun u => collectSets u ids.length

end Gospn
