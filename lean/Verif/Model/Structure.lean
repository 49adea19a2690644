import Verif.Model.Spn
/-
Model of the rest of spn/utils.go up to `Decomposable`: normalisation of weights, heights, scopes, validity; and of `Normalize` in learn/derive.go.
-/
namespace Gospn
open GoFloat
variable {ι F : Type}

section Norm
variable [GoFloat F]

/-- The running minimum, starting at 0 (spn/utils.go:260-265; learn/derive.go:201-206). -/
def minZero (v : List F) : F := v.foldl (fun m u => if lt u m then u else m) (ofInt 0)

/-- spn/utils.go:272-278, learn/derive.go:213-221: divide by the sum. -/
def divSum (v : List F) : List F :=
  let norm := v.foldl add (ofInt 0)
  v.map (fun x => div x norm)

/-- spn/utils.go:259-279 `norm`. -/
def spnNorm (v : List F) : List F :=
  let min := minZero v
  divSum (if lt min (ofInt 0) then v.map (fun x => add x min) else v)

/-- learn/derive.go:200-231 `Normalize`. -/
def learnNormalize (v : List F) : List F :=
  let min := minZero v
  divSum (if lt min (ofInt 0) then v.map (fun x => sub x min) else v)

end Norm

/-- The weight slice of a sum node (spn/sum.go:12-15); nothing for other nodes. -/
def Net.weights (N : Net ι F) (n : ι) : List F :=
  match N.kind n with
  | .sum _ w => w
  | _ => []

/-- The network with the weight slices overwritten: functions that write to `sum.Weights()` change nothing else. -/
def Net.withWeights (N : Net ι F) (W : ι → List F) : Net ι F where
  kind n := match N.kind n with
    | .sum cs _ => .sum cs (W n)
    | k => k

section Graph
variable [DecidableEq ι] [Fintype ι]

/-- spn/utils.go:282-306 `NormalizeSPN`: the loop keeps the weight slices of all nodes as its state. -/
def Net.normalizeSPN [GoFloat F] (N : Net ι F) (S : ι) : Option (Net ι F) :=
  (work (fun (W : ι → List F) s =>
    some (if N.type s = .sum then Function.update W s (spnNorm (W s)) else W, some (N.ch s))) false S N.weights).map N.withWeights

/-- Body of `Height`: spn/node.go:102-116. -/
def heightStep (ch : ι → List ι) (rec : ι → Nat) (n : ι) : Nat :=
  if (ch n).length > 0 then (ch n).foldl (fun v c => let t := rec c; if t > v then t else v) 0 + 1 else 0

/-- `n.Height()`. -/
def height (ch : ι → List ι) : ι → Nat := dagRec (heightStep ch) 0

/-- spn/utils.go:309-332 `ComputeHeight`. The loop's `V` is a map to depths: its keys are the visited set of the worklist loop, its values the first component of
the state; a missing key reads as 0. -/
def computeHeight (ch : ι → List ι) (ty : ι → NodeType) (S : ι) : Option Nat :=
  (work (fun (x : (ι → Option Nat) × Nat) s =>
    let d := (x.1 s).getD 0
    let h := if ty s = .leaf ∧ d > x.2 then d else x.2
    some (((ch s).foldl (fun V c => if V c = none then Function.update V c (some ((V s).getD 0 + 1)) else V) x.1, h), some (ch s)))
    true S (fun n => if n = S then some 0 else none, 0)).map (·.2)

/-- The keys of the map `msc` of spn/utils.go:343-349, in the order of first insertion. -/
def keysOf (raw : ι → List Int) (cs : List ι) : List Int :=
  cs.foldl (fun m c => (raw c).foldl (fun m v => if v ∈ m then m else m ++ [v]) m) []

/-- spn/utils.go:335-359 `ComputeScope`: the fields `sc` of all nodes afterwards. `ord s keys` is the order in which `range msc` (line 351) goes through the
keys at node `s`. -/
def computeScope (ch : ι → List ι) (ord : ι → List Int → List Int) (S : ι) (raw : ι → List Int) : ι → List Int :=
  (topSortTarjan ch S (some ⟨false, []⟩)).items.foldl (fun raw s =>
    if (ch s).length > 0 then Function.update raw s (ord s (keysOf raw (ch s))) else raw) raw

/-- `v[u]++` on a map to int. -/
def bump (v : Int → Option Nat) (u : Int) : Int → Option Nat := fun z => if z = u then some ((v u).getD 0 + 1) else v z

/-- `for _, u := range csc { if _, e := v[u]; !e { return false }; v[u]++ }` (spn/utils.go:387-394, 437-443); `none` is the return. -/
def bumpAll : (Int → Option Nat) → List Int → Option (Int → Option Nat)
  | v, [] => some v
  | v, u :: us => if v u = none then none else bumpAll (bump v u) us

/-- The test of spn/utils.go:374-402 at a sum node. The loop over `v` (397-402) looks at all keys, which are the elements of `sc`. -/
def completeAt (raw : ι → List Int) (cs : List ι) (s : ι) : Bool :=
  let sc := raw s
  match cs.foldlM (fun v c => if (raw c).length ≠ sc.length then none else bumpAll v (raw c)) (sc.foldl bump (fun _ => none)) with
  | none => false
  | some v => sc.all (fun u => v u == some (cs.length + 1))

/-- The test of spn/utils.go:428-453 at a product node. -/
def decomposableAt (raw : ι → List Int) (cs : List ι) (s : ι) : Bool :=
  let sc := raw s
  match cs.foldlM (fun v c => bumpAll v (raw c)) (sc.foldl bump (fun _ => none)) with
  | none => false
  | some v => sc.all (fun u => v u == some 2) && decide (cs.foldl (fun (n : Int) c => n - (raw c).length) sc.length = 0)

/-- The loops of spn/utils.go:367-412 and 421-463, `test s` being the test at `s`. The condition on which a child is put into the queue reads `V[S]`
(lines 405, 456). -/
def validLoop (ch : ι → List ι) (ty : ι → NodeType) (S : ι) (test : ι → Bool) : Nat → List ι → Finset ι → Option Bool
  | 0, _, _ => none
  | _ + 1, [], _ => some true
  | fuel + 1, s :: Q, V =>
    if test s then
      let (Q, V) := (ch s).foldl (fun (Q, V) c => if S ∉ V ∧ ty c ≠ .leaf then (Q ++ [c], insert c V) else (Q, V)) (Q, V)
      validLoop ch ty S test fuel Q V
    else some false

/-- spn/utils.go:362-413 `Complete`, with the scopes computed first. Fuel: a node is put in the queue at most once, plus the round that finds it empty. -/
def Net.completeTest (N : Net ι F) (ord : ι → List Int → List Int) (S : ι) (raw : ι → List Int) : Option Bool :=
  let raw' := computeScope N.ch ord S raw
  validLoop N.ch N.type S (fun s => if N.type s = .sum then completeAt raw' (N.ch s) s else true) (Fintype.card ι + 2) [S] {S}

/-- spn/utils.go:416-464 `Decomposable`. -/
def Net.decomposableTest (N : Net ι F) (ord : ι → List Int → List Int) (S : ι) (raw : ι → List Int) : Option Bool :=
  let raw' := computeScope N.ch ord S raw
  validLoop N.ch N.type S (fun s => if N.type s = .product then decomposableAt raw' (N.ch s) s else true) (Fintype.card ι + 2) [S] {S}

end Graph
end Gospn
