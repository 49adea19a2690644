import Verif.Model.Log
import Verif.Model.Topo
import Verif.Model.Storer
import Verif.Model.Search
/-
Model of the node types of /repo/spn (sum.go, product.go, indicator.go, multinom.go, gaussian.go, node.go) and of
the inference functions of /repo/spn/utils.go.

Evidence (`VarSet`, spn/node.go:53) is a partial function from variable ids to values. `none` as a result is a panic.
Simplification: a leaf has no children (nothing in the repository adds a child to a leaf).
Methods that call themselves on their children are iterated to the number of nodes, which is as deep as a call can go
without a cycle; `dagRec_unfold` in Verif/Proofs/Spn.lean shows that on a graph without cycles they satisfy the equation the Go method is.
-/
namespace Gospn
open GoFloat

/-- spn/node.go:53 -/
abbrev VarSet := Int → Option Int

/-- spn/indicator.go:11-17; spn/multinom.go:30-38 with mode.go fields index and val (11-16), the scope being kept apart because of
`NewScopedCountingMultinomial` (107); spn/gaussian.go:17-23. -/
inductive Leaf (F : Type)
  | indicator (varid v : Int)
  | multinomial (sc : List Int) (varid : Int) (pr : List F) (modeIdx : Int) (modeVal : F)
  | gaussian (varid : Int) (mu sigma : F)

/-- What a node is: a sum with children and weights (spn/sum.go:12-15), a product with children (spn/product.go:10-12), a leaf. -/
inductive Kind (ι F : Type)
  | sum (ch : List ι) (w : List F)
  | product (ch : List ι)
  | leaf (l : Leaf F)

/-- An SPN as a graph of nodes. -/
structure Net (ι F : Type) where
  kind : ι → Kind ι F

variable {ι F : Type}

/-- spn/node.go:79-81 `Ch`. -/
def Net.ch (N : Net ι F) (n : ι) : List ι :=
  match N.kind n with
  | .sum cs _ => cs
  | .product cs => cs
  | .leaf _ => []

/-- `Type` of a node (spn/sum.go:113, spn/product.go:20, spn/indicator.go:25, spn/multinom.go:147, spn/gaussian.go:115). -/
def Net.type (N : Net ι F) (n : ι) : NodeType :=
  match N.kind n with
  | .sum _ _ => .sum
  | .product _ => .product
  | .leaf _ => .leaf

/-- Indexing a Go slice: `none` is an index out of range. -/
def goIdx {α : Type} (l : List α) (i : Int) : Option α := if i < 0 then none else l[i.toNat]?

section Leaves
variable [GoFloat F]

/-- spn/gaussian.go:117-122 `zeroSigma`. -/
def zeroSigma (v : Option Int) (mu : F) : F :=
  match v with
  | some v => if v = toInt mu then ofInt 0 else ninf
  | none => ninf

/-- spn/indicator.go:29-35, spn/multinom.go:154-160, spn/gaussian.go:126-138: `Value`. -/
def Leaf.value : Leaf F → VarSet → Option F
  | .indicator varid v, I =>
    match I varid with
    | none => some (ofInt 0)
    | some u => if u = v then some (ofInt 0) else some ninf
  | .multinomial _ varid pr _ _, I =>
    match I varid with
    | some v => (goIdx pr v).map log
    | none => some (ofInt 0)
  | .gaussian varid mu sigma, I =>
    if GoFloat.eq sigma (ofInt 0) then some (zeroSigma (I varid) mu)
    else match I varid with
      | some v => some (normLogProb mu sigma (ofInt v))
      | none => some (ofInt 0)

/-- spn/indicator.go:38-44, spn/multinom.go:163-169, spn/gaussian.go:141-149: `Max`. -/
def Leaf.max : Leaf F → VarSet → Option F
  | .indicator varid v, I =>
    match I varid with
    | none => some (ofInt 0)
    | some u => if u = v then some (ofInt 0) else some ninf
  | .multinomial _ varid pr _ mv, I =>
    match I varid with
    | some v => (goIdx pr v).map log
    | none => some (log mv)
  | .gaussian varid mu sigma, I =>
    if GoFloat.eq sigma (ofInt 0) then some (zeroSigma (I varid) mu)
    else match I varid with
      | some v => some (normLogProb mu sigma (ofInt v))
      | none => some (normLogProb mu sigma mu)

/-- The map with the single entry `k ↦ v`. -/
def VarSet.single (k v : Int) : VarSet := fun i => if i = k then some v else none

/-- spn/indicator.go:47-55 (for an unset variable `u` is the zero of int), spn/multinom.go:172-183, spn/gaussian.go:152-167: `ArgMax`. -/
def Leaf.argMax : Leaf F → VarSet → Option (VarSet × F)
  | .indicator varid v, I =>
    match I varid with
    | none => some (VarSet.single varid 0, ofInt 0)
    | some u => if u = v then some (VarSet.single varid u, ofInt 0) else some (fun _ => none, ninf)
  | .multinomial _ varid pr mi mv, I =>
    match I varid with
    | some v => (goIdx pr v).map (fun p => (VarSet.single varid v, log p))
    | none => some (VarSet.single varid mi, log mv)
  | .gaussian varid mu sigma, I =>
    if GoFloat.eq sigma (ofInt 0) then some (VarSet.single varid (toInt mu), ofInt 0)
    else match I varid with
      | some v => some (VarSet.single varid v, normLogProb mu sigma (ofInt v))
      | none => some (VarSet.single varid (toInt (GoFloat.round mu)), normLogProb mu sigma mu)

end Leaves

/-- `Sc` of a leaf: spn/indicator.go:58-63, spn/gaussian.go:174-180, and the stored slice for a multinomial (spn/node.go:84-86). -/
def Leaf.sc : Leaf F → List Int
  | .indicator varid _ => [varid]
  | .multinomial sc _ _ _ _ => sc
  | .gaussian varid _ _ => [varid]

section Log
variable [GoFloat F]

/-- The slice `vals` of a sum node: `vals[i] = v + math.Log(w[i])` (spn/sum.go:46-49; spn/utils.go:46-49, 84-87, 132-140).
Fewer weights than children is an index out of range. -/
def weighted : List F → List F → Option (List F)
  | [], _ => some []
  | _ :: _, [] => none
  | v :: vs, w :: ws => (weighted vs ws).map (add v (log w) :: ·)

/-- spn/product.go:48-54 `Compute`. -/
def prodCompute (cv : List F) : F := cv.foldl add (ofInt 0)

/-- The values `math.Log(w[i]) + v` that `Max` compares (spn/sum.go:85-86; spn/utils.go:190-192). -/
def weightedMax : List F → List F → Option (List F)
  | [], _ => some []
  | _ :: _, [] => none
  | v :: vs, w :: ws => (weightedMax vs ws).map (add (log w) v :: ·)

/-- The running maximum of a sum node, starting at minus infinity (spn/sum.go:82-90; spn/utils.go:189-196). -/
def maxCompute (us : List F) : F := us.foldl (fun m u => if lt m u then u else m) ninf

end Log

/-- `f` iterated `k` times from `bot`. -/
def fuelRec {α : Type} (step : (ι → α) → ι → α) (bot : α) : Nat → ι → α
  | 0 => fun _ => bot
  | k + 1 => step (fuelRec step bot k)

/-- A method that calls itself on children: `step` is its body with the results of the calls as an argument. -/
def dagRec {α : Type} [Fintype ι] (step : (ι → α) → ι → α) (bot : α) : ι → α := fuelRec step bot (Fintype.card ι)

section Methods
variable [GoFloat F]

/-- Body of `Value`: spn/sum.go:42-53 with `Compute` (56-58), spn/product.go:33-45. The printing in `Product.Value` has no effect on the result. -/
def Net.valueStep (N : Net ι F) (I : VarSet) (rec : ι → Option F) (n : ι) : Option F :=
  match N.kind n with
  | .leaf l => l.value I
  | .sum cs w => (cs.mapM rec).bind (fun vs => (weighted vs w).bind logSumExp)
  | .product cs => (cs.mapM rec).map prodCompute

/-- `n.Value(I)`. -/
def Net.value [Fintype ι] (N : Net ι F) (I : VarSet) : ι → Option F := dagRec (N.valueStep I) none

/-- Body of `Max`: spn/sum.go:81-93, spn/product.go:57-66. -/
def Net.maxStep (N : Net ι F) (I : VarSet) (rec : ι → Option F) (n : ι) : Option F :=
  match N.kind n with
  | .leaf l => l.max I
  | .sum cs w => (cs.mapM rec).bind (fun vs => (weightedMax vs w).map maxCompute)
  | .product cs => (cs.mapM rec).map prodCompute

/-- `n.Max(I)`. -/
def Net.max [Fintype ι] (N : Net ι F) (I : VarSet) : ι → Option F := dagRec (N.maxStep I) none

/-- The first child whose value beats all before it, with that value (spn/sum.go:97-106): `mch` stays nil if no child beats minus infinity. -/
def argMaxChild : List (ι × F) → Option ι × F → Option ι × F
  | [], acc => acc
  | (c, m) :: r, (mc, mx) => argMaxChild r (if lt mx m then (some c, m) else (mc, mx))

/-- `for k, val := range chargs { argmax[k] = val }` (spn/product.go:77-79; spn/utils.go:221-223). -/
def VarSet.override (M N : VarSet) : VarSet := fun k => (N k).or (M k)

/-- Body of `ArgMax`: spn/sum.go:96-110 (calling a method on the nil `mch` panics), spn/product.go:69-83. `mx` stands for the calls of `Max`. -/
def Net.argMaxStep (N : Net ι F) (I : VarSet) (mx : ι → Option F) (rec : ι → Option (VarSet × F)) (n : ι) : Option (VarSet × F) :=
  match N.kind n with
  | .leaf l => l.argMax I
  | .sum cs w =>
    (cs.mapM mx).bind fun vs =>
    (weightedMax vs w).bind fun us =>
      match argMaxChild (cs.zip us) (none, ninf) with
      | (none, _) => none
      | (some mch, m) => (rec mch).map (fun r => (r.1, m))
  | .product cs =>
    (cs.mapM rec).map fun rs =>
      rs.foldl (fun (M, v) r => (M.override r.1, add v r.2)) ((fun _ => none : VarSet), ofInt 0)

/-- `n.ArgMax(I)`. -/
def Net.argMax [Fintype ι] (N : Net ι F) (I : VarSet) : ι → Option (VarSet × F) := dagRec (N.argMaxStep I (N.max I)) none

variable [DecidableEq ι] [Fintype ι]

/-- The order in which `O := common.Queue{}; TopSortTarjan(S, &O); for !O.Empty() { s := O.Dequeue() … }` goes through the nodes. -/
def Net.order (N : Net ι F) (S : ι) : List ι := (topSortTarjan N.ch S (some ⟨false, []⟩)).items

/-- The loop body of spn/utils.go:31-61 and 73-99, which are equal up to the evaluation of leaves. `V[cs]` is 0 for a missing key. -/
def Net.inferStep (N : Net ι F) (leafVal : Leaf F → Option F) (V : ι → Option F) (s : ι) : Option (ι → Option F) :=
  let get : ι → F := fun c => (V c).getD (ofInt 0)
  match N.kind s with
  | .leaf l => (leafVal l).map (fun v => Function.update V s (some v))
  | .sum cs w => ((weighted (cs.map get) w).bind logSumExp).map (fun v => Function.update V s (some v))
  | .product cs => some (Function.update V s (some (prodCompute (cs.map get))))

/-- spn/utils.go:66-101 `Inference`. -/
def Net.inference (N : Net ι F) (S : ι) (I : VarSet) : Option F :=
  if (N.ch S).length = 0 then some (ofInt 0)
  else ((N.order S).foldlM (N.inferStep (fun l => l.value I)) (fun _ => none)).map (fun V => (V S).getD (ofInt 0))

/-- spn/utils.go:23-63 `InferenceY`; `s.Sc()[0]` panics for an empty scope. -/
def Net.inferenceY (N : Net ι F) (S : ι) (I : VarSet) (Y y : Int) : Option F :=
  if (N.ch S).length = 0 then some (ofInt 0)
  else ((N.order S).foldlM (N.inferStep (fun l =>
      match l.sc with
      | [] => none
      | varid :: _ => if varid = Y then l.value (VarSet.single Y y) else l.value I)) (fun _ => none)).map
    (fun V => (V S).getD (ofInt 0))

/-- The inner loop of spn/utils.go:132-140; `some none` is the error return of line 137, `none` an index out of range. -/
def storeVals (single : ι → Option F) : List ι → List F → Option (Option (List F))
  | [], _ => some (some [])
  | c :: cs, w =>
    match single c with
    | none => some none
    | some v =>
      match w with
      | [] => none
      | w0 :: w => (storeVals single cs w).map (fun r => r.map (add v (log w0) :: ·))

/-- Loop body of spn/utils.go:121-156: `none` is a panic, `some (st, false)` the error return of line 137. -/
def Net.storeInfStep (N : Net ι F) (I : VarSet) (table : Option Nat) (st : Storer ι F) (s : ι) : Option (Storer ι F × Bool) :=
  let single : ι → Option F := fun c => (st.deref table).entry c 0
  match N.kind s with
  | .leaf l => (l.value I).bind fun v => (st.tableStore table s 0 v).map (·, true)
  | .sum cs w =>
    (storeVals single cs w).bind fun r =>
      match r with
      | none => some (st, false)
      | some vs => (if cs.length = 0 then some ninf else logSumExp vs).bind fun v => (st.tableStore table s 0 v).map (·, true)
  | .product cs => (st.tableStore table s 0 (prodCompute (cs.map (fun c => (single c).getD (ofInt 0))))).map (·, true)

/-- The loop of spn/utils.go:121-156. -/
def Net.storeInfLoop (N : Net ι F) (I : VarSet) (table : Option Nat) : Storer ι F → List ι → Option (Storer ι F × Bool)
  | st, [] => some (st, true)
  | st, s :: o =>
    match N.storeInfStep I table st s with
    | none => none
    | some (st', false) => some (st', false)
    | some (st', true) => N.storeInfLoop I table st' o

/-- spn/utils.go:106-159 `StoreInference`: the result pair (`none` for nil, -1) and the storage. -/
def Net.storeInference (N : Net ι F) (S : ι) (I : VarSet) (tk : Int) (st : Storer ι F) : Option (Option (ι × Int) × Storer ι F) :=
  if (N.ch S).length = 0 then some (none, st)
  else
    let (tk, st) := if tk < 0 then st.newTicket else (tk, st)
    match N.storeInfLoop I (st.table tk) st (N.order S) with
    | none => none
    | some (st', false) => some (none, st')
    | some (st', true) => some (some (S, tk), st')

/-- Loop body of spn/utils.go:179-207, the first part of `StoreMAP`. -/
def Net.storeMapStep (N : Net ι F) (I : VarSet) (tab : Option Nat) (st : Storer ι F) (s : ι) : Option (Storer ι F) :=
  let get : ι → F := fun c => ((st.deref tab).entry c 0).getD (ofInt 0)
  match N.kind s with
  | .leaf l => (l.max I).bind fun m => st.tableStore tab s 0 m
  | .sum cs w => (weightedMax (cs.map get) w).bind fun us => st.tableStore tab s 0 (maxCompute us)
  | .product cs => st.tableStore tab s 0 (prodCompute (cs.map get))

/-- The children that attain the running maximum (spn/utils.go:228-238), in order. -/
def tiedChildren : List (ι × F) → List ι × F → List ι × F
  | [], acc => acc
  | (c, u) :: r, (mv, m) =>
    tiedChildren r (if lt m u then ([c], u) else if GoFloat.eq u m then (mv ++ [c], m) else (mv, m))

/-- Loop body of spn/utils.go:216-254, the second part of `StoreMAP`, for the worklist loop of Verif/Model/Search.lean. `pick s n` is the result of
`sys.RandIntn(n)` at node `s` (each node is taken at most once, so the choice may depend on the node); `RandIntn(0)` panics. -/
def Net.mapStateStep (N : Net ι F) (I : VarSet) (get : ι → F) (pick : ι → Nat → Nat) (M : VarSet) (s : ι) :
    Option (VarSet × Option (List ι)) :=
  match N.kind s with
  | .leaf l => (l.argMax I).map fun r => (M.override r.1, some [])
  | .sum cs w =>
    (weightedMax (cs.map get) w).bind fun us =>
      let mv := (tiedChildren (cs.zip us) ([], ninf)).1
      if mv.length = 0 then none else (mv[pick s mv.length % mv.length]?).map fun mvc => (M, some [mvc])
  | .product cs => some (M, some cs)

/-- spn/utils.go:164-257 `StoreMAP`: SPN and ticket (`none` for nil, -1, nil), MAP state, storage. -/
def Net.storeMAP (N : Net ι F) (S : ι) (I : VarSet) (tk : Int) (st : Storer ι F) (pick : ι → Nat → Nat) :
    Option (Option (ι × Int × VarSet) × Storer ι F) :=
  if (N.ch S).length = 0 then some (none, st)
  else
    let (tk, st) := if tk < 0 then st.newTicket else (tk, st)
    let tab := st.table tk
    ((N.order S).foldlM (N.storeMapStep I tab) st).bind fun st' =>
      (work (N.mapStateStep I (fun c => ((st'.deref tab).entry c 0).getD (ofInt 0)) pick) false S (fun _ => none)).map fun M =>
        (some (S, tk, M), st')

end Methods
end Gospn
