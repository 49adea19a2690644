import Verif.Model.Spn
/-
The methods and functions of Verif/Model/Spn.lean once more, now with a count of the work they do. The count comes with the result.

`Value`, `Max` and `ArgMax` count calls of these methods. `TopSortTarjan`, `Inference` and `StoreInference` count the passes through their loops, those through inner loops included.
Methods that call themselves on their children take as `rec` their results and counts there.
-/
namespace Gospn
open GoFloat
variable {ι F : Type} [GoFloat F]

/-- Body of `Value` (spn/sum.go:42-53, spn/product.go:33-45, leaves as in `Net.valueStep`) with the number of calls of `Value`, this one included. -/
def Net.valueCStep (N : Net ι F) (I : VarSet) (rec : ι → Option (F × Nat)) (n : ι) : Option (F × Nat) :=
  match N.kind n with
  | .leaf l => (l.value I).map (·, 1)
  | .sum cs w => (cs.mapM rec).bind fun rs => ((weighted (rs.map (·.1)) w).bind logSumExp).map (·, 1 + (rs.map (·.2)).sum)
  | .product cs => (cs.mapM rec).map fun rs => (prodCompute (rs.map (·.1)), 1 + (rs.map (·.2)).sum)

/-- `n.Value(I)` with the number of calls, to a depth of `fuel`. -/
def Net.valueC (N : Net ι F) (I : VarSet) (fuel : Nat) : ι → Option (F × Nat) := fuelRec (N.valueCStep I) none fuel

/-- Body of `Max` (spn/sum.go:81-93, spn/product.go:57-66) with the number of calls of `Max`, this one included. -/
def Net.maxCStep (N : Net ι F) (I : VarSet) (rec : ι → Option (F × Nat)) (n : ι) : Option (F × Nat) :=
  match N.kind n with
  | .leaf l => (l.max I).map (·, 1)
  | .sum cs w => (cs.mapM rec).bind fun rs => (weightedMax (rs.map (·.1)) w).map fun us => (maxCompute us, 1 + (rs.map (·.2)).sum)
  | .product cs => (cs.mapM rec).map fun rs => (prodCompute (rs.map (·.1)), 1 + (rs.map (·.2)).sum)

/-- `n.Max(I)` with the number of calls, to a depth of `fuel`. -/
def Net.maxC (N : Net ι F) (I : VarSet) (fuel : Nat) : ι → Option (F × Nat) := fuelRec (N.maxCStep I) none fuel

/-- Body of `ArgMax` (spn/sum.go:96-110, spn/product.go:69-83) with the number of calls of `Max` and `ArgMax`, this one included. `mx` stands for the calls of `Max`. -/
def Net.argMaxCStep (N : Net ι F) (I : VarSet) (mx : ι → Option (F × Nat)) (rec : ι → Option ((VarSet × F) × Nat)) (n : ι) : Option ((VarSet × F) × Nat) :=
  match N.kind n with
  | .leaf l => (l.argMax I).map (·, 1)
  | .sum cs w =>
    (cs.mapM mx).bind fun vs =>
    (weightedMax (vs.map (·.1)) w).bind fun us =>
      match argMaxChild (cs.zip us) (none, ninf) with
      | (none, _) => none
      | (some mch, m) => (rec mch).map (fun r => ((r.1.1, m), 1 + (vs.map (·.2)).sum + r.2))
  | .product cs =>
    (cs.mapM rec).map fun rs =>
      ((rs.map (·.1)).foldl (fun (M, v) r => (M.override r.1, add v r.2)) ((fun _ => none : VarSet), ofInt 0), 1 + (rs.map (·.2)).sum)

/-- `n.ArgMax(I)` with the number of calls, to a depth of `fuel`. -/
def Net.argMaxC (N : Net ι F) (I : VarSet) (fuel : Nat) : ι → Option ((VarSet × F) × Nat) := fuelRec (N.argMaxCStep I (N.maxC I fuel)) none fuel

variable [DecidableEq ι]

/-- The passes of one iteration of the loop of `TopSortTarjan` (spn/topo.go:47-62): one for itself, and one for each child if the node is not processed yet. -/
def tarjanPasses (ch : ι → List ι) (st : TarjanSt ι) : Nat :=
  match st.S with
  | [] => 0
  | u :: _ => if u ∈ st.P then 1 else 1 + (ch u).length

/-- The loop of `TopSortTarjan` (spn/topo.go:47-62) with its passes. -/
def tarjanLoopC (ch : ι → List ι) : Nat → TarjanSt ι → TarjanSt ι × Nat
  | 0, st => (st, 0)
  | fuel + 1, st => if st.S = [] then (st, 0) else
    let r := tarjanLoopC ch fuel (tarjanStep ch st)
    (r.1, tarjanPasses ch st + r.2)

variable [Fintype ι]

/-- `TopSortTarjan(S, &O)` as in spn/utils.go:28-30, 70-72, 117-119, with its passes. -/
def Net.orderC (N : Net ι F) (S : ι) : List ι × Nat :=
  let r := tarjanLoopC N.ch (2 * Fintype.card ι) (tarjanInit S ⟨false, []⟩)
  (r.1.C.items, r.2)

/-- The loop of spn/utils.go:73-99 with its passes: one per node and one per child. -/
def Net.inferLoopC (N : Net ι F) (leafVal : Leaf F → Option F) : (ι → Option F) → List ι → Option ((ι → Option F) × Nat)
  | V, [] => some (V, 0)
  | V, s :: o => (N.inferStep leafVal V s).bind fun V' => (N.inferLoopC leafVal V' o).map fun r => (r.1, 1 + (N.ch s).length + r.2)

/-- spn/utils.go:66-101 `Inference` with the passes through its loops. -/
def Net.inferenceC (N : Net ι F) (S : ι) (I : VarSet) : Option (F × Nat) :=
  if (N.ch S).length = 0 then some (ofInt 0, 0)
  else
    let o := N.orderC S
    (N.inferLoopC (fun l => l.value I) (fun _ => none) o.1).map fun r => ((r.1 S).getD (ofInt 0), o.2 + r.2)

/-- The loop of spn/utils.go:121-156 with its passes. -/
def Net.storeInfLoopC (N : Net ι F) (I : VarSet) (table : Option Nat) : Storer ι F → List ι → Option ((Storer ι F × Bool) × Nat)
  | st, [] => some ((st, true), 0)
  | st, s :: o =>
    match N.storeInfStep I table st s with
    | none => none
    | some (st', false) => some ((st', false), 1 + (N.ch s).length)
    | some (st', true) => (N.storeInfLoopC I table st' o).map fun r => (r.1, 1 + (N.ch s).length + r.2)

/-- spn/utils.go:106-159 `StoreInference` with the passes through its loops. -/
def Net.storeInferenceC (N : Net ι F) (S : ι) (I : VarSet) (tk : Int) (st : Storer ι F) : Option ((Option (ι × Int) × Storer ι F) × Nat) :=
  if (N.ch S).length = 0 then some ((none, st), 0)
  else
    let (tk, st) := if tk < 0 then st.newTicket else (tk, st)
    let o := N.orderC S
    match N.storeInfLoopC I (st.table tk) st o.1 with
    | none => none
    | some ((st', false), k) => some ((none, st'), o.2 + k)
    | some ((st', true), k) => some ((some (S, tk), st'), o.2 + k)

end Gospn
