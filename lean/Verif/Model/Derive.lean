import Verif.Model.Structure
/-
Model of /repo/learn/derive.go, of the gradient steps of /repo/learn/generative.go and /repo/learn/discriminative.go, and of `TraceMAP` in /repo/spn/utils.go.

The search collection `c` is given by whether it is a stack; it is taken to be empty at the call, as it is after each of these functions.
-/
namespace Gospn
open GoFloat
variable {ι F : Type} [DecidableEq ι]

/-- The children that are not leaves: the ones the searches go on with (learn/derive.go:77-82, 128-133, 186-191, 259-264). -/
def Net.innerCh (N : Net ι F) (s : ι) : List ι := (N.ch s).filter (fun c => N.type c ≠ .leaf)

section Derivatives
variable [GoFloat F]

/-- `v, e := table.Single(cs); if !e { table.StoreSingle(cs, t) } else { table.StoreSingle(cs, utils.LogSumExpPair(v, t)) }`
(learn/derive.go:50-55, 59 and 68-73). -/
def deriveStore (h : Option Nat) (st : Storer ι F) (cs : ι) (t : F) : Option (Storer ι F) :=
  match (st.deref h).entry cs 0 with
  | none => st.tableStore h cs 0 t
  | some v => st.tableStore h cs 0 (logSumExpPair v t)

/-- learn/derive.go:60-66: `t` for the `i`-th child of a product. -/
def siblingProd (inf : Table ι F) (pv : F) (ch : List ι) (i : Nat) : F :=
  ch.zipIdx.foldl (fun t cj => if cj.2 ≠ i then add t ((inf.entry cj.1 0).getD (ofInt 0)) else t) pv

/-- Loop body of learn/derive.go:41-83. `h` and `hi` are the handles `table` and `inf`. -/
def Net.deriveStep (N : Net ι F) (h hi : Option Nat) (st : Storer ι F) (s : ι) : Option (Storer ι F) :=
  let pv := ((st.deref h).entry s 0).getD (ofInt 0)
  match N.kind s with
  | .sum ch w => ch.zipIdx.foldlM (fun st ci => (w[ci.2]?).bind fun wi => deriveStore h st ci.1 (add (log wi) pv)) st
  | .product ch => ch.zipIdx.foldlM (fun st ci => deriveStore h st ci.1 (siblingProd (st.deref hi) pv ch ci.2)) st
  | .leaf _ => some st

/-- `if tk < 0 { tk = storage.NewTicket() }` (learn/derive.go:27-29, 103-105, 155-157, 278-280). -/
def newIfNeg (tk : Int) (st : Storer ι F) : Int × Storer ι F := if tk < 0 then st.newTicket else (tk, st)

variable [Fintype ι]

/-- learn/derive.go:26-89 `DeriveSPN`: the ticket returned and the storage. -/
def Net.deriveSPN (N : Net ι F) (S : ι) (st : Storer ι F) (tk itk : Int) (isStack : Bool) : Option (Int × Storer ι F) :=
  let (tk, st) := newIfNeg tk st
  let h := st.table tk
  let hi := st.table itk
  (st.tableStore h S 0 (ofInt 0)).bind fun st =>
    (work (fun st s => (N.deriveStep h hi st s).map fun st' => (st', some (N.innerCh s))) isStack S st).map fun st => (tk, st)

/-- Loop body of learn/derive.go:117-127. -/
def Net.deriveWStep (N : Net ι F) (h hd hi : Option Nat) (st : Storer ι F) (s : ι) : Option (Storer ι F) :=
  let pv := ((st.deref hd).entry s 0).getD (ofInt 0)
  if N.type s = .sum then
    (N.ch s).zipIdx.foldlM (fun st ci => st.tableStore h s ci.2 (add (((st.deref hi).entry ci.1 0).getD (ofInt 0)) pv)) st
  else some st

/-- learn/derive.go:102-140 `DeriveWeights`. -/
def Net.deriveWeights (N : Net ι F) (S : ι) (st : Storer ι F) (tk dtk itk : Int) (isStack : Bool) : Option (Int × Storer ι F) :=
  let (tk, st) := newIfNeg tk st
  let h := st.table tk
  let hd := st.table dtk
  let hi := st.table itk
  (work (fun st s => (N.deriveWStep h hd hi st s).map fun st' => (st', some (N.innerCh s))) isStack S st).map fun st => (tk, st)

/-- Loop body of learn/derive.go:169-184. -/
def Net.deriveWBStep (N : Net ι F) (h hd hi : Option Nat) (st : Storer ι F) (s : ι) : Option (Storer ι F) :=
  let pv := ((st.deref hd).entry s 0).getD (ofInt 0)
  if N.type s = .sum then
    (N.ch s).zipIdx.foldlM (fun st ci =>
      let ndw := add (((st.deref hi).entry ci.1 0).getD (ofInt 0)) pv
      st.tableStore h s ci.2 (match (st.deref h).entry s ci.2 with
        | some dw => logSumExpPair ndw dw
        | none => ndw)) st
  else some st

/-- learn/derive.go:154-198 `DeriveWeightsBatch`. -/
def Net.deriveWeightsBatch (N : Net ι F) (S : ι) (st : Storer ι F) (tk dtk itk : Int) (isStack : Bool) : Option (Int × Storer ι F) :=
  let (tk, st) := newIfNeg tk st
  let h := st.table tk
  let hd := st.table dtk
  let hi := st.table itk
  (work (fun st s => (N.deriveWBStep h hd hi st s).map fun st' => (st', some (N.innerCh s))) isStack S st).map fun st => (tk, st)

/-- `for i, cs := range ch { v, _ := it.Single(cs); W[i] += eta * math.Exp(v+pv) }` (learn/derive.go:251-254). -/
def applyLoop (eta pv : F) (it : Table ι F) (ch : List ι) (w : List F) : Option (List F) :=
  ch.zipIdx.foldlM (fun w ci => (w[ci.2]?).map fun x =>
    w.set ci.2 (add x (mul eta (exp (add ((it.entry ci.1 0).getD (ofInt 0)) pv))))) w

/-- Work of learn/derive.go:245-258 on node `s`; the state is the weight slices of all nodes. -/
def Net.applyStep (N : Net ι F) (eta : F) (dt it : Table ι F) (norm : Bool) (W : ι → List F) (s : ι) : Option (ι → List F) :=
  let pv := (dt.entry s 0).getD (ofInt 0)
  if N.type s = .sum then
    (applyLoop eta pv it (N.ch s) (W s)).map fun w => Function.update W s (if norm then learnNormalize w else w)
  else some W

/-- learn/derive.go:235-270 `DeriveApplyWeights`: the network with its new weights. -/
def Net.deriveApplyWeights (N : Net ι F) (S : ι) (eta : F) (st : Storer ι F) (dtk itk : Int) (isStack norm : Bool) : Option (Net ι F) :=
  (work (fun W s => (N.applyStep eta (st.deref (st.table dtk)) (st.deref (st.table itk)) norm W s).map fun W' => (W', some (N.innerCh s)))
    isStack S N.weights).map N.withWeights

/-- Loop body of spn/utils.go:482-510, the first part of `TraceMAP`; a missing key of `tab` reads as 0. -/
def Net.traceTabStep (N : Net ι F) (I : VarSet) (tab : ι → Option F) (s : ι) : Option (ι → Option F) :=
  let get : ι → F := fun c => (tab c).getD (ofInt 0)
  match N.kind s with
  | .leaf l => (l.max I).map fun m => Function.update tab s (some m)
  | .sum cs w => (weightedMax (cs.map get) w).map fun us => Function.update tab s (some (maxCompute us))
  | .product cs => some (Function.update tab s (some (prodCompute (cs.map get))))

/-- spn/utils.go:521-537 in `TraceMAP`: the index of the chosen child of a sum node. `pick n` is the result of `sys.RandIntn(n)`; `RandIntn(0)` panics. -/
def traceChoice (get : ι → F) (pick : Nat → Nat) (cs : List ι) (w : List F) : Option Nat :=
  (weightedMax (cs.map get) w).bind fun us =>
    let mi := (tiedChildren (us.zipIdx.map Prod.swap) ([], ninf)).1
    if mi.length = 0 then none else mi[pick mi.length % mi.length]?

/-- Loop body of spn/utils.go:517-552. The state is the map `P` and once more the set `V` of the worklist loop, because line 538 asks whether the chosen child
has been visited (`mvc != nil` always holds: nodes have no nil children). `pick s` is the random choice at node `s`, which is taken at most once. -/
def Net.traceStep (N : Net ι F) (get : ι → F) (pick : ι → Nat → Nat) (x : (ι → Option Nat) × Finset ι) (s : ι) :
    Option (((ι → Option Nat) × Finset ι) × Option (List ι)) :=
  match N.kind s with
  | .sum cs w =>
    (traceChoice get (pick s) cs w).bind fun i =>
    (cs[i]?).map fun mvc =>
      if mvc ∈ x.2 then (x, some [mvc]) else ((Function.update x.1 s (some i), insert mvc x.2), some [mvc])
  | .product cs => some ((x.1, x.2 ∪ cs.toFinset), some cs)
  | .leaf _ => some (x, some [])

/-- spn/utils.go:473-555 `TraceMAP`: the map from sum nodes to positions. -/
def Net.traceMAP (N : Net ι F) (S : ι) (I : VarSet) (pick : ι → Nat → Nat) : Option (ι → Option Nat) :=
  ((N.order S).foldlM (N.traceTabStep I) (fun _ => none)).bind fun tab =>
    (work (N.traceStep (fun c => (tab c).getD (ofInt 0)) pick) false S (fun _ => none, {S})).map (·.1)

/-- Loop body of learn/derive.go:289-312, `T` being the trace. -/
def Net.deriveHardStep (N : Net ι F) (h : Option Nat) (T : ι → Option Nat) (st : Storer ι F) (s : ι) : Option (Storer ι F × Option (List ι)) :=
  match N.kind s with
  | .product _ => some (st, some (N.innerCh s))
  | .sum ch _ =>
    match T s with
    | none => some (st, some [])
    | some mi =>
      (st.tableStore h s mi (add (((st.deref h).entry s mi).getD (ofInt 0)) (ofInt 1))).bind fun st' =>
      (ch[mi]?).map fun mc => (st', some [mc])
  | .leaf _ => some (st, some [])

/-- learn/derive.go:277-316 `DeriveHard`. -/
def Net.deriveHard (N : Net ι F) (S : ι) (st : Storer ι F) (tk : Int) (I : VarSet) (pick : ι → Nat → Nat) : Option (Int × Storer ι F) :=
  let (tk, st) := newIfNeg tk st
  let h := st.table tk
  (N.traceMAP S I pick).bind fun T =>
    (work (N.deriveHardStep h T) false S st).map fun st => (tk, st)

end Derivatives

/-- learn/discriminative.go:33-39 `pullValues`: the instance and the slice `y` afterwards. A missing key of `I` reads as 0. `y` has the length of `Y`. -/
def pullValues (I : VarSet) : List Int → VarSet × List Int
  | [] => (I, [])
  | u :: Y =>
    let r := pullValues (Function.update I u none) Y
    (r.1, (I u).getD 0 :: r.2)

/-- learn/discriminative.go:41-45 `pushValues`. -/
def pushValues (I : VarSet) : List Int → List Int → VarSet
  | u :: Y, v :: y => pushValues (Function.update I u (some v)) Y y
  | _, _ => I

section Discriminative
variable [GoFloat F]

/-- learn/discriminative.go:202-205 in `applyDGD`: the new weights of a sum node; missing keys of the inner maps read as 0. -/
def dgdWeights (eta lambda b : F) (dW dU iS iZ : Int → F) (w : List F) : List F :=
  w.zipIdx.map fun xi =>
    let delta := mul eta (sub (exp (sub (dW xi.2) (iS xi.2))) (exp (sub (dU xi.2) (iZ xi.2))))
    add xi.1 (sub (div delta b) (mul (mul (ofInt 2) lambda) xi.1))

/-- Reading `Value(n)` of a table and then an index: 0 where there is none. -/
def Table.getInner (t : Table ι F) (n : ι) : Int → F := fun i => (t.entry n i).getD (ofInt 0)

/-- The loop of learn/discriminative.go:192-216 (`applyDGD`), whose condition for going on with a child reads `V[cs]`. `upd W n` is the update at a sum node. -/
def Net.dgdLoop (N : Net ι F) {σ : Type} (upd : σ → ι → σ) : Nat → List ι → Finset ι → σ → Option σ
  | 0, _, _, _ => none
  | _ + 1, [], _, W => some W
  | fuel + 1, n :: Q, V, W =>
    let W' := if N.type n = .sum then upd W n else W
    let QV := (N.ch n).foldl (fun (QV : List ι × Finset ι) c => if N.type c ≠ .leaf ∧ c ∈ QV.2 then (QV.1 ++ [c], insert c QV.2) else QV) (Q, V)
    N.dgdLoop upd fuel QV.1 QV.2 W'

variable [Fintype ι]

/-- learn/discriminative.go:182-217 `applyDGD`. `b` is the converted batch size. Fuel: on a graph without cycles the root is the only node that is ever in the queue. -/
def Net.applyDGD (N : Net ι F) (S : ι) (s w z u : Int) (st : Storer ι F) (eta lambda b : F) (norm : Bool) (fuel : Nat) : Option (Net ι F) :=
  (N.dgdLoop (fun W n =>
      let r := dgdWeights eta lambda b ((st.deref (st.table w)).getInner n) ((st.deref (st.table u)).getInner n)
        ((st.deref (st.table s)).getInner n) ((st.deref (st.table z)).getInner n) (W n)
      Function.update W n (if norm then learnNormalize r else r)) fuel [S] {S} N.weights).map N.withWeights

end Discriminative
end Gospn
