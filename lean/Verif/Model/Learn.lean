import Verif.Model.Derive
/-
Model of /repo/learn/parameters/parameters.go and of the learning loops of /repo/learn/generative.go and /repo/learn/discriminative.go.

Log messages are left out, and with them `eps` and the log-likelihoods, which the code uses in messages only. `StoreInference` returns nil instead of its root on an error;
the loops ignore the result, and so does the model. The collection `c` is given by whether it is a stack.
The order in which Go ranges over a map and the random choices of `TraceMAP` are arguments (`RangeOrder`, `pick`). They may be different at every call: they are functions of a
number, for which the model uses the number of tables allocated so far (every instance resets a ticket, which allocates a table).
The instances of the data set are maps; the discriminative loops write to them, so the data set is part of the result there. The instances are taken to be different maps.
-/
namespace Gospn
open GoFloat

section Parameters
variable {ι F : Type}

/-- learn/parameters/parameters.go:35-45 `P`. -/
structure Params (F : Type) where
  normalize : Bool
  hardWeight : Bool
  smoothSum : F
  learningType : Int
  eta : F
  epsilon : F
  batchSize : Int
  lambda : F
  iterations : Int

/-- learn/parameters/parameters.go:57-59 `Default`. -/
def Params.default [GoFloat F] : Params F :=
  ⟨true, false, div (ofInt 1) (ofInt 100), 1, div (ofInt 1) (ofInt 10), ofInt 1, 0, div (ofInt 1) (ofInt 100), 4⟩

/-- learn/parameters/parameters.go:67-72 `Method`: 0 is GD, 1 is EM. -/
def learnMethod (t : Int) : Int := if t ≤ 1 then 0 else 1

/-- learn/parameters/parameters.go:75-80 `Hardness`: 0 is Hard, 1 is Soft. -/
def learnHardness (t : Int) : Int := if t.tmod 2 = 0 then 0 else 1

/-- A key of the map `bindings`: an interface value holding a pointer to the node itself, or to the `Node` embedded in it (as in `(*Node).Parameters`, which leaves inherit). -/
inductive PKey (ι : Type)
  | obj (n : ι)
  | node (n : ι)
deriving DecidableEq

/-- learn/parameters/parameters.go:88 `bindings`, a map to pointers, and the memory these point to. Nil pointers are not modelled. -/
structure Bindings (ι F : Type) where
  map : PKey ι → Option Nat
  heap : List (Params F)

variable [DecidableEq ι]

/-- learn/parameters/parameters.go:94-98 `Bind`. -/
def Bindings.bind (B : Bindings ι F) (e : PKey ι) (p : Nat) : Bindings ι F := { B with map := Function.update B.map e (some p) }

/-- learn/parameters/parameters.go:100-104 `Unbind`. -/
def Bindings.unbind (B : Bindings ι F) (e : PKey ι) : Bindings ι F := { B with map := Function.update B.map e none }

/-- learn/parameters/parameters.go:106-111 `Exists`. -/
def Bindings.exists_ (B : Bindings ι F) (e : PKey ι) : Bool := (B.map e).isSome

/-- learn/parameters/parameters.go:113-118 `Retrieve`: the pointer, if there is one. -/
def Bindings.retrieve (B : Bindings ι F) (e : PKey ι) : Option Nat := B.map e

/-- `parameters.New`/`Default` (learn/parameters/parameters.go:57-64): a new object. -/
def Bindings.alloc (B : Bindings ι F) (p : Params F) : Nat × Bindings ι F := (B.heap.length, { B with heap := B.heap ++ [p] })

/-- The key under which `n.Parameters()` looks: spn/sum.go:127-134 and spn/product.go:92-99 use the node, spn/node.go:120-127 (the leaves') the embedded `Node`. -/
def Net.paramKey (N : Net ι F) (n : ι) : PKey ι :=
  match N.kind n with
  | .leaf _ => .node n
  | _ => .obj n

/-- `n.Parameters()` (spn/sum.go:127-134, spn/product.go:92-99, spn/node.go:120-127): the pointer and the bindings afterwards. -/
def Net.parameters [GoFloat F] (N : Net ι F) (B : Bindings ι F) (n : ι) : Nat × Bindings ι F :=
  match B.retrieve (N.paramKey n) with
  | some p => (p, B)
  | none =>
    let r := B.alloc Params.default
    (r.1, r.2.bind (N.paramKey n) r.1)

end Parameters

section Loops
variable {ι F : Type} [DecidableEq ι] [GoFloat F]

/-- The orders in which Go ranges over maps: `outer t T` for the keys of the table `T`, `inner t s m` for those of the inner map `m` of the node `s`, both at time `t`. -/
structure RangeOrder (ι F : Type) where
  outer : Nat → Table ι F → List ι
  inner : Nat → ι → (Int → Option F) → List Int

/-- `for i, d := range dW { W[i] = f(W[i], d) }`, the keys being met in the order `ks`: an index outside of `W` panics. -/
def mapApply (f : F → F → F) (m : Int → Option F) (ks : List Int) (w : List F) : Option (List F) :=
  ks.foldlM (fun w i => (m i).elim (some w) fun d => (goIdx w i).map fun x => w.set i.toNat (f x d)) w

/-- learn/generative.go:266-267: the new weight; `b` is the converted batch size. -/
def gdWeight (eta lambda b : F) (x d : F) : F := add x (sub (div (mul eta (exp d)) b) (mul (mul (ofInt 2) lambda) x))

/-- learn/generative.go:318-320 and 345-347. -/
def hgdWeight (eta lambda b : F) (x d : F) : F := sub (add x (mul eta (div d (mul x b)))) (mul (mul (ofInt 2) lambda) x)

/-- learn/discriminative.go:262-263. -/
def dgdFromWeight (eta lambda b : F) (x d : F) : F := add x (sub (div (mul eta d) b) (mul (mul (ofInt 2) lambda) x))

/-- learn/discriminative.go:298-300. -/
def hdgdWeight (eta lambda b : F) (x d : F) : F :=
  if GoFloat.eq d (ofInt 0) then x else add x (sub (mul eta (div d (mul x b))) (mul (mul (ofInt 2) lambda) x))

/-- Loop body of learn/generative.go:263-274, 314-326 and learn/discriminative.go:258-269: the state is the weight slices of all nodes. -/
def Net.fastStep (N : Net ι F) (f : F → F → F) (norm : Bool) (mo : RangeOrder ι F) (t : Nat) (T : Table ι F) (W : ι → List F) (s : ι) : Option (ι → List F) :=
  if N.type s = .sum then
    let m := (T s).getD (fun _ => none)
    (mapApply f m (mo.inner t s m) (W s)).map fun w => Function.update W s (if norm then learnNormalize w else w)
  else some W

/-- `for s, dW := range T { … }` with `T` the table of a ticket: `applyFastGD` (learn/generative.go:260-275), `applyFastHGD` (learn/generative.go:311-327) and
`applyDGDFrom` (learn/discriminative.go:255-270), which differ in the new weight `f`. -/
def Net.applyFast (N : Net ι F) (f : F → F → F) (norm : Bool) (mo : RangeOrder ι F) (t : Nat) (T : Table ι F) : Option (Net ι F) :=
  ((mo.outer t T).foldlM (N.fastStep f norm mo t T) N.weights).map N.withWeights

/-- `for _l := 0; _l < P.Iterations; _l++ { … }`. -/
def epochs {σ : Type} (k : Int) (body : σ → Option σ) (x : σ) : Option σ := (List.replicate k.toNat ()).foldlM (fun x _ => body x) x

/-- `a % b == 0` for Go integers; modulo 0 panics. -/
def goDvd (a b : Int) : Option Bool := if b = 0 then none else some (decide (a.tmod b = 0))

variable [Fintype ι]

/-- learn/generative.go:329-360 `applyHGD`. -/
def Net.applyHGD (N : Net ι F) (S : ι) (f : F → F → F) (norm : Bool) (mo : RangeOrder ι F) (t : Nat) (T : Table ι F) : Option (Net ι F) :=
  (work (fun (W : ι → List F) s =>
    (match T s with
      | none => some W
      | some _ => N.fastStep f norm mo t T W s).map fun W' => (W', some (N.innerCh s))) false S N.weights).map N.withWeights

/-- What one instance does in learn/generative.go:54-83, `GenerativeGD`. -/
def Net.gdInstance (S : ι) (eta : F) (stk itk : Int) (isStack norm : Bool) (x : Net ι F × Storer ι F) (I : VarSet) : Option (Net ι F × Storer ι F) :=
  (x.1.storeInference S I itk x.2).bind fun r1 =>
  (x.1.deriveSPN S r1.2 stk itk isStack).bind fun r2 =>
  (x.1.deriveApplyWeights S eta r2.2 stk itk isStack norm).map fun N' => (N', (r2.2.reset itk).reset stk)

/-- learn/generative.go:37-91 `GenerativeGD`; `P` is what `S.Parameters()` points to. -/
def Net.generativeGD (N : Net ι F) (S : ι) (P : Params F) (eta : F) (data : List VarSet) (isStack norm : Bool) : Option (Net ι F) :=
  let a := (Storer.new : Storer ι F).newTicket
  let b := a.2.newTicket
  (epochs P.iterations (fun x => data.foldlM (Net.gdInstance S eta a.1 b.1 isStack norm) x) (N, b.2)).map (·.1)

/-- What one instance does in learn/generative.go:109-127, `GenerativeHardGD`. -/
def Net.hgdInstance (S : ι) (P : Params F) (eta : F) (dtk itk : Int) (norm : Bool) (mo : RangeOrder ι F) (pick : Nat → ι → Nat → Nat) (x : Net ι F × Storer ι F) (I : VarSet) :
    Option (Net ι F × Storer ι F) :=
  (x.1.storeInference S I itk x.2).bind fun r1 =>
  (x.1.deriveHard S r1.2 dtk I (pick r1.2.next)).bind fun r2 =>
  (x.1.applyHGD S (hgdWeight eta P.lambda (ofInt 1)) norm mo r2.2.next (r2.2.deref (r2.2.table dtk))).map fun N' => (N', (r2.2.reset itk).reset dtk)

/-- learn/generative.go:94-137 `GenerativeHardGD`. -/
def Net.generativeHardGD (N : Net ι F) (S : ι) (P : Params F) (eta : F) (data : List VarSet) (norm : Bool) (mo : RangeOrder ι F) (pick : Nat → ι → Nat → Nat) : Option (Net ι F) :=
  let a := (Storer.new : Storer ι F).newTicket
  let b := a.2.newTicket
  (epochs P.iterations (fun x => data.foldlM (Net.hgdInstance S P eta a.1 b.1 norm mo pick) x) (N, b.2)).map (·.1)

/-- `applyFast…(S, eta, tk, storage, norm, bSize); storage.Reset(tk)` (learn/generative.go:186-187, 194-195, 239-240, 249-250; learn/discriminative.go:122-123, 128-129). -/
def Net.applyReset (f : F → F → F) (tk : Int) (norm : Bool) (mo : RangeOrder ι F) (x : Net ι F × Storer ι F) : Option (Net ι F × Storer ι F) :=
  (x.1.applyFast f norm mo x.2.next (x.2.deref (x.2.table tk))).map fun N' => (N', x.2.reset tk)

/-- What one instance does in learn/generative.go:166-190, `GenerativeBGD`; the third component is the counter `i`. -/
def Net.bgdInstance (S : ι) (P : Params F) (eta : F) (stk itk wtk : Int) (isStack norm : Bool) (bSize : Int) (mo : RangeOrder ι F)
    (x : (Net ι F × Storer ι F) × Int) (I : VarSet) : Option ((Net ι F × Storer ι F) × Int) :=
  (x.1.1.storeInference S I itk x.1.2).bind fun r1 =>
  (x.1.1.deriveSPN S r1.2 stk itk isStack).bind fun r2 =>
  (x.1.1.deriveWeightsBatch S r2.2 wtk stk itk isStack).bind fun r3 =>
  let st := (r3.2.reset itk).reset stk
  (goDvd (x.2 + 1) bSize).bind fun d =>
  if d then (Net.applyReset (gdWeight eta P.lambda (ofInt bSize)) wtk norm mo (x.1.1, st)).map (·, x.2 + 1) else some ((x.1.1, st), x.2 + 1)

/-- One epoch of learn/generative.go:161-202. -/
def Net.bgdEpoch (S : ι) (P : Params F) (eta : F) (stk itk wtk : Int) (isStack norm : Bool) (bSize : Int) (mo : RangeOrder ι F) (data : List VarSet)
    (x : Net ι F × Storer ι F) : Option (Net ι F × Storer ι F) :=
  (data.foldlM (Net.bgdInstance S P eta stk itk wtk isStack norm bSize mo) (x, 0)).bind fun y =>
  (goDvd y.2 bSize).bind fun d =>
  if d then some y.1 else Net.applyReset (gdWeight eta P.lambda (ofInt bSize)) wtk norm mo y.1

/-- learn/generative.go:149-206 `GenerativeBGD`. -/
def Net.generativeBGD (N : Net ι F) (S : ι) (P : Params F) (eta : F) (data : List VarSet) (isStack norm : Bool) (bSize : Int) (mo : RangeOrder ι F) : Option (Net ι F) :=
  let a := (Storer.new : Storer ι F).newTicket
  let b := a.2.newTicket
  let c := b.2.newTicket
  (epochs P.iterations (Net.bgdEpoch S P eta a.1 b.1 c.1 isStack norm bSize mo data) (N, c.2)).map (·.1)

/-- What one instance does in learn/generative.go:224-246, `GenerativeHardBGD`. -/
def Net.hbgdInstance (S : ι) (P : Params F) (eta : F) (dtk itk : Int) (norm : Bool) (bSize : Int) (mo : RangeOrder ι F) (pick : Nat → ι → Nat → Nat)
    (x : (Net ι F × Storer ι F) × Int) (I : VarSet) : Option ((Net ι F × Storer ι F) × Int) :=
  (x.1.1.storeInference S I itk x.1.2).bind fun r1 =>
  (x.1.1.deriveHard S r1.2 dtk I (pick r1.2.next)).bind fun r2 =>
  let st := r2.2.reset itk
  (goDvd (x.2 + 1) bSize).bind fun d =>
  if d then (Net.applyReset (hgdWeight eta P.lambda (ofInt bSize)) dtk norm mo (x.1.1, st)).map (·, x.2 + 1) else some ((x.1.1, st), x.2 + 1)

/-- One epoch of learn/generative.go:219-254. -/
def Net.hbgdEpoch (S : ι) (P : Params F) (eta : F) (dtk itk : Int) (norm : Bool) (bSize : Int) (mo : RangeOrder ι F) (pick : Nat → ι → Nat → Nat) (data : List VarSet)
    (x : Net ι F × Storer ι F) : Option (Net ι F × Storer ι F) :=
  (data.foldlM (Net.hbgdInstance S P eta dtk itk norm bSize mo pick) (x, 0)).bind fun y =>
  (goDvd y.2 bSize).bind fun d =>
  if d then some y.1 else Net.applyReset (hgdWeight eta P.lambda (ofInt bSize)) dtk norm mo y.1

/-- learn/generative.go:209-258 `GenerativeHardBGD`. -/
def Net.generativeHardBGD (N : Net ι F) (S : ι) (P : Params F) (eta : F) (data : List VarSet) (norm : Bool) (bSize : Int) (mo : RangeOrder ι F)
    (pick : Nat → ι → Nat → Nat) : Option (Net ι F) :=
  let a := (Storer.new : Storer ι F).newTicket
  let b := a.2.newTicket
  (epochs P.iterations (Net.hbgdEpoch S P eta a.1 b.1 norm bSize mo pick data) (N, b.2)).map (·.1)

/-- learn/generative.go:14-30 `Generative`: the network and the bindings afterwards. The routine called looks up `S.Parameters()` again, which is the argument after `S`. -/
def Net.generative (N : Net ι F) (S : ι) (D : List VarSet) (B : Bindings ι F) (mo : RangeOrder ι F) (pick : Nat → ι → Nat → Nat) : Option (Net ι F × Bindings ι F) :=
  (match B.retrieve (.obj S) with
    | some a => (B.heap[a]?).map fun P => (P, B)
    | none => some (Params.default, (B.alloc Params.default).2)).bind fun PB =>
  let P := PB.1
  let r := N.parameters PB.2 S
  (r.2.heap[r.1]?).bind fun Q =>
  (if learnHardness P.learningType = 0 then
    if P.batchSize > 1 then N.generativeHardBGD S Q P.eta D P.normalize P.batchSize mo pick else N.generativeHardGD S Q P.eta D P.normalize mo pick
  else
    if P.batchSize > 1 then N.generativeBGD S Q P.eta D false P.normalize P.batchSize mo else N.generativeGD S Q P.eta D false P.normalize).map (·, r.2)

end Loops

section Discriminative
variable {ι F : Type} [DecidableEq ι] [GoFloat F]

/-- `for _, I := range D { … }` where the body may write to the instance: the state and the data set afterwards. -/
def overData {σ : Type} (body : σ → VarSet → Option (σ × VarSet)) : σ → List VarSet → Option (σ × List VarSet)
  | x, [] => some (x, [])
  | x, I :: D => (body x I).bind fun r => (overData body r.1 D).map fun q => (q.1, r.2 :: q.2)

/-- learn/discriminative.go:240-244 in `storeDGD`. -/
def dgdStore (lt : Option Nat) (n : ι) (dW dU iS iZ : Int → F) (nw : Nat) (st : Storer ι F) : Option (Storer ι F) :=
  (List.range nw).foldlM (fun st (i : Nat) =>
    st.tableStore lt n i (add (((st.deref lt).entry n i).getD (ofInt 0)) (sub (exp (sub (dW i) (iS i))) (exp (sub (dU i) (iZ i)))))) st

/-- learn/discriminative.go:275-291 in `applyHDGD`: the map `C` of the differences of the counts. -/
def countDiff (dt pt : Table ι F) : Table ι F := fun s =>
  match dt s, pt s with
  | none, none => none
  | some c, none => some c
  | a, some e => some fun i =>
    match a.elim none (· i), e i with
    | c, none => c
    | c, some y => some (sub (c.getD (ofInt 0)) y)

variable [Fintype ι]

/-- learn/discriminative.go:221-253 `storeDGD`; like `applyDGD` it goes on with a child only if that was visited before. -/
def Net.storeDGD (N : Net ι F) (S : ι) (s w z u l : Int) (st : Storer ι F) (fuel : Nat) : Option (Storer ι F) :=
  (N.dgdLoop (fun (x : Option (Storer ι F)) n =>
      x.bind fun st' => dgdStore (st.table l) n ((st'.deref (st.table w)).getInner n) ((st'.deref (st.table u)).getInner n)
        ((st'.deref (st.table s)).getInner n) ((st'.deref (st.table z)).getInner n) (N.weights n).length st') fuel [S] {S} (some st)).join

/-- learn/discriminative.go:59-65, also 110-116: the six tables of one instance, and the instance with the values `y` taken out. -/
def Net.dgdTables (N : Net ι F) (S : ι) (Y : List Int) (s d w z p u : Int) (st : Storer ι F) (I : VarSet) : Option (Storer ι F × VarSet × List Int) :=
  (N.storeInference S I s st).bind fun r1 =>
  (N.deriveSPN S r1.2 d s false).bind fun r2 =>
  (N.deriveWeights S r2.2 w d s false).bind fun r3 =>
  let J := pullValues I Y
  (N.storeInference S J.1 z r3.2).bind fun r4 =>
  (N.deriveSPN S r4.2 p z false).bind fun r5 =>
  (N.deriveWeights S r5.2 u p z false).map fun r6 => (r6.2, J.1, J.2)

/-- Loop body of learn/discriminative.go:58-69. -/
def Net.dgdInstance (S : ι) (P : Params F) (eta : F) (Y : List Int) (norm : Bool) (s d w z p u : Int) (x : Net ι F × Storer ι F) (I : VarSet) :
    Option ((Net ι F × Storer ι F) × VarSet) :=
  (x.1.dgdTables S Y s d w z p u x.2 I).bind fun r =>
  (x.1.applyDGD S s w z u r.1 eta P.lambda (ofInt 1) norm (Fintype.card ι + 1)).map fun N' =>
    ((N', r.1.resetTickets [s, d, w, z, p, u]), pushValues r.2.1 Y r.2.2)

/-- learn/discriminative.go:50-72 `DiscriminativeGD`: the network and the data set. `Y` lists the identifiers of the query variables. -/
def Net.discriminativeGD (N : Net ι F) (S : ι) (P : Params F) (eta : F) (D : List VarSet) (Y : List Int) (norm : Bool) : Option (Net ι F × List VarSet) :=
  let s := (Storer.new : Storer ι F).newTicket
  let d := s.2.newTicket
  let w := d.2.newTicket
  let z := w.2.newTicket
  let p := z.2.newTicket
  let u := p.2.newTicket
  (epochs P.iterations (fun x : (Net ι F × Storer ι F) × List VarSet => overData (Net.dgdInstance S P eta Y norm s.1 d.1 w.1 z.1 p.1 u.1) x.1 x.2) ((N, u.2), D)).map
    fun r => (r.1.1, r.2)

/-- Loop body of learn/discriminative.go:109-125; the third component is the counter `j`. -/
def Net.dbgdInstance (S : ι) (P : Params F) (eta : F) (Y : List Int) (norm : Bool) (b : Int) (mo : RangeOrder ι F) (s d w z p u l : Int)
    (x : (Net ι F × Storer ι F) × Int) (I : VarSet) : Option (((Net ι F × Storer ι F) × Int) × VarSet) :=
  (x.1.1.dgdTables S Y s d w z p u x.1.2 I).bind fun r =>
  (x.1.1.storeDGD S s w z u l r.1 (Fintype.card ι + 1)).bind fun st =>
  let st := st.resetTickets [s, d, w, z, p, u]
  (goDvd (x.2 + 1) b).bind fun q =>
  (if q then Net.applyReset (dgdFromWeight eta P.lambda (ofInt b)) l norm mo (x.1.1, st) else some (x.1.1, st)).map fun y =>
    ((y, x.2 + 1), pushValues r.2.1 Y r.2.2)

/-- learn/discriminative.go:99-132 `DiscriminativeBGD`. -/
def Net.discriminativeBGD (N : Net ι F) (S : ι) (P : Params F) (eta : F) (D : List VarSet) (Y : List Int) (norm : Bool) (b : Int) (mo : RangeOrder ι F) :
    Option (Net ι F × List VarSet) :=
  let s := (Storer.new : Storer ι F).newTicket
  let d := s.2.newTicket
  let w := d.2.newTicket
  let z := w.2.newTicket
  let p := z.2.newTicket
  let u := p.2.newTicket
  let l := u.2.newTicket
  (epochs P.iterations (fun x : ((Net ι F × Storer ι F) × Int) × List VarSet =>
      overData (Net.dbgdInstance S P eta Y norm b mo s.1 d.1 w.1 z.1 p.1 u.1 l.1) x.1 x.2) (((N, l.2), 0), D)).bind fun r =>
  (goDvd r.1.2 b).bind fun q =>
  (if q then some r.1.1 else Net.applyReset (dgdFromWeight eta P.lambda (ofInt b)) l.1 norm mo r.1.1).map fun y => (y.1, r.2)

/-- learn/discriminative.go:272-312 `applyHDGD`; `f` is the new weight, `t` the time for the map orders. `s.(*spn.Sum)` panics on other nodes. -/
def Net.applyHDGD (N : Net ι F) (f : F → F → F) (norm : Bool) (mo : RangeOrder ι F) (t : Nat) (dt pt : Table ι F) : Option (Net ι F) :=
  let C := countDiff dt pt
  ((mo.outer t C).foldlM (fun W s => if N.type s = .sum then N.fastStep f norm mo t C W s else none) N.weights).map N.withWeights

/-- learn/discriminative.go:84-87 and 158-161: the two hard derivatives of an instance. -/
def Net.hardPair (N : Net ι F) (S : ι) (Y : List Int) (d p : Int) (pick : Nat → ι → Nat → Nat) (st : Storer ι F) (I : VarSet) : Option (Storer ι F × VarSet) :=
  (N.deriveHard S st d I (pick (2 * st.next))).bind fun r1 =>
  let J := pullValues I Y
  (N.deriveHard S r1.2 p J.1 (pick (2 * st.next + 1))).map fun r2 => (r2.2, pushValues J.1 Y J.2)

/-- `applyHDGD(S, d, p, st, eta, P.Lambda, norm, b); st.ResetTickets(d, p)` (learn/discriminative.go:88-89, 165-166, 171-172). -/
def Net.hardReset (P : Params F) (eta : F) (norm : Bool) (b : Int) (mo : RangeOrder ι F) (d p : Int) (x : Net ι F × Storer ι F) : Option (Net ι F × Storer ι F) :=
  (x.1.applyHDGD (hdgdWeight eta P.lambda (ofInt b)) norm mo x.2.next (x.2.deref (x.2.table d)) (x.2.deref (x.2.table p))).map fun N' =>
    (N', x.2.resetTickets [d, p])

/-- Loop body of learn/discriminative.go:83-90. -/
def Net.dhgdInstance (S : ι) (P : Params F) (eta : F) (Y : List Int) (norm : Bool) (mo : RangeOrder ι F) (pick : Nat → ι → Nat → Nat) (d p : Int) (x : Net ι F × Storer ι F) (I : VarSet) :
    Option ((Net ι F × Storer ι F) × VarSet) :=
  (x.1.hardPair S Y d p pick x.2 I).bind fun r =>
  (Net.hardReset P eta norm 1 mo d p (x.1, r.1)).map (·, r.2)

/-- learn/discriminative.go:77-93 `DiscriminativeHardGD`. -/
def Net.discriminativeHardGD (N : Net ι F) (S : ι) (P : Params F) (eta : F) (D : List VarSet) (Y : List Int) (norm : Bool) (mo : RangeOrder ι F)
    (pick : Nat → ι → Nat → Nat) : Option (Net ι F × List VarSet) :=
  let d := (Storer.new : Storer ι F).newTicket
  let p := d.2.newTicket
  (epochs P.iterations (fun x : (Net ι F × Storer ι F) × List VarSet => overData (Net.dhgdInstance S P eta Y norm mo pick d.1 p.1) x.1 x.2) ((N, p.2), D)).map
    fun r => (r.1.1, r.2)

/-- Loop body of learn/discriminative.go:149-168. -/
def Net.dhbgdInstance (S : ι) (P : Params F) (eta : F) (Y : List Int) (norm : Bool) (b : Int) (mo : RangeOrder ι F) (pick : Nat → ι → Nat → Nat) (d p u : Int)
    (x : (Net ι F × Storer ι F) × Int) (I : VarSet) : Option (((Net ι F × Storer ι F) × Int) × VarSet) :=
  (x.1.1.storeInference S I u x.1.2).bind fun r0 =>
  (x.1.1.hardPair S Y d p pick (r0.2.reset u) I).bind fun r =>
  (goDvd (x.2 + 1) b).bind fun q =>
  (if q then Net.hardReset P eta norm b mo d p (x.1.1, r.1) else some (x.1.1, r.1)).map fun y => ((y, x.2 + 1), r.2)

/-- learn/discriminative.go:138-175 `DiscriminativeHardBGD`. -/
def Net.discriminativeHardBGD (N : Net ι F) (S : ι) (P : Params F) (eta : F) (D : List VarSet) (Y : List Int) (norm : Bool) (b : Int) (mo : RangeOrder ι F)
    (pick : Nat → ι → Nat → Nat) : Option (Net ι F × List VarSet) :=
  let d := (Storer.new : Storer ι F).newTicket
  let p := d.2.newTicket
  let u := p.2.newTicket
  (epochs P.iterations (fun x : ((Net ι F × Storer ι F) × Int) × List VarSet =>
      overData (Net.dhbgdInstance S P eta Y norm b mo pick d.1 p.1 u.1) x.1 x.2) (((N, u.2), 0), D)).bind fun r =>
  (goDvd r.1.2 b).bind fun q =>
  (if q then some r.1.1 else Net.hardReset P eta norm b mo d.1 p.1 r.1.1).map fun y => (y.1, r.2)

/-- learn/discriminative.go:15-31 `Discriminative`: the network, the data set and the bindings afterwards. -/
def Net.discriminative (N : Net ι F) (S : ι) (D : List VarSet) (Y : List Int) (B : Bindings ι F) (mo : RangeOrder ι F) (pick : Nat → ι → Nat → Nat) :
    Option ((Net ι F × List VarSet) × Bindings ι F) :=
  (match B.retrieve (.obj S) with
    | some a => (B.heap[a]?).map fun P => (P, B)
    | none => some (Params.default, (B.alloc Params.default).2)).bind fun PB =>
  let P := PB.1
  let r := N.parameters PB.2 S
  (r.2.heap[r.1]?).bind fun Q =>
  (if learnHardness P.learningType = 0 then
    if P.batchSize > 1 then N.discriminativeHardBGD S Q P.eta D Y P.normalize P.batchSize mo pick else N.discriminativeHardGD S Q P.eta D Y P.normalize mo pick
  else
    if P.batchSize > 1 then N.discriminativeBGD S Q P.eta D Y P.normalize P.batchSize mo else N.discriminativeGD S Q P.eta D Y P.normalize).map (·, r.2)

end Discriminative
end Gospn
