import Mathlib.Data.Fintype.Card
import Mathlib.Algebra.BigOperators.Group.Finset.Basic
/-
Model of /repo/spn/topo.go and of the traversals of /repo/spn/search.go.

`ι` is the (finite) type of allocated nodes; an `SPN` interface value used as a map key is an element of `ι`.
`ch u` is the slice returned by `u.Ch()`. A `map[SPN]bool` all of whose stored values are `true` is the finite set of its keys.
The Go recursion and the `for !S.Empty()` loops take fuel here; `Verif/Props/Topo.lean` shows the fuel given is always enough.

Local `common.Stack`/`common.Queue` variables are lists in the order in which elements are taken out: that is how they behave by
C14 and C15 (only Push/Pop/Enqueue/Dequeue/Empty are used here).
-/
namespace Gospn

/-- A `common.Collection` that is either a queue or a stack, as the list of its elements in the order `Take` returns them
(common/queue.go:60-63, common/stack.go:48-51; justified by C14 and C15). -/
structure Coll (ι : Type) where
  isStack : Bool
  items : List ι
  deriving DecidableEq, Repr

/-- `Give`. -/
def Coll.give {ι : Type} (C : Coll ι) (x : ι) : Coll ι :=
  { C with items := if C.isStack then x :: C.items else C.items ++ [x] }

/-- `if C == nil { C = &common.Queue{} }` (spn/topo.go:26-28, 39-41, 73-75, 109-111, 157-159). -/
def Coll.orQueue {ι : Type} : Option (Coll ι) → Coll ι
  | none => ⟨false, []⟩
  | some C => C

variable {ι : Type} [DecidableEq ι]

/-- spn/topo.go:9-19 `visit`. State: visited set `V` and collection `C`. -/
def visit (ch : ι → List ι) : Nat → ι → Finset ι × Coll ι → Finset ι × Coll ι
  | 0, _, st => st
  | fuel + 1, s, (V, C) =>
    if s ∈ V then (V, C)
    else
      let st := (ch s).foldl (fun st c => visit ch fuel c st) (insert s V, C)
      (st.1, st.2.give s)

/-- spn/topo.go:25-32 `TopSortTarjanRec`. -/
def topSortTarjanRec [Fintype ι] (ch : ι → List ι) (G : ι) (C : Option (Coll ι)) : Coll ι :=
  (visit ch (Fintype.card ι + 1) G (∅, Coll.orQueue C)).2

/-- spn/topo.go:143-154 `postOrderRec`. -/
def postOrderRec (ch : ι → List ι) : Nat → ι → Finset ι × Coll ι → Finset ι × Coll ι
  | 0, _, st => st
  | fuel + 1, n, (V, C) =>
    let st := (ch n).foldl
      (fun st c => if c ∈ st.1 then st else postOrderRec ch fuel c (insert c st.1, st.2)) (V, C)
    (st.1, st.2.give n)

/-- spn/topo.go:156-164 `PostOrder`. -/
def postOrder [Fintype ι] (ch : ι → List ι) (G : ι) (C : Option (Coll ι)) : Coll ι :=
  (postOrderRec ch (Fintype.card ι + 1) G ({G}, Coll.orQueue C)).2

/-- Local variables of `TopSortTarjan` (spn/topo.go:42-44): the stack (top first), the processed set, the visited set, the result. -/
structure TarjanSt (ι : Type) where
  S : List ι
  P : Finset ι
  V : Finset ι
  C : Coll ι

/-- spn/topo.go:56-61: `for _, c := range ch { if !V[c] { S.Push(c); V[c] = true } }`. -/
def pushUnvisited (cs : List ι) (S : List ι) (V : Finset ι) : List ι × Finset ι :=
  cs.foldl (fun (S, V) c => if c ∈ V then (S, V) else (c :: S, insert c V)) (S, V)

/-- One iteration of the loop of `TopSortTarjan` (spn/topo.go:47-62); the stack is not empty when it runs. -/
def tarjanStep (ch : ι → List ι) (st : TarjanSt ι) : TarjanSt ι :=
  match st.S with
  | [] => st
  | u :: rest =>
    if u ∈ st.P then { st with S := rest, C := st.C.give u }
    else
      let (S', V') := pushUnvisited (ch u) (u :: rest) st.V
      { S := S', P := insert u st.P, V := V', C := st.C }

/-- The loop `for !S.Empty()` of spn/topo.go:47-62. -/
def tarjanLoop (ch : ι → List ι) : Nat → TarjanSt ι → TarjanSt ι
  | 0, st => st
  | fuel + 1, st => if st.S = [] then st else tarjanLoop ch fuel (tarjanStep ch st)

/-- spn/topo.go:42-46: initial state. -/
def tarjanInit (G : ι) (C : Coll ι) : TarjanSt ι := { S := [G], P := ∅, V := {G}, C := C }

/-- spn/topo.go:38-64 `TopSortTarjan`. -/
def topSortTarjan [Fintype ι] (ch : ι → List ι) (G : ι) (C : Option (Coll ι)) : Coll ι :=
  (tarjanLoop ch (2 * Fintype.card ι) (tarjanInit G (Coll.orQueue C))).C

/-- The loop of `TopSortTarjanFunc` (spn/topo.go:81-99). The callback may read and write outside state `σ`.
The result tells the collection, the callback's state and whether the loop was left by the callback returning false. -/
def tarjanFuncLoop {σ : Type} (ch : ι → List ι) (f : σ → ι → σ × Bool) :
    Nat → TarjanSt ι → σ → Coll ι × σ
  | 0, st, x => (st.C, x)
  | fuel + 1, st, x =>
    match st.S with
    | [] => (st.C, x)
    | u :: _ =>
      if u ∈ st.P then
        let r := f x u
        if r.2 then tarjanFuncLoop ch f fuel (tarjanStep ch st) r.1
        else ((tarjanStep ch st).C, r.1)
      else tarjanFuncLoop ch f fuel (tarjanStep ch st) x

/-- spn/topo.go:72-101 `TopSortTarjanFunc`. -/
def topSortTarjanFunc {σ : Type} [Fintype ι] (ch : ι → List ι) (G : ι) (C : Option (Coll ι))
    (f : σ → ι → σ × Bool) (x : σ) : Coll ι × σ :=
  tarjanFuncLoop ch f (2 * Fintype.card ι) (tarjanInit G (Coll.orQueue C)) x

/-- Local variables of `TopSortDFS` (spn/topo.go:107-111). -/
structure DfsSt (ι : Type) where
  S : List ι
  V : Finset ι
  C : Coll ι

/-- One iteration of the loop of `TopSortDFS` (spn/topo.go:116-138). The list `m` is computed before anything is marked, so a
child that is listed twice and not visited is pushed twice. -/
def dfsStep (ch : ι → List ι) (st : DfsSt ι) : DfsSt ι :=
  match st.S with
  | [] => st
  | s :: rest =>
    if (ch s).length = 0 then { st with S := rest, C := st.C.give s }
    else
      let m := (ch s).filter (fun c => c ∉ st.V)
      if m.length = 0 then { st with S := rest, C := st.C.give s }
      else { S := m.foldl (fun S c => c :: S) (s :: rest), V := m.foldl (fun V c => insert c V) st.V, C := st.C }

/-- The loop `for !S.Empty()` of spn/topo.go:116-138. -/
def dfsLoop (ch : ι → List ι) : Nat → DfsSt ι → DfsSt ι
  | 0, st => st
  | fuel + 1, st => if st.S = [] then st else dfsLoop ch fuel (dfsStep ch st)

/-- spn/topo.go:106-141 `TopSortDFS`. -/
def topSortDFS [Fintype ι] (ch : ι → List ι) (G : ι) (C : Option (Coll ι)) : Coll ι :=
  (dfsLoop ch (1 + ∑ u : ι, (1 + (ch u).length)) { S := [G], V := {G}, C := Coll.orQueue C }).C

end Gospn
