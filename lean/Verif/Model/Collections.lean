/-
Model of /repo/common/queue.go, /repo/common/stack.go and /repo/common/collection.go.

Simplifications: elements have an arbitrary type `α` instead of `interface{}`; the slots that the code overwrites with `nil` before
re-slicing (queue.go:23,35, stack.go:24) are not visible through the slice afterwards and are dropped;
`sys.Free` (garbage collection) has no effect on the data; a panic is the outcome `none`.
-/
namespace Gospn

/-- sys/vars.go:32 `MemLowBoundShrink = 1024`. -/
def memLowBoundShrink : Nat := 1024

/-- common/queue.go:8-11 `type Queue struct`: the slice and the manual capacity counter. -/
structure Queue (α : Type) where
  data : List α
  cap : Nat
  deriving DecidableEq, Repr

namespace Queue
variable {α : Type}

/-- The zero value `common.Queue{}` used all over the code base (e.g. spn/utils.go:28). -/
def new : Queue α := ⟨[], 0⟩

/-- common/queue.go:66-69 `Shrink`. -/
def shrink (q : Queue α) : Queue α := { q with cap := q.data.length }

/-- common/queue.go:25-27 and 37-39: the shrink test after removing an element. -/
def maybeShrink (q : Queue α) : Queue α :=
  if q.cap > memLowBoundShrink ∧ q.cap ≥ q.data.length * 2 then q.shrink else q

/-- common/queue.go:14-17 `Enqueue`. -/
def enqueue (q : Queue α) (e : α) : Queue α := ⟨q.data ++ [e], q.cap + 1⟩

/-- common/queue.go:20-29 `Dequeue`; `none` is the index panic on the empty queue. -/
def dequeue (q : Queue α) : Option (α × Queue α) :=
  match q.data with
  | [] => none
  | e :: rest => some (e, maybeShrink { q with data := rest })

/-- common/queue.go:32-41 `DequeueBack`: with `n := len(q.data) - 1` it returns `q.data[n]` and keeps `q.data[1:n]`.
Indexing panics when the queue is empty, slicing `[1:0]` panics when it has one element. -/
def dequeueBack (q : Queue α) : Option (α × Queue α) :=
  match q.data.getLast? with
  | none => none
  | some e =>
    let n := q.data.length - 1
    if n < 1 then none
    else some (e, maybeShrink { q with data := (q.data.take n).drop 1 })

/-- common/queue.go:44-46 `Peek`. -/
def peek (q : Queue α) : Option α := q.data.head?

/-- common/queue.go:49-51 `Get`: negative and too large indices panic. -/
def get (q : Queue α) (i : Int) : Option α := if i < 0 then none else q.data[i.toNat]?

/-- common/queue.go:54 `Size`. -/
def size (q : Queue α) : Nat := q.data.length

/-- common/queue.go:57 `Empty`. -/
def isEmpty (q : Queue α) : Bool := q.data.length == 0

/-- common/queue.go:60 `Give`. -/
def give (q : Queue α) (e : α) : Queue α := q.enqueue e

/-- common/queue.go:63 `Take`. -/
def take (q : Queue α) : Option (α × Queue α) := q.dequeue

/-- common/queue.go:72 `Reset`. -/
def reset (_ : Queue α) : Queue α := ⟨[], 0⟩

/-- common/queue.go:78-80: `l[n-i-1] = v` for each `i, v` of the data, on a slice `l` of length `n`. -/
def invertLoop (l : List α) : Nat → List α → List α
  | _, [] => l
  | i, v :: vs => invertLoop (l.set (l.length - i - 1) v) (i + 1) vs

/-- common/queue.go:75-83 `Invert`. The fresh slice `make([]interface{}, n)` starts with nils, all of which get overwritten; the
model starts from the old data instead of nils. -/
def invert (q : Queue α) : Queue α := ⟨invertLoop q.data 0 q.data, q.data.length⟩

end Queue

/-- common/stack.go:8-11 `type Stack struct`. -/
structure Stack (α : Type) where
  data : List α
  cap : Nat
  deriving DecidableEq, Repr

namespace Stack
variable {α : Type}

/-- The zero value `common.Stack{}` (e.g. spn/topo.go:42). -/
def new : Stack α := ⟨[], 0⟩

/-- common/stack.go:54-57 `Shrink`. -/
def shrink (s : Stack α) : Stack α := { s with cap := s.data.length }

/-- common/stack.go:25-27: the shrink test after removing an element. -/
def maybeShrink (s : Stack α) : Stack α :=
  if s.cap > memLowBoundShrink ∧ s.cap ≥ s.data.length * 2 then s.shrink else s

/-- common/stack.go:14-17 `Push`. -/
def push (s : Stack α) (e : α) : Stack α := ⟨s.data ++ [e], s.cap + 1⟩

/-- common/stack.go:20-29 `Pop`: returns `s.data[n]`, keeps `s.data[:n]` for `n := len(s.data) - 1`. -/
def pop (s : Stack α) : Option (α × Stack α) :=
  match s.data.getLast? with
  | none => none
  | some e => some (e, maybeShrink { s with data := s.data.take (s.data.length - 1) })

/-- common/stack.go:32-34 `Peek`. -/
def peek (s : Stack α) : Option α := s.data.getLast?

/-- common/stack.go:37-39 `Get` (indexing from the bottom). -/
def get (s : Stack α) (i : Int) : Option α := if i < 0 then none else s.data[i.toNat]?

/-- common/stack.go:42 `Size`. -/
def size (s : Stack α) : Nat := s.data.length

/-- common/stack.go:45 `Empty`. -/
def isEmpty (s : Stack α) : Bool := s.data.length == 0

/-- common/stack.go:48 `Give`. -/
def give (s : Stack α) (e : α) : Stack α := s.push e

/-- common/stack.go:51 `Take`. -/
def take (s : Stack α) : Option (α × Stack α) := s.pop

/-- common/stack.go:60 `Reset`. -/
def reset (_ : Stack α) : Stack α := ⟨[], 0⟩

/-- common/stack.go:63-71 `Invert` (same loop as the queue's). -/
def invert (s : Stack α) : Stack α := ⟨Queue.invertLoop s.data 0 s.data, s.data.length⟩

end Stack

/-- One call of a method of `common.Collection` (common/collection.go:3-25) or of the queue's own methods. -/
inductive CollOp (α : Type) where
  | give (e : α)
  | take
  | takeBack
  | peek
  | get (i : Int)
  | size
  | empty
  | shrink
  | reset
  | invert
  deriving DecidableEq, Repr

/-- What a call returns. -/
inductive CollOut (α : Type) where
  | unit
  | elem (e : α)
  | nat (n : Nat)
  | bool (b : Bool)
  deriving DecidableEq, Repr

/-- One method call on a queue: `none` is a panic. `takeBack` is `DequeueBack`. -/
def Queue.step {α : Type} (q : Queue α) : CollOp α → Option (Queue α × CollOut α)
  | .give e => some (q.give e, .unit)
  | .take => q.take.map fun (e, q') => (q', .elem e)
  | .takeBack => q.dequeueBack.map fun (e, q') => (q', .elem e)
  | .peek => q.peek.map fun e => (q, .elem e)
  | .get i => (q.get i).map fun e => (q, .elem e)
  | .size => some (q, .nat q.size)
  | .empty => some (q, .bool q.isEmpty)
  | .shrink => some (q.shrink, .unit)
  | .reset => some (q.reset, .unit)
  | .invert => some (q.invert, .unit)

/-- One method call on a stack: `none` is a panic. A stack has no `DequeueBack`; the operation is treated as a panic on both sides. -/
def Stack.step {α : Type} (s : Stack α) : CollOp α → Option (Stack α × CollOut α)
  | .give e => some (s.give e, .unit)
  | .take => s.take.map fun (e, s') => (s', .elem e)
  | .takeBack => none
  | .peek => s.peek.map fun e => (s, .elem e)
  | .get i => (s.get i).map fun e => (s, .elem e)
  | .size => some (s, .nat s.size)
  | .empty => some (s, .bool s.isEmpty)
  | .shrink => some (s.shrink, .unit)
  | .reset => some (s.reset, .unit)
  | .invert => some (s.invert, .unit)

/-- A whole history of calls: all results, or `none` if some call panics. -/
def runOps {σ ω ο : Type} (step : σ → ω → Option (σ × ο)) : σ → List ω → Option (σ × List ο)
  | s, [] => some (s, [])
  | s, op :: ops =>
    match step s op with
    | none => none
    | some (s', o) =>
      match runOps step s' ops with
      | none => none
      | some (s'', os) => some (s'', o :: os)

end Gospn
