import Mathlib.Logic.Function.Basic
/-
Model of /repo/spn/storer.go.

Go maps are references, so a `StorerTable` obtained from `Storer.Table` is a handle on a table that lives on; the model has an
explicit heap of tables. `none` as a handle is a nil map: it can be read but writing to it panics.
Simplification: the inner `map[int]float64` that `Value` returns is given by its present content (in Go it is again a reference).
The pair (number, found) of `Entry`/`Single` is an `Option`; where found is false Go's number is 0.
`sys.Free()` (garbage collection) has no effect.
-/
namespace Gospn
variable {ι F : Type} [DecidableEq ι]

/-- spn/storer.go:8: `map[SPN]map[int]float64`. -/
abbrev Table (ι F : Type) := ι → Option (Int → Option F)

/-- spn/storer.go:19-24. `heap` and `next` are the memory in which `make(StorerTable)` allocates. -/
structure Storer (ι F : Type) where
  heap : Nat → Table ι F
  next : Nat
  tables : Int → Option Nat
  tickets : Int

/-- The empty map made by `make(StorerTable)`. -/
def Table.empty : Table ι F := fun _ => none

/-- spn/storer.go:59-62 `StorerTable.Value`. -/
def Table.value (t : Table ι F) (S : ι) : Option (Int → Option F) := t S

/-- spn/storer.go:76-83 `StorerTable.Entry`. -/
def Table.entry (t : Table ι F) (S : ι) (l : Int) : Option F :=
  match t S with
  | none => none
  | some v => v l

/-- spn/storer.go:101-110 `StorerTable.Store` (on a map that is not nil). -/
def Table.store (t : Table ι F) (S : ι) (l : Int) (e : F) : Table ι F :=
  match t S with
  | none => Function.update t S (some (Function.update (fun _ => none) l (some e)))
  | some v => Function.update t S (some (Function.update v l (some e)))

/-- spn/storer.go:127-130 `StorerTable.ExistsSPN`. -/
def Table.existsSPN (t : Table ι F) (S : ι) : Bool := (t S).isSome

/-- spn/storer.go:139-142 `StorerTable.Exists`; indexing a missing inner map finds nothing. -/
def Table.exists_ (t : Table ι F) (S : ι) (i : Int) : Bool :=
  match t S with
  | none => false
  | some v => (v i).isSome

namespace Storer

/-- spn/storer.go:27-29 `NewStorer`. -/
def new : Storer ι F := { heap := fun _ => Table.empty, next := 0, tables := fun _ => none, tickets := 0 }

/-- What can be read through a handle: a nil map reads as an empty one. -/
def deref (s : Storer ι F) : Option Nat → Table ι F
  | none => Table.empty
  | some a => s.heap a

/-- `s.tables[k] = make(StorerTable)`. -/
def makeAt (s : Storer ι F) (k : Int) : Storer ι F :=
  { s with heap := Function.update s.heap s.next Table.empty, next := s.next + 1, tables := Function.update s.tables k (some s.next) }

/-- spn/storer.go:32-37 `NewTicket`. -/
def newTicket (s : Storer ι F) : Int × Storer ι F :=
  (s.tickets, makeAt { s with tickets := s.tickets + 1 } s.tickets)

/-- spn/storer.go:42-45 `Table`: the handle (nil if there is none). -/
def table (s : Storer ι F) (k : Int) : Option Nat := s.tables k

/-- spn/storer.go:49-55 `Value`. -/
def value (s : Storer ι F) (k : Int) (S : ι) : Option (Int → Option F) :=
  match s.tables k with
  | none => none
  | some a => (s.heap a).value S

/-- spn/storer.go:66-72 `Entry`. -/
def entry (s : Storer ι F) (k : Int) (S : ι) (l : Int) : Option F :=
  match s.tables k with
  | none => none
  | some a => (s.heap a).entry S l

/-- spn/storer.go:86 `Single`. -/
def single (s : Storer ι F) (k : Int) (S : ι) : Option F := s.entry k S 0

/-- `StorerTable.Store` through a handle (spn/storer.go:101-110): writing to a nil map panics. -/
def tableStore (s : Storer ι F) (h : Option Nat) (S : ι) (l : Int) (e : F) : Option (Storer ι F) :=
  match h with
  | none => none
  | some a => some { s with heap := Function.update s.heap a ((s.heap a).store S l e) }

/-- spn/storer.go:92-98 `Store`; the Boolean is the result. -/
def store (s : Storer ι F) (k : Int) (S : ι) (l : Int) (e : F) : Bool × Storer ι F :=
  match s.tables k with
  | none => (false, s)
  | some a => (true, { s with heap := Function.update s.heap a ((s.heap a).store S l e) })

/-- spn/storer.go:114 `StoreSingle`. -/
def storeSingle (s : Storer ι F) (k : Int) (S : ι) (e : F) : Bool × Storer ι F := s.store k S 0 e

/-- spn/storer.go:121-124 `ExistsSPN`. -/
def existsSPN (s : Storer ι F) (k : Int) (S : ι) : Bool := (s.deref (s.tables k)).existsSPN S

/-- spn/storer.go:133-136 `Exists`. -/
def exists_ (s : Storer ι F) (k : Int) (S : ι) (i : Int) : Bool := (s.deref (s.tables k)).exists_ S i

/-- spn/storer.go:146-149 `Delete`. -/
def delete (s : Storer ι F) (k : Int) : Storer ι F := { s with tables := Function.update s.tables k none }

/-- spn/storer.go:153-158 `Reset`. -/
def reset (s : Storer ι F) (k : Int) : Storer ι F := (s.delete k).makeAt k

/-- spn/storer.go:161-167 `ResetTickets`. -/
def resetTickets (s : Storer ι F) (ks : List Int) : Storer ι F := ks.foldl (fun s k => (s.delete k).makeAt k) s

/-- spn/storer.go:170-176 `Purge`: deletes every key and restarts the ticket counter. -/
def purge (s : Storer ι F) : Storer ι F := { s with tables := fun _ => none, tickets := 0 }

end Storer

/-- Calls a client can make; `obtain k` calls `Table(k)` and keeps the handle, the `t…` calls go through the `h`-th handle kept. -/
inductive StOp (ι F : Type)
  | newTicket
  | value (k : Int) (S : ι)
  | entry (k : Int) (S : ι) (l : Int)
  | single (k : Int) (S : ι)
  | store (k : Int) (S : ι) (l : Int) (e : F)
  | storeSingle (k : Int) (S : ι) (e : F)
  | existsSPN (k : Int) (S : ι)
  | exists_ (k : Int) (S : ι) (i : Int)
  | delete (k : Int)
  | reset (k : Int)
  | resetTickets (ks : List Int)
  | purge
  | obtain (k : Int)
  | tEntry (h : Nat) (S : ι) (l : Int)
  | tStore (h : Nat) (S : ι) (l : Int) (e : F)

/-- What a call returns. -/
inductive StOut (F : Type)
  | unit
  | ticket (k : Int)
  | bool (b : Bool)
  | num (v : Option F)
  | inner (v : Option (Int → Option F))

/-- Storer plus the handles the client has kept. -/
structure Client (ι F : Type) where
  s : Storer ι F
  handles : List (Option Nat)

/-- One call. `none` is a panic (writing through a nil handle, or using a handle that was never obtained). -/
def Client.step (c : Client ι F) : StOp ι F → Option (Client ι F × StOut F)
  | .newTicket => some ({ c with s := c.s.newTicket.2 }, .ticket c.s.newTicket.1)
  | .value k S => some (c, .inner (c.s.value k S))
  | .entry k S l => some (c, .num (c.s.entry k S l))
  | .single k S => some (c, .num (c.s.single k S))
  | .store k S l e => some ({ c with s := (c.s.store k S l e).2 }, .bool (c.s.store k S l e).1)
  | .storeSingle k S e => some ({ c with s := (c.s.storeSingle k S e).2 }, .bool (c.s.storeSingle k S e).1)
  | .existsSPN k S => some (c, .bool (c.s.existsSPN k S))
  | .exists_ k S i => some (c, .bool (c.s.exists_ k S i))
  | .delete k => some ({ c with s := c.s.delete k }, .unit)
  | .reset k => some ({ c with s := c.s.reset k }, .ticket k)
  | .resetTickets ks => some ({ c with s := c.s.resetTickets ks }, .unit)
  | .purge => some ({ c with s := c.s.purge }, .unit)
  | .obtain k => some ({ c with handles := c.handles ++ [c.s.table k] }, .bool (c.s.table k).isSome)
  | .tEntry h S l =>
    match c.handles[h]? with
    | none => none
    | some p => some (c, .num ((c.s.deref p).entry S l))
  | .tStore h S l e =>
    match c.handles[h]? with
    | none => none
    | some p =>
      match c.s.tableStore p S l e with
      | none => none
      | some s' => some ({ c with s := s' }, .bool true)

/-- A history of calls, with everything they return; `none` if one of them panics. -/
def Client.run (c : Client ι F) : List (StOp ι F) → Option (Client ι F × List (StOut F))
  | [] => some (c, [])
  | op :: ops =>
    match c.step op with
    | none => none
    | some (c', o) =>
      match c'.run ops with
      | none => none
      | some (c'', os) => some (c'', o :: os)

/-- A client that has just called `NewStorer`. -/
def Client.new : Client ι F := { s := Storer.new, handles := [] }

end Gospn
