import Verif.Model.Spn
import Verif.Model.Collections
/-
Model of `DrawGraph` and `DrawGraphTools` (/repo/io/output.go:35-149 and 158-239).

Simplifications: the file is the list of its statements that declare a vertex or an edge instead of its text, so a weight in an edge label
is the number and not its three decimals, and the fixed text before and after these statements (46-55, 143-146, 167, 238) is dropped;
creating the file succeeds; a sum whose weight slice is empty has the nil slice (spn/sum.go:18-20 makes no slice).
A panic is `none`, and so is running out of fuel: `C98_dot_partial` gives the fuel that suffices.
-/
namespace Gospn
open GoFloat
variable {ι F : Type}

/-- The identifiers of the file: "S%d", "P%d", "X%d" and "N" (io/output.go:78, 83, 87, 122, 188, 193, 197, 219). -/
inductive DName
  | sum (k : Nat)
  | product (k : Nat)
  | var (k : Nat)
  | other
  deriving DecidableEq, Repr

/-- The labels of vertices: `+`, `*` (or `&times;`) and `X_v` (io/output.go:84, 88, 123, 194, 198, 220). -/
inductive DLabel
  | plus
  | times
  | var (v : Int)
  deriving DecidableEq, Repr

/-- A statement of the file. `badCall` is the call `add_node("X")` of a Python function of two arguments (io/output.go:51-52, 59). -/
inductive DStmt (F : Type)
  | vertex (v : DName) (l : DLabel)
  | edge (a b : DName) (w : Option F)
  | badCall

/-- The local variables of the two functions: counters, the map from variables to the names of their vertices, the file. -/
structure DrawSt (F : Type) where
  nvars : Nat
  nsums : Nat
  nprods : Nat
  vmap : Int → Option DName
  out : List (DStmt F)

/-- io/output.go:70-71, 178 at the start. -/
def DrawSt.init : DrawSt F := ⟨0, 0, 0, fun _ => none, []⟩

/-- io/output.go:152-156 `BFSPair`; the name of the parent is `none` when it is the empty string. -/
abbrev BFSPair (ι F : Type) := ι × Option DName × F

/-- io/output.go:219-221: the vertex of a leaf in `DrawGraph`: a new one. -/
def DrawSt.newLeaf (s : DrawSt F) (v : Int) : DName × DrawSt F :=
  (.var s.nvars, { s with nvars := s.nvars + 1, out := s.out ++ [.vertex (.var s.nvars) (.var v)] })

/-- io/output.go:118-129: the vertex of a leaf in `DrawGraphTools`: the one its variable has already, else a new one. -/
def DrawSt.mergedLeaf (s : DrawSt F) (v : Int) : DName × DrawSt F :=
  match s.vmap v with
  | some n => (n, s)
  | none =>
    (.var s.nvars, { s with nvars := s.nvars + 1, out := s.out ++ [.vertex (.var s.nvars) (.var v)],
                            vmap := fun u => if u = v then some (.var s.nvars) else s.vmap u })

variable [GoFloat F]

/-- io/output.go:130-134 and 222-226: the label of the edge to the `i`-th child, a leaf. Fewer weights than children is an index out of range. -/
def leafWeight (isSum : Bool) (w : List F) (i : Nat) : Option (Option F) := if isSum then (w[i]?).map some else some none

/-- io/output.go:136-139 and 228-231: the weight kept in the queue with the `i`-th child. -/
def queueWeight (w : List F) (i : Nat) : Option F := if w.isEmpty then some (ofInt (-1)) else w[i]?

/-- io/output.go:112-141 and 213-235: the loop over the children `c` of the node drawn as `name`, `w` being the weights of a sum. -/
def Net.drawKids (N : Net ι F) (leaf : DrawSt F → Int → DName × DrawSt F) (name : DName) (isSum : Bool) (w : List F) :
    Nat → List ι → DrawSt F → Queue (BFSPair ι F) → Option (DrawSt F × Queue (BFSPair ι F))
  | _, [], s, q => some (s, q)
  | i, c :: cs, s, q =>
    match N.kind c with
    | .leaf l => do
      let v ← l.sc[0]?
      let (cname, s) := leaf s v
      let lab ← leafWeight isSum w i
      N.drawKids leaf name isSum w (i + 1) cs { s with out := s.out ++ [.edge name cname lab] } q
    | _ => do
      let tw ← queueWeight w i
      N.drawKids leaf name isSum w (i + 1) cs s (q.enqueue (c, some name, tw))

/-- io/output.go:81-90 and 192-200: name and vertex of the node taken from the queue. -/
def Net.drawSelf (N : Net ι F) (n : ι) (s : DrawSt F) : DName × DrawSt F :=
  match N.kind n with
  | .sum _ _ => (.sum s.nsums, { s with nsums := s.nsums + 1, out := s.out ++ [.vertex (.sum s.nsums) .plus] })
  | .product _ => (.product s.nprods, { s with nprods := s.nprods + 1, out := s.out ++ [.vertex (.product s.nprods) .times] })
  | .leaf _ => (.other, s)

/-- io/output.go:93-99 and 203-209: the edge from the parent, labelled with the weight if that is not negative. -/
def drawUp (name : DName) (pname : Option DName) (pw : F) (s : DrawSt F) : DrawSt F :=
  match pname with
  | none => s
  | some p => { s with out := s.out ++ [.edge p name (if le (ofInt 0) pw then some pw else none)] }

/-- io/output.go:73-141 and 180-235: the body of the loop for the pair taken from the queue. -/
def Net.drawNode (N : Net ι F) (leaf : DrawSt F → Int → DName × DrawSt F) (p : BFSPair ι F) (s : DrawSt F) (q : Queue (BFSPair ι F)) :
    Option (DrawSt F × Queue (BFSPair ι F)) :=
  let (name, s) := N.drawSelf p.1 s
  let s := drawUp name p.2.1 p.2.2 s
  match N.kind p.1 with
  | .sum cs w => N.drawKids leaf name true w 0 cs s q
  | .product cs => N.drawKids leaf name false [] 0 cs s q
  | .leaf _ => some (s, q)

/-- io/output.go:72-142 and 179-236: the loop, with at most `fuel` rounds. -/
def Net.drawLoop (N : Net ι F) (leaf : DrawSt F → Int → DName × DrawSt F) : Nat → DrawSt F → Queue (BFSPair ι F) → Option (DrawSt F)
  | 0, s, q => if q.isEmpty then some s else none
  | fuel + 1, s, q =>
    if q.isEmpty then some s
    else do
      let (p, q) ← q.dequeue
      let (s, q) ← N.drawNode leaf p s q
      N.drawLoop leaf fuel s q

/-- io/output.go:158-239 `DrawGraph`. -/
def Net.drawGraph (N : Net ι F) (fuel : Nat) (r : ι) : Option (List (DStmt F)) :=
  match N.kind r with
  | .leaf _ => some [.vertex (.var 1) (.var 1)]
  | _ => (N.drawLoop DrawSt.newLeaf fuel .init (Queue.new.enqueue (r, none, ofInt (-1)))).map (·.out)

/-- io/output.go:37-147 `DrawGraphTools`. -/
def Net.drawGraphTools (N : Net ι F) (fuel : Nat) (r : ι) : Option (List (DStmt F)) :=
  match N.kind r with
  | .leaf _ => some [.badCall]
  | _ => (N.drawLoop DrawSt.mergedLeaf fuel .init (Queue.new.enqueue (r, none, ofInt (-1)))).map (·.out)

end Gospn
