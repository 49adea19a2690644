import Verif.Model.Multinom
/-
Model of /repo/spn/serial.go and of the methods GobEncode and GobDecode of the node types.

The texts that GobEncode writes are lists of numbers: printing and scanning a number is trusted, except that `%f` keeps six decimals. `f6 x` is the number read
back from `x` printed with `%f`; `%d` and `%v` lose nothing. The framing of messages by encoding/gob is trusted: the buffer is the sequence of values encoded.
Node numbers are uint32 in the code, here natural numbers; the number of nodes in the header is cut to 32 bits as in the code.
-/
namespace Gospn
open GoFloat
variable {ι F : Type}

/-- A number in a text. -/
inductive Tok (F : Type)
  | int (n : Int)
  | flt (x : F)

/-- The registered node types (spn/serial.go:9-16). -/
inductive GobTag
  | sum | product | indicator | multinomial | gaussian

/-- spn/sum.go:137-144, spn/product.go:101-103, spn/indicator.go:65-69, spn/multinom.go:219-226, spn/gaussian.go:183-187 `GobEncode`. -/
def gobEncode (f6 : F → F) : Kind ι F → GobTag × List (Tok F)
  | .sum _ w => (.sum, .int w.length :: w.map (fun x => .flt (f6 x)))
  | .product _ => (.product, [])
  | .leaf (.indicator v x) => (.indicator, [.int v, .int x])
  | .leaf (.multinomial _ v pr _ _) => (.multinomial, .int v :: .int pr.length :: pr.map (fun x => .flt (f6 x)))
  | .leaf (.gaussian v mu sigma) => (.gaussian, [.int v, .flt mu, .flt sigma])

/-- Scan `n` floats; `none` is an error. -/
def scanFloats : Nat → List (Tok F) → Option (List F)
  | 0, _ => some []
  | n + 1, .flt x :: r => (scanFloats n r).map (x :: ·)
  | _ + 1, _ => none

/-- spn/sum.go:147-162, spn/product.go:105-107, spn/indicator.go:71-75, spn/multinom.go:229-247, spn/gaussian.go:190-195 `GobDecode`, and the panic of
`decodeSPN` (spn/serial.go:32-38) on an error. The new node has no children. -/
def gobDecode [GoFloat F] : GobTag × List (Tok F) → Option (Kind Nat F)
  | (.sum, .int n :: r) => if n < 0 then none else (scanFloats n.toNat r).map (fun w => .sum [] w)
  | (.product, _) => some (.product [])
  | (.indicator, .int v :: .int x :: _) => some (.leaf (.indicator v x))
  | (.multinomial, .int v :: .int n :: r) =>
    if n < 0 then none else (scanFloats n.toNat r).map (fun pr => .leaf (.multinomial [v] v pr (computeMode pr).1 (computeMode pr).2))
  | (.gaussian, .int v :: .flt mu :: .flt sigma :: _) => some (.leaf (.gaussian v mu sigma))
  | _ => none

/-- What `Marshal` returns: four bytes, then the values given to the encoder. -/
structure Buffer (F : Type) where
  header : List Nat
  msgs : List (Nat × GobTag × List (Tok F))
  list : List (List Nat)

/-- `binary.LittleEndian.PutUint32` of `n` cut to 32 bits. -/
def putUint32 (n : Nat) : List Nat := [n % 256, n / 256 % 256, n / 65536 % 256, n / 16777216 % 256]

/-- `binary.LittleEndian.Uint32`. -/
def getUint32 : List Nat → Nat
  | [a, b, c, d] => a + 256 * b + 65536 * c + 16777216 * d
  | _ => 0

/-- The variables `M`, `list`, `n` of `Marshal` and the values encoded so far. -/
structure MarshalSt (ι F : Type) where
  M : ι → Option Nat
  list : List (List Nat)
  n : Nat
  msgs : List (Nat × GobTag × List (Tok F))

/-- The callback of `Marshal` (spn/serial.go:47-59); `M[c]` is 0 for a missing key. -/
def marshalStep [DecidableEq ι] (f6 : F → F) (N : Net ι F) (st : MarshalSt ι F) (z : ι) : MarshalSt ι F :=
  let M := Function.update st.M z (some st.n)
  { M := M, list := st.list ++ [(N.ch z).map (fun c => (M c).getD 0)], n := st.n + 1, msgs := st.msgs ++ [(st.n, gobEncode f6 (N.kind z))] }

/-- spn/serial.go:40-66 `Marshal`. -/
def marshal [DecidableEq ι] [Fintype ι] (f6 : F → F) (N : Net ι F) (S : ι) : Buffer F :=
  let st := (topSortTarjanFunc N.ch S none (fun st z => (marshalStep f6 N st z, true)) (⟨fun _ => none, [], 0, []⟩ : MarshalSt ι F)).2
  { header := putUint32 st.n, msgs := st.msgs, list := st.list }

/-- `S.AddChild(Z)` (spn/sum.go:121-123, spn/product.go:86-88). The model has no leaves with children: `none`. -/
def addChild (k : Kind Nat F) (c : Nat) : Option (Kind Nat F) :=
  match k with
  | .sum cs w => some (.sum (cs ++ [c]) w)
  | .product cs => some (.product (cs ++ [c]))
  | .leaf _ => none

/-- One iteration of spn/serial.go:74-79: decode a number and a node. -/
def readNode [GoFloat F] (M : List (Option (Kind Nat F))) (m : Nat × GobTag × List (Tok F)) : Option (List (Option (Kind Nat F))) :=
  (gobDecode m.2).bind (fun z => if m.1 < M.length then some (M.set m.1 (some z)) else none)

/-- spn/serial.go:83-89 for one node: `i` is its number, `ch` the numbers of its children. The children themselves are referred to by their numbers. -/
def readChildren (M : List (Option (Kind Nat F))) (p : List Nat × Nat) : Option (List (Option (Kind Nat F))) :=
  p.1.foldlM (fun M c => if c < M.length then
    (match M[p.2]? with
    | some (some k) => (addChild k c).map (fun k => M.set p.2 (some k))
    | _ => none) else none) M

/-- spn/serial.go:68-93 `Unmarshal`: the nodes, which refer to their children by their position, and the position of the root. -/
def unmarshal [GoFloat F] (b : Buffer F) : Option (List (Option (Kind Nat F)) × Nat) :=
  let n := getUint32 b.header
  if b.msgs.length < n then none else
    ((b.msgs.take n).foldlM readNode (List.replicate n none)).bind fun M =>
    (b.list.zipIdx.foldlM readChildren M).bind fun M =>
    if n = 0 then none else some (M, n - 1)

end Gospn
