/-
Reading datasets from npy files: io/npy.go. The library npyio is not modelled: a reader is the list of the elements not yet read, already converted to int, and `Read(&m)` is
assumed to fill `m` with the next `len(m)` of them or to return an error if there are fewer.
-/
import Verif.Model.Data

namespace Gospn

/-- io/npy.go:10-19 `validTypes`. -/
def validTypes : List String :=
  ["u1", "<u1", "|u1", "uint8",
   "u2", "<u2", "|u2", ">u2", "uint16",
   "u4", "<u4", "|u4", ">u4", "uint32",
   "u8", "<u8", "|u8", ">u8", "uint64",
   "i1", "<i1", "|i1", ">i1", "int8",
   "i2", "<i2", "|i2", ">i2", "int16",
   "i4", "<i4", "|i4", ">i4", "int32",
   "i8", "<i8", "|i8", ">i8", "int64"]

/-- io/npy.go:25-30 `integerType`. -/
def integerType (t : Nat) : Int := if t < 4 then 0 else (((t + 1) / 5 : Nat) : Int)

/-- io/npy.go:32-39 `isValid`. -/
def npyIsValid (t : String) : Int :=
  match validTypes.findIdx? (fun v => t == v) with
  | some i => integerType i
  | none => -1

/-- io/npy.go:70-81 `new_counts`. `make` panics for negative `k`, the division for zero. -/
def newCounts (n k : Int) : Option (List Int) :=
  if k ≤ 0 then none
  else
    let q := n.tdiv k
    let p := n.tmod k
    some ((List.range k.toNat).map fun (i : Nat) => if (i : Int) < p then q + 1 else q)

/-- How a call ends: a panic, an error, or dataset, labels and the elements left. -/
inductive NpyResult where
  | panic
  | err
  | ok (D : List VarSet) (L : List Int) (rest : List Int)

/-- io/npy.go:101-104 (and the same in the other cases): the instance made of a row of `y` elements. -/
def rowInstance (row : List Int) (y : Nat) : VarSet :=
  (List.range (y - 1)).foldl (fun m (j : Nat) => m.set (j : Int) ((row[j]?).getD 0)) VarSet.empty

/-- io/npy.go:92-215: the loop of `readBalanced`; the eight cases differ only in the type of the elements. `C` are the counts left, `D` and `L` what has been filled so far.
With `y = 0` the label `m[y-1]` is an index out of range. -/
def balancedLoop (n y : Nat) (C : List Int) (D : List VarSet) (L : List Int) (rest : List Int) : NpyResult :=
  if n ≤ D.length then .ok D L rest
  else if _hy : y = 0 then .panic
  else if _hr : rest.length < y then .err
  else
    let row := rest.take y
    let l := (row[y - 1]?).getD 0
    match goIdx C l with
    | none => .panic
    | some c =>
      if c > 0 then balancedLoop n y (C.set l.toNat (c - 1)) (D ++ [rowInstance row y]) (L ++ [l]) (rest.drop y)
      else balancedLoop n y C D L (rest.drop y)
termination_by rest.length
decreasing_by all_goals (simp only [List.length_drop]; omega)

/-- io/npy.go:87-218 `readBalanced`. -/
def readBalanced (y : Nat) (n c : Int) (rest : List Int) : NpyResult :=
  if n < 0 then .panic
  else match newCounts n c with
    | none => .panic
    | some C => balancedLoop n.toNat y C [] [] rest

/-- io/npy.go:232-243 (and the same in the other cases): loop body of `read`; `u` are the maps (nil at first), `l` the labels. -/
def readStep (y : Nat) (s : List (Option VarSet) × List Int) (iv : Int × Nat) : Option (List (Option VarSet) × List Int) :=
  if y = 0 then none
  else
    let p := iv.2 / y
    let j := iv.2 % y
    (s.1[p]?).bind fun m =>
      let m := m.getD VarSet.empty
      if j = y - 1 then (goSet s.2 (p : Int) iv.1).map fun l => (s.1.set p (some m), l)
      else some (s.1.set p (some (m.set (j : Int) iv.1)), s.2)

/-- io/npy.go:221-373 `read`. A nil map is read as an empty one. -/
def npyRead (y : Nat) (n : Int) (rest : List Int) : NpyResult :=
  if n < 0 then .panic
  else
    let k := n.toNat * y
    if rest.length < k then .err
    else match (rest.take k).zipIdx.foldlM (readStep y) (List.replicate n.toNat none, List.replicate n.toNat 0) with
      | none => .panic
      | some s => .ok (s.1.map fun m => m.getD VarSet.empty) s.2 (rest.drop k)

end Gospn
