import Verif.Model.Npy
/-
Model of the object `NpyReader` of /repo/io/npy.go over a sequence of calls. The shape and the elements of the file do not change; `rest` is what the library has not read yet. After an error the library
may have read any number of elements: how many is an argument. The code ignores the flag of the file for column-major order, and so does the model.
-/
namespace Gospn

/-- io/npy.go:42-47 `NpyReader`: shape, all elements of the file, elements left. -/
structure NpyReader where
  rows : Nat
  cols : Nat
  all : List Int
  rest : List Int

/-- io/npy.go:50-68 `NewNpyReader` after the header has been read; the two errors are `none`. The elements of a well-formed file are as many as its shape says. -/
def newNpyReader (shape : List Nat) (type : String) (elems : List Int) : Option NpyReader :=
  match shape with
  | [x, y] => if npyIsValid type < 0 then none else some ⟨x, y, elems, elems⟩
  | _ => none

/-- The methods, each with the number of elements consumed if it ends in an error. -/
inductive NpyOp
  | read (n : Int) (lost : Nat)
  | readAll (lost : Nat)
  | readBalanced (n c : Int) (lost : Nat)
  | reset

/-- What a call returns: nothing, an error, or dataset and labels. -/
inductive NpyOut
  | nothing
  | err
  | data (D : List VarSet) (L : List Int)

/-- The reader and the result after `read` or `readBalanced`; `none` is a panic. -/
def NpyReader.after (r : NpyReader) (lost : Nat) : NpyResult → Option (NpyReader × NpyOut)
  | .panic => none
  | .err => some ({ r with rest := r.rest.drop lost }, .err)
  | .ok D L rest => some ({ r with rest := rest }, .data D L)

/-- io/npy.go:376-397 `Read`, `ReadAll`, `ReadBalanced`, `Reset`. -/
def NpyReader.call (r : NpyReader) : NpyOp → Option (NpyReader × NpyOut)
  | .read n lost => r.after lost (npyRead r.cols n r.rest)
  | .readAll lost => r.after lost (npyRead r.cols r.rows r.rest)
  | .readBalanced n c lost => r.after lost (Gospn.readBalanced r.cols n c r.rest)
  | .reset => some ({ r with rest := r.all }, .nothing)

/-- A sequence of calls and their results. -/
def NpyReader.calls (r : NpyReader) : List NpyOp → Option (NpyReader × List NpyOut)
  | [] => some (r, [])
  | o :: os => (r.call o).bind fun a => (a.1.calls os).map fun b => (b.1, a.2 :: b.2)

end Gospn
