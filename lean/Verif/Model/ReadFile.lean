import Verif.Model.SpnFile
/-
Model of ReadFromFile (io/input.go). Files hold what `Marshal` returns, as in Model/SpnFile, or nothing at all.
-/
namespace Gospn
variable {ι F : Type}

/-- Contents of files by name; `some none` is an empty file. -/
abbrev RawDisk (F : Type) := String → Option (Option (Buffer F))

/-- io/input.go:337-347 `ReadFromFile`: the files afterwards and the result. `creates` is whether os.Create succeeds, which empties an existing file.
`none` is the panic of line 342, `some none` the nil of line 346. No other result is possible, the network is there for the type only. -/
def readFromFile (creates : Bool) (D : RawDisk F) (name : String) : RawDisk F × Option (Option (List (Option (Kind Nat F)) × Nat)) :=
  if creates then (Function.update D name (some none), some none) else (D, none)

/-- io/spn.go:10-19 `SaveSPN` on such files. -/
def saveRaw [DecidableEq ι] [Fintype ι] (f6 : F → F) (fate : WriteFate F) (D : RawDisk F) (name : String) (N : Net ι F) (S : ι) : RawDisk F × Bool :=
  match fate with
  | .noFile => (D, false)
  | .broken b => (Function.update D name (some (some b)), false)
  | .done => (Function.update D name (some (some (marshal f6 N S))), true)

/-- io/spn.go:22-29 `LoadSPN` on such files: `none` is a panic of `Unmarshal`, which on an empty file takes `buffer[4:]` of nothing (spn/serial.go:69); `some none` is an error. -/
def loadRaw [GoFloat F] (D : RawDisk F) (name : String) : Option (Option (List (Option (Kind Nat F)) × Nat)) :=
  match D name with
  | none => some none
  | some none => none
  | some (some b) => (unmarshal b).map some

end Gospn
