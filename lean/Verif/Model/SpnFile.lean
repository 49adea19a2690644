import Verif.Model.Serial
import Mathlib.Logic.Function.Basic
/-
Model of /repo/io/spn.go. A disk maps names to contents; the contents are what `Marshal` returns, as a sequence of values (see Model/Serial). Whether the operating system fails is an argument.
-/
namespace Gospn
variable {ι F : Type}

/-- What is in the files. -/
abbrev Disk (F : Type) := String → Option (Buffer F)

/-- What the operating system does with `os.Create` and `Write`: it creates and writes the file, it does not create it, or it writes something else and reports an error. -/
inductive WriteFate (F : Type)
  | done
  | noFile
  | broken (b : Buffer F)

/-- io/spn.go:10-19 `SaveSPN`: the disk afterwards and whether the error is nil. -/
def saveSPN [DecidableEq ι] [Fintype ι] (f6 : F → F) (fate : WriteFate F) (D : Disk F) (name : String) (N : Net ι F) (S : ι) : Disk F × Bool :=
  match fate with
  | .noFile => (D, false)
  | .broken b => (Function.update D name (some b), false)
  | .done => (Function.update D name (some (marshal f6 N S)), true)

/-- io/spn.go:22-29 `LoadSPN`: `none` is a panic of `Unmarshal`, `some none` an error. -/
def loadSPN [GoFloat F] (D : Disk F) (name : String) : Option (Option (List (Option (Kind Nat F)) × Nat)) :=
  match D name with
  | none => some none
  | some b => (unmarshal b).map some

end Gospn
