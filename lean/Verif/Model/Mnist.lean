/-
The exported functions for MNIST: data/datasets.go:200-223.
-/
import Verif.Model.Download

namespace Gospn

/-- data/datasets.go:200-202 `MNIST1000`. -/
def mnist1000 (cwd : Str) (E E' : Env) (fs : Files) := pullMNIST cwd E E' 1000 256 fs

/-- data/datasets.go:207-209 `MNIST2000`. -/
def mnist2000 (cwd : Str) (E E' : Env) (fs : Files) := pullMNIST cwd E E' 2000 256 fs

/-- data/datasets.go:214-216 `MNIST3Bits1000`. -/
def mnist3Bits1000 (cwd : Str) (E E' : Env) (fs : Files) := pullMNIST cwd E E' 1000 8 fs

/-- data/datasets.go:221-223 `MNIST3Bits2000`. -/
def mnist3Bits2000 (cwd : Str) (E E' : Env) (fs : Files) := pullMNIST cwd E E' 2000 8 fs

end Gospn
