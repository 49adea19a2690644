/-
app/image.go: ImgClassify from the data file on, and ImgBatchClassify; the jobs of ImgCompletion, ImgTest and ImgTestParallel. What is printed is left out.
-/
import Verif.Model.App
import Verif.Model.Input
import Verif.Model.Images

namespace Gospn
open GoFloat
variable {ι F : Type} [DecidableEq ι] [Fintype ι] [GoFloat F]

/-- app/image.go:86-131: `ImgClassify` after `ParsePartitionedData`. `lf` learns a network from the variables and the training data; `vars[n-1].Categories` panics without such a variable. -/
def imgLearnClassify (lf : List (Int × Int) → List VarSet → Option (Net ι F × ι)) (r : List (Int × Int) × List VarSet × List VarSet × List Int) : Option (Nat × Nat) :=
  (lf r.1 r.2.1).bind fun S =>
  (r.1.find? fun x => x.1 = (r.1.length : Int) - 1).bind fun v =>
  (imgClassify S.1 S.2 ((r.1.length : Int) - 1) v.2 r.2.2.1 r.2.2.2).map fun x => (x.1, x.2.1)

/-- app/image.go:84-131 `ImgClassify`: correct ones, and number of test instances. `draws` are the random numbers with which the file is partitioned. -/
def imgClassifyFile (lf : List (Int × Int) → List VarSet → Option (Net ι F × ι)) (text : Str) (p : F) (draws : List Nat) : Option (Nat × Nat) :=
  (parsePartitionedData text p draws).bind (imgLearnClassify lf)

/-- app/image.go:27-50 `ImgBatchClassify`: the two sums; `draws i` are the random numbers of iteration `i`. -/
def imgBatchClassify (lf : List (Int × Int) → List VarSet → Option (Net ι F × ι)) (text : Str) (p : F) (iterations : Int) (draws : Nat → List Nat) : Option (Nat × Nat) :=
  (List.range iterations.toNat).foldlM (fun (s : Nat × Nat) i => (imgClassifyFile lf text p (draws i)).map fun r => (s.1 + r.1, s.2 + r.2)) (0, 0)

/-- app/image.go:384-389: what job `id` of `ImgCompletion` learns from. `data` and `lbls` are equally long (io/input.go:109-184). -/
def complTrain (data : List VarSet) (lbls : List Int) (id : Nat) : List VarSet :=
  (data.zipIdx.filter fun x => decide (x.2 ≠ id) && decide (lbls.getD x.2 0 ≠ lbls.getD id 0)).map Prod.fst

/-- app/image.go:243-250 (`ImgTest`) and 313-318 (`ImgTestParallel`): all images but one. -/
def testTrain (data : List VarSet) (id : Nat) : List VarSet := (data.zipIdx.filter fun x => decide (x.2 ≠ id)).map Prod.fst

/-- app/image.go:256-257, 322-323, 396-399: the half named by `t` is completed, and drawn with the line for `t'`. -/
def imgPicture (N : Net ι F) (S : ι) (I : VarSet) (keys : List Int) (t t' : CmplType) (w h max : Int) (pick : ι → Nat → Nat) : Option Ppm :=
  (halfImg N S I keys t w h pick).map fun r => imgCmplToPGM r.2 r.1 t' w h max

/-- app/image.go:359-412: the picture for `t` of job `id` of `ImgCompletion`. `keys` are the keys of the image in the order of the map; an index beyond the data panics. -/
def complPicture (lf : List (Int × Int) → List VarSet → Option (Net ι F × ι)) (sc : List (Int × Int)) (data : List VarSet) (lbls : List Int) (id : Nat) (keys : List Int) (t : CmplType) (w h max : Int) (pick : ι → Nat → Nat) :
    Option Ppm :=
  (data[id]?).bind fun I => (lf sc (complTrain data lbls id)).bind fun S => imgPicture S.1 S.2 I keys t t w h max pick

/-- app/image.go:241-259: the picture for `t` of image `id` of `ImgTest`, whose line is always the one for `io.Left`. -/
def testPicture (lf : List (Int × Int) → List VarSet → Nat → Option (Net ι F × ι)) (sc : List (Int × Int)) (data : List VarSet) (id : Nat) (keys : List Int) (t : CmplType) (w h max : Int) (pick : ι → Nat → Nat) : Option Ppm :=
  (data[id]?).bind fun I => (lf sc (testTrain data id) id).bind fun S => imgPicture S.1 S.2 I keys t .left w h max pick

/-- app/image.go:293-324: the picture for `t` of job `id` of `ImgTestParallel`; `data` are the shuffled images. -/
def testParPicture (lf : List (Int × Int) → List VarSet → Nat → Option (Net ι F × ι)) (sc : List (Int × Int)) (data : List VarSet) (id : Nat) (keys : List Int) (t : CmplType) (w h max : Int) (pick : ι → Nat → Nat) :
    Option Ppm :=
  (data[id]?).bind fun I => (lf sc (testTrain data id) id).bind fun S => imgPicture S.1 S.2 I keys t t w h max pick

end Gospn
