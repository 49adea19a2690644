import Verif.Model.ImgRun
import Verif.Model.Folder
/-
main.go: what the command does with its flags, and the names of the files it works on. What is printed is left out, and so is `-v`.
-/
namespace Gospn
variable {ι F : Type}

/-- main.go:24-62: the flags after `flag.Parse`. -/
structure Flags (F : Type) where
  p : F
  clusters : Int
  rseed : Int
  iterations : Int
  concurrents : Int
  dataset : Str
  mode : Str
  width : Int
  height : Int
  max : Int
  pval : F
  eps : F
  mp : Int

/-- main.go:84, 88: what `gens.Binded` is given (learn/gens/gens.go). -/
structure GensArgs (F : Type) where
  clusters : Int
  pval : F
  eps : F
  mp : Int

/-- What `main` does. -/
inductive MainJob (F : Type)
  /-- main.go:64-67 -/
  | rejectP
  /-- main.go:68-71 -/
  | rejectIterations
  /-- main.go:78-81 and 18-21: `io.BufferedPGMFToData(dir, name)` -/
  | convert (dir name : Str)
  /-- main.go:82-86: `app.ImgCompletion(lf, file, concurrents)` -/
  | complete (lf : GensArgs F) (file : Str) (concurrents : Int)
  /-- main.go:87-89: `app.ImgBatchClassify(lf, dataset, p, rseed, clusters, iterations)` -/
  | classify (lf : GensArgs F) (dataset : Str) (p : F) (rseed clusters iterations : Int)
  /-- main.go:90-109: `app.ImgTestParallel(file, 4, 4, 4, 0.1, 1, 3)` -/
  | test (file : Str)
  /-- main.go:110-112 -/
  | unknown

/-- `strings.Split(s, "/")`. -/
def pathSegs : Str → List Str
  | [] => [[]]
  | c :: s =>
    if c = '/' then [] :: pathSegs s
    else match pathSegs s with
      | [] => [[c]]
      | h :: t => (c :: h) :: t

/-- path/filepath `Clean`, for rooted paths: one segment on top of those kept so far. -/
def cleanSeg (kept : List Str) (s : Str) : List Str :=
  if s = [] ∨ s = ['.'] then kept
  else if s = ['.', '.'] then kept.dropLast
  else kept ++ [s]

/-- path/filepath `Clean` of a rooted path, as the list of its segments. -/
def cleanSegs (p : Str) : List Str := (pathSegs p).foldl cleanSeg []

/-- A rooted path of segments. -/
def renderPath : List Str → Str
  | [] => ['/']
  | [s] => '/' :: s
  | s :: t => '/' :: (s ++ renderPath t)

/-- path/filepath `Abs` in the working directory `cwd` (Unix): `Clean(p)` if `p` is rooted, `Clean(cwd + "/" + p)` otherwise. -/
def pathAbs (cwd p : Str) : Str := if p.head? = some '/' then renderPath (cleanSegs p) else renderPath (cleanSegs (cwd ++ '/' :: p))

/-- io/input.go:18-21 `GetDataPath`; main.go:75 is the same. -/
def getDataPath (cwd dataset : Str) : Str := pathAbs cwd ("data/".toList ++ dataset ++ "/compiled".toList)

/-- main.go:19: the folder of the images. -/
def convertDir (cwd dataset : Str) : Str := pathAbs cwd ("data/".toList ++ dataset ++ "/".toList)

/-- io/pgm.go:246-259: the file that `BufferedPGMFToData` writes. -/
def compiledFile (cwd dirname dname : Str) : Str := pathAbs cwd dirname ++ "/compiled".toList ++ "/".toList ++ dname

/-- main.go:85, app/image.go:31, 38: the file that the jobs read. -/
def allData (dir : Str) : Str := dir ++ "/all.data".toList

/-- main.go:23-113 `main`. -/
def mainJob [GoFloat F] (cwd : Str) (f : Flags F) : MainJob F :=
  if GoFloat.eq f.p (GoFloat.ofInt 0) || GoFloat.lt f.p (GoFloat.ofInt 0) || GoFloat.eq f.p (GoFloat.ofInt 1) then .rejectP
  else if f.iterations ≤ 0 then .rejectIterations
  else if f.mode = "data".toList then .convert (convertDir cwd f.dataset) "all.data".toList
  else if f.mode = "cmpl".toList then .complete ⟨f.clusters, f.pval, f.eps, f.mp⟩ (allData (getDataPath cwd f.dataset)) f.concurrents
  else if f.mode = "class".toList then .classify ⟨f.clusters, f.pval, f.eps, f.mp⟩ f.dataset f.p f.rseed f.clusters f.iterations
  else if f.mode = "test".toList then .test "data/digits_x/compiled/all.data".toList
  else .unknown

/-- The file that a job writes. -/
def MainJob.writes (cwd : Str) : MainJob F → Option Str
  | .convert dir name => some (compiledFile cwd dir name)
  | _ => none

/-- The data file that a job reads. -/
def MainJob.reads (cwd : Str) : MainJob F → Option Str
  | .complete _ file _ => some file
  | .classify _ dataset _ _ _ _ => some (allData (getDataPath cwd dataset))
  | .test file => some file
  | _ => none

/-- app/image.go:349-354: how many jobs run at once. -/
def complProcs (ncpu concurrents : Int) : Int := if concurrents ≤ 0 then ncpu else concurrents

end Gospn
