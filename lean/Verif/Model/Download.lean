/-
Model of io/http.go and data/datasets.go: downloaded data sets.

A file system maps absolute paths to the contents of files. What the operating system and the network do is an argument of each call (`Env`): whether os.Stat fails for another reason than a missing file,
whether os.Create succeeds, and what a request of a URL yields. Directories are not modelled: that `.cache/data` exists or can be made (data/datasets.go:43-46, 50-52, 179-181) is part of whether os.Create succeeds.
The program does not change its working directory. Messages are not modelled.
-/
import Verif.Model.Input
import Verif.Spec.Text

namespace Gospn
open Spec

/-- Contents of files by absolute path. -/
abbrev Files := Str → Option Str

/-- The file at `f` gets the contents `t`. -/
def Files.put (fs : Files) (f t : Str) : Files := fun g => if g = f then some t else fs g

/-- What a request yields. -/
inductive Fetch
  /-- http.Get returns an error and no response. -/
  | none
  /-- http.Get returns an error together with a response whose body is closed, as it does when it stops following redirections. -/
  | redirect
  /-- A response, of whatever status. `bytes` is what io.Copy writes to the file before it ends; `complete` if it ends without error. -/
  | body (bytes : Str) (complete : Bool)

/-- The surroundings of a call. -/
structure Env where
  /-- os.Stat fails for another reason than a missing file. -/
  statFails : Bool
  /-- os.Create succeeds. -/
  creates : Bool
  /-- What the network yields for each URL. -/
  fetch : Str → Fetch

/-- How DownloadFromURL ends. -/
inductive Ended
  | ok
  | error
  | panic
  deriving DecidableEq

/-- io/input.go:24-33 `GetPath`, for paths that filepath.Clean leaves as they are; `cwd` is the working directory. -/
def getPath (cwd p : Str) : Str := if p.head? = some '/' then p else cwd ++ '/' :: p

/-- path/filepath: the last element of a path. -/
def lastElem (p : Str) : Str := (splitAt1 (· = '/') p).getLastD []

/-- io/http.go:23-29: the file to be written. filepath.Ext of a path is empty if its last element has no dot. -/
def targetFile (cwd u p : Str) : Str :=
  let p := getPath cwd p
  if '.' ∈ lastElem p then p else p ++ '/' :: (splitAt1 (· = '/') u).getLastD []

/-- io/http.go:18-59 `DownloadFromURL`. `d.Body` in the deferred call (48) panics without a response; the file (41) is empty then. -/
def download (cwd : Str) (E : Env) (u p : Str) (override : Bool) (fs : Files) : Files × Ended :=
  let f := targetFile cwd u p
  if E.statFails then (fs, .error)
  else if (fs f).isSome && !override then (fs, .ok)
  else if !E.creates then (fs, .error)
  else match E.fetch u with
    | .none => (fs.put f [], .panic)
    | .redirect => (fs.put f [], .error)
    | .body bytes complete => (fs.put f bytes, if complete then .ok else .error)

/-- data/datasets.go:12 `DatasetPath`. -/
def datasetPath : Str := ".cache/data/".toList

/-- data/datasets.go:35-37 `upstreamURL`. -/
def upstreamURL (d : Str) : Str := "https://raw.githubusercontent.com/RenatoGeh/datasets/master/".toList ++ d ++ "/compiled/all.data".toList

/-- data/datasets.go:39-41 `fullPath`. -/
def fullPath (d : Str) : Str := datasetPath ++ d ++ ".data".toList

/-- What a function that loads a data set gives. -/
inductive Loaded (α : Type)
  | panic
  /-- nil maps and slices -/
  | nothing
  | data (a : α)

/-- io/input.go:37-42 `ParseData`: os.Open of a missing file panics. -/
def parseFile (cwd : Str) (fs : Files) (p : Str) : Option (List (Int × Int) × List VarSet) := (fs (getPath cwd p)).bind parseData

/-- data/datasets.go:48-176 `getDataset` and `Caltech` to `OlivettiSmall`: `getDataset` and `ParseData`, for the data set named `d`. -/
def loadDataset (cwd : Str) (E : Env) (d : Str) (fs : Files) : Files × Loaded (List (Int × Int) × List VarSet) :=
  let r := download cwd E (upstreamURL d) (fullPath d) false fs
  match r.2 with
  | .panic => (r.1, .panic)
  | .error => (r.1, .nothing)
  | .ok => (r.1, match parseFile cwd r.1 (fullPath d) with | none => .panic | some x => .data x)

/-- data/datasets.go:182: `fmt.Sprintf("…_%d_%d.data", b, n)`. -/
def mnistName (kind : Str) (n b : Int) : Str := kind ++ '_' :: (itoa b ++ '_' :: (itoa n ++ ".data".toList))

/-- data/datasets.go:183-184. -/
def mnistURL (kind : Str) (n b : Int) : Str := "https://raw.githubusercontent.com/RenatoGeh/datasets/master/mnist/compiled/".toList ++ mnistName kind n b

/-- data/datasets.go:185-186. -/
def mnistPath (kind : Str) (n b : Int) : Str := datasetPath ++ "mnist_".toList ++ mnistName kind n b

/-- data/datasets.go:178-195 `pullMNIST`, with the surroundings of the two downloads. The error of the second one is not looked at. -/
def pullMNIST (cwd : Str) (E E' : Env) (n b : Int) (fs : Files) : Files × Loaded (List (Int × Int) × List VarSet × List VarSet) :=
  let t := download cwd E (mnistURL "test".toList n b) (mnistPath "test".toList n b) false fs
  match t.2 with
  | .panic => (t.1, .panic)
  | .error => (t.1, .nothing)
  | .ok =>
    let r := download cwd E' (mnistURL "train".toList n b) (mnistPath "train".toList n b) false t.1
    match r.2 with
    | .panic => (r.1, .panic)
    | _ => (r.1, match parseFile cwd r.1 (mnistPath "test".toList n b), parseFile cwd r.1 (mnistPath "train".toList n b) with
      | some x, some y => .data (x.1, x.2, y.2)
      | _, _ => .panic)

/-- A call of a function of data/datasets.go. -/
inductive DataCall
  | dataset (E : Env) (d : Str)
  | mnist (E E' : Env) (n b : Int)

/-- The files after a call; a panic that the program recovers from leaves them as they are then. -/
def DataCall.after (cwd : Str) (fs : Files) : DataCall → Files
  | .dataset E d => (loadDataset cwd E d fs).1
  | .mnist E E' n b => (pullMNIST cwd E E' n b fs).1

end Gospn
