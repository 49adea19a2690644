/-
Model of app/image.go.
-/
import Verif.Model.Spn
import Verif.Model.Images
import Verif.Model.Text
import Verif.Model.Conc

namespace Gospn
open GoFloat
variable {ι F : Type} [DecidableEq ι] [Fintype ι] [GoFloat F]

/-- app/image.go:52-57 `getValue`: the value and the storage. The entry of `S` is 0 if it is missing. -/
def imgValue (N : Net ι F) (S : ι) (tk : Int) (I : VarSet) (st : Storer ι F) : Option (F × Storer ι F) :=
  (N.storeInference S I tk st).map fun r => ((r.2.single tk S).getD (ofInt 0), r.2.reset tk)

/-- The state of the loop over the classes: the storage, the instance, the best probability so far and its class. -/
structure ImgState (ι F : Type) where
  st : Storer ι F
  inst : VarSet
  max : F
  imax : Int

/-- Loop body of app/image.go:97-105; `v` is `n - 1`, `pz` the log-probability of the instance without its class. -/
def imgClassStep (N : Net ι F) (S : ι) (v tk : Int) (pz : F) (y : ImgState ι F) (j : Nat) : Option (ImgState ι F) :=
  let inst := y.inst.set v (j : Int)
  (imgValue N S tk inst y.st).map fun r =>
  let pr := GoFloat.exp (sub r.1 pz)
  if lt y.max pr then ⟨r.2, inst, pr, (j : Int)⟩ else ⟨r.2, inst, y.max, y.imax⟩

/-- Loop body of app/image.go:93-113: the class found for an instance, the instance afterwards, and the storage. A negative number of classes panics. -/
def imgClassifyRow (N : Net ι F) (S : ι) (v nclass tk : Int) (st : Storer ι F) (I : VarSet) : Option (Int × VarSet × Storer ι F) :=
  if nclass < 0 then none
  else
    (imgValue N S tk I st).bind fun r =>
    ((List.range nclass.toNat).foldlM (imgClassStep N S v tk r.1) ⟨r.2, I, ofInt (-1), -1⟩).map fun y => (y.imax, y.inst.del v, y.st)

/-- The test data with their labels, one by one: correct ones so far, the instances afterwards, the storage. -/
def imgClassifyStep (N : Net ι F) (S : ι) (v nclass tk : Int) (s : Nat × List VarSet × Storer ι F) (x : VarSet × Int) : Option (Nat × List VarSet × Storer ι F) :=
  (imgClassifyRow N S v nclass tk s.2.2 x.1).map fun r => (if r.1 = x.2 then s.1 + 1 else s.1, s.2.1 ++ [r.2.1], r.2.2)

/-- app/image.go:84-131 `ImgClassify`, after the network `N` with root `S` has been learned: correct ones, number of test instances, and the test instances afterwards. `test` and `lbls`
have the same length (ParsePartitionedData). Lines 122-127 panic for a label that is not a class. -/
def imgClassify (N : Net ι F) (S : ι) (v nclass : Int) (test : List VarSet) (lbls : List Int) : Option (Nat × Nat × List VarSet) :=
  let r := (Storer.new : Storer ι F).newTicket
  ((test.zip lbls).foldlM (imgClassifyStep N S v nclass r.1) (0, [], r.2)).bind fun s =>
  if nclass < 0 then none
  else if (lbls.all fun l => decide (0 ≤ l) && decide (l < nclass)) then some (s.1, test.length, s.2.1)
  else none

/-- app/image.go:137-154: whether pixel `p` is to be completed. `%` is Go's remainder; division by zero panics, and so does
any other type, for which the function is nil. -/
def halfCriteria (t : CmplType) (w h p : Int) : Option Bool :=
  match t with
  | .top => some (decide (p < w * (h.tdiv 2)))
  | .bottom => some (decide (p ≥ w * (h.tdiv 2)))
  | .left => if w = 0 then none else some (decide (p.tmod w < w.tdiv 2))
  | .right => if w = 0 then none else some (decide (p.tmod w ≥ w.tdiv 2))
  | .other => none

/-- app/image.go:156-160: what is known of the image; `keys` are its pixels. -/
def knownHalf (set : VarSet) (keys : List Int) (t : CmplType) (w h : Int) : Option VarSet :=
  keys.foldlM (fun (half : VarSet) k => (halfCriteria t w h k).map fun c => if c then half else half.set k (set.get k)) VarSet.empty

/-- app/image.go:133-171 `halfImg`: completion and known half. `keys` lists the keys of `set` in some order. A nil state is empty. -/
def halfImg (N : Net ι F) (S : ι) (set : VarSet) (keys : List Int) (t : CmplType) (w h : Int) (pick : ι → Nat → Nat) : Option (VarSet × VarSet) :=
  (knownHalf set keys t w h).bind fun half =>
  (N.storeMAP S half (-1) (Storer.new : Storer ι F) pick).map fun r =>
  let cmpl : VarSet := (r.1.map fun m => m.2.2).getD (fun _ => none)
  (fun k => if (half k).isSome then none else cmpl k, half)

/-! ### The concurrent jobs

Lines 285-337 (`ImgTestParallel`) and 359-419 (`ImgCompletion`) of app/image.go repeat the code of `SingleQueue.Run` line by line (`nrun`, `nprocs`, `cond` and `wg` for `k`, `n`, `c` and `wg`): for each image
lines 30-46 of conc/queue.go with the job as `f`, and at the end `wg.Wait()`. They are therefore modelled as a queue with one caller. -/

/-- The calls of the loop `for i := 0; i < ndata; i++` and of `wg.Wait()`. -/
def imgProg (ndata : Nat) : List QCmd := (List.range ndata).map (fun (i : Nat) => QCmd.run (i : Int)) ++ [.wait]

/-- io/output.go:15-25: the text of a completion type. -/
def CmplType.text : CmplType → Str
  | .top => "TOP".toList
  | .bottom => "BOTTOM".toList
  | .left => "LEFT".toList
  | .right => "RIGHT".toList
  | .other => []

/-- io/output.go:29 and 33. -/
def quadrants : List CmplType := [.top, .right, .left, .bottom]
def orientations : List CmplType := [.top, .bottom, .left, .right]

/-- app/image.go:398: `fmt.Sprintf("cmpl_%d-%s.pgm", id, v)`. -/
def complName (id : Int) (v : CmplType) : Str := "cmpl_".toList ++ (itoa id ++ ('-' :: (v.text ++ ".pgm".toList)))

/-- app/image.go:323: `fmt.Sprintf("cmpl_%s_%d.pgm", q, i)`. -/
def testName (i : Int) (q : CmplType) : Str := "cmpl_".toList ++ (q.text ++ ('_' :: (itoa i ++ ".pgm".toList)))

/-- The files a job writes, with the number of the image in them; `i` is the loop variable of the caller, which all jobs of `ImgTestParallel` share
(the module declares no language version, so the loop has one variable). -/
def completionFiles (id _i : Int) : List (Str × Int) := orientations.map fun v => (complName id v, id)
def testFiles (id i : Int) : List (Str × Int) := quadrants.map fun q => (testName i q, id)

/-- An execution with the files written, in order. Simplifications: the four files of a job are written in one step, at its end; the loop variable
is the number of jobs started, or one less if the caller has just started one and not yet increased it. -/
inductive ImgRun (files : Int → Int → List (Str × Int)) : QState → List QEvent → List (Str × Int) → QState → Prop
  | nil (s : QState) : ImgRun files s [] [] s
  | quiet {s s' s'' : QState} {t : List QEvent} {fs : List (Str × Int)} {e : Option QEvent} : ImgRun files s t fs s' → QStep s' e s'' → (∀ c q id, e ≠ some (.finish c q id)) →
      ImgRun files s (t ++ e.toList) fs s''
  | job {s s' s'' : QState} {t : List QEvent} {fs : List (Str × Int)} {c q : Nat} {id : Int} {cl : Caller} {i : Int} : ImgRun files s t fs s' → QStep s' (some (.finish c q id)) s'' → s'.callers[0]? = some cl →
      (i = cl.seq ∨ cl.pc = .idle ∧ i + 1 = cl.seq) → ImgRun files s (t ++ [.finish c q id]) (fs ++ files id i) s''

end Gospn
