/-
Model of completeHalfExact (app/image.go).
-/
import Verif.Model.App

namespace Gospn
open GoFloat
variable {ι F : Type} [DecidableEq ι] [Fintype ι] [GoFloat F]

/-- The variables of app/image.go:209-213 in the order of the two loops, for `sys.Width` and `sys.Height`. -/
def halfPixels (W H : Int) : List Int :=
  (List.range (W.tdiv 2).toNat).reverse.flatMap fun (x : Nat) => (List.range H.toNat).reverse.map fun (y : Nat) => (x : Int) + (y : Int) * W

/-- Loop body of app/image.go:217-229: one value for the pixel `p`; `inst` of the state is `J`. A missing entry reads as 0. -/
def halfValueStep (N : Net ι F) (S : ι) (p jtk : Int) (pe : F) (y : ImgState ι F) (v : Nat) : Option (ImgState ι F) :=
  let J := y.inst.set p (v : Int)
  (N.storeInference S J jtk y.st).map fun r =>
  let pc := sub ((r.2.single jtk S).getD (ofInt 0)) pe
  if lt y.max pc then ⟨r.2.reset jtk, J, pc, (v : Int)⟩ else ⟨r.2.reset jtk, J, y.max, y.imax⟩

/-- Loop body of app/image.go:211-232: one pixel; the state is `Y`, `J` and the storage, `M` is `sys.Max`. -/
def halfPixelStep (N : Net ι F) (S : ι) (M jtk etk : Int) (s : VarSet × VarSet × Storer ι F) (p : Int) : Option (VarSet × VarSet × Storer ι F) :=
  (N.storeInference S s.1 etk s.2.2).bind fun r =>
  let pe := (r.2.single etk S).getD (ofInt 0)
  ((List.range M.toNat).foldlM (halfValueStep N S p jtk pe) ⟨r.2, s.2.1, ninf, -1⟩).map fun y =>
  (s.1.set p y.imax, y.inst.set p y.imax, y.st)

/-- app/image.go:198-235 `completeHalfExact`; `W`, `H` and `M` are `sys.Width`, `sys.Height` and `sys.Max`. What is printed is left out. -/
def completeHalfExact (N : Net ι F) (S : ι) (E : VarSet) (W H M : Int) : Option VarSet :=
  let j := (Storer.new : Storer ι F).newTicket
  let e := j.2.newTicket
  ((halfPixels W H).foldlM (halfPixelStep N S M j.1 e.1) (E, E, e.2)).map Prod.fst

end Gospn
