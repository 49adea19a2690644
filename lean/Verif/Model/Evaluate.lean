/-
Evaluation of an SPN as a classifier: score/score.go:69-120.
-/
import Verif.Model.Score
import Verif.Model.Spn

namespace Gospn
open GoFloat
variable {ι F : Type} [DecidableEq ι] [Fintype ι] [GoFloat F]

/-- The test data in memory, the storage and the scores. -/
structure EvalState (ι F : Type) where
  mem : Mem
  st : Storer ι F
  sc : ScoreMem

/-- Loop body of score/score.go:76-85. `n` is `len(T) / 10`: `i % n` is evaluated for `i > 0` and panics if `n` is zero; the progress message is left out.
`grow` and `pick` are the growth rule and the random choices of this iteration. If `StoreMAP` returns a nil state, `M[v]` is 0. -/
def evaluateStep (N : Net ι F) (S : ι) (v tk : Int) (L : List Int) (n s : Nat) (grow : Nat → Nat → Nat → Nat) (pick : Nat → ι → Nat → Nat)
    (x : EvalState ι F) (ai : Addr × Nat) : Option (EvalState ι F) :=
  if 0 < ai.2 ∧ n = 0 then none
  else
    (x.mem[ai.1]?).bind fun I =>
    (x.mem.delete ai.1 v).bind fun h =>
    (h[ai.1]?).bind fun J =>
    (N.storeMAP S J tk x.st (pick ai.2)).bind fun r =>
    (L[ai.2]?).bind fun e =>
    (x.sc.register (grow ai.2) s ((r.1.map fun m => m.2.2.get v).getD 0) e).bind fun sc =>
    (h.put ai.1 v (I.get v)).map fun h => ⟨h, r.2.reset tk, sc⟩

/-- score/score.go:69-86 `Evaluate` of score `s`. -/
def evaluate (N : Net ι F) (S : ι) (v : Int) (s : Nat) (grow : Nat → Nat → Nat → Nat) (pick : Nat → ι → Nat → Nat) (h : Mem) (T : List Addr) (L : List Int) (sc : ScoreMem) :
    Option (EvalState ι F) :=
  let r := (Storer.new : Storer ι F).newTicket
  T.zipIdx.foldlM (evaluateStep N S v r.1 L (T.length / 10) s grow pick) ⟨h, r.2, sc⟩

/-- The state of the loop over the classes: memory, storage, best difference so far and its class. -/
structure PostState (ι F : Type) where
  mem : Mem
  st : Storer ι F
  mp : F
  ml : Int

/-- Loop body of score/score.go:107-115; `a` is the address of the instance, `pe` the log-probability of the evidence. -/
def posteriorStep (N : Net ι F) (S : ι) (v tk : Int) (a : Addr) (pe : F) (y : PostState ι F) (j : Nat) : Option (PostState ι F) :=
  let st := y.st.reset tk
  (y.mem.put a v (j : Int)).bind fun h =>
  (h[a]?).bind fun J =>
  (N.storeInference S J tk st).bind fun r =>
  let pd := sub ((r.2.single tk S).getD (ofInt 0)) pe
  (h.delete a v).map fun h => if lt y.mp pd then ⟨h, r.2, pd, (j : Int)⟩ else ⟨h, r.2, y.mp, y.ml⟩

/-- Loop body of score/score.go:97-119. -/
def evaluatePosteriorStep (N : Net ι F) (S : ι) (v cats tk : Int) (L : List Int) (n s : Nat) (grow : Nat → Nat → Nat → Nat)
    (x : EvalState ι F) (ai : Addr × Nat) : Option (EvalState ι F) :=
  if 0 < ai.2 ∧ n = 0 then none
  else
    (x.mem[ai.1]?).bind fun I =>
    (x.mem.delete ai.1 v).bind fun h =>
    (h[ai.1]?).bind fun J =>
    (N.storeInference S J tk x.st).bind fun r =>
    let pe := (r.2.single tk S).getD (ofInt 0)
    ((List.range cats.toNat).foldlM (posteriorStep N S v tk ai.1 pe) ⟨h, r.2, ninf, 0⟩).bind fun y =>
    (L[ai.2]?).bind fun e =>
    (x.sc.register (grow ai.2) s y.ml e).bind fun sc =>
    (y.mem.put ai.1 v (I.get v)).map fun h => ⟨h, y.st.reset tk, sc⟩

/-- score/score.go:90-120 `EvaluatePosterior` of score `s`. -/
def evaluatePosterior (N : Net ι F) (S : ι) (v cats : Int) (s : Nat) (grow : Nat → Nat → Nat → Nat) (h : Mem) (T : List Addr) (L : List Int) (sc : ScoreMem) :
    Option (EvalState ι F) :=
  let r := (Storer.new : Storer ι F).newTicket
  T.zipIdx.foldlM (evaluatePosteriorStep N S v cats r.1 L (T.length / 10) s grow) ⟨h, r.2, sc⟩

end Gospn
