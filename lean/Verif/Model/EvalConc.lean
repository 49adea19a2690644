/-
Concurrent evaluation of an SPN as a classifier: score/score.go:134-178 `EvaluatePosteriorConc`.

The queue is the transition system of Model/Conc. What a job does with one instance is one step here: apart from the score, which it only touches between `mu.Lock()` and `mu.Unlock()`, a job uses only
its own storage and the maps of its own group.
-/
import Verif.Model.App
import Verif.Model.Evaluate

namespace Gospn
open GoFloat
variable {ι F : Type} [DecidableEq ι] [Fintype ι] [GoFloat F]

/-- Loop body of score/score.go:152-173 for the instance at `a` with label `e`. `n` is `len(D) / 10`: after `Register`, `_n % (len(D)/10)` is evaluated if `_n > 0` and panics if `n` is zero; the progress
message is left out. Also returns the prediction. -/
def concEvalStep (N : Net ι F) (S : ι) (v cats tk : Int) (n s : Nat) (grow : Nat → Nat → Nat) (x : EvalState ι F) (a : Addr) (e : Int) : Option (EvalState ι F × Int) :=
  (x.mem.delete a v).bind fun h =>
  (h[a]?).bind fun J =>
  (N.storeInference S J tk x.st).bind fun r =>
  let pe := (r.2.single tk S).getD (ofInt 0)
  ((List.range cats.toNat).foldlM (posteriorStep N S v tk a pe) ⟨h, r.2, ninf, 0⟩).bind fun y =>
  (x.sc.register grow s y.ml e).bind fun sc =>
  (sc.objs[s]?).bind fun o =>
  if 0 < o.total ∧ n = 0 then none else some (⟨y.mem, y.st.reset tk, sc⟩, y.ml)

/-- Memory, scores, the storage of every job, the number of instances every job is done with, and the predictions registered so far with the labels (the last is not a variable of the program). -/
structure ConcEval (ι F : Type) where
  mem : Mem
  sc : ScoreMem
  st : Int → Storer ι F
  pos : Int → Nat
  log : List (Int × Int)

/-- One step of one goroutine: a step of the queue other than the end of a job; the next instance of a job that runs; or the end of a job that has no instances left (score/score.go:148-174).
`G` holds the groups `G` and `H` of the program; `G[id]` panics if there is no such group. -/
inductive ConcStep (N : Net ι F) (S : ι) (v cats : Int) (n s : Nat) (grow : Nat → Nat → Nat → Nat) (G : Groups) : QState → ConcEval ι F → Option QEvent → QState → ConcEval ι F → Prop
  | quiet {q q' : QState} {x : ConcEval ι F} {e : Option QEvent} : QStep q e q' → (∀ c i id, e ≠ some (.finish c i id)) → ConcStep N S v cats n s grow G q x e q' x
  | inst {q : QState} {x : ConcEval ι F} {w c i : Nat} {id : Int} {g : List Addr} {h : List Int} {a : Addr} {e p : Int} {y : EvalState ι F} :
      q.workers[w]? = some ⟨c, i, id, .running⟩ → goIdx G.data id = some g → goIdx G.labels id = some h → g[x.pos id]? = some a → h[x.pos id]? = some e →
      concEvalStep N S v cats (Storer.new : Storer ι F).newTicket.1 n s (grow x.log.length) ⟨x.mem, x.st id, x.sc⟩ a e = some (y, p) →
      ConcStep N S v cats n s grow G q x none q ⟨y.mem, y.sc, Function.update x.st id y.st, Function.update x.pos id (x.pos id + 1), x.log ++ [(p, e)]⟩
  | finish {q q' : QState} {x : ConcEval ι F} {c i : Nat} {id : Int} {g : List Addr} {h : List Int} : QStep q (some (.finish c i id)) q' → goIdx G.data id = some g → goIdx G.labels id = some h →
      x.pos id = g.length → ConcStep N S v cats n s grow G q x (some (.finish c i id)) q' x

/-- A finite sequence of steps. -/
inductive ConcRun (N : Net ι F) (S : ι) (v cats : Int) (n s : Nat) (grow : Nat → Nat → Nat → Nat) (G : Groups) : QState → ConcEval ι F → List QEvent → QState → ConcEval ι F → Prop
  | nil (q : QState) (x : ConcEval ι F) : ConcRun N S v cats n s grow G q x [] q x
  | step {q q' q'' : QState} {x x' x'' : ConcEval ι F} {t : List QEvent} {e : Option QEvent} : ConcRun N S v cats n s grow G q x t q' x' → ConcStep N S v cats n s grow G q' x' e q'' x'' →
      ConcRun N S v cats n s grow G q x (t ++ e.toList) q'' x''

/-- Memory and scores when the jobs have not begun: the groups are there and every job has a new storage with a ticket (lines 149-150). -/
def ConcEval.start (G : Groups) (sc : ScoreMem) : ConcEval ι F := ⟨G.mem, sc, fun _ => (Storer.new : Storer ι F).newTicket.2, fun _ => 0, []⟩

/-- score/score.go:134-178 `EvaluatePosteriorConc` of score `s`: it can return with this memory and these scores. `cpu` is `runtime.NumCPU()`; the number of jobs is that of the queue, conc/queue.go:27 `Allowed`. It returns when the calls of the loop at line 146 and
`Q.Wait()` have returned; goroutines may then still be about to end. -/
inductive EvaluateConc (N : Net ι F) (S : ι) (v cats : Int) (s : Nat) (grow : Nat → Nat → Nat → Nat) (ord : MapOrder) (cpu : Int) (h : Mem) (D : List Addr) (L : List Int) (sc : ScoreMem) (k : Int) :
    Mem → ScoreMem → Prop
  | few {x : EvalState ι F} : (D.length : Int) < k → evaluatePosterior N S v cats s grow h D L sc = some x → EvaluateConc N S v cats s grow ord cpu h D L sc k x.mem x.sc
  | many {G : Groups} {t : List QEvent} {q : QState} {x : ConcEval ι F} : ¬ (D.length : Int) < k → divide ord h D L (queueSize k cpu) = some G →
      ConcRun N S v cats (D.length / 10) s grow G (QState.init (queueSize k cpu) [imgProg (queueSize k cpu).toNat]) (.start G sc) t q x → (∀ c ∈ q.callers, c.prog = []) →
      EvaluateConc N S v cats s grow ord cpu h D L sc k x.mem x.sc

end Gospn
