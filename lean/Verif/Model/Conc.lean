/-
Model of `SingleQueue` (conc/queue.go) as a transition system. Threads are the goroutines that call `Run` and `Wait` (callers) and the goroutines
that `Run` starts (workers); one step is one operation on shared state, and any thread that can take a step may be the next one.

Simplifications:
* a caller is a fixed list of calls; the submitted functions are opaque, they may end at any time and do not call the queue themselves;
* `sync.Cond` keeps its waiters in the program counters: `queued b`/`parked b` is a goroutine inside `q.c.Wait()` before/after it released the lock, and `b`
  says whether a `Signal` has picked it. `Signal` picks any waiter that has not been picked (the runtime picks the one waiting longest);
* `WaitGroup.Wait` may go on at any moment the counter is zero, and may return later. The panics of `WaitGroup` for a misuse of the type are not modelled,
  `C16` shows that its counter stays non-negative.
-/
namespace Gospn

/-- A call of a caller goroutine. -/
inductive QCmd
  | run (i : Int)
  | wait

/-- Where a caller is: conc/queue.go:30-46 for `run`, 49-51 for `wait`. -/
inductive CPc
  /-- before the call -/
  | idle
  /-- holds the lock, about to evaluate `q.k >= q.n` (line 32) -/
  | locked
  /-- in `q.c.Wait()` (line 33), in the list of waiters, still holding the lock -/
  | queued (signalled : Bool)
  /-- in `q.c.Wait()`, lock released -/
  | parked (signalled : Bool)
  /-- after `q.k++` (line 35), holding the lock -/
  | counted
  /-- after line 36 -/
  | unlocked
  /-- after `q.wg.Add(1)` (line 37) -/
  | added
  /-- in `q.wg.Wait()` (line 50) -/
  | waiting
  /-- `q.wg.Wait()` has seen the counter at zero but has not returned -/
  | released
deriving DecidableEq

/-- Where the goroutine of lines 38-45 is. -/
inductive WPc
  | ready
  /-- in `f(id)` (line 40) -/
  | running
  /-- `f(id)` has returned -/
  | ended
  /-- after line 41 -/
  | locked
  /-- after line 42 -/
  | decremented
  /-- after line 43 -/
  | unlocked
  /-- after line 44 -/
  | signalled
  /-- after the deferred `q.wg.Done()` (line 39) -/
  | done
deriving DecidableEq

/-- A caller: the calls it has still to make, the current one first, and the number of its `Run` calls that have returned. -/
structure Caller where
  prog : List QCmd
  pc : CPc
  seq : Nat

/-- A worker: the caller that started it, which of that caller's `Run` calls it was (from 0), and the id. -/
structure Worker where
  caller : Nat
  seq : Nat
  id : Int
  pc : WPc

/-- conc/queue.go:11-16 and the threads. -/
structure QState where
  n : Int
  k : Int
  wg : Int
  lock : Bool
  callers : List Caller
  workers : List Worker

/-- conc/queue.go:20-25 `NewSingleQueue`: the number of processes allowed. -/
def queueSize (n numCPU : Int) : Int := if n ≤ 0 then numCPU else n

/-- A new queue and callers about to make the given calls. -/
def QState.init (n : Int) (progs : List (List QCmd)) : QState :=
  ⟨n, 0, 0, false, progs.map (fun p => ⟨p, .idle, 0⟩), []⟩

/-- What an observer of the submitted functions sees: function number `seq` of a caller starts or ends, called with `id`. -/
inductive QEvent
  | start (caller seq : Nat) (id : Int)
  | finish (caller seq : Nat) (id : Int)
deriving DecidableEq

/-- A goroutine in the list of waiters of the condition variable that no `Signal` has picked. -/
def CPc.inWaitList : CPc → Bool
  | .queued false => true
  | .parked false => true
  | _ => false

/-- The effect of being picked. -/
def CPc.picked : CPc → CPc
  | .queued _ => .queued true
  | .parked _ => .parked true
  | pc => pc

/-- One step of one thread. -/
inductive QStep : QState → Option QEvent → QState → Prop
  /-- line 31 -/
  | lock (s : QState) (i : Nat) (j : Int) (r : List QCmd) (q : Nat) : s.callers[i]? = some ⟨.run j :: r, .idle, q⟩ → s.lock = false →
      QStep s none { s with lock := true, callers := s.callers.set i ⟨.run j :: r, .locked, q⟩ }
  /-- line 32, condition true, and the start of line 33 -/
  | full (s : QState) (i : Nat) (p : List QCmd) (q : Nat) : s.callers[i]? = some ⟨p, .locked, q⟩ → s.k ≥ s.n →
      QStep s none { s with callers := s.callers.set i ⟨p, .queued false, q⟩ }
  /-- line 32, condition false, and line 35 -/
  | count (s : QState) (i : Nat) (p : List QCmd) (q : Nat) : s.callers[i]? = some ⟨p, .locked, q⟩ → ¬ s.k ≥ s.n →
      QStep s none { s with k := s.k + 1, callers := s.callers.set i ⟨p, .counted, q⟩ }
  /-- line 33: the wait releases the lock -/
  | park (s : QState) (i : Nat) (p : List QCmd) (q : Nat) (b : Bool) : s.callers[i]? = some ⟨p, .queued b, q⟩ →
      QStep s none { s with lock := false, callers := s.callers.set i ⟨p, .parked b, q⟩ }
  /-- line 33: a waiter that was picked takes the lock again -/
  | relock (s : QState) (i : Nat) (p : List QCmd) (q : Nat) : s.callers[i]? = some ⟨p, .parked true, q⟩ → s.lock = false →
      QStep s none { s with lock := true, callers := s.callers.set i ⟨p, .locked, q⟩ }
  /-- line 36 -/
  | unlock (s : QState) (i : Nat) (p : List QCmd) (q : Nat) : s.callers[i]? = some ⟨p, .counted, q⟩ →
      QStep s none { s with lock := false, callers := s.callers.set i ⟨p, .unlocked, q⟩ }
  /-- line 37 -/
  | add (s : QState) (i : Nat) (p : List QCmd) (q : Nat) : s.callers[i]? = some ⟨p, .unlocked, q⟩ →
      QStep s none { s with wg := s.wg + 1, callers := s.callers.set i ⟨p, .added, q⟩ }
  /-- line 38 and the return of `Run` -/
  | go (s : QState) (i : Nat) (j : Int) (r : List QCmd) (q : Nat) : s.callers[i]? = some ⟨.run j :: r, .added, q⟩ →
      QStep s none { s with callers := s.callers.set i ⟨r, .idle, q + 1⟩, workers := s.workers ++ [⟨i, q, j, .ready⟩] }
  /-- line 50, the call -/
  | wait (s : QState) (i : Nat) (r : List QCmd) (q : Nat) : s.callers[i]? = some ⟨.wait :: r, .idle, q⟩ →
      QStep s none { s with callers := s.callers.set i ⟨.wait :: r, .waiting, q⟩ }
  /-- line 50, the counter is zero -/
  | zero (s : QState) (i : Nat) (p : List QCmd) (q : Nat) : s.callers[i]? = some ⟨p, .waiting, q⟩ → s.wg = 0 →
      QStep s none { s with callers := s.callers.set i ⟨p, .released, q⟩ }
  /-- the return of `Wait` -/
  | waitRet (s : QState) (i : Nat) (r : List QCmd) (q : Nat) : s.callers[i]? = some ⟨.wait :: r, .released, q⟩ →
      QStep s none { s with callers := s.callers.set i ⟨r, .idle, q⟩ }
  /-- line 40, the call -/
  | start (s : QState) (w c q : Nat) (j : Int) : s.workers[w]? = some ⟨c, q, j, .ready⟩ →
      QStep s (some (.start c q j)) { s with workers := s.workers.set w ⟨c, q, j, .running⟩ }
  /-- line 40, the return -/
  | finish (s : QState) (w c q : Nat) (j : Int) : s.workers[w]? = some ⟨c, q, j, .running⟩ →
      QStep s (some (.finish c q j)) { s with workers := s.workers.set w ⟨c, q, j, .ended⟩ }
  /-- line 41 -/
  | wlock (s : QState) (w c q : Nat) (j : Int) : s.workers[w]? = some ⟨c, q, j, .ended⟩ → s.lock = false →
      QStep s none { s with lock := true, workers := s.workers.set w ⟨c, q, j, .locked⟩ }
  /-- line 42 -/
  | dec (s : QState) (w c q : Nat) (j : Int) : s.workers[w]? = some ⟨c, q, j, .locked⟩ →
      QStep s none { s with k := s.k - 1, workers := s.workers.set w ⟨c, q, j, .decremented⟩ }
  /-- line 43 -/
  | wunlock (s : QState) (w c q : Nat) (j : Int) : s.workers[w]? = some ⟨c, q, j, .decremented⟩ →
      QStep s none { s with lock := false, workers := s.workers.set w ⟨c, q, j, .unlocked⟩ }
  /-- line 44, somebody waits -/
  | signal (s : QState) (w c q : Nat) (j : Int) (i : Nat) (cl : Caller) : s.workers[w]? = some ⟨c, q, j, .unlocked⟩ →
      s.callers[i]? = some cl → cl.pc.inWaitList = true →
      QStep s none { s with callers := s.callers.set i { cl with pc := cl.pc.picked }, workers := s.workers.set w ⟨c, q, j, .signalled⟩ }
  /-- line 44, nobody waits -/
  | signalNone (s : QState) (w c q : Nat) (j : Int) : s.workers[w]? = some ⟨c, q, j, .unlocked⟩ → (∀ cl ∈ s.callers, cl.pc.inWaitList = false) →
      QStep s none { s with workers := s.workers.set w ⟨c, q, j, .signalled⟩ }
  /-- line 39 -/
  | wgDone (s : QState) (w c q : Nat) (j : Int) : s.workers[w]? = some ⟨c, q, j, .signalled⟩ →
      QStep s none { s with wg := s.wg - 1, workers := s.workers.set w ⟨c, q, j, .done⟩ }

/-- A finite sequence of steps and the events seen. -/
inductive QRun : QState → List QEvent → QState → Prop
  | nil (s : QState) : QRun s [] s
  | step {s s' s'' : QState} {t : List QEvent} {e : Option QEvent} : QRun s t s' → QStep s' e s'' → QRun s (t ++ e.toList) s''

end Gospn
