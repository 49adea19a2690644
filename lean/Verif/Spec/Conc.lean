import Verif.Model.Conc
/-
What users of a `SingleQueue` rely on, in terms of the calls made and of the submitted functions starting and ending.
-/
namespace Gospn.Spec
open Gospn

/-- The ids a caller passes to `Run`, in order. -/
def runIds : List QCmd → List Int
  | [] => []
  | .run i :: r => i :: runIds r
  | .wait :: r => runIds r

/-- Function number `q` that caller `c` submits exists and has id `i`. -/
def Submitted (progs : List (List QCmd)) (c q : Nat) (i : Int) : Prop := ∃ p, progs[c]? = some p ∧ (runIds p)[q]? = some i

/-- The functions that have started and not ended, given the events seen. -/
def inFlight (t : List QEvent) : Int :=
  (t.map (fun | .start _ _ _ => (1 : Int) | .finish _ _ _ => -1)).sum

/-- Nobody has anything left to do: every call has returned and every goroutine has ended. -/
def Finished (s : QState) : Prop := (∀ c ∈ s.callers, c.prog = []) ∧ ∀ w ∈ s.workers, w.pc = .done

end Gospn.Spec
