import Verif.Proofs.Collections
/-!
Properties C14 (queue) and C15 (stack).
-/
namespace Gospn

/-- C14, part: any history of queue calls that does not use `DequeueBack`, starting from a new queue, gives exactly the answers
of a first-in first-out queue (and panics exactly where that one has no answer).
Missing for the full property: `DequeueBack`, see `C14_dequeueBack_refuted` and `C14_dequeueBack_exact`. -/
theorem C14_queue_fifo_partial {α : Type} (ops : List (CollOp α)) (h : ∀ op ∈ ops, op ≠ .takeBack) :
    (runOps Queue.step Queue.new ops).map (fun r => r.2) = Spec.history Spec.fifoStep [] ops :=
  history_refines Queue.data Queue.step Spec.fifoStep (fun op => op ≠ .takeBack)
    (fun q op hop => Queue.step_refines q op hop) ops Queue.new h

/-- The histories of C14 that panic nowhere are not only trivial ones. -/
example : (∀ op ∈ [CollOp.give 1, .give 2, .give 3, .take, .invert, .take, .size, .get 0], op ≠ CollOp.takeBack) ∧
    (runOps Queue.step (Queue.new (α := Nat)) [.give 1, .give 2, .give 3, .take, .invert, .take, .size, .get 0]).map (fun r => r.2)
      = some [.unit, .unit, .unit, .elem 1, .unit, .elem 3, .nat 1, .elem 2] := by decide

/-- The full statement of C14 is false: `DequeueBack` on a queue of three also drops the oldest element. -/
theorem C14_dequeueBack_refuted :
    ¬ ∀ ops : List (CollOp Nat),
      (runOps Queue.step Queue.new ops).map (fun r => r.2) = Spec.history Spec.fifoStep [] ops := by
  intro h
  exact absurd (h [.give 1, .give 2, .give 3, .takeBack, .peek]) (by decide)

/-- `DequeueBack` on a queue with exactly one element panics instead of returning it. -/
theorem C14_dequeueBack_singleton_panics {α : Type} (q : Queue α) (h : q.size = 1) : q.dequeueBack = none := by
  unfold Queue.size at h
  match hq : q.data, h with
  | [a], _ => simp [Queue.dequeueBack, hq]

/-- What `DequeueBack` does do: on two or more elements it returns the newest and removes the newest and the oldest. -/
theorem C14_dequeueBack_exact {α : Type} (q : Queue α) (a b : α) (l : List α) (h : q.data = a :: (l ++ [b])) :
    ∃ q', q.dequeueBack = some (b, q') ∧ q'.data = l := by
  have hl : (a :: (l ++ [b])).getLast? = some b := by
    simpa only [List.cons_append] using (List.getLast?_concat (l := a :: l) (a := b))
  simp [Queue.dequeueBack, h, hl]

example : ∃ q : Queue Nat, q.data = 1 :: ([2] ++ [3]) := ⟨⟨[1,2,3], 3⟩, rfl⟩

/-- C15: any history of stack calls, starting from a new stack, gives exactly the answers of a last-in first-out stack
(and panics exactly where that one has no answer). -/
theorem C15_stack_lifo {α : Type} (ops : List (CollOp α)) :
    (runOps Stack.step Stack.new ops).map (fun r => r.2) = Spec.history Spec.lifoStep [] ops :=
  history_refines (fun s : Stack α => s.data.reverse) Stack.step Spec.lifoStep (fun _ => True)
    (fun s op _ => Stack.step_refines s op) ops Stack.new (fun _ _ => trivial)

example : (runOps Stack.step (Stack.new (α := Nat)) [.give 1, .give 2, .give 3, .take, .invert, .take, .size, .get 0]).map (fun r => r.2)
      = some [.unit, .unit, .unit, .elem 3, .unit, .elem 1, .nat 1, .elem 2] := by decide

end Gospn
