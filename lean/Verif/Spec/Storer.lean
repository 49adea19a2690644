import Verif.Model.Storer
/-
Specification of the Storer: a plain map from (ticket, node, index) to numbers, with the set of tickets that have a table and the
number of tickets issued since the start or the last Purge. Only the types of calls and answers are shared with the model.
-/
namespace Gospn.Spec
open Classical
variable {ι F : Type}

structure PlainMap (ι F : Type) where
  live : Int → Bool
  ent : Int → ι → Int → Option F
  issued : Int

def PlainMap.empty : PlainMap ι F := { live := fun _ => false, ent := fun _ _ _ => none, issued := 0 }

/-- Give ticket `k` a table without entries. -/
def PlainMap.clear (m : PlainMap ι F) (k : Int) : PlainMap ι F :=
  { m with live := fun j => if j = k then true else m.live j, ent := fun j S l => if j = k then none else m.ent j S l }

/-- One call on the plain map. Calls through handles are not part of this specification and do nothing. -/
noncomputable def plainStep (m : PlainMap ι F) : StOp ι F → PlainMap ι F × StOut F
  | .newTicket => ({ m.clear m.issued with issued := m.issued + 1 }, .ticket m.issued)
  | .value k S => (m, .inner (if ∃ l, m.ent k S l ≠ none then some (m.ent k S) else none))
  | .entry k S l => (m, .num (m.ent k S l))
  | .single k S => (m, .num (m.ent k S 0))
  | .store k S l e =>
    if m.live k then ({ m with ent := fun j T i => if j = k ∧ T = S ∧ i = l then some e else m.ent j T i }, .bool true) else (m, .bool false)
  | .storeSingle k S e =>
    if m.live k then ({ m with ent := fun j T i => if j = k ∧ T = S ∧ i = 0 then some e else m.ent j T i }, .bool true) else (m, .bool false)
  | .existsSPN k S => (m, .bool (decide (∃ l, m.ent k S l ≠ none)))
  | .exists_ k S i => (m, .bool (m.ent k S i).isSome)
  | .delete k =>
    ({ m with live := fun j => if j = k then false else m.live j, ent := fun j S l => if j = k then none else m.ent j S l }, .unit)
  | .reset k => (m.clear k, .ticket k)
  | .resetTickets ks => (ks.foldl PlainMap.clear m, .unit)
  | .purge => (PlainMap.empty, .unit)
  | .obtain _ => (m, .unit)
  | .tEntry _ _ _ => (m, .unit)
  | .tStore _ _ _ _ => (m, .unit)

/-- The answers of the plain map to a history. -/
noncomputable def plainRun (m : PlainMap ι F) : List (StOp ι F) → List (StOut F)
  | [] => []
  | op :: ops => (plainStep m op).2 :: plainRun (plainStep m op).1 ops

/-- Calls made through a `StorerTable` handle. -/
def ThroughHandle : StOp ι F → Prop
  | .obtain _ => True
  | .tEntry _ _ _ => True
  | .tStore _ _ _ _ => True
  | _ => False

end Gospn.Spec

namespace Gospn.Spec
variable {ι F : Type}

/-- The tickets that `NewTicket` calls of a history returned. -/
def ticketsReturned : List (StOp ι F) → List (StOut F) → List Int
  | .newTicket :: ops, .ticket k :: outs => k :: ticketsReturned ops outs
  | _ :: ops, _ :: outs => ticketsReturned ops outs
  | _, _ => []

/-- In a history that starts when `n` tickets have been issued, `Reset` and `ResetTickets` are only called with tickets issued before
(counting from the last `Purge`) or with negative numbers. -/
def ResetsOnlyIssued : Int → List (StOp ι F) → Prop
  | _, [] => True
  | n, .newTicket :: ops => ResetsOnlyIssued (n + 1) ops
  | _, .purge :: ops => ResetsOnlyIssued 0 ops
  | n, .reset k :: ops => k < n ∧ ResetsOnlyIssued n ops
  | n, .resetTickets ks :: ops => (∀ k ∈ ks, k < n) ∧ ResetsOnlyIssued n ops
  | n, _ :: ops => ResetsOnlyIssued n ops

/-- The call (with what it returned) takes away or replaces the table of ticket `k`. -/
def Replaces (k : Int) : StOp ι F → StOut F → Prop
  | .delete j, _ => j = k
  | .reset j, _ => j = k
  | .resetTickets ks, _ => k ∈ ks
  | .purge, _ => True
  | .newTicket, .ticket j => j = k
  | _, _ => False

end Gospn.Spec
