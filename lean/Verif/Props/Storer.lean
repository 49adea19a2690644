import Verif.Proofs.Storer
/-!
Properties C11, C12, C13: the Storer.
-/
set_option linter.unusedSectionVars false
namespace Gospn
open Spec
variable {ι F : Type} [DecidableEq ι]

/-- C11: every history of Storer calls on a new Storer returns and every call answers as the plain map does. -/
theorem C11_storer_is_plain_map (ops : List (StOp ι F)) (h : ∀ op ∈ ops, ¬ ThroughHandle op) :
    (Client.new.run ops).map (fun r => r.2) = some (plainRun PlainMap.empty ops) := by
  have := Client.run_refines ops (c := Client.new) Storer.new_wf h
  have e : (Client.new : Client ι F).s.abs = PlainMap.empty := by
    apply PlainMap.ext' <;> simp [Storer.abs, Client.new, Storer.new, PlainMap.empty, Storer.entry]
  rwa [e] at this

/-- C11: whatever has happened before, also through handles, a call with ticket `k` never changes what is read with another ticket. -/
theorem C11_other_tickets_unchanged (ops : List (StOp ι F)) (c : Client ι F) (outs : List (StOut F))
    (hr : Client.new.run ops = some (c, outs)) (k j : Int) (hjk : j ≠ k) (S T : ι) (l i : Int) (e : F) :
    (c.s.store k S l e).2.entry j T i = c.s.entry j T i ∧ (c.s.delete k).entry j T i = c.s.entry j T i ∧
    (c.s.reset k).entry j T i = c.s.entry j T i := by
  have hw : c.s.WF := Client.run_wf ops Storer.new_wf hr
  refine ⟨?_, ?_, ?_⟩
  · cases hk : c.s.tables k with
    | none => simp [Storer.store, hk]
    | some a => rw [Storer.store_entry hw hk]; simp [hjk]
  · simp [Storer.entry, Storer.delete, hjk]
  · rw [Storer.reset, Storer.makeAt_entry (Storer.delete_wf hw k)]; simp [hjk, Storer.entry, Storer.delete]

/-- Histories as in C11 that do something. -/
example : (∀ op ∈ ([.newTicket, .store 0 true 3 7, .entry 0 true 3, .reset 0, .entry 0 true 3, .store 5 true 0 1] : List (StOp Bool Nat)),
      ¬ ThroughHandle op) ∧
    ((Client.new.run ([.newTicket, .store 0 true 3 7, .entry 0 true 3, .reset 0, .entry 0 true 3, .store 5 true 0 1] : List (StOp Bool Nat))).map
      (fun r => r.2)) = some [.ticket 0, .bool true, .num (some 7), .ticket 0, .num none, .bool false] := by
  refine ⟨by simp [ThroughHandle], by rfl⟩

/-! ### C12 -/

/-- C12: in a history without `Purge` no two calls of `NewTicket` return the same ticket. -/
theorem C12_tickets_unique (ops : List (StOp ι F)) (c : Client ι F) (outs : List (StOut F))
    (hr : Client.new.run ops = some (c, outs)) (hp : ∀ op ∈ ops, op ≠ .purge) : (ticketsReturned ops outs).Nodup :=
  ((Client.tickets_sorted ops _ _ _ hr hp).2).imp (fun h => by omega)

/-- C12: after any history the table of a new ticket is empty. -/
theorem C12_new_table_empty (ops : List (StOp ι F)) (c : Client ι F) (outs : List (StOut F))
    (_ : Client.new.run ops = some (c, outs)) (S : ι) (l : Int) :
    c.s.newTicket.2.entry c.s.newTicket.1 S l = none ∧ c.s.newTicket.2.table c.s.newTicket.1 ≠ none := by
  simp [Storer.newTicket, Storer.makeAt, Storer.entry, Storer.table, Table.entry, Table.empty]

example : ((Client.new.run ([.newTicket, .newTicket, .delete 0, .reset 1, .newTicket] : List (StOp Bool Nat))).map
    (fun r => ticketsReturned ([.newTicket, .newTicket, .delete 0, .reset 1, .newTicket] : List (StOp Bool Nat)) r.2)) = some [0, 1, 2] := by rfl

/-- C12, part: after a history in which `Reset` and `ResetTickets` were only used with tickets issued before, the ticket
`NewTicket` returns names no table yet. Missing: histories that reset a ticket not yet issued (`C12_fresh_refuted`). -/
theorem C12_fresh_partial (ops : List (StOp ι F)) (c : Client ι F) (outs : List (StOut F))
    (hr : Client.new.run ops = some (c, outs)) (hi : ResetsOnlyIssued 0 ops) : c.s.table c.s.newTicket.1 = none := by
  have := Client.tables_bounded ops _ _ _ hr hi (by simp [Client.new, Storer.new])
  by_contra h
  have := this _ h
  simp [Storer.newTicket] at this

example : ResetsOnlyIssued 0 ([.newTicket, .newTicket, .reset 1, .purge, .newTicket, .resetTickets [0, -3]] : List (StOp Bool Nat)) := by
  simp [ResetsOnlyIssued]

/-- The full statement of C12 is false: resetting ticket 0 before it was issued creates its table, and `NewTicket` then returns 0 and
drops what was stored there. -/
theorem C12_fresh_refuted :
    ∃ (ops : List (StOp Bool Nat)) (c : Client Bool Nat) (outs : List (StOut Nat)), Client.new.run ops = some (c, outs) ∧
      c.s.table c.s.newTicket.1 ≠ none ∧ c.s.entry 0 true 0 = some 7 ∧ c.s.newTicket.2.entry 0 true 0 = none :=
  ⟨[.reset 0, .store 0 true 0 7], _, _, rfl, by simp [Client.new, Storer.new, Storer.reset, Storer.makeAt, Storer.delete, Storer.store, Storer.newTicket, Storer.table], rfl, rfl⟩

/-! ### C13 -/

/-- C13: take a handle on the table of `k` after any history. As long as no call replaces or removes the table of `k` (whatever else
happens, through handles or not), reading through the handle is reading ticket `k`, and writing through it is writing to ticket `k`. -/
theorem C13_handle_is_live (pre mid : List (StOp ι F)) (c0 c : Client ι F) (o0 outs : List (StOut F)) (k : Int) (a : Nat)
    (_ : Client.new.run pre = some (c0, o0)) (hk : c0.s.table k = some a) (h1 : c0.run mid = some (c, outs))
    (hm : ∀ p ∈ mid.zip outs, ¬ Replaces k p.1 p.2) (S : ι) (l : Int) (e : F) :
    (c.s.deref (some a)).entry S l = c.s.entry k S l ∧ c.s.tableStore (some a) S l e = some (c.s.store k S l e).2 := by
  have key : c.s.tables k = some a := by
    clear * - hk h1 hm
    induction mid generalizing c0 outs with
    | nil => simp [Client.run] at h1; rw [← h1.1]; exact hk
    | cons op mid ih =>
      obtain ⟨c1, o, os, s1, s2, s3⟩ := Client.run_cons h1
      simp only at s3; subst s3
      refine ih c1 os ?_ s2 (fun p hp => hm p (by simp [hp]))
      exact ((Client.step_tables s1).2 k).1 (hm (op, o) (by simp)) |>.trans hk
  simp [Storer.deref, Storer.entry, Storer.tableStore, Storer.store, key]

/-- C13: after a call that removes or replaces the table of `k`, a handle on the old table is not the table of any ticket,
and never becomes one again, whatever happens later. -/
theorem C13_handle_detached (pre post : List (StOp ι F)) (c0 c1 c : Client ι F) (o0 outs : List (StOut F)) (k : Int) (a : Nat)
    (op : StOp ι F) (o : StOut F) (h0 : Client.new.run pre = some (c0, o0)) (hk : c0.s.table k = some a)
    (h1 : c0.step op = some (c1, o)) (hrep : Replaces k op o) (h2 : c1.run post = some (c, outs)) : ∀ j, c.s.table j ≠ some a := by
  have hw0 : c0.s.WF := Client.run_wf pre Storer.new_wf h0
  have halloc : a < c0.s.next := hw0.alloc k a hk
  have hst := Client.step_tables h1
  have hdet : ∀ j, c1.s.tables j ≠ some a := by
    intro j hj
    by_cases hr : Replaces j op o
    · rcases (hst.2 j).2 hr with h | ⟨b, hb, hbn, _⟩
      · simp [h] at hj
      · rw [hb] at hj; simp at hj; omega
    · rw [(hst.2 j).1 hr] at hj
      have : j = k := hw0.inj j k a hj hk
      exact hr (this ▸ hrep)
  have hlt : a < c1.s.next := by have := hst.1; omega
  clear * - hdet hlt h2
  induction post generalizing c1 outs with
  | nil => simp [Client.run] at h2; rw [← h2.1]; exact hdet
  | cons op post ih =>
    obtain ⟨c2, o, os, s1, s2, _⟩ := Client.run_cons h2
    have hst := Client.step_tables s1
    refine ih c2 _ s2 ?_ (by have := hst.1; omega)
    intro j hj
    by_cases hr : Replaces j op o
    · rcases (hst.2 j).2 hr with h | ⟨b, hb, hbn, _⟩
      · simp [h] at hj
      · rw [hb] at hj; simp at hj; omega
    · rw [(hst.2 j).1 hr] at hj; exact hdet j hj

/-- C13: a kept handle whose table is not the table of any ticket and the Storer do not see each other: writing through the handle
changes nothing that is read with any ticket, and no Storer call changes what is read through the handle. -/
theorem C13_detached_independent (pre : List (StOp ι F)) (c : Client ι F) (o0 : List (StOut F)) (a : Nat)
    (h0 : Client.new.run pre = some (c, o0)) (ha : some a ∈ c.handles) (hd : ∀ j, c.s.table j ≠ some a) :
    (∀ S l e, ∃ s', c.s.tableStore (some a) S l e = some s' ∧ (∀ k T i, s'.entry k T i = c.s.entry k T i) ∧
      ∀ k, s'.table k = c.s.table k) ∧
    (∀ op, ¬ ThroughHandle op → ∀ c' o, c.step op = some (c', o) → ∀ T i, (c'.s.deref (some a)).entry T i = (c.s.deref (some a)).entry T i) := by
  have hlt : a < c.s.next := Client.run_handles pre Storer.new_wf (by simp [Client.HandlesOK, Client.new]) h0 a ha
  have hmake : ∀ (s : Storer ι F) (k : Int), a < s.next → (s.makeAt k).heap a = s.heap a := by
    intro s k h
    have : a ≠ s.next := by omega
    simp [Storer.makeAt, this]
  constructor
  · intro S l e
    refine ⟨_, rfl, ?_, fun _ => rfl⟩
    intro k T i
    simp only [Storer.entry]
    cases hk : c.s.tables k with
    | none => rfl
    | some b =>
      have : b ≠ a := by rintro rfl; exact hd k hk
      simp [this]
  · intro op hop c' o h T i
    have hheap : c'.s.heap a = c.s.heap a := by
      cases op <;> simp only [Client.step, Option.some.injEq, Prod.mk.injEq] at h
      case newTicket => obtain ⟨rfl, rfl⟩ := h; exact hmake _ _ hlt
      case reset k => obtain ⟨rfl, rfl⟩ := h; exact hmake (c.s.delete k) k hlt
      case resetTickets ks =>
        obtain ⟨rfl, rfl⟩ := h
        have : ∀ (ks : List Int) (s : Storer ι F), a < s.next → (s.resetTickets ks).heap a = s.heap a := by
          intro ks
          induction ks with
          | nil => intro s _; rfl
          | cons k ks ih =>
            intro s hs
            have e1 := ih ((s.delete k).makeAt k) (Nat.lt_succ_of_lt hs)
            have e2 := hmake (s.delete k) k hs
            exact e1.trans e2
        exact this ks _ hlt
      case store k S l e =>
        obtain ⟨rfl, rfl⟩ := h
        simp only [Storer.store]
        cases hk : c.s.tables k with
        | none => rfl
        | some b =>
          have : a ≠ b := by rintro rfl; exact hd k hk
          simp [this]
      case storeSingle k S e =>
        obtain ⟨rfl, rfl⟩ := h
        simp only [Storer.storeSingle, Storer.store]
        cases hk : c.s.tables k with
        | none => rfl
        | some b =>
          have : a ≠ b := by rintro rfl; exact hd k hk
          simp [this]
      case obtain => exact absurd trivial hop
      case tEntry => exact absurd trivial hop
      case tStore => exact absurd trivial hop
      all_goals (obtain ⟨rfl, rfl⟩ := h; rfl)
    simp [Storer.deref, hheap]

/-- A history with a live handle that is then detached: the write through the handle is seen before `Reset` and not after. -/
example : ((Client.new.run ([.newTicket, .obtain 0, .tStore 0 true 0 7, .entry 0 true 0, .reset 0, .tStore 0 true 0 8,
      .entry 0 true 0, .tEntry 0 true 0] : List (StOp Bool Nat))).map (fun r => r.2)) =
    some [.ticket 0, .bool true, .bool true, .num (some 7), .ticket 0, .bool true, .num none, .num (some 8)] := by rfl

end Gospn
