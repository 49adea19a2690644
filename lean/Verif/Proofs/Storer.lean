import Verif.Spec.Storer
import Mathlib.Data.List.Basic
/- Helper lemmas for the Storer. -/
set_option linter.unusedSectionVars false
namespace Gospn
open Spec
open Classical
variable {ι F : Type} [DecidableEq ι]

/-- Every inner map of a table has an entry (tables are only filled by `Store`). -/
def Table.OK (t : Table ι F) : Prop := ∀ S v, t S = some v → ∃ l, v l ≠ none

theorem Table.empty_ok : (Table.empty : Table ι F).OK := by intro S v h; simp [Table.empty] at h

theorem Table.store_ok {t : Table ι F} (h : t.OK) (S : ι) (l : Int) (e : F) : (t.store S l e).OK := by
  intro T v hv
  unfold Table.store at hv
  by_cases hT : T = S
  · subst hT
    cases ht : t T <;> simp only [ht, Function.update_self, Option.some.injEq] at hv <;> subst hv <;> exact ⟨l, by simp⟩
  · cases ht : t S <;> simp only [ht, Function.update_of_ne hT] at hv <;> exact h T v hv

theorem Table.entry_store (t : Table ι F) (S : ι) (l : Int) (e : F) (T : ι) (i : Int) :
    (t.store S l e).entry T i = if T = S ∧ i = l then some e else t.entry T i := by
  unfold Table.store Table.entry
  by_cases hT : T = S
  · subst hT
    cases ht : t T with
    | none => by_cases hi : i = l <;> simp [Function.update_self, hi]
    | some v => by_cases hi : i = l <;> simp [Function.update_self, hi]
  · cases ht : t S <;> simp [hT]

/-- Well-formed storer. -/
structure Storer.WF (s : Storer ι F) : Prop where
  alloc : ∀ k a, s.tables k = some a → a < s.next
  inj : ∀ k k' a, s.tables k = some a → s.tables k' = some a → k = k'
  ok : ∀ a, (s.heap a).OK

theorem Storer.new_wf : (Storer.new : Storer ι F).WF :=
  ⟨by simp [Storer.new], by simp [Storer.new], fun _ => Table.empty_ok⟩

theorem Storer.makeAt_wf {s : Storer ι F} (h : s.WF) (k : Int) : (s.makeAt k).WF := by
  refine ⟨?_, ?_, ?_⟩
  · intro j a hj
    simp only [makeAt] at hj ⊢
    by_cases hjk : j = k
    · subst hjk; simp at hj; omega
    · rw [Function.update_of_ne hjk] at hj; have := h.alloc j a hj; omega
  · intro j j' a hj hj'
    simp only [makeAt] at hj hj'
    by_cases hjk : j = k <;> by_cases hjk' : j' = k
    · rw [hjk, hjk']
    · subst hjk; rw [Function.update_of_ne hjk'] at hj'; simp at hj; have := h.alloc j' a hj'; omega
    · subst hjk'; rw [Function.update_of_ne hjk] at hj; simp at hj'; have := h.alloc j a hj; omega
    · rw [Function.update_of_ne hjk] at hj; rw [Function.update_of_ne hjk'] at hj'; exact h.inj j j' a hj hj'
  · intro a
    simp only [makeAt]
    by_cases ha : a = s.next
    · subst ha; simp [Table.empty_ok]
    · rw [Function.update_of_ne ha]; exact h.ok a

theorem Storer.delete_wf {s : Storer ι F} (h : s.WF) (k : Int) : (s.delete k).WF := by
  have key : ∀ j a, (s.delete k).tables j = some a → s.tables j = some a := by
    intro j a hj
    simp only [delete] at hj
    by_cases hjk : j = k
    · subst hjk; simp at hj
    · rwa [Function.update_of_ne hjk] at hj
  exact ⟨fun j a hj => h.alloc j a (key j a hj), fun j j' a hj hj' => h.inj j j' a (key j a hj) (key j' a hj'), h.ok⟩

theorem Storer.reset_wf {s : Storer ι F} (h : s.WF) (k : Int) : (s.reset k).WF := makeAt_wf (delete_wf h k) k

theorem Storer.resetTickets_wf (ks : List Int) : ∀ {s : Storer ι F}, s.WF → (s.resetTickets ks).WF := by
  induction ks with
  | nil => intro s h; exact h
  | cons k ks ih => intro s h; exact ih (reset_wf h k)

theorem Storer.purge_wf {s : Storer ι F} (h : s.WF) : s.purge.WF :=
  ⟨by simp [purge], by simp [purge], h.ok⟩

theorem Storer.newTicket_wf {s : Storer ι F} (h : s.WF) : s.newTicket.2.WF :=
  makeAt_wf (s := { s with tickets := s.tickets + 1 }) ⟨h.alloc, h.inj, h.ok⟩ s.tickets

theorem Storer.heapStore_wf {s : Storer ι F} (h : s.WF) (a : Nat) (S : ι) (l : Int) (e : F) :
    Storer.WF { s with heap := Function.update s.heap a ((s.heap a).store S l e) } := by
  refine ⟨h.alloc, h.inj, fun b => ?_⟩
  by_cases hb : b = a
  · subst hb; simp [Table.store_ok (h.ok b)]
  · simp only [Function.update_of_ne hb]; exact h.ok b

theorem Storer.store_wf {s : Storer ι F} (h : s.WF) (k : Int) (S : ι) (l : Int) (e : F) : (s.store k S l e).2.WF := by
  unfold store
  cases hk : s.tables k with
  | none => exact h
  | some a => exact heapStore_wf h a S l e

/-- The plain map a storer stands for. -/
def Storer.abs (s : Storer ι F) : PlainMap ι F :=
  { live := fun k => (s.tables k).isSome, ent := fun k S l => s.entry k S l, issued := s.tickets }

theorem PlainMap.ext' {m m' : PlainMap ι F} (h1 : ∀ k, m.live k = m'.live k) (h2 : ∀ k S l, m.ent k S l = m'.ent k S l)
    (h3 : m.issued = m'.issued) : m = m' := by
  cases m; cases m'; simp only [PlainMap.mk.injEq]
  exact ⟨funext h1, funext fun k => funext fun S => funext fun l => h2 k S l, h3⟩

theorem Storer.makeAt_entry {s : Storer ι F} (h : s.WF) (k j : Int) (S : ι) (l : Int) :
    (s.makeAt k).entry j S l = if j = k then none else s.entry j S l := by
  by_cases hjk : j = k
  · subst hjk; simp [entry, makeAt, Table.entry, Table.empty]
  · simp only [entry, makeAt, Function.update_of_ne hjk, if_neg hjk]
    cases hj : s.tables j with
    | none => rfl
    | some a =>
      have := h.alloc j a hj
      have : a ≠ s.next := by omega
      simp [Function.update_of_ne this]

theorem Storer.abs_reset {s : Storer ι F} (h : s.WF) (k : Int) : (s.reset k).abs = s.abs.clear k := by
  apply PlainMap.ext'
  · intro j; by_cases hj : j = k <;> simp [abs, PlainMap.clear, reset, makeAt, delete, hj]
  · intro j S l
    show (s.reset k).entry j S l = if j = k then none else s.entry j S l
    rw [reset, makeAt_entry (delete_wf h k)]
    by_cases hj : j = k
    · simp [hj]
    · simp [hj, entry, delete]
  · rfl

theorem Storer.abs_resetTickets (ks : List Int) : ∀ {s : Storer ι F}, s.WF →
    (s.resetTickets ks).abs = ks.foldl PlainMap.clear s.abs := by
  induction ks with
  | nil => intro s _; rfl
  | cons k ks ih =>
    intro s h
    rw [List.foldl_cons, ← abs_reset h]
    exact ih (reset_wf h k)

theorem Storer.store_entry {s : Storer ι F} (h : s.WF) {k : Int} {a : Nat} (hk : s.tables k = some a) (S : ι) (l : Int) (e : F)
    (j : Int) (T : ι) (i : Int) :
    (s.store k S l e).2.entry j T i = if j = k ∧ T = S ∧ i = l then some e else s.entry j T i := by
  simp only [store, hk, entry]
  cases hj : s.tables j with
  | none =>
    have : j ≠ k := by rintro rfl; simp [hk] at hj
    simp [this]
  | some b =>
    simp only
    by_cases hjk : j = k
    · subst hjk
      have : b = a := by rw [hk] at hj; exact (Option.some.inj hj).symm
      subst this
      simp [Table.entry_store]
    · have hba : b ≠ a := by rintro rfl; exact hjk (h.inj j k b hj hk)
      simp [Function.update_of_ne hba, hjk]

theorem Storer.value_eq {s : Storer ι F} (h : s.WF) (k : Int) (S : ι) :
    s.value k S = if ∃ l, s.entry k S l ≠ none then some (fun l => s.entry k S l) else none := by
  unfold value entry
  cases hk : s.tables k with
  | none => simp
  | some a =>
    simp only [Table.value, Table.entry]
    obtain ht | ⟨v, ht⟩ := Option.eq_none_or_eq_some (s.heap a S)
    · simp [ht]
    · obtain ⟨l, hl⟩ := h.ok a S v ht
      simp only [ht]
      rw [if_pos ⟨l, hl⟩]

theorem Storer.existsSPN_eq {s : Storer ι F} (h : s.WF) (k : Int) (S : ι) :
    s.existsSPN k S = decide (∃ l, s.entry k S l ≠ none) := by
  unfold existsSPN entry deref
  cases hk : s.tables k with
  | none => simp [Table.existsSPN, Table.empty]
  | some a =>
    simp only [Table.existsSPN, Table.entry]
    obtain ht | ⟨v, ht⟩ := Option.eq_none_or_eq_some (s.heap a S)
    · simp [ht]
    · obtain ⟨l, hl⟩ := h.ok a S v ht
      simp only [ht, Option.isSome_some]
      exact (decide_eq_true ⟨l, hl⟩).symm

theorem Storer.exists_eq (s : Storer ι F) (k : Int) (S : ι) (i : Int) : s.exists_ k S i = (s.entry k S i).isSome := by
  unfold exists_ entry deref
  cases hk : s.tables k with
  | none => simp [Table.exists_, Table.empty]
  | some a =>
    simp only [Table.exists_, Table.entry]
    cases ht : s.heap a S <;> simp

theorem Client.step_wf {c c' : Client ι F} (h : c.s.WF) {op : StOp ι F} {o : StOut F} (hs : c.step op = some (c', o)) : c'.s.WF := by
  cases op <;> simp only [step, Option.some.injEq, Prod.mk.injEq] at hs
  case newTicket => obtain ⟨rfl, _⟩ := hs; exact Storer.newTicket_wf h
  case value => obtain ⟨rfl, _⟩ := hs; exact h
  case entry => obtain ⟨rfl, _⟩ := hs; exact h
  case single => obtain ⟨rfl, _⟩ := hs; exact h
  case store => obtain ⟨rfl, _⟩ := hs; exact Storer.store_wf h _ _ _ _
  case storeSingle => obtain ⟨rfl, _⟩ := hs; exact Storer.store_wf h _ _ _ _
  case existsSPN => obtain ⟨rfl, _⟩ := hs; exact h
  case exists_ => obtain ⟨rfl, _⟩ := hs; exact h
  case delete => obtain ⟨rfl, _⟩ := hs; exact Storer.delete_wf h _
  case reset => obtain ⟨rfl, _⟩ := hs; exact Storer.reset_wf h _
  case resetTickets => obtain ⟨rfl, _⟩ := hs; exact Storer.resetTickets_wf _ h
  case purge => obtain ⟨rfl, _⟩ := hs; exact Storer.purge_wf h
  case obtain => obtain ⟨rfl, _⟩ := hs; exact h
  case tEntry n S l =>
    cases hh : c.handles[n]? with
    | none => simp [hh] at hs
    | some p => simp [hh] at hs; obtain ⟨rfl, _⟩ := hs; exact h
  case tStore n S l e =>
    cases hh : c.handles[n]? with
    | none => simp [hh] at hs
    | some p =>
      cases p with
      | none => simp [hh, Storer.tableStore] at hs
      | some a => simp [hh, Storer.tableStore] at hs; obtain ⟨rfl, _⟩ := hs; exact Storer.heapStore_wf h a S l e

/-- One call not through a handle does what the plain map does. -/
theorem Client.step_refines {c : Client ι F} (h : c.s.WF) {op : StOp ι F} (hop : ¬ ThroughHandle op) :
    ∃ c', c.step op = some (c', (plainStep c.s.abs op).2) ∧ c'.s.abs = (plainStep c.s.abs op).1 := by
  cases op with
  | newTicket =>
    refine ⟨_, rfl, ?_⟩
    have hw : Storer.WF { c.s with tickets := c.s.tickets + 1 } := ⟨h.alloc, h.inj, h.ok⟩
    apply PlainMap.ext'
    · intro j; by_cases hj : j = c.s.tickets <;>
        simp [Storer.abs, plainStep, PlainMap.clear, Storer.newTicket, Storer.makeAt, hj]
    · intro j S l
      have := Storer.makeAt_entry hw c.s.tickets j S l
      exact this
    · rfl
  | value k S =>
    refine ⟨c, ?_, rfl⟩
    simp only [step, plainStep, Storer.value_eq h]; rfl
  | entry k S l => exact ⟨c, rfl, rfl⟩
  | single k S => exact ⟨c, rfl, rfl⟩
  | store k S l e =>
    cases hk : c.s.tables k with
    | none => exact ⟨c, by simp [step, plainStep, Storer.abs, Storer.store, hk], by simp [plainStep, Storer.abs, hk]⟩
    | some a =>
      refine ⟨{ c with s := (c.s.store k S l e).2 }, by simp [step, plainStep, Storer.abs, Storer.store, hk], ?_⟩
      have hl : c.s.abs.live k = true := by simp [Storer.abs, hk]
      simp only [plainStep, hl, if_true]
      apply PlainMap.ext'
      · intro j; simp [Storer.abs, Storer.store, hk]
      · intro j T i; exact (Storer.store_entry h hk S l e j T i).trans (by congr)
      · simp [Storer.abs, Storer.store, hk]
  | storeSingle k S e =>
    cases hk : c.s.tables k with
    | none => exact ⟨c, by simp [step, plainStep, Storer.abs, Storer.storeSingle, Storer.store, hk], by simp [plainStep, Storer.abs, hk]⟩
    | some a =>
      refine ⟨{ c with s := (c.s.store k S 0 e).2 }, by simp [step, plainStep, Storer.abs, Storer.storeSingle, Storer.store, hk], ?_⟩
      have hl : c.s.abs.live k = true := by simp [Storer.abs, hk]
      simp only [plainStep, hl, if_true]
      apply PlainMap.ext'
      · intro j; simp [Storer.abs, Storer.store, hk]
      · intro j T i; exact (Storer.store_entry h hk S 0 e j T i).trans (by congr)
      · simp [Storer.abs, Storer.store, hk]
  | existsSPN k S =>
    refine ⟨c, ?_, rfl⟩
    simp only [step, plainStep, Storer.existsSPN_eq h]; rfl
  | exists_ k S i =>
    refine ⟨c, ?_, rfl⟩
    simp only [step, plainStep, Storer.exists_eq]; rfl
  | delete k =>
    refine ⟨_, rfl, ?_⟩
    apply PlainMap.ext'
    · intro j; by_cases hj : j = k <;> simp [Storer.abs, plainStep, Storer.delete, hj]
    · intro j S l; by_cases hj : j = k <;> simp [Storer.abs, plainStep, Storer.delete, Storer.entry, hj]
    · rfl
  | reset k => exact ⟨_, rfl, Storer.abs_reset h k⟩
  | resetTickets ks => exact ⟨_, rfl, Storer.abs_resetTickets ks h⟩
  | purge =>
    refine ⟨_, rfl, ?_⟩
    apply PlainMap.ext' <;> simp [Storer.abs, plainStep, PlainMap.empty, Storer.purge, Storer.entry]
  | obtain k => exact absurd trivial hop
  | tEntry => exact absurd trivial hop
  | tStore => exact absurd trivial hop

theorem Client.run_refines (ops : List (StOp ι F)) : ∀ {c : Client ι F}, c.s.WF → (∀ op ∈ ops, ¬ ThroughHandle op) →
    (c.run ops).map (fun r => r.2) = some (plainRun c.s.abs ops) := by
  induction ops with
  | nil => intro c _ _; rfl
  | cons op ops ih =>
    intro c h hops
    obtain ⟨c', h1, h2⟩ := step_refines h (hops op (by simp))
    have := ih (step_wf h h1) (fun o ho => hops o (by simp [ho]))
    rw [h2] at this
    simp only [run, h1, plainRun]
    cases hr : c'.run ops with
    | none => simp [hr] at this
    | some r => simp [hr] at this; simp [this]

theorem Client.run_wf (ops : List (StOp ι F)) : ∀ {c c' : Client ι F} {os}, c.s.WF → c.run ops = some (c', os) → c'.s.WF := by
  induction ops with
  | nil => intro c c' os h hr; simp [run] at hr; rw [← hr.1]; exact h
  | cons op ops ih =>
    intro c c' os h hr
    simp only [run] at hr
    cases hs : c.step op with
    | none => simp [hs] at hr
    | some p =>
      obtain ⟨c1, o⟩ := p
      simp only [hs] at hr
      cases hr1 : c1.run ops with
      | none => simp [hr1] at hr
      | some q =>
        obtain ⟨c2, os2⟩ := q
        simp [hr1] at hr
        rw [← hr.1]
        exact ih (step_wf h hs) hr1

theorem Storer.resetTickets_next (ks : List Int) : ∀ s : Storer ι F, s.next ≤ (s.resetTickets ks).next := by
  induction ks with
  | nil => intro s; exact Nat.le_refl _
  | cons k ks ih =>
    intro s
    have : s.next + 1 ≤ (s.resetTickets (k :: ks)).next := ih ((s.delete k).makeAt k)
    omega

theorem Storer.resetTickets_tables (ks : List Int) : ∀ (s : Storer ι F) (k : Int),
    (k ∉ ks → (s.resetTickets ks).tables k = s.tables k) ∧
    (k ∈ ks → ∃ a, (s.resetTickets ks).tables k = some a ∧ s.next ≤ a) := by
  induction ks with
  | nil => intro s k; simp [resetTickets]
  | cons j ks ih =>
    intro s k
    obtain ⟨h1, h2⟩ := ih ((s.delete j).makeAt j) k
    have e : s.resetTickets (j :: ks) = ((s.delete j).makeAt j).resetTickets ks := rfl
    rw [e]
    constructor
    · intro hk
      simp only [List.mem_cons, not_or] at hk
      rw [h1 hk.2]; simp [makeAt, delete, hk.1]
    · intro hk
      by_cases hks : k ∈ ks
      · obtain ⟨a, ha, hn⟩ := h2 hks
        refine ⟨a, ha, ?_⟩
        have : s.next + 1 ≤ a := hn
        omega
      · have hkj : k = j := by simpa [hks] using hk
        subst hkj
        exact ⟨s.next, by rw [h1 hks]; simp [makeAt, delete], Nat.le_refl _⟩

/-- What a call does to the tickets' tables: only replacing calls touch them, and replacements are newly allocated. -/
theorem Client.step_tables {c c' : Client ι F} {op : StOp ι F} {o : StOut F} (h : c.step op = some (c', o)) :
    c.s.next ≤ c'.s.next ∧ ∀ k, (¬ Replaces k op o → c'.s.tables k = c.s.tables k) ∧
      (Replaces k op o → c'.s.tables k = none ∨ ∃ a, c'.s.tables k = some a ∧ c.s.next ≤ a ∧
        (op = .newTicket ∨ op = .reset k ∨ ∃ ks, op = .resetTickets ks ∧ k ∈ ks)) := by
  cases op <;> simp only [step, Option.some.injEq, Prod.mk.injEq] at h
  case newTicket =>
    obtain ⟨rfl, rfl⟩ := h
    refine ⟨by simp [Storer.newTicket, Storer.makeAt], fun k => ⟨?_, ?_⟩⟩
    · intro hk
      have : k ≠ c.s.tickets := fun e => hk (by simp [Replaces, Storer.newTicket, e])
      simp [Storer.newTicket, Storer.makeAt, this]
    · intro hk
      simp only [Replaces, Storer.newTicket] at hk
      subst hk
      exact Or.inr ⟨c.s.next, by simp [Storer.newTicket, Storer.makeAt], Nat.le_refl _, Or.inl rfl⟩
  case purge =>
    obtain ⟨rfl, rfl⟩ := h
    exact ⟨Nat.le_refl _, fun k => ⟨fun hk => absurd trivial hk, fun _ => Or.inl rfl⟩⟩
  case delete j =>
    obtain ⟨rfl, rfl⟩ := h
    refine ⟨Nat.le_refl _, fun k => ⟨?_, ?_⟩⟩
    · intro hk
      have : k ≠ j := fun e => hk e.symm
      simp [Storer.delete, this]
    · intro hk; simp only [Replaces] at hk; subst hk; left; simp [Storer.delete]
  case reset j =>
    obtain ⟨rfl, rfl⟩ := h
    refine ⟨Nat.le_succ _, fun k => ⟨?_, ?_⟩⟩
    · intro hk
      have : k ≠ j := fun e => hk e.symm
      simp [Storer.reset, Storer.makeAt, Storer.delete, this]
    · intro hk; simp only [Replaces] at hk; subst hk
      exact Or.inr ⟨c.s.next, by simp [Storer.reset, Storer.makeAt, Storer.delete], Nat.le_refl _, Or.inr (Or.inl rfl)⟩
  case resetTickets ks =>
    obtain ⟨rfl, rfl⟩ := h
    refine ⟨Storer.resetTickets_next ks c.s, fun k => ⟨fun hk => (Storer.resetTickets_tables ks c.s k).1 hk, fun hk => ?_⟩⟩
    obtain ⟨a, h1, h2⟩ := (Storer.resetTickets_tables ks c.s k).2 hk
    exact Or.inr ⟨a, h1, h2, Or.inr (Or.inr ⟨ks, rfl, hk⟩)⟩
  case store k S l e =>
    obtain ⟨rfl, rfl⟩ := h
    simp only [Storer.store]
    cases c.s.tables k <;> exact ⟨Nat.le_refl _, fun k => ⟨fun _ => rfl, fun hk => absurd hk (by simp [Replaces])⟩⟩
  case storeSingle k S e =>
    obtain ⟨rfl, rfl⟩ := h
    simp only [Storer.storeSingle, Storer.store]
    cases c.s.tables k <;> exact ⟨Nat.le_refl _, fun k => ⟨fun _ => rfl, fun hk => absurd hk (by simp [Replaces])⟩⟩
  case tEntry n S l =>
    cases hh : c.handles[n]? with
    | none => simp [hh] at h
    | some p =>
      simp [hh] at h; obtain ⟨rfl, _⟩ := h
      exact ⟨Nat.le_refl _, fun k => ⟨fun _ => rfl, fun hk => absurd hk (by simp [Replaces])⟩⟩
  case tStore n S l e =>
    cases hh : c.handles[n]? with
    | none => simp [hh] at h
    | some p =>
      cases p with
      | none => simp [hh, Storer.tableStore] at h
      | some a =>
        simp [hh, Storer.tableStore] at h; obtain ⟨rfl, _⟩ := h
        exact ⟨Nat.le_refl _, fun k => ⟨fun _ => rfl, fun hk => absurd hk (by simp [Replaces])⟩⟩
  all_goals
    obtain ⟨rfl, rfl⟩ := h
    exact ⟨Nat.le_refl _, fun k => ⟨fun _ => rfl, fun hk => absurd hk (by simp [Replaces])⟩⟩

/-- What a call does to the ticket counter, and what `NewTicket` returns. -/
theorem Client.step_tickets {c c' : Client ι F} {op : StOp ι F} {o : StOut F} (h : c.step op = some (c', o)) :
    (op = .newTicket ∧ o = .ticket c.s.tickets ∧ c'.s.tickets = c.s.tickets + 1) ∨
    (op = .purge ∧ c'.s.tickets = 0) ∨ (op ≠ .newTicket ∧ op ≠ .purge ∧ c'.s.tickets = c.s.tickets) := by
  have hrt : ∀ (ks : List Int) (s : Storer ι F), (s.resetTickets ks).tickets = s.tickets := by
    intro ks
    induction ks with
    | nil => intro s; rfl
    | cons k ks ih => intro s; exact (ih _).trans rfl
  cases op <;> simp only [Client.step, Option.some.injEq, Prod.mk.injEq] at h
  case newTicket => obtain ⟨rfl, rfl⟩ := h; left; exact ⟨rfl, rfl, rfl⟩
  case purge => obtain ⟨rfl, rfl⟩ := h; right; left; exact ⟨rfl, rfl⟩
  case store k S l e =>
    obtain ⟨rfl, rfl⟩ := h; right; right; refine ⟨by simp, by simp, ?_⟩
    simp only [Storer.store]; cases c.s.tables k <;> rfl
  case storeSingle k S e =>
    obtain ⟨rfl, rfl⟩ := h; right; right; refine ⟨by simp, by simp, ?_⟩
    simp only [Storer.storeSingle, Storer.store]; cases c.s.tables k <;> rfl
  case resetTickets ks =>
    obtain ⟨rfl, rfl⟩ := h; right; right; exact ⟨by simp, by simp, hrt ks _⟩
  case tEntry n S l =>
    cases hh : c.handles[n]? with
    | none => simp [hh] at h
    | some p => simp [hh] at h; obtain ⟨rfl, _⟩ := h; right; right; simp
  case tStore n S l e =>
    cases hh : c.handles[n]? with
    | none => simp [hh] at h
    | some p =>
      cases p with
      | none => simp [hh, Storer.tableStore] at h
      | some a => simp [hh, Storer.tableStore] at h; obtain ⟨rfl, _⟩ := h; right; right; simp
  all_goals (obtain ⟨rfl, rfl⟩ := h; right; right; exact ⟨by simp, by simp, rfl⟩)

theorem Client.run_cons {c : Client ι F} {op : StOp ι F} {ops : List (StOp ι F)} {r : Client ι F × List (StOut F)}
    (h : c.run (op :: ops) = some r) :
    ∃ c1 o os, c.step op = some (c1, o) ∧ c1.run ops = some (r.1, os) ∧ r.2 = o :: os := by
  simp only [Client.run] at h
  cases hs : c.step op with
  | none => simp [hs] at h
  | some p =>
    obtain ⟨c1, o⟩ := p
    simp only [hs] at h
    cases hr1 : c1.run ops with
    | none => simp [hr1] at h
    | some q =>
      obtain ⟨c2, os2⟩ := q
      simp [hr1] at h
      exact ⟨c1, o, os2, rfl, by rw [← h]; exact hr1, by rw [← h]⟩

theorem Client.tickets_sorted (ops : List (StOp ι F)) : ∀ (c c' : Client ι F) (outs : List (StOut F)),
    c.run ops = some (c', outs) → (∀ op ∈ ops, op ≠ .purge) →
    (∀ t ∈ ticketsReturned ops outs, c.s.tickets ≤ t) ∧ (ticketsReturned ops outs).Pairwise (· < ·) := by
  induction ops with
  | nil => intro c c' outs _ _; simp [ticketsReturned]
  | cons op ops ih =>
    intro c c' outs h hp
    obtain ⟨c1, o, os, h1, h2, h3⟩ := run_cons h
    simp only at h3 h2
    subst h3
    obtain ⟨i1, i2⟩ := ih c1 c' os h2 (fun q hq => hp q (by simp [hq]))
    rcases step_tickets h1 with ⟨rfl, rfl, ht⟩ | ⟨hop, _⟩ | ⟨hn, _, ht⟩
    · simp only [ticketsReturned, List.mem_cons, List.pairwise_cons]
      refine ⟨?_, ?_, i2⟩
      · rintro t (rfl | ht')
        · omega
        · have := i1 t ht'; omega
      · intro t ht'; have := i1 t ht'; omega
    · exact absurd hop (hp op (by simp))
    · have : ticketsReturned (op :: ops) (o :: os) = ticketsReturned ops os := by
        cases op <;> first | rfl | exact absurd rfl hn
      rw [this]
      exact ⟨fun t ht' => by have := i1 t ht'; omega, i2⟩

theorem Client.tables_bounded (ops : List (StOp ι F)) : ∀ (c c' : Client ι F) (outs : List (StOut F)),
    c.run ops = some (c', outs) → ResetsOnlyIssued c.s.tickets ops →
    (∀ k, c.s.tables k ≠ none → k < c.s.tickets) → ∀ k, c'.s.tables k ≠ none → k < c'.s.tickets := by
  induction ops with
  | nil => intro c c' outs h _ hb; simp [Client.run] at h; rw [← h.1]; exact hb
  | cons op ops ih =>
    intro c c' outs h hro hb
    obtain ⟨c1, o, os, h1, h2, h3⟩ := run_cons h
    have ht := step_tables h1
    apply ih c1 c' os h2
    · rcases step_tickets h1 with ⟨rfl, _, e⟩ | ⟨rfl, e⟩ | ⟨hn, hp, e⟩
      · rw [e]; exact hro
      · rw [e]; exact hro
      · rw [e]
        cases op
        case newTicket => exact absurd rfl hn
        case purge => exact absurd rfl hp
        case reset k => exact hro.2
        case resetTickets ks => exact hro.2
        all_goals exact hro
    · intro k hk
      rcases step_tickets h1 with ⟨rfl, rfl, e⟩ | ⟨rfl, e⟩ | ⟨hn, hp, e⟩
      · by_cases hr : k = c.s.tickets
        · omega
        · have := (ht.2 k).1 (by simp only [Replaces]; omega)
          rw [this] at hk; have := hb k hk; omega
      · rcases (ht.2 k).2 trivial with h | ⟨a, _, _, h | h | ⟨_, h, _⟩⟩
        · exact absurd h hk
        · cases h
        · cases h
        · cases h
      · rw [e]
        by_cases hr : Replaces k op o
        · rcases (ht.2 k).2 hr with h | ⟨a, _, _, h | h | ⟨ks, h, hks⟩⟩
          · exact absurd h hk
          · exact absurd h hn
          · subst h; exact hro.1
          · subst h; exact hro.1 k hks
        · rw [(ht.2 k).1 hr] at hk; exact hb k hk

/-- Handles a client keeps are nil or name allocated tables. -/
def Client.HandlesOK (c : Client ι F) : Prop := ∀ a, some a ∈ c.handles → a < c.s.next

theorem Client.step_handles {c c' : Client ι F} {op : StOp ι F} {o : StOut F} (hw : c.s.WF) (hh : c.HandlesOK)
    (h : c.step op = some (c', o)) : c'.HandlesOK := by
  have hn := (step_tables h).1
  have hc : c'.handles = c.handles ∨ ∃ k, c'.handles = c.handles ++ [c.s.table k] := by
    cases op <;> simp only [step, Option.some.injEq, Prod.mk.injEq] at h
    case obtain k => obtain ⟨rfl, rfl⟩ := h; exact Or.inr ⟨k, rfl⟩
    case tEntry n S l =>
      cases hh : c.handles[n]? with
      | none => simp [hh] at h
      | some p => simp [hh] at h; obtain ⟨rfl, _⟩ := h; exact Or.inl rfl
    case tStore n S l e =>
      cases hh : c.handles[n]? with
      | none => simp [hh] at h
      | some p =>
        cases p with
        | none => simp [hh, Storer.tableStore] at h
        | some a => simp [hh, Storer.tableStore] at h; obtain ⟨rfl, _⟩ := h; exact Or.inl rfl
    all_goals (obtain ⟨rfl, rfl⟩ := h; exact Or.inl rfl)
  intro a ha
  rcases hc with hc | ⟨k, hc⟩
  · rw [hc] at ha; have := hh a ha; omega
  · rw [hc] at ha
    rcases List.mem_append.1 ha with ha | ha
    · have := hh a ha; omega
    · simp [Storer.table] at ha; have := hw.alloc k a ha.symm; omega

theorem Client.run_handles (ops : List (StOp ι F)) : ∀ {c c' : Client ι F} {os}, c.s.WF → c.HandlesOK → c.run ops = some (c', os) → c'.HandlesOK := by
  induction ops with
  | nil => intro c c' os _ hh hr; simp [run] at hr; rw [← hr.1]; exact hh
  | cons op ops ih =>
    intro c c' os hw hh hr
    obtain ⟨c1, o, os', h1, h2, _⟩ := run_cons hr
    exact ih (step_wf hw h1) (step_handles hw hh h1) h2

end Gospn
