import Verif.Model.Conc
import Verif.Spec.Conc
import Mathlib.Data.List.Basic
/-
Invariants of the `SingleQueue` transition system.
-/
namespace Gospn
open Spec

theorem countP_set' {α : Type} (p : α → Bool) : ∀ (l : List α) (i : Nat) (a b : α), l[i]? = some a →
    (l.set i b).countP p + (if p a then 1 else 0) = l.countP p + (if p b then 1 else 0)
  | [], i, a, b, h => by simp at h
  | x :: l, 0, a, b, h => by
    simp at h; subst h
    simp only [List.set_cons_zero, List.countP_cons]; omega
  | x :: l, i + 1, a, b, h => by
    have := countP_set' p l i a b (by simpa using h)
    simp only [List.set_cons_succ, List.countP_cons]; omega

def sumBy {α : Type} (f : α → Nat) (l : List α) : Nat := (l.map f).sum

theorem sumBy_set {α : Type} (f : α → Nat) : ∀ (l : List α) (i : Nat) (a b : α), l[i]? = some a →
    sumBy f (l.set i b) + f a = sumBy f l + f b
  | [], i, a, b, h => by simp at h
  | x :: l, 0, a, b, h => by
    simp at h; subst h
    simp only [sumBy, List.set_cons_zero, List.map_cons, List.sum_cons]; omega
  | x :: l, i + 1, a, b, h => by
    have := sumBy_set f l i a b (by simpa using h)
    simp only [sumBy] at this
    simp only [sumBy, List.set_cons_succ, List.map_cons, List.sum_cons]; omega

/-- Program counters at which the lock is held. -/
def CPc.holds : CPc → Bool
  | .locked => true
  | .queued _ => true
  | .counted => true
  | _ => false

def WPc.holds : WPc → Bool
  | .locked => true
  | .decremented => true
  | _ => false

/-- Callers that have been counted in `k` and have not started their worker. -/
def CPc.counts : CPc → Bool
  | .counted => true
  | .unlocked => true
  | .added => true
  | _ => false

/-- Workers that are counted in `k`. -/
def WPc.counts : WPc → Bool
  | .ready => true
  | .running => true
  | .ended => true
  | .locked => true
  | _ => false

/-- Workers that have still to signal after giving up their place. -/
def WPc.toSignal : WPc → Bool
  | .decremented => true
  | .unlocked => true
  | _ => false

/-- Callers that will look at `k` without having to be picked. -/
def CPc.willLook : CPc → Bool
  | .locked => true
  | .queued true => true
  | .parked true => true
  | _ => false

def isAdded : CPc → Bool
  | .added => true
  | _ => false

/-- The state of a caller fits the call it makes. -/
def Caller.ok (c : Caller) : Prop :=
  match c.pc with
  | .idle => True
  | .waiting => ∃ r, c.prog = .wait :: r
  | .released => ∃ r, c.prog = .wait :: r
  | _ => ∃ j r, c.prog = .run j :: r

/-- How many callers, workers are at a program counter in `p`. -/
def cc (p : CPc → Bool) (l : List Caller) : Nat := l.countP (fun c => p c.pc)
def wc (p : WPc → Bool) (l : List Worker) : Nat := l.countP (fun w => p w.pc)

theorem cc_set (p : CPc → Bool) {l : List Caller} {i : Nat} {a : Caller} (b : Caller) (h : l[i]? = some a) :
    cc p (l.set i b) + (p a.pc).toNat = cc p l + (p b.pc).toNat := by
  have := countP_set' (fun c : Caller => p c.pc) l i a b h
  unfold cc; cases h1 : p a.pc <;> cases h2 : p b.pc <;> simp [h1, h2] at this ⊢ <;> omega

theorem wc_set (p : WPc → Bool) {l : List Worker} {i : Nat} {a : Worker} (b : Worker) (h : l[i]? = some a) :
    wc p (l.set i b) + (p a.pc).toNat = wc p l + (p b.pc).toNat := by
  have := countP_set' (fun c : Worker => p c.pc) l i a b h
  unfold wc; cases h1 : p a.pc <;> cases h2 : p b.pc <;> simp [h1, h2] at this ⊢ <;> omega

theorem wc_append (p : WPc → Bool) (l : List Worker) (b : Worker) : wc p (l ++ [b]) = wc p l + (p b.pc).toNat := by
  unfold wc; rw [List.countP_append]; cases h : p b.pc <;> simp [h]

def WPc.notDone : WPc → Bool
  | .done => false
  | _ => true

def WPc.isRunning : WPc → Bool
  | .running => true
  | _ => false

/-- The invariant. -/
structure QInv (n : Int) (s : QState) : Prop where
  size : s.n = n
  places : s.k = (cc CPc.counts s.callers : Nat) + (wc WPc.counts s.workers : Nat)
  bound : s.k ≤ s.n
  locks : cc CPc.holds s.callers + wc WPc.holds s.workers = s.lock.toNat
  group : s.wg = (cc isAdded s.callers : Nat) + (wc WPc.notDone s.workers : Nat)
  wake : 0 < cc CPc.inWaitList s.callers → s.n ≤ s.k + (wc WPc.toSignal s.workers : Nat) + (cc CPc.willLook s.callers : Nat)
  ok : ∀ c ∈ s.callers, c.ok

theorem QInv.init {n : Int} (hn : 0 < n) (progs : List (List QCmd)) : QInv n (QState.init n progs) := by
  have h : ∀ (p : CPc → Bool), p .idle = false → cc p (progs.map (fun p => (⟨p, .idle, 0⟩ : Caller))) = 0 := by
    intro p hp
    unfold cc
    rw [List.countP_eq_zero]; intro c hc; obtain ⟨q, _, rfl⟩ := List.mem_map.1 hc; simp [hp]
  have hw : ∀ p, wc p [] = 0 := fun _ => rfl
  refine ⟨rfl, ?_, ?_, ?_, ?_, ?_, ?_⟩
  · simp [QState.init, h CPc.counts rfl, hw]
  · simp [QState.init]; omega
  · simp [QState.init, h CPc.holds rfl, hw]
  · simp [QState.init, h isAdded rfl, hw]
  · simp [QState.init, h CPc.inWaitList rfl]
  · intro c hc; obtain ⟨q, _, rfl⟩ := List.mem_map.1 hc; trivial

theorem mem_set_cases {α : Type} {l : List α} {i : Nat} {b c : α} (h : c ∈ l.set i b) : c = b ∨ c ∈ l := by
  rcases List.mem_or_eq_of_mem_set h with h | h
  · exact Or.inr h
  · exact Or.inl h

theorem ok_set {l : List Caller} {i : Nat} {b : Caller} (h : ∀ c ∈ l, c.ok) (hb : b.ok) : ∀ c ∈ l.set i b, c.ok := by
  intro c hc
  rcases mem_set_cases hc with rfl | hc
  · exact hb
  · exact h c hc

/-- A step of a caller, in terms of what it does to the counts. -/
theorem QInv.caller {n : Int} {s : QState} (hi : QInv n s) {i : Nat} {a : Caller} (b : Caller) (hc : s.callers[i]? = some a) (k wg : Int) (lock : Bool)
    (hb : b.ok) (h1 : k = s.k + (b.pc.counts.toNat : Nat) - (a.pc.counts.toNat : Nat)) (h2 : k ≤ s.n)
    (h3 : s.lock.toNat + b.pc.holds.toNat = lock.toNat + a.pc.holds.toNat)
    (h4 : wg = s.wg + ((isAdded b.pc).toNat : Nat) - ((isAdded a.pc).toNat : Nat))
    (h5 : s.n ≤ k ∨ ((b.pc.inWaitList = true → a.pc.inWaitList = true) ∧ (a.pc.willLook.toNat : Int) + s.k ≤ b.pc.willLook.toNat + k)) :
    QInv n { s with k := k, wg := wg, lock := lock, callers := s.callers.set i b } := by
  obtain ⟨g1, g2, g3, g4, g5, g6, g7⟩ := hi
  have e1 := cc_set CPc.counts b hc
  have e2 := cc_set CPc.holds b hc
  have e3 := cc_set isAdded b hc
  have e4 := cc_set CPc.inWaitList b hc
  have e5 := cc_set CPc.willLook b hc
  refine ⟨g1, ?_, h2, ?_, ?_, ?_, ok_set g7 hb⟩
  · simp only; omega
  · simp only; omega
  · simp only; omega
  · simp only
    intro h
    rcases h5 with h5 | ⟨h5, h6⟩
    · omega
    · have hle : b.pc.inWaitList.toNat ≤ a.pc.inWaitList.toNat := by
        cases hb : b.pc.inWaitList with
        | false => simp
        | true => rw [h5 hb]; exact Nat.le_refl _
      have := g6 (by omega)
      omega

theorem QInv.worker {n : Int} {s : QState} (hi : QInv n s) {i : Nat} {a : Worker} (b : Worker) (hc : s.workers[i]? = some a) (k wg : Int) (lock : Bool)
    (h1 : k = s.k + (b.pc.counts.toNat : Nat) - (a.pc.counts.toNat : Nat)) (h2 : k ≤ s.n)
    (h3 : s.lock.toNat + b.pc.holds.toNat = lock.toNat + a.pc.holds.toNat)
    (h4 : wg = s.wg + (b.pc.notDone.toNat : Nat) - (a.pc.notDone.toNat : Nat))
    (h6 : (a.pc.toSignal.toNat : Int) + s.k ≤ b.pc.toSignal.toNat + k ∨ cc CPc.inWaitList s.callers = 0) :
    QInv n { s with k := k, wg := wg, lock := lock, workers := s.workers.set i b } := by
  obtain ⟨g1, g2, g3, g4, g5, g6, g7⟩ := hi
  have e1 := wc_set WPc.counts b hc
  have e2 := wc_set WPc.holds b hc
  have e3 := wc_set WPc.notDone b hc
  have e4 := wc_set WPc.toSignal b hc
  refine ⟨g1, ?_, h2, ?_, ?_, ?_, g7⟩
  · simp only; omega
  · simp only; omega
  · simp only; omega
  · simp only
    intro h
    have := g6 h
    omega

theorem CPc.picked_spec {pc : CPc} (h : pc.inWaitList = true) :
    pc.picked.inWaitList = false ∧ pc.picked.counts = pc.counts ∧ pc.picked.holds = pc.holds ∧ isAdded pc.picked = isAdded pc ∧
    pc.willLook = false ∧ pc.picked.willLook = true := by
  cases pc with
  | queued b => cases b <;> simp_all [inWaitList, picked, counts, holds, isAdded, willLook]
  | parked b => cases b <;> simp_all [inWaitList, picked, counts, holds, isAdded, willLook]
  | _ => simp [inWaitList] at h

theorem cc_pos {p : CPc → Bool} {l : List Caller} {i : Nat} {a : Caller} (h : l[i]? = some a) (hp : p a.pc = true) : 0 < cc p l :=
  List.countP_pos_iff.2 ⟨a, List.mem_of_getElem? h, hp⟩

theorem wc_pos {p : WPc → Bool} {l : List Worker} {i : Nat} {a : Worker} (h : l[i]? = some a) (hp : p a.pc = true) : 0 < wc p l :=
  List.countP_pos_iff.2 ⟨a, List.mem_of_getElem? h, hp⟩

theorem QInv.lock_of_caller {n : Int} {s : QState} (hi : QInv n s) {i : Nat} {a : Caller} (h : s.callers[i]? = some a) (hp : a.pc.holds = true) :
    s.lock = true := by
  have h1 := hi.locks
  have h2 := cc_pos (p := CPc.holds) h hp
  cases hl : s.lock with
  | true => rfl
  | false => rw [hl] at h1; simp at h1; omega

theorem QInv.lock_of_worker {n : Int} {s : QState} (hi : QInv n s) {i : Nat} {a : Worker} (h : s.workers[i]? = some a) (hp : a.pc.holds = true) :
    s.lock = true := by
  have h1 := hi.locks
  have h2 := wc_pos (p := WPc.holds) h hp
  cases hl : s.lock with
  | true => rfl
  | false => rw [hl] at h1; simp at h1; omega

theorem QStep.inv {n : Int} {s s' : QState} {e : Option QEvent} (hi : QInv n s) (h : QStep s e s') : QInv n s' := by
  have hmem : ∀ {i : Nat} {a : Caller}, s.callers[i]? = some a → a.ok := fun h => hi.ok _ (List.mem_of_getElem? h)
  have hb := hi.bound
  cases h with
  | lock i j r q hc hl =>
    exact hi.caller ⟨.run j :: r, .locked, q⟩ hc s.k s.wg true ⟨j, r, rfl⟩ (by simp [CPc.counts]) hb (by simp [hl, CPc.holds]) (by simp [isAdded])
      (Or.inr (by simp [CPc.inWaitList, CPc.willLook]; omega))
  | full i p q hc hk =>
    exact hi.caller ⟨p, .queued false, q⟩ hc s.k s.wg s.lock (by have := hmem hc; exact this) (by simp [CPc.counts]) hb (by simp [CPc.holds]) (by simp [isAdded]) (Or.inl hk)
  | count i p q hc hk =>
    exact hi.caller ⟨p, .counted, q⟩ hc (s.k + 1) s.wg s.lock (by have := hmem hc; exact this) (by simp [CPc.counts]) (by omega) (by simp [CPc.holds]) (by simp [isAdded])
      (Or.inr (by simp [CPc.inWaitList, CPc.willLook]; omega))
  | park i p q b hc =>
    have hl := hi.lock_of_caller hc rfl
    exact hi.caller ⟨p, .parked b, q⟩ hc s.k s.wg false (by have := hmem hc; exact this) (by simp [CPc.counts]) hb (by simp [hl, CPc.holds]) (by simp [isAdded])
      (Or.inr (by cases b <;> simp [CPc.inWaitList, CPc.willLook]))
  | relock i p q hc hl =>
    exact hi.caller ⟨p, .locked, q⟩ hc s.k s.wg true (by have := hmem hc; exact this) (by simp [CPc.counts]) hb (by simp [hl, CPc.holds]) (by simp [isAdded])
      (Or.inr (by simp [CPc.inWaitList, CPc.willLook]))
  | unlock i p q hc =>
    have hl := hi.lock_of_caller hc rfl
    exact hi.caller ⟨p, .unlocked, q⟩ hc s.k s.wg false (by have := hmem hc; exact this) (by simp [CPc.counts]) hb (by simp [hl, CPc.holds]) (by simp [isAdded])
      (Or.inr (by simp [CPc.inWaitList, CPc.willLook]))
  | add i p q hc =>
    exact hi.caller ⟨p, .added, q⟩ hc s.k (s.wg + 1) s.lock (by have := hmem hc; exact this) (by simp [CPc.counts]) hb (by simp [CPc.holds]) (by simp [isAdded])
      (Or.inr (by simp [CPc.inWaitList, CPc.willLook]))
  | go i j r q hc =>
    obtain ⟨g1, g2, g3, g4, g5, g6, g7⟩ := hi
    have e1 := cc_set CPc.counts ⟨r, .idle, q + 1⟩ hc
    have e2 := cc_set CPc.holds ⟨r, .idle, q + 1⟩ hc
    have e3 := cc_set isAdded ⟨r, .idle, q + 1⟩ hc
    have e4 := cc_set CPc.inWaitList ⟨r, .idle, q + 1⟩ hc
    have e5 := cc_set CPc.willLook ⟨r, .idle, q + 1⟩ hc
    simp only [CPc.counts, CPc.holds, isAdded, CPc.inWaitList, CPc.willLook, Bool.toNat_true, Bool.toNat_false] at e1 e2 e3 e4 e5
    refine ⟨g1, ?_, g3, ?_, ?_, ?_, ok_set g7 trivial⟩
    · simp only [wc_append, WPc.counts, Bool.toNat_true]; omega
    · simp only [wc_append, WPc.holds, Bool.toNat_false]; omega
    · simp only [wc_append, WPc.notDone, Bool.toNat_true]; omega
    · simp only [wc_append, WPc.toSignal, Bool.toNat_false]; omega
  | wait i r q hc =>
    exact hi.caller ⟨.wait :: r, .waiting, q⟩ hc s.k s.wg s.lock ⟨r, rfl⟩ (by simp [CPc.counts]) hb (by simp [CPc.holds]) (by simp [isAdded])
      (Or.inr (by simp [CPc.inWaitList, CPc.willLook]))
  | zero i p q hc hz =>
    exact hi.caller ⟨p, .released, q⟩ hc s.k s.wg s.lock (by have := hmem hc; exact this) (by simp [CPc.counts]) hb (by simp [CPc.holds]) (by simp [isAdded])
      (Or.inr (by simp [CPc.inWaitList, CPc.willLook]))
  | waitRet i r q hc =>
    exact hi.caller ⟨r, .idle, q⟩ hc s.k s.wg s.lock trivial (by simp [CPc.counts]) hb (by simp [CPc.holds]) (by simp [isAdded])
      (Or.inr (by simp [CPc.inWaitList, CPc.willLook]))
  | start w c q j hw =>
    exact hi.worker ⟨c, q, j, .running⟩ hw s.k s.wg s.lock (by simp [WPc.counts]) hb (by simp [WPc.holds]) (by simp [WPc.notDone])
      (Or.inl (by simp [WPc.toSignal]))
  | finish w c q j hw =>
    exact hi.worker ⟨c, q, j, .ended⟩ hw s.k s.wg s.lock (by simp [WPc.counts]) hb (by simp [WPc.holds]) (by simp [WPc.notDone])
      (Or.inl (by simp [WPc.toSignal]))
  | wlock w c q j hw hl =>
    exact hi.worker ⟨c, q, j, .locked⟩ hw s.k s.wg true (by simp [WPc.counts]) hb (by simp [hl, WPc.holds]) (by simp [WPc.notDone])
      (Or.inl (by simp [WPc.toSignal]))
  | dec w c q j hw =>
    exact hi.worker ⟨c, q, j, .decremented⟩ hw (s.k - 1) s.wg s.lock (by simp [WPc.counts]) (by omega) (by simp [WPc.holds]) (by simp [WPc.notDone])
      (Or.inl (by simp [WPc.toSignal]; omega))
  | wunlock w c q j hw =>
    have hl := hi.lock_of_worker hw rfl
    exact hi.worker ⟨c, q, j, .unlocked⟩ hw s.k s.wg false (by simp [WPc.counts]) hb (by simp [hl, WPc.holds]) (by simp [WPc.notDone])
      (Or.inl (by simp [WPc.toSignal]))
  | signal w c q j i cl hw hc hin =>
    obtain ⟨g1, g2, g3, g4, g5, g6, g7⟩ := hi
    obtain ⟨p1, p2, p3, p4, p5, p6⟩ := CPc.picked_spec hin
    have e1 := cc_set CPc.counts { cl with pc := cl.pc.picked } hc
    have e2 := cc_set CPc.holds { cl with pc := cl.pc.picked } hc
    have e3 := cc_set isAdded { cl with pc := cl.pc.picked } hc
    have e4 := cc_set CPc.inWaitList { cl with pc := cl.pc.picked } hc
    have e5 := cc_set CPc.willLook { cl with pc := cl.pc.picked } hc
    simp only [p1, p2, p3, p4, p5, p6, hin, Bool.toNat_true, Bool.toNat_false] at e1 e2 e3 e4 e5
    have w1 := wc_set WPc.counts ⟨c, q, j, .signalled⟩ hw
    have w2 := wc_set WPc.holds ⟨c, q, j, .signalled⟩ hw
    have w3 := wc_set WPc.notDone ⟨c, q, j, .signalled⟩ hw
    have w4 := wc_set WPc.toSignal ⟨c, q, j, .signalled⟩ hw
    simp only [WPc.counts, WPc.holds, WPc.notDone, WPc.toSignal, Bool.toNat_true, Bool.toNat_false] at w1 w2 w3 w4
    refine ⟨g1, ?_, g3, ?_, ?_, ?_, ok_set g7 ?_⟩
    · simp only; omega
    · simp only; omega
    · simp only; omega
    · simp only; intro _; have := g6 (by omega); omega
    · have := hmem hc
      unfold Caller.ok at this ⊢
      cases hpc : cl.pc with
      | queued b => rw [hpc] at this; exact this
      | parked b => rw [hpc] at this; exact this
      | _ => rw [hpc] at hin; cases hin
  | signalNone w c q j hw hno =>
    refine hi.worker ⟨c, q, j, .signalled⟩ hw s.k s.wg s.lock (by simp [WPc.counts]) hb (by simp [WPc.holds]) (by simp [WPc.notDone])
      (Or.inr ?_)
    unfold cc; rw [List.countP_eq_zero]; intro c hc; simp [hno c hc]
  | wgDone w c q j hw =>
    exact hi.worker ⟨c, q, j, .done⟩ hw s.k (s.wg - 1) s.lock (by simp [WPc.counts]) hb (by simp [WPc.holds]) (by simp [WPc.notDone])
      (Or.inl (by simp [WPc.toSignal]))

theorem QRun.inv {n : Int} {s s' : QState} {t : List QEvent} (hi : QInv n s) (h : QRun s t s') : QInv n s' := by
  induction h with
  | nil => exact hi
  | step _ hs ih => exact hs.inv ih

/-! ### Progress -/

theorem QInv.progress {n : Int} (hn : 0 < n) {s : QState} (hi : QInv n s) (hf : ¬ Finished s) : ∃ e s', QStep s e s' := by
  by_contra hno
  have hno' : ∀ e s', ¬ QStep s e s' := fun e s' h => hno ⟨e, s', h⟩
  -- nobody holds the lock
  have hcl : ∀ c ∈ s.callers, c.pc.holds = false := by
    intro c hc
    obtain ⟨i, hi', hget⟩ := List.getElem_of_mem hc
    have hg : s.callers[i]? = some c := by rw [List.getElem?_eq_getElem hi', hget]
    obtain ⟨p, pc, q⟩ := c
    cases pc with
    | locked =>
      by_cases hk : s.k ≥ s.n
      · exact absurd (QStep.full s i p q hg hk) (hno' _ _)
      · exact absurd (QStep.count s i p q hg hk) (hno' _ _)
    | queued b => exact absurd (QStep.park s i p q b hg) (hno' _ _)
    | counted => exact absurd (QStep.unlock s i p q hg) (hno' _ _)
    | _ => rfl
  have hwl : ∀ w ∈ s.workers, w.pc.holds = false := by
    intro w hw
    obtain ⟨i, hi', hget⟩ := List.getElem_of_mem hw
    have hg : s.workers[i]? = some w := by rw [List.getElem?_eq_getElem hi', hget]
    obtain ⟨c, q, j, pc⟩ := w
    cases pc with
    | locked => exact absurd (QStep.dec s i c q j hg) (hno' _ _)
    | decremented => exact absurd (QStep.wunlock s i c q j hg) (hno' _ _)
    | _ => rfl
  have hlock : s.lock = false := by
    have := hi.locks
    have h1 : cc CPc.holds s.callers = 0 := by unfold cc; rw [List.countP_eq_zero]; intro c hc; simp [hcl c hc]
    have h2 : wc WPc.holds s.workers = 0 := by unfold wc; rw [List.countP_eq_zero]; intro c hc; simp [hwl c hc]
    rw [h1, h2] at this
    cases hl : s.lock with
    | false => rfl
    | true => rw [hl] at this; simp at this
  -- all workers are done
  have hwd : ∀ w ∈ s.workers, w.pc = .done := by
    intro w hw
    obtain ⟨i, hi', hget⟩ := List.getElem_of_mem hw
    have hg : s.workers[i]? = some w := by rw [List.getElem?_eq_getElem hi', hget]
    have hl := hwl w hw
    obtain ⟨c, q, j, pc⟩ := w
    cases pc with
    | ready => exact absurd (QStep.start s i c q j hg) (hno' _ _)
    | running => exact absurd (QStep.finish s i c q j hg) (hno' _ _)
    | ended => exact absurd (QStep.wlock s i c q j hg hlock) (hno' _ _)
    | unlocked =>
      by_cases hin : ∃ cl ∈ s.callers, cl.pc.inWaitList = true
      · obtain ⟨cl, hcl', hin⟩ := hin
        obtain ⟨m, hm, hget'⟩ := List.getElem_of_mem hcl'
        exact absurd (QStep.signal s i c q j m cl hg (by rw [List.getElem?_eq_getElem hm, hget']) hin) (hno' _ _)
      · exact absurd (QStep.signalNone s i c q j hg (fun cl hcl' => by
          cases h : cl.pc.inWaitList with
          | false => rfl
          | true => exact absurd ⟨cl, hcl', h⟩ hin)) (hno' _ _)
    | signalled => exact absurd (QStep.wgDone s i c q j hg) (hno' _ _)
    | locked => simp [WPc.holds] at hl
    | decremented => simp [WPc.holds] at hl
    | done => rfl
  have hw0 : ∀ p : WPc → Bool, p .done = false → wc p s.workers = 0 := by
    intro p hp; unfold wc; rw [List.countP_eq_zero]; intro w hw; rw [hwd w hw, hp]; simp
  -- callers are finished or wait to be picked
  have hcs : ∀ c ∈ s.callers, c.pc ≠ .added ∧ c.pc ≠ .unlocked := by
    intro c hc
    obtain ⟨i, hi', hget⟩ := List.getElem_of_mem hc
    have hg : s.callers[i]? = some c := by rw [List.getElem?_eq_getElem hi', hget]
    have hok := hi.ok c hc
    obtain ⟨p, pc, q⟩ := c
    cases pc with
    | unlocked => exact absurd (QStep.add s i p q hg) (hno' _ _)
    | added =>
      obtain ⟨j, r, hp⟩ := hok
      simp only at hp; subst hp
      exact absurd (QStep.go s i j r q hg) (hno' _ _)
    | _ => simp
  have hwg : s.wg = 0 := by
    rw [hi.group, hw0 WPc.notDone rfl]
    have : cc isAdded s.callers = 0 := by
      unfold cc; rw [List.countP_eq_zero]; intro c hc
      have := (hcs c hc).1
      cases h : c.pc <;> simp_all [isAdded]
    rw [this]; rfl
  have hcf : ∀ c ∈ s.callers, (c.pc = .idle ∧ c.prog = []) ∨ c.pc = .parked false := by
    intro c hc
    obtain ⟨i, hi', hget⟩ := List.getElem_of_mem hc
    have hg : s.callers[i]? = some c := by rw [List.getElem?_eq_getElem hi', hget]
    have hok := hi.ok c hc
    have h1 := hcl c hc
    have h2 := hcs c hc
    obtain ⟨p, pc, q⟩ := c
    cases pc with
    | idle =>
      cases p with
      | nil => exact Or.inl ⟨rfl, rfl⟩
      | cons a r =>
        cases a with
        | run j => exact absurd (QStep.lock s i j r q hg hlock) (hno' _ _)
        | wait => exact absurd (QStep.wait s i r q hg) (hno' _ _)
    | parked b =>
      cases b with
      | false => exact Or.inr rfl
      | true => exact absurd (QStep.relock s i p q hg hlock) (hno' _ _)
    | waiting => exact absurd (QStep.zero s i p q hg hwg) (hno' _ _)
    | released =>
      obtain ⟨r, hp⟩ := hok
      simp only at hp; subst hp
      exact absurd (QStep.waitRet s i r q hg) (hno' _ _)
    | locked => simp [CPc.holds] at h1
    | queued b => simp [CPc.holds] at h1
    | counted => simp [CPc.holds] at h1
    | unlocked => simp at h2
    | added => simp at h2
  by_cases hw : 0 < cc CPc.inWaitList s.callers
  · have h1 := hi.wake hw
    have h2 : cc CPc.counts s.callers = 0 := by
      unfold cc; rw [List.countP_eq_zero]; intro c hc
      rcases hcf c hc with ⟨h, _⟩ | h <;> simp [h, CPc.counts]
    have h3 : cc CPc.willLook s.callers = 0 := by
      unfold cc; rw [List.countP_eq_zero]; intro c hc
      rcases hcf c hc with ⟨h, _⟩ | h <;> simp [h, CPc.willLook]
    rw [hi.places, h2, h3, hw0 WPc.counts rfl, hw0 WPc.toSignal rfl, hi.size] at h1
    simp at h1; omega
  · apply hf
    refine ⟨fun c hc => ?_, hwd⟩
    rcases hcf c hc with ⟨_, h⟩ | h
    · exact h
    · exact absurd (List.countP_pos_iff.2 ⟨c, hc, by simp [h, CPc.inWaitList]⟩ : 0 < cc CPc.inWaitList s.callers) hw

/-! ### Termination -/

def QCmd.cost : QCmd → Nat
  | .run _ => 15
  | .wait => 3

/-- What is left of the call a caller is in. -/
def CPc.cost : CPc → Nat
  | .idle => 0
  | .locked => 14
  | .queued false => 13
  | .queued true => 16
  | .parked false => 12
  | .parked true => 15
  | .counted => 13
  | .unlocked => 12
  | .added => 11
  | .waiting => 2
  | .released => 1

def Caller.cost (c : Caller) : Nat :=
  match c.pc with
  | .idle => sumBy QCmd.cost c.prog
  | pc => pc.cost + sumBy QCmd.cost c.prog.tail

def WPc.cost : WPc → Nat
  | .ready => 10
  | .running => 9
  | .ended => 8
  | .locked => 7
  | .decremented => 6
  | .unlocked => 5
  | .signalled => 1
  | .done => 0

def Worker.cost (w : Worker) : Nat := w.pc.cost

/-- A bound on the number of steps still to come. -/
def QState.cost (s : QState) : Nat := sumBy Caller.cost s.callers + sumBy Worker.cost s.workers

theorem QStep.cost {s s' : QState} {e : Option QEvent} (h : QStep s e s') : s'.cost < s.cost := by
  have hcal : ∀ {i : Nat} {a : Caller} (b : Caller), s.callers[i]? = some a → b.cost < a.cost → sumBy Caller.cost (s.callers.set i b) < sumBy Caller.cost s.callers := by
    intro i a b h1 h2; have := sumBy_set Caller.cost _ _ _ b h1; omega
  have hwor : ∀ {i : Nat} {a : Worker} (b : Worker), s.workers[i]? = some a → b.pc.cost < a.pc.cost →
      sumBy Worker.cost (s.workers.set i b) < sumBy Worker.cost s.workers := by
    intro i a b h1 h2; have := sumBy_set Worker.cost _ _ _ b h1; simp only [Worker.cost] at this h2; omega
  cases h with
  | lock i j r q hc _ =>
    have := hcal ⟨.run j :: r, .locked, q⟩ hc (by simp [Caller.cost, CPc.cost, sumBy, QCmd.cost]); simp only [QState.cost]; omega
  | full i p q hc _ => have := hcal ⟨p, .queued false, q⟩ hc (by simp [Caller.cost, CPc.cost]); simp only [QState.cost]; omega
  | count i p q hc _ => have := hcal ⟨p, .counted, q⟩ hc (by simp [Caller.cost, CPc.cost]); simp only [QState.cost]; omega
  | park i p q b hc => have := hcal ⟨p, .parked b, q⟩ hc (by cases b <;> simp [Caller.cost, CPc.cost]); simp only [QState.cost]; omega
  | relock i p q hc _ => have := hcal ⟨p, .locked, q⟩ hc (by simp [Caller.cost, CPc.cost]); simp only [QState.cost]; omega
  | unlock i p q hc => have := hcal ⟨p, .unlocked, q⟩ hc (by simp [Caller.cost, CPc.cost]); simp only [QState.cost]; omega
  | add i p q hc => have := hcal ⟨p, .added, q⟩ hc (by simp [Caller.cost, CPc.cost]); simp only [QState.cost]; omega
  | go i j r q hc =>
    have := sumBy_set Caller.cost _ _ _ ⟨r, .idle, q + 1⟩ hc
    simp [Caller.cost, CPc.cost] at this
    simp only [QState.cost]
    have e : sumBy Worker.cost (s.workers ++ [⟨i, q, j, .ready⟩]) = sumBy Worker.cost s.workers + 10 := by
      simp [sumBy, WPc.cost, Worker.cost]
    rw [e]; omega
  | wait i r q hc =>
    have := hcal ⟨.wait :: r, .waiting, q⟩ hc (by simp [Caller.cost, CPc.cost, sumBy, QCmd.cost]); simp only [QState.cost]; omega
  | zero i p q hc _ => have := hcal ⟨p, .released, q⟩ hc (by simp [Caller.cost, CPc.cost]); simp only [QState.cost]; omega
  | waitRet i r q hc => have := hcal ⟨r, .idle, q⟩ hc (by simp [Caller.cost, CPc.cost]); simp only [QState.cost]; omega
  | start w c q j hw => have := hwor ⟨c, q, j, .running⟩ hw (by simp [WPc.cost]); simp only [QState.cost]; omega
  | finish w c q j hw => have := hwor ⟨c, q, j, .ended⟩ hw (by simp [WPc.cost]); simp only [QState.cost]; omega
  | wlock w c q j hw _ => have := hwor ⟨c, q, j, .locked⟩ hw (by simp [WPc.cost]); simp only [QState.cost]; omega
  | dec w c q j hw => have := hwor ⟨c, q, j, .decremented⟩ hw (by simp [WPc.cost]); simp only [QState.cost]; omega
  | wunlock w c q j hw => have := hwor ⟨c, q, j, .unlocked⟩ hw (by simp [WPc.cost]); simp only [QState.cost]; omega
  | signal w c q j i cl hw hc hin =>
    have h1 := sumBy_set Caller.cost _ _ _ { cl with pc := cl.pc.picked } hc
    have h2 := sumBy_set Worker.cost _ _ _ ⟨c, q, j, .signalled⟩ hw
    have h2a : Worker.cost ⟨c, q, j, .signalled⟩ = 1 := rfl
    have h2b : Worker.cost ⟨c, q, j, .unlocked⟩ = 5 := rfl
    have h3 : Caller.cost { cl with pc := cl.pc.picked } = cl.cost + 3 := by
      obtain ⟨p, pc, q⟩ := cl
      cases pc with
      | queued b => cases b <;> simp_all [CPc.inWaitList, CPc.picked, Caller.cost, CPc.cost]; omega
      | parked b => cases b <;> simp_all [CPc.inWaitList, CPc.picked, Caller.cost, CPc.cost]; omega
      | _ => simp [CPc.inWaitList] at hin
    simp only [QState.cost]; omega
  | signalNone w c q j hw _ => have := hwor ⟨c, q, j, .signalled⟩ hw (by simp [WPc.cost]); simp only [QState.cost]; omega
  | wgDone w c q j hw => have := hwor ⟨c, q, j, .done⟩ hw (by simp [WPc.cost]); simp only [QState.cost]; omega

/-! ### The submitted functions -/

def Worker.key (w : Worker) : Nat × Nat × Int := (w.caller, w.seq, w.id)

def WPc.started : WPc → Bool
  | .ready => false
  | _ => true

def WPc.hasEnded : WPc → Bool
  | .ready => false
  | .running => false
  | _ => true

def wk (p : WPc → Bool) (key : Nat × Nat × Int) (l : List Worker) : Nat := l.countP (fun w => p w.pc && decide (w.key = key))

theorem wk_set (p : WPc → Bool) (key : Nat × Nat × Int) {l : List Worker} {i c q : Nat} {j : Int} {pc : WPc} (pc' : WPc) (h : l[i]? = some ⟨c, q, j, pc⟩) :
    wk p key (l.set i ⟨c, q, j, pc'⟩) + (if (c, q, j) = key then (p pc).toNat else 0) = wk p key l + (if (c, q, j) = key then (p pc').toNat else 0) := by
  have := countP_set' (fun w : Worker => p w.pc && decide (w.key = key)) l i _ ⟨c, q, j, pc'⟩ h
  unfold wk
  by_cases hk : (c, q, j) = key <;> cases h1 : p pc <;> cases h2 : p pc' <;> simp [Worker.key, hk, h1, h2] at this ⊢ <;> omega

theorem wk_append (p : WPc → Bool) (key : Nat × Nat × Int) (l : List Worker) (c q : Nat) (j : Int) (pc : WPc) :
    wk p key (l ++ [⟨c, q, j, pc⟩]) = wk p key l + (if (c, q, j) = key then (p pc).toNat else 0) := by
  unfold wk; rw [List.countP_append]
  by_cases hk : (c, q, j) = key <;> cases h1 : p pc <;> simp [Worker.key, hk, h1]

/-- What has been submitted, started and ended, given the events seen. -/
structure JobInv (progs : List (List QCmd)) (t : List QEvent) (s : QState) : Prop where
  len : s.callers.length = progs.length
  rest : ∀ (i : Nat) (c : Caller), s.callers[i]? = some c → ∀ p, progs[i]? = some p → runIds c.prog = (runIds p).drop c.seq
  jobs : ∀ (i : Nat) (c : Caller), s.callers[i]? = some c → ∀ p, progs[i]? = some p → ∀ (q : Nat) (j : Int),
    wk (fun _ => true) (i, q, j) s.workers = if q < c.seq ∧ (runIds p)[q]? = some j then 1 else 0
  bad : ∀ (i q : Nat) (j : Int), progs[i]? = none → wk (fun _ => true) (i, q, j) s.workers = 0
  starts : ∀ (i q : Nat) (j : Int), t.count (.start i q j) = wk WPc.started (i, q, j) s.workers
  finishes : ∀ (i q : Nat) (j : Int), t.count (.finish i q j) = wk WPc.hasEnded (i, q, j) s.workers

theorem JobInv.init (n : Int) (progs : List (List QCmd)) : JobInv progs [] (QState.init n progs) := by
  refine ⟨by simp [QState.init], ?_, ?_, ?_, ?_, ?_⟩
  · intro i c hc p hp
    simp [QState.init, hp] at hc; subst hc; simp
  · intro i c hc p hp q j
    simp [QState.init, hp] at hc; subst hc; simp [QState.init, wk]
  · intro i q j _; rfl
  · intro i q j; rfl
  · intro i q j; rfl

/-- A caller changed, but neither its sequence number nor the functions it has still to submit. -/
theorem JobInv.caller {progs : List (List QCmd)} {t : List QEvent} {s : QState} (h : JobInv progs t s) {i : Nat} {a : Caller} (b : Caller)
    (hc : s.callers[i]? = some a) (h1 : b.seq = a.seq) (h2 : runIds b.prog = runIds a.prog) (k wg : Int) (lock : Bool) :
    JobInv progs t { s with k := k, wg := wg, lock := lock, callers := s.callers.set i b } := by
  obtain ⟨g1, g2, g3, g4, g5, g6⟩ := h
  have hget : ∀ (m : Nat) (c : Caller), (s.callers.set i b)[m]? = some c → ∃ c', s.callers[m]? = some c' ∧ c.seq = c'.seq ∧ runIds c.prog = runIds c'.prog := by
    intro m c hm
    by_cases hmi : i = m
    · subst hmi
      have hlt := (List.getElem?_eq_some_iff.1 hc).1
      rw [List.getElem?_set_self hlt] at hm
      simp at hm; subst hm
      exact ⟨a, hc, h1, h2⟩
    · rw [List.getElem?_set_ne hmi] at hm
      exact ⟨c, hm, rfl, rfl⟩
  refine ⟨by simpa using g1, ?_, ?_, g4, g5, g6⟩
  · intro m c hm p hp
    obtain ⟨c', hc', e1, e2⟩ := hget m c hm
    rw [e1, e2]; exact g2 m c' hc' p hp
  · intro m c hm p hp q j
    obtain ⟨c', hc', e1, e2⟩ := hget m c hm
    rw [e1]; exact g3 m c' hc' p hp q j

theorem JobInv.caller' {progs : List (List QCmd)} {t : List QEvent} {s : QState} (h : JobInv progs t s) (k wg : Int) (lock : Bool) :
    JobInv progs t { s with k := k, wg := wg, lock := lock } := by
  obtain ⟨g1, g2, g3, g4, g5, g6⟩ := h
  exact ⟨g1, g2, g3, g4, g5, g6⟩

/-- A worker went on. -/
theorem JobInv.worker {progs : List (List QCmd)} {t : List QEvent} {s : QState} {w c q : Nat} {j : Int} {pc : WPc} (pc' : WPc)
    (hw : s.workers[w]? = some ⟨c, q, j, pc⟩) (k wg : Int) (lock : Bool) (callers : List Caller)
    (hcal : JobInv progs t { s with k := k, wg := wg, lock := lock, callers := callers }) (e : Option QEvent)
    (h1 : ∀ i u v, e.toList.count (.start i u v) + (if (c, q, j) = (i, u, v) then (WPc.started pc).toNat else 0) = if (c, q, j) = (i, u, v) then (WPc.started pc').toNat else 0)
    (h2 : ∀ i u v, e.toList.count (.finish i u v) + (if (c, q, j) = (i, u, v) then (WPc.hasEnded pc).toNat else 0) = if (c, q, j) = (i, u, v) then (WPc.hasEnded pc').toNat else 0) :
    JobInv progs (t ++ e.toList) { s with k := k, wg := wg, lock := lock, callers := callers, workers := s.workers.set w ⟨c, q, j, pc'⟩ } := by
  obtain ⟨g1, g2, g3, g4, g5, g6⟩ := hcal
  refine ⟨g1, g2, ?_, ?_, ?_, ?_⟩
  · intro m cl hm p hp u v
    have := wk_set (fun _ => true) (m, u, v) pc' hw
    have h3 := g3 m cl hm p hp u v
    simp only at h3 ⊢
    rw [← h3]; omega
  · intro m u v hp
    have := wk_set (fun _ => true) (m, u, v) pc' hw
    have h3 := g4 m u v hp
    simp only at h3 ⊢
    omega
  · intro m u v
    have := wk_set WPc.started (m, u, v) pc' hw
    have h3 := g5 m u v
    have h4 := h1 m u v
    simp only [List.count_append] at h3 ⊢
    omega
  · intro m u v
    have := wk_set WPc.hasEnded (m, u, v) pc' hw
    have h3 := g6 m u v
    have h4 := h2 m u v
    simp only [List.count_append] at h3 ⊢
    omega

theorem JobInv.step {progs : List (List QCmd)} {t : List QEvent} {s s' : QState} {e : Option QEvent} (h : JobInv progs t s) (hs : QStep s e s') :
    JobInv progs (t ++ e.toList) s' := by
  cases hs with
  | lock i j r q hc _ => simpa using h.caller ⟨.run j :: r, .locked, q⟩ hc rfl rfl s.k s.wg true
  | full i p q hc _ => simpa using h.caller ⟨p, .queued false, q⟩ hc rfl rfl s.k s.wg s.lock
  | count i p q hc _ => simpa using h.caller ⟨p, .counted, q⟩ hc rfl rfl (s.k + 1) s.wg s.lock
  | park i p q b hc => simpa using h.caller ⟨p, .parked b, q⟩ hc rfl rfl s.k s.wg false
  | relock i p q hc _ => simpa using h.caller ⟨p, .locked, q⟩ hc rfl rfl s.k s.wg true
  | unlock i p q hc => simpa using h.caller ⟨p, .unlocked, q⟩ hc rfl rfl s.k s.wg false
  | add i p q hc => simpa using h.caller ⟨p, .added, q⟩ hc rfl rfl s.k (s.wg + 1) s.lock
  | wait i r q hc => simpa using h.caller ⟨.wait :: r, .waiting, q⟩ hc rfl rfl s.k s.wg s.lock
  | zero i p q hc _ => simpa using h.caller ⟨p, .released, q⟩ hc rfl rfl s.k s.wg s.lock
  | waitRet i r q hc => simpa using h.caller ⟨r, .idle, q⟩ hc rfl rfl s.k s.wg s.lock
  | start w c q j hw => exact JobInv.worker .running hw s.k s.wg s.lock s.callers h (some (.start c q j)) (by
      intro i u v; by_cases hk : (c, q, j) = (i, u, v) <;> simp_all [WPc.started]) (by
      intro i u v; simp [WPc.hasEnded])
  | finish w c q j hw => exact JobInv.worker .ended hw s.k s.wg s.lock s.callers h (some (.finish c q j)) (by
      intro i u v; simp [WPc.started]) (by
      intro i u v; by_cases hk : (c, q, j) = (i, u, v) <;> simp_all [WPc.hasEnded])
  | wlock w c q j hw _ => exact JobInv.worker .locked hw s.k s.wg true s.callers (h.caller' _ _ _) none (by simp [WPc.started]) (by simp [WPc.hasEnded])
  | dec w c q j hw => exact JobInv.worker .decremented hw (s.k - 1) s.wg s.lock s.callers (h.caller' _ _ _) none (by simp [WPc.started]) (by simp [WPc.hasEnded])
  | wunlock w c q j hw => exact JobInv.worker .unlocked hw s.k s.wg false s.callers (h.caller' _ _ _) none (by simp [WPc.started]) (by simp [WPc.hasEnded])
  | signal w c q j i cl hw hc _ =>
    exact JobInv.worker .signalled hw s.k s.wg s.lock _ (h.caller { cl with pc := cl.pc.picked } hc rfl rfl s.k s.wg s.lock) none
      (by simp [WPc.started]) (by simp [WPc.hasEnded])
  | signalNone w c q j hw _ => exact JobInv.worker .signalled hw s.k s.wg s.lock s.callers h none (by simp [WPc.started]) (by simp [WPc.hasEnded])
  | wgDone w c q j hw => exact JobInv.worker .done hw s.k (s.wg - 1) s.lock s.callers (h.caller' _ _ _) none (by simp [WPc.started]) (by simp [WPc.hasEnded])
  | go i j r q hc =>
    obtain ⟨g1, g2, g3, g4, g5, g6⟩ := h
    have hlt := (List.getElem?_eq_some_iff.1 hc).1
    have hdrop : ∀ p, progs[i]? = some p → (runIds p)[q]? = some j ∧ runIds r = (runIds p).drop (q + 1) := by
      intro p hp
      have := g2 i _ hc p hp
      simp only [runIds] at this
      constructor
      · have h1 : ((runIds p).drop q)[0]? = some j := by rw [← this]; rfl
        simpa using h1
      · rw [← List.tail_drop, ← this]; rfl
    have hget : ∀ (m : Nat) (c : Caller), (s.callers.set i ⟨r, .idle, q + 1⟩)[m]? = some c → (m = i ∧ c = ⟨r, .idle, q + 1⟩) ∨ (m ≠ i ∧ s.callers[m]? = some c) := by
      intro m c hm
      by_cases hmi : i = m
      · subst hmi
        rw [List.getElem?_set_self hlt] at hm
        simp at hm; exact Or.inl ⟨rfl, hm.symm⟩
      · rw [List.getElem?_set_ne hmi] at hm
        exact Or.inr ⟨Ne.symm hmi, hm⟩
    refine ⟨by simpa using g1, ?_, ?_, ?_, ?_, ?_⟩
    · intro m c hm p hp
      rcases hget m c hm with ⟨rfl, rfl⟩ | ⟨_, hm⟩
      · exact (hdrop p hp).2
      · exact g2 m c hm p hp
    · intro m c hm p hp u v
      simp only [wk_append]
      rcases hget m c hm with ⟨rfl, rfl⟩ | ⟨hne, hm⟩
      · rw [g3 m _ hc p hp u v]
        have hj := (hdrop p hp).1
        simp only
        by_cases hu : u = q
        · subst hu
          rw [hj]
          by_cases hv : j = v
          · subst hv; simp
          · simp [hv]
        · have e1 : ¬ (m, q, j) = (m, u, v) := by simp [Ne.symm hu]
          rw [if_neg e1]
          have e2 : (u < q ∧ (runIds p)[u]? = some v) ↔ (u < q + 1 ∧ (runIds p)[u]? = some v) := by
            constructor
            · rintro ⟨h1, h2⟩; exact ⟨by omega, h2⟩
            · rintro ⟨h1, h2⟩; exact ⟨by omega, h2⟩
          simp only [e2]; rfl
      · have e1 : ¬ (i, q, j) = (m, u, v) := by simp [Ne.symm hne]
        rw [if_neg e1]; simpa using g3 m c hm p hp u v
    · intro m u v hp
      simp only [wk_append]
      have hne : m ≠ i := by
        rintro rfl
        rw [List.getElem?_eq_none_iff] at hp; omega
      have e1 : ¬ (i, q, j) = (m, u, v) := by simp [Ne.symm hne]
      rw [if_neg e1]; simpa using g4 m u v hp
    · intro m u v; simp only [wk_append, WPc.started]; simpa using g5 m u v
    · intro m u v; simp only [wk_append, WPc.hasEnded]; simpa using g6 m u v

theorem JobInv.run {n : Int} {progs : List (List QCmd)} {t : List QEvent} {s : QState} (h : QRun (QState.init n progs) t s) : JobInv progs t s := by
  generalize hs : QState.init n progs = s0 at h
  induction h with
  | nil => subst hs; exact JobInv.init n progs
  | step _ hst ih => exact ih.step hst

/-! ### Running functions -/

theorem inFlight_append (t : List QEvent) (e : Option QEvent) : inFlight (t ++ e.toList) = inFlight t + inFlight e.toList := by
  simp [inFlight]

theorem QStep.inFlight {t : List QEvent} {s s' : QState} {e : Option QEvent} (h : inFlight t = wc WPc.isRunning s.workers) (hs : QStep s e s') :
    inFlight (t ++ e.toList) = wc WPc.isRunning s'.workers := by
  rw [inFlight_append, h]
  cases hs with
  | go i j r q hc => simp [Spec.inFlight, wc_append, WPc.isRunning]
  | start w c q j hw => have := wc_set WPc.isRunning ⟨c, q, j, .running⟩ hw; simp [WPc.isRunning] at this; simp [Spec.inFlight, this]
  | finish w c q j hw => have := wc_set WPc.isRunning ⟨c, q, j, .ended⟩ hw; simp [WPc.isRunning] at this; simp [Spec.inFlight]; omega
  | wlock w c q j hw _ => have := wc_set WPc.isRunning ⟨c, q, j, .locked⟩ hw; simp [WPc.isRunning] at this; simp [Spec.inFlight, this]
  | dec w c q j hw => have := wc_set WPc.isRunning ⟨c, q, j, .decremented⟩ hw; simp [WPc.isRunning] at this; simp [Spec.inFlight, this]
  | wunlock w c q j hw => have := wc_set WPc.isRunning ⟨c, q, j, .unlocked⟩ hw; simp [WPc.isRunning] at this; simp [Spec.inFlight, this]
  | signal w c q j i cl hw hc _ => have := wc_set WPc.isRunning ⟨c, q, j, .signalled⟩ hw; simp [WPc.isRunning] at this; simp [Spec.inFlight, this]
  | signalNone w c q j hw _ => have := wc_set WPc.isRunning ⟨c, q, j, .signalled⟩ hw; simp [WPc.isRunning] at this; simp [Spec.inFlight, this]
  | wgDone w c q j hw => have := wc_set WPc.isRunning ⟨c, q, j, .done⟩ hw; simp [WPc.isRunning] at this; simp [Spec.inFlight, this]
  | _ => simp [Spec.inFlight]

theorem QRun.inFlight {n : Int} {progs : List (List QCmd)} {t : List QEvent} {s : QState} (h : QRun (QState.init n progs) t s) :
    Spec.inFlight t = wc WPc.isRunning s.workers := by
  generalize hs : QState.init n progs = s0 at h
  induction h with
  | nil => subst hs; rfl
  | step _ hst ih => exact QStep.inFlight ih hst

theorem running_le_counts (l : List Worker) : wc WPc.isRunning l ≤ wc WPc.counts l := by
  unfold wc
  apply List.countP_mono_left
  intro w _ h
  cases hp : w.pc <;> simp_all [WPc.isRunning, WPc.counts]

/-! ### Wait -/

/-- A worker that is done stays done; workers are never removed. -/
theorem QStep.workers {s s' : QState} {e : Option QEvent} (h : QStep s e s') (m : Nat) :
    (∀ w, s.workers[m]? = some w → ∃ pc, s'.workers[m]? = some { w with pc := pc }) ∧
    (∀ w, s.workers[m]? = some w → w.pc = .done → s'.workers[m]? = some w) := by
  have hset : ∀ (i c q : Nat) (j : Int) (pc pc' : WPc), s.workers[i]? = some ⟨c, q, j, pc⟩ → pc ≠ .done →
      (∀ w, s.workers[m]? = some w → ∃ pc1, (s.workers.set i ⟨c, q, j, pc'⟩)[m]? = some { w with pc := pc1 }) ∧
      (∀ w, s.workers[m]? = some w → w.pc = .done → (s.workers.set i ⟨c, q, j, pc'⟩)[m]? = some w) := by
    intro i c q j pc pc' hw hne
    have hlt := (List.getElem?_eq_some_iff.1 hw).1
    by_cases him : i = m
    · subst him
      rw [List.getElem?_set_self hlt]
      constructor
      · intro w h; rw [hw] at h; cases h; exact ⟨pc', rfl⟩
      · intro w h hd; rw [hw] at h; cases h; exact absurd hd hne
    · rw [List.getElem?_set_ne him]
      exact ⟨fun w h => ⟨w.pc, h⟩, fun w h _ => h⟩
  have hid : (∀ w, s.workers[m]? = some w → ∃ pc, s.workers[m]? = some { w with pc := pc }) ∧
      (∀ w, s.workers[m]? = some w → w.pc = .done → s.workers[m]? = some w) := ⟨fun w h => ⟨w.pc, h⟩, fun w h _ => h⟩
  cases h with
  | go i j r q hc =>
    constructor
    · intro w h
      refine ⟨w.pc, ?_⟩
      have hlt := (List.getElem?_eq_some_iff.1 h).1
      simp only [List.getElem?_append_left hlt]; exact h
    · intro w h _
      have hlt := (List.getElem?_eq_some_iff.1 h).1
      simp only [List.getElem?_append_left hlt]; exact h
  | start w c q j hw => exact hset w c q j _ _ hw (by simp)
  | finish w c q j hw => exact hset w c q j _ _ hw (by simp)
  | wlock w c q j hw _ => exact hset w c q j _ _ hw (by simp)
  | dec w c q j hw => exact hset w c q j _ _ hw (by simp)
  | wunlock w c q j hw => exact hset w c q j _ _ hw (by simp)
  | signal w c q j i cl hw hc _ => exact hset w c q j _ _ hw (by simp)
  | signalNone w c q j hw _ => exact hset w c q j _ _ hw (by simp)
  | wgDone w c q j hw => exact hset w c q j _ _ hw (by simp)
  | _ => exact hid

/-- The workers of `l` are done in `s`. -/
def DoneIn (l : Nat) (s : QState) : Prop := ∀ m < l, ∃ w, s.workers[m]? = some w ∧ w.pc = .done

theorem DoneIn.step {l : Nat} {s s' : QState} {e : Option QEvent} (h : DoneIn l s) (hs : QStep s e s') : DoneIn l s' := by
  intro m hm
  obtain ⟨w, h1, h2⟩ := h m hm
  exact ⟨w, (hs.workers m).2 w h1 h2, h2⟩

/-- If the counter of the wait group is zero every worker is done. -/
theorem QInv.all_done {n : Int} {s : QState} (hi : QInv n s) (h : s.wg = 0) : DoneIn s.workers.length s := by
  intro m hm
  refine ⟨s.workers[m], List.getElem?_eq_getElem hm, ?_⟩
  have h1 := hi.group
  have h2 : wc WPc.notDone s.workers = 0 := by omega
  unfold wc at h2
  rw [List.countP_eq_zero] at h2
  have := h2 _ (List.getElem_mem hm)
  cases hp : s.workers[m].pc <;> simp_all [WPc.notDone]

theorem QStep.workers_length {s s' : QState} {e : Option QEvent} (h : QStep s e s') : s.workers.length ≤ s'.workers.length := by
  cases h <;> simp

/-- Where caller `i` is with respect to its call of `Wait` with `r` still to do after it, when `l` workers existed at the time of the call. -/
def WaitInv (i : Nat) (r : List QCmd) (l : Nat) (s : QState) : Prop :=
  l ≤ s.workers.length ∧ ∃ c, s.callers[i]? = some c ∧
    ((c.prog = .wait :: r ∧ (c.pc = .idle ∨ c.pc = .waiting)) ∨ DoneIn l s)

theorem WaitInv.step {n : Int} {i : Nat} {r : List QCmd} {l : Nat} {s s' : QState} {e : Option QEvent} (hi : QInv n s) (h : WaitInv i r l s)
    (hs : QStep s e s') : WaitInv i r l s' := by
  obtain ⟨h1, c, h2, h3⟩ := h
  have hlen : l ≤ s'.workers.length := Nat.le_trans h1 hs.workers_length
  have hex : ∃ c', s'.callers[i]? = some c' := by
    have hlt := (List.getElem?_eq_some_iff.1 h2).1
    have : s'.callers.length = s.callers.length := by cases hs <;> simp
    exact ⟨s'.callers[i]'(by omega), List.getElem?_eq_getElem _⟩
  refine ⟨hlen, ?_⟩
  rcases h3 with ⟨h3, h4⟩ | h3
  · -- the caller has not been released: only its own steps change it
    have hself : ∀ (m : Nat) (a b : Caller), s.callers[m]? = some a → (m = i → (b.prog = .wait :: r ∧ (b.pc = .idle ∨ b.pc = .waiting))) →
        ∃ c', (s.callers.set m b)[i]? = some c' ∧ ((c'.prog = .wait :: r ∧ (c'.pc = .idle ∨ c'.pc = .waiting)) ∨ DoneIn l s') := by
      intro m a b ha hb
      by_cases hmi : m = i
      · subst hmi
        exact ⟨b, List.getElem?_set_self (List.getElem?_eq_some_iff.1 ha).1, Or.inl (hb rfl)⟩
      · exact ⟨c, by rw [List.getElem?_set_ne hmi]; exact h2, Or.inl ⟨h3, h4⟩⟩
    have hkeep : ∃ c', s.callers[i]? = some c' ∧ ((c'.prog = .wait :: r ∧ (c'.pc = .idle ∨ c'.pc = .waiting)) ∨ DoneIn l s') :=
      ⟨c, h2, Or.inl ⟨h3, h4⟩⟩
    have hcontra : ∀ {m : Nat} {a : Caller}, s.callers[m]? = some a → m = i → a = c := by
      rintro m a ha rfl; rw [h2] at ha; exact (Option.some.inj ha).symm
    cases hs with
    | lock m j r' q hc _ =>
      exact hself m _ _ hc (fun hm => by have := hcontra hc hm; subst this; simp at h3)
    | full m p q hc _ => exact hself m _ _ hc (fun hm => by have := hcontra hc hm; subst this; simp at h4)
    | count m p q hc _ => exact hself m _ _ hc (fun hm => by have := hcontra hc hm; subst this; simp at h4)
    | park m p q b hc => exact hself m _ _ hc (fun hm => by have := hcontra hc hm; subst this; simp at h4)
    | relock m p q hc _ => exact hself m _ _ hc (fun hm => by have := hcontra hc hm; subst this; simp at h4)
    | unlock m p q hc => exact hself m _ _ hc (fun hm => by have := hcontra hc hm; subst this; simp at h4)
    | add m p q hc => exact hself m _ _ hc (fun hm => by have := hcontra hc hm; subst this; simp at h4)
    | go m j r' q hc => exact hself m _ _ hc (fun hm => by have := hcontra hc hm; subst this; simp at h4)
    | wait m r' q hc => exact hself m _ _ hc (fun hm => by have := hcontra hc hm; subst this; exact ⟨h3, Or.inr rfl⟩)
    | waitRet m r' q hc => exact hself m _ _ hc (fun hm => by have := hcontra hc hm; subst this; simp at h4)
    | zero m p q hc hz =>
      obtain ⟨c', hc'⟩ := hex
      refine ⟨c', hc', Or.inr ?_⟩
      intro k hk
      exact hi.all_done hz k (by omega)
    | signal w c' q j m cl hw hc hin =>
      refine hself m _ _ hc (fun hm => ?_)
      have := hcontra hc hm; subst this
      rcases h4 with h4 | h4 <;> rw [h4] at hin <;> simp [CPc.inWaitList] at hin
    | _ => exact hkeep
  · obtain ⟨c', hc'⟩ := hex
    exact ⟨c', hc', Or.inr (h3.step hs)⟩

end Gospn
