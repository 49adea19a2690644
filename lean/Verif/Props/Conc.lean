import Verif.Proofs.Conc
/-!
Properties C16 and C17: the concurrency queue, for every interleaving.
-/
namespace Gospn
open Spec

theorem queueSize_pos (n cpu : Int) (h : 0 < cpu) : 0 < queueSize n cpu := by
  unfold queueSize; split <;> omega

theorem QRun.append {s s' s'' : QState} {t t' : List QEvent} (h : QRun s t s') (h' : QRun s' t' s'') : QRun s (t ++ t') s'' := by
  induction h' with
  | nil => simpa using h
  | step _ hs ih => rw [← List.append_assoc]; exact QRun.step ih hs

/-- C16: at every moment of every execution at most `n` submitted functions have started and not ended; the number of places taken stays between 0 and `n`, and
the counter of the wait group stays non-negative. -/
theorem C16_bound (n cpu : Int) (hcpu : 0 < cpu) (progs : List (List QCmd)) (t : List QEvent) (s : QState)
    (h : QRun (QState.init (queueSize n cpu) progs) t s) :
    0 ≤ inFlight t ∧ inFlight t ≤ queueSize n cpu ∧ (0 < n → inFlight t ≤ n) ∧ 0 ≤ s.k ∧ s.k ≤ queueSize n cpu ∧ 0 ≤ s.wg := by
  have hi := QRun.inv (QInv.init (queueSize_pos n cpu hcpu) progs) h
  have h1 := h.inFlight
  have h2 := running_le_counts s.workers
  have h3 := hi.places
  have h4 := hi.bound
  have h5 := hi.size
  have h6 := hi.group
  refine ⟨by omega, by omega, fun hn => ?_, by omega, by omega, by omega⟩
  have : queueSize n cpu = n := by unfold queueSize; split <;> omega
  omega

/-- C16: in every execution no function starts or ends that was not submitted, none starts twice or ends twice, and none ends before it starts; once there
is nothing left to do every submitted function has started and ended exactly once. The id it was called with is the one it was submitted with. -/
theorem C16_exactly_once (n cpu : Int) (progs : List (List QCmd)) (t : List QEvent) (s : QState)
    (h : QRun (QState.init (queueSize n cpu) progs) t s) (c q : Nat) (i : Int) :
    (Submitted progs c q i → t.count (.finish c q i) ≤ t.count (.start c q i) ∧ t.count (.start c q i) ≤ 1) ∧
    (¬ Submitted progs c q i → t.count (.start c q i) = 0 ∧ t.count (.finish c q i) = 0) ∧
    (Finished s → Submitted progs c q i → t.count (.start c q i) = 1 ∧ t.count (.finish c q i) = 1) := by
  have hj := JobInv.run h
  have h1 : wk WPc.hasEnded (c, q, i) s.workers ≤ wk WPc.started (c, q, i) s.workers := by
    unfold wk; apply List.countP_mono_left
    intro w _ hw
    cases hp : w.pc <;> simp_all [WPc.hasEnded, WPc.started]
  have h2 : wk WPc.started (c, q, i) s.workers ≤ wk (fun _ => true) (c, q, i) s.workers := by
    unfold wk; apply List.countP_mono_left
    intro w _ hw; simp at hw ⊢; exact hw.2
  rw [hj.starts, hj.finishes]
  have hcal : ∀ p, progs[c]? = some p → ∃ cl, s.callers[c]? = some cl := by
    intro p hp
    have := (List.getElem?_eq_some_iff.1 hp).1
    have hl := hj.len
    exact ⟨s.callers[c]'(by omega), List.getElem?_eq_getElem _⟩
  refine ⟨?_, ?_, ?_⟩
  · rintro ⟨p, hp, hq⟩
    obtain ⟨cl, hcl⟩ := hcal p hp
    have := hj.jobs c cl hcl p hp q i
    split at this <;> omega
  · intro hno
    have : wk (fun _ => true) (c, q, i) s.workers = 0 := by
      cases hp : progs[c]? with
      | none => exact hj.bad c q i hp
      | some p =>
        obtain ⟨cl, hcl⟩ := hcal p hp
        rw [hj.jobs c cl hcl p hp q i, if_neg]
        rintro ⟨_, hq⟩; exact hno ⟨p, hp, hq⟩
    omega
  · rintro ⟨hf1, hf2⟩ ⟨p, hp, hq⟩
    obtain ⟨cl, hcl⟩ := hcal p hp
    have hend := hj.rest c cl hcl p hp
    rw [hf1 cl (List.mem_of_getElem? hcl)] at hend
    have hlt : q < cl.seq := by
      have h3 : (runIds p).length ≤ cl.seq := by
        have := congrArg List.length hend; simp [runIds] at this; omega
      have := (List.getElem?_eq_some_iff.1 hq).1
      omega
    have hall := hj.jobs c cl hcl p hp q i
    rw [if_pos ⟨hlt, hq⟩] at hall
    have hsame : ∀ P : WPc → Bool, P .done = true → wk P (c, q, i) s.workers = wk (fun _ => true) (c, q, i) s.workers := by
      intro P hP; unfold wk; apply List.countP_congr
      intro w hw; simp [hf2 w hw, hP]
    rw [hsame WPc.started rfl, hsame WPc.hasEnded rfl]; exact ⟨hall, hall⟩

/-- C16: take any moment at which a caller is about to call `Wait`, and any later moment at which that call has returned. Every function whose `Run` call had
returned at the first moment (whoever made the call) has ended at the second. -/
theorem C16_wait (n cpu : Int) (hcpu : 0 < cpu) (progs : List (List QCmd)) (t t' : List QEvent) (s s' : QState)
    (h : QRun (QState.init (queueSize n cpu) progs) t s) (m : Nat) (r : List QCmd) (k : Nat) (hw : s.callers[m]? = some ⟨.wait :: r, .idle, k⟩)
    (h' : QRun s t' s') (c' : Caller) (hret : s'.callers[m]? = some c') (hlen : c'.prog.length ≤ r.length)
    (c q : Nat) (i : Int) (hsub : Submitted progs c q i) (cl : Caller) (hcl : s.callers[c]? = some cl) (hq : q < cl.seq) :
    (t ++ t').count (.finish c q i) = 1 := by
  have hi := QRun.inv (QInv.init (queueSize_pos n cpu hcpu) progs) h
  have hj := JobInv.run h
  have hwi : QInv (queueSize n cpu) s' ∧ WaitInv m r s.workers.length s' := by
    clear hret hlen
    induction h' with
    | nil => exact ⟨hi, Nat.le_refl _, _, hw, Or.inl ⟨rfl, Or.inl rfl⟩⟩
    | step _ hs ih =>
      obtain ⟨g1, g2⟩ := ih
      exact ⟨hs.inv g1, g2.step g1 hs⟩
  have hkeep : ∀ (j : Nat) (w : Worker), s.workers[j]? = some w → ∃ pc, s'.workers[j]? = some { w with pc := pc } := by
    clear hret hlen hwi
    induction h' with
    | nil => intro j w hjw; exact ⟨w.pc, hjw⟩
    | step _ hs ih =>
      intro j w hjw
      obtain ⟨pc, hpc⟩ := ih j w hjw
      obtain ⟨pc', hpc'⟩ := (hs.workers j).1 _ hpc
      exact ⟨pc', hpc'⟩
  obtain ⟨_, _, c1, hc1, hdone⟩ := hwi
  rw [hret] at hc1
  have hc1' := Option.some.inj hc1
  subst hc1'
  have hdone' : DoneIn s.workers.length s' := by
    rcases hdone with ⟨h1, _⟩ | h1
    · rw [h1] at hlen; simp at hlen; omega
    · exact h1
  obtain ⟨p, hp, hpq⟩ := hsub
  have hone := hj.jobs c cl hcl p hp q i
  rw [if_pos ⟨hq, hpq⟩] at hone
  have hpos : 0 < wk (fun _ => true) (c, q, i) s.workers := by omega
  obtain ⟨w, hwm, hwk⟩ := List.countP_pos_iff.1 hpos
  obtain ⟨j, hjlt, hjget⟩ := List.getElem_of_mem hwm
  obtain ⟨w', hw', hd⟩ := hdone' j hjlt
  obtain ⟨pc, hpc⟩ := hkeep j w (by rw [List.getElem?_eq_getElem hjlt, hjget])
  rw [hw'] at hpc
  have hw'e := Option.some.inj hpc
  have hrun := h.append h'
  have hj' := JobInv.run hrun
  have hpos' : 0 < wk WPc.hasEnded (c, q, i) s'.workers := by
    apply List.countP_pos_iff.2
    refine ⟨w', List.mem_of_getElem? hw', ?_⟩
    have hk : w'.key = w.key := by rw [hw'e]; rfl
    simp only [Bool.true_and] at hwk
    rw [hd, hk]; simpa [WPc.hasEnded] using hwk
  have hle := (C16_exactly_once n cpu progs (t ++ t') s' hrun c q i).1 ⟨p, hp, hpq⟩
  have := hj'.finishes c q i
  omega

/-- C17: in every reachable state in which some call has not returned or some goroutine has not ended, some goroutine can take a step. -/
theorem C17_no_deadlock (n cpu : Int) (hcpu : 0 < cpu) (progs : List (List QCmd)) (t : List QEvent) (s : QState)
    (h : QRun (QState.init (queueSize n cpu) progs) t s) (hf : ¬ Finished s) : ∃ e s', QStep s e s' :=
  (QRun.inv (QInv.init (queueSize_pos n cpu hcpu) progs) h).progress (queueSize_pos n cpu hcpu) hf

/-- C17: there is no infinite execution, and an execution that cannot be continued has all calls returned and all goroutines ended (no fairness needed: waiting
goroutines are only woken by a `Signal`, and every worker signals once). -/
theorem C17_terminates (n cpu : Int) (hcpu : 0 < cpu) (progs : List (List QCmd)) :
    (¬ ∃ f : Nat → QState, f 0 = QState.init (queueSize n cpu) progs ∧ ∀ i, ∃ e, QStep (f i) e (f (i + 1))) ∧
    (∀ t s, QRun (QState.init (queueSize n cpu) progs) t s → (∀ e s', ¬ QStep s e s') → Finished s) ∧
    (∀ t s, QRun (QState.init (queueSize n cpu) progs) t s → ∃ t' s', QRun s t' s' ∧ Finished s') := by
  refine ⟨?_, ?_, ?_⟩
  · rintro ⟨f, _, hf⟩
    have : ∀ i, (f i).cost + i ≤ (f 0).cost := by
      intro i
      induction i with
      | zero => simp
      | succ i ih => obtain ⟨e, he⟩ := hf i; have := he.cost; omega
    have := this ((f 0).cost + 1)
    omega
  · intro t s h hno
    by_contra hf
    obtain ⟨e, s', hs⟩ := C17_no_deadlock n cpu hcpu progs t s h hf
    exact hno e s' hs
  · intro t s h
    generalize hc : s.cost = k
    induction k using Nat.strongRecOn generalizing s t with
    | ind k ih =>
      by_cases hf : Finished s
      · exact ⟨[], s, QRun.nil s, hf⟩
      · obtain ⟨e, s', hs⟩ := C17_no_deadlock n cpu hcpu progs t s h hf
        obtain ⟨t', s'', h1, h2⟩ := ih s'.cost (by rw [← hc]; exact hs.cost) _ s' (QRun.step h hs) rfl
        have h3 : QRun s ([] ++ e.toList) s' := QRun.step (QRun.nil s) hs
        exact ⟨_, s'', h3.append h1, h2⟩

/-- A caller has submitted a function that has not started and is about to wait; its call of `Wait` returns in some execution. -/
example : ∃ t s t' s' c', QRun (QState.init (queueSize 1 4) [[.run 7, .wait]]) t s ∧ s.callers[0]? = some ⟨[.wait], .idle, 1⟩ ∧ QRun s t' s' ∧
    s'.callers[0]? = some c' ∧ c'.prog.length ≤ 0 ∧ Submitted [[.run 7, .wait]] 0 0 7 ∧ t = [] := by
  have h1 := QRun.nil (QState.init (queueSize 1 4) [[.run 7, .wait]])
  have h2 := QRun.step h1 (QStep.lock _ 0 7 [.wait] 0 rfl rfl)
  have h3 := QRun.step h2 (QStep.count _ 0 [.run 7, .wait] 0 rfl (by decide))
  have h4 := QRun.step h3 (QStep.unlock _ 0 [.run 7, .wait] 0 rfl)
  have h5 := QRun.step h4 (QStep.add _ 0 [.run 7, .wait] 0 rfl)
  have h6 := QRun.step h5 (QStep.go _ 0 7 [.wait] 0 rfl)
  obtain ⟨t', s', h7, h8⟩ := (C17_terminates 1 4 (by decide) [[.run 7, .wait]]).2.2 _ _ h6
  have hlen : s'.callers.length = 1 := (JobInv.run (h6.append h7)).len
  have hget : s'.callers[0]? = some s'.callers[0] := List.getElem?_eq_getElem _
  refine ⟨_, _, t', s', s'.callers[0], h6, rfl, h7, hget, ?_, ⟨[.run 7, .wait], rfl, rfl⟩, rfl⟩
  rw [h8.1 _ (List.getElem_mem _)]; simp

end Gospn
