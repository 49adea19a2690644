import Verif.Model.Collections
import Verif.Spec.Collections
/- Helper lemmas for queues and stacks. -/
namespace Gospn
variable {α : Type}

@[simp] theorem Queue.maybeShrink_data (q : Queue α) : q.maybeShrink.data = q.data := by
  unfold Queue.maybeShrink Queue.shrink; split <;> rfl

@[simp] theorem Stack.maybeShrink_data (q : Stack α) : q.maybeShrink.data = q.data := by
  unfold Stack.maybeShrink Stack.shrink; split <;> rfl

theorem Queue.invertLoop_eq (v : List α) : ∀ (i : Nat) (l : List α), l.length = i + v.length →
    Queue.invertLoop l i v = v.reverse ++ l.drop v.length := by
  induction v with
  | nil => intro i l _; simp [Queue.invertLoop]
  | cons a v ih =>
    intro i l h1
    simp only [List.length_cons] at h1
    have hlen : l.length - i - 1 = v.length := by omega
    rw [Queue.invertLoop, hlen, ih (i+1) _ (by simp; omega)]
    have hlt : v.length < l.length := by omega
    have : (l.set v.length a).drop v.length = a :: l.drop (v.length + 1) := by
      rw [List.set_eq_take_append_cons_drop, if_pos hlt, List.drop_append_of_le_length (by simp; omega)]
      simp
    rw [this]; simp

theorem Queue.invertLoop_data (l : List α) : Queue.invertLoop l 0 l = l.reverse := by
  rw [Queue.invertLoop_eq l 0 l (by simp)]; simp

theorem getLast?_take_cases (l : List α) :
    (l = [] ∧ l.getLast? = none) ∨ ∃ e r, l.reverse = e :: r ∧ l.getLast? = some e ∧ l.take (l.length - 1) = r.reverse := by
  rcases l.eq_nil_or_concat with rfl | ⟨r, e, rfl⟩
  · left; simp
  · right; exact ⟨e, r.reverse, by simp, by simp, by simp⟩

/-- A queue answers like its data list: one step, all operations except `DequeueBack`. -/
theorem Queue.step_refines (q : Queue α) (op : CollOp α) (h : op ≠ .takeBack) :
    (q.step op).map (fun r => (r.1.data, r.2)) = Spec.fifoStep q.data op := by
  cases op with
  | give e => rfl
  | take =>
    simp only [Queue.step, Queue.take, Queue.dequeue, Spec.fifoStep]
    cases q.data <;> simp
  | takeBack => exact absurd rfl h
  | peek => simp only [Queue.step, Queue.peek, Spec.fifoStep]; cases hd : q.data <;> simp [hd]
  | get i =>
    simp only [Queue.step, Queue.get, Spec.fifoStep]
    by_cases h0 : i < 0
    · simp [h0, show ¬ (0 ≤ i) by omega]
    · by_cases h1 : i.toNat < q.data.length
      · simp [h0, h1, show 0 ≤ i by omega]
      · rw [dif_neg (by omega), if_neg h0, List.getElem?_eq_none (by omega)]; rfl
  | size => rfl
  | empty => simp only [Queue.step, Queue.isEmpty, Spec.fifoStep]; cases hd : q.data <;> simp [hd]
  | shrink => rfl
  | reset => rfl
  | invert => simp [Queue.step, Queue.invert, Spec.fifoStep, Queue.invertLoop_data]

/-- A stack answers like its data list read backwards: one step, all operations. -/
theorem Stack.step_refines (s : Stack α) (op : CollOp α) :
    (s.step op).map (fun r => (r.1.data.reverse, r.2)) = Spec.lifoStep s.data.reverse op := by
  cases op with
  | give e => simp [Stack.step, Stack.give, Stack.push, Spec.lifoStep]
  | take =>
    simp only [Stack.step, Stack.take, Stack.pop, Spec.lifoStep]
    rcases getLast?_take_cases s.data with ⟨h, h'⟩ | ⟨e, r, h1, h2, h3⟩
    · simp [h]
    · simp [h1, h2, h3]
  | takeBack => rfl
  | peek =>
    simp only [Stack.step, Stack.peek, Spec.lifoStep]
    rcases getLast?_take_cases s.data with ⟨h, h'⟩ | ⟨e, r, h1, h2, h3⟩
    · simp [h]
    · simp [h1, h2]
  | get i =>
    simp only [Stack.step, Stack.get, Spec.lifoStep]
    by_cases h0 : i < 0
    · simp [h0, show ¬ (0 ≤ i) by omega]
    · by_cases h1 : i.toNat < s.data.length
      · simp [h0, h1, show 0 ≤ i by omega]
      · rw [dif_neg (by simp; omega), if_neg h0, List.getElem?_eq_none (by omega)]; rfl
  | size => simp [Stack.step, Stack.size, Spec.lifoStep]
  | empty => simp only [Stack.step, Stack.isEmpty, Spec.lifoStep]; cases hd : s.data <;> simp [hd]
  | shrink => simp [Stack.step, Stack.shrink, Spec.lifoStep]
  | reset => simp [Stack.step, Stack.reset, Spec.lifoStep]
  | invert => simp [Stack.step, Stack.invert, Spec.lifoStep, Queue.invertLoop_data]

/-- Lifting one-step agreement to histories. -/
theorem history_refines {σ τ ω ο : Type} (abs : σ → τ) (step : σ → ω → Option (σ × ο)) (sstep : τ → ω → Option (τ × ο))
    (good : ω → Prop) (h : ∀ s op, good op → (step s op).map (fun r => (abs r.1, r.2)) = sstep (abs s) op) :
    ∀ (ops : List ω) (s : σ), (∀ op ∈ ops, good op) →
      (runOps step s ops).map (fun r => r.2) = Spec.history sstep (abs s) ops := by
  intro ops
  induction ops with
  | nil => intro s _; rfl
  | cons op ops ih =>
    intro s hg
    have h1 := h s op (hg op (by simp))
    rw [Spec.history, ← h1, runOps]
    cases hs : step s op with
    | none => simp
    | some r =>
      obtain ⟨s', o⟩ := r
      have h2 := ih s' (fun op' hm => hg op' (by simp [hm]))
      simp only [Option.map_some, Option.bind_eq_bind, Option.bind_some]
      rw [← h2]
      cases runOps step s' ops <;> simp

end Gospn
