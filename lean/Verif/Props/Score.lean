/-
Theorems about score tables: C47, C48, score/score.go.
-/
import Verif.Proofs.Score
import Mathlib.Algebra.BigOperators.Group.List.Basic

set_option linter.unusedSectionVars false
set_option linter.unusedSimpArgs false

namespace Gospn
open Spec

/-- The counters of every score are those of its list of predictions. -/
def CountsAre (m : ScoreMem) (A : List (List Pair)) : Prop :=
  m.objs.length = A.length ∧ ∀ (s : Nat) (o : ScoreObj) (l : List Pair), m.objs[s]? = some o → A[s]? = some l →
    o.hits = rightOnes l ∧ o.misses = wrongOnes l ∧ o.total = l.length

/-- The predictions stored by every score are its list of predictions. -/
def PredsAre (m : ScoreMem) (A : List (List Pair)) : Prop :=
  m.objs.length = A.length ∧ ∀ (s : Nat) (l : List Pair), A[s]? = some l → m.preds s = l

theorem rightOnes_append (l k : List Pair) : rightOnes (l ++ k) = rightOnes l + rightOnes k := List.countP_append
theorem wrongOnes_append (l k : List Pair) : wrongOnes (l ++ k) = wrongOnes l + wrongOnes k := List.countP_append

theorem CountsAre.get {m : ScoreMem} {A : List (List Pair)} (h : CountsAre m A) (s : Nat) :
    (m.objs[s]? = none ∧ A[s]? = none) ∨ ∃ o l, m.objs[s]? = some o ∧ A[s]? = some l ∧ o.hits = rightOnes l ∧ o.misses = wrongOnes l ∧ o.total = l.length := by
  by_cases hs : s < A.length
  · have hs' : s < m.objs.length := by rw [h.1]; exact hs
    exact Or.inr ⟨_, _, List.getElem?_eq_getElem hs', List.getElem?_eq_getElem hs, h.2 s _ _ (List.getElem?_eq_getElem hs') (List.getElem?_eq_getElem hs)⟩
  · have hs' : ¬ s < m.objs.length := by rw [h.1]; exact hs
    exact Or.inl ⟨List.getElem?_eq_none (by omega), List.getElem?_eq_none (by omega)⟩

theorem CountsAre.setOne {m : ScoreMem} {A : List (List Pair)} (h : CountsAre m A) (arrs : Arrays) (s : Nat) (o : ScoreObj) (l : List Pair)
    (ho : o.hits = rightOnes l ∧ o.misses = wrongOnes l ∧ o.total = l.length) : CountsAre ⟨arrs, m.objs.set s o⟩ (A.set s l) := by
  refine ⟨by simp [h.1], ?_⟩
  intro u o' l' h1 h2
  simp only at h1
  rw [List.getElem?_set] at h1 h2
  split at h1
  · rename_i e
    rw [if_pos e] at h2
    split at h1
    · split at h2
      · cases h1; cases h2; exact ho
      · cases h2
    · cases h1
  · rename_i e
    rw [if_neg e] at h2
    exact h.2 u o' l' h1 h2

theorem CountsAre.addOne {m : ScoreMem} {A : List (List Pair)} (h : CountsAre m A) (arrs : Arrays) (o : ScoreObj) (l : List Pair)
    (ho : o.hits = rightOnes l ∧ o.misses = wrongOnes l ∧ o.total = l.length) : CountsAre ⟨arrs, m.objs ++ [o]⟩ (A ++ [l]) := by
  refine ⟨by simp [h.1], ?_⟩
  intro u o' l' h1 h2
  simp only at h1
  by_cases hu : u < A.length
  · rw [List.getElem?_append_left (by rw [h.1]; exact hu)] at h1
    rw [List.getElem?_append_left hu] at h2
    exact h.2 u o' l' h1 h2
  · rw [List.getElem?_append_right (by rw [h.1]; omega)] at h1
    rw [List.getElem?_append_right (by omega)] at h2
    have e : u - A.length = 0 := by
      have := (List.getElem?_eq_some_iff.1 h2).1
      simpa using this
    rw [h.1, e] at h1
    rw [e] at h2
    simp only [List.getElem?_cons_zero, Option.some.injEq] at h1 h2
    rw [← h1, ← h2]
    exact ho

theorem CountsAre.step {m : ScoreMem} {A : List (List Pair)} (h : CountsAre m A) (grow : Nat → Nat → Nat) (op : ScoreOp) :
    (m.step grow op = none ∧ scoreStep A op = none) ∨ ∃ m' A', m.step grow op = some m' ∧ scoreStep A op = some A' ∧ CountsAre m' A' := by
  cases op with
  | new => exact Or.inr ⟨_, _, rfl, rfl, h.addOne _ _ _ (by simp [rightOnes, wrongOnes])⟩
  | register s p e =>
    rcases h.get s with ⟨h1, h2⟩ | ⟨o, l, h1, h2, h3, h4, h5⟩
    · exact Or.inl ⟨by simp [ScoreMem.step, ScoreMem.register, h1], by simp [scoreStep, h2]⟩
    · simp only [ScoreMem.step, ScoreMem.register, h1, Option.map_some, scoreStep, h2, Option.map_some]
      refine Or.inr ⟨_, _, rfl, rfl, h.setOne _ _ _ _ ?_⟩
      rw [rightOnes_append, wrongOnes_append]
      by_cases hpe : p = e
      · simp [hpe, rightOnes, wrongOnes, h5] at h3 h4 ⊢
        exact ⟨h3, h4⟩
      · simp [hpe, rightOnes, wrongOnes, h5] at h3 h4 ⊢
        exact ⟨h3, h4⟩
  | merge s t =>
    rcases h.get s with ⟨h1, h2⟩ | ⟨o, l, h1, h2, h3, h4, h5⟩
    · exact Or.inl ⟨by simp [ScoreMem.step, ScoreMem.merge, h1], by simp [scoreStep, h2]⟩
    · rcases h.get t with ⟨k1, k2⟩ | ⟨o', l', k1, k2, k3, k4, k5⟩
      · exact Or.inl ⟨by simp [ScoreMem.step, ScoreMem.merge, h1, k1], by simp [scoreStep, h2, k2]⟩
      · simp only [ScoreMem.step, ScoreMem.merge, h1, k1, Option.map_some, Option.bind_some, scoreStep, h2, k2, Option.map_some, Option.bind_some]
        refine Or.inr ⟨_, _, rfl, rfl, h.setOne _ _ _ _ ?_⟩
        rw [rightOnes_append, wrongOnes_append, List.length_append]
        simp only
        omega
  | add s t =>
    rcases h.get s with ⟨h1, h2⟩ | ⟨o, l, h1, h2, h3, h4, h5⟩
    · exact Or.inl ⟨by simp [ScoreMem.step, ScoreMem.add, h1], by simp [scoreStep, h2]⟩
    · rcases h.get t with ⟨k1, k2⟩ | ⟨o', l', k1, k2, k3, k4, k5⟩
      · exact Or.inl ⟨by simp [ScoreMem.step, ScoreMem.add, h1, k1], by simp [scoreStep, h2, k2]⟩
      · simp only [ScoreMem.step, ScoreMem.add, h1, k1, Option.map_some, Option.bind_some, scoreStep, h2, k2, Option.map_some, Option.bind_some]
        refine Or.inr ⟨_, _, rfl, rfl, h.addOne _ _ _ ?_⟩
        rw [rightOnes_append, wrongOnes_append, List.length_append]
        simp only
        omega
  | clear s =>
    rcases h.get s with ⟨h1, h2⟩ | ⟨o, l, h1, h2, _⟩
    · exact Or.inl ⟨by simp [ScoreMem.step, ScoreMem.clear, h1], by simp [scoreStep, h2]⟩
    · simp only [ScoreMem.step, ScoreMem.clear, h1, scoreStep, h2, Option.map_some]
      exact Or.inr ⟨_, _, rfl, rfl, h.setOne _ _ _ _ (by simp [rightOnes, wrongOnes])⟩

theorem CountsAre.run {grow : Nat → Nat → Nat → Nat} : ∀ (ops : List ScoreOp) (t : Nat) (m : ScoreMem) (A : List (List Pair)), CountsAre m A →
    (ScoreMem.run grow t m ops = none ∧ scoreRun A ops = none) ∨ ∃ m' A', ScoreMem.run grow t m ops = some m' ∧ scoreRun A ops = some A' ∧ CountsAre m' A' := by
  intro ops
  induction ops with
  | nil => intro t m A h; exact Or.inr ⟨m, A, rfl, rfl, h⟩
  | cons op ops ih =>
    intro t m A h
    rcases h.step (grow t) op with ⟨h1, h2⟩ | ⟨m', A', h1, h2, h3⟩
    · exact Or.inl ⟨by simp [ScoreMem.run, h1], by simp [scoreRun, h2]⟩
    · simp only [ScoreMem.run, h1, scoreRun, h2, Option.bind_some]
      exact ih (t + 1) m' A' h3

/-- C47, counters: after any history of calls, `Add` included, the counters of every score are the numbers of its right, wrong and all predictions.
A history fails exactly if it uses a score that does not exist. -/
theorem C47_counts (grow : Nat → Nat → Nat → Nat) (ops : List ScoreOp) :
    (ScoreMem.run grow 0 ScoreMem.start ops = none ∧ scoreRun [] ops = none) ∨
    ∃ m A, ScoreMem.run grow 0 ScoreMem.start ops = some m ∧ scoreRun [] ops = some A ∧ CountsAre m A :=
  CountsAre.run ops 0 _ _ ⟨rfl, by intro s o l h; simp [ScoreMem.start] at h⟩

/-! ### The stored predictions -/

/-- Every `Add` of the history has a first operand without spare capacity at the time of the call. -/
def AddsFull (grow : Nat → Nat → Nat → Nat) : Nat → ScoreMem → List ScoreOp → Prop
  | _, _, [] => True
  | t, m, op :: ops =>
    (∀ s u, op = .add s u → ∀ o, m.objs[s]? = some o → (readSlice m.arrs o.preds).length = sliceCap m.arrs o.preds) ∧
    ∀ m', m.step (grow t) op = some m' → AddsFull grow (t + 1) m' ops

structure ScoreInv (m : ScoreMem) (A : List (List Pair)) : Prop where
  safe : Safe m.arrs (m.objs.map ScoreObj.preds)
  len : m.objs.length = A.length
  reads : ∀ (s : Nat) (o : ScoreObj) (l : List Pair), m.objs[s]? = some o → A[s]? = some l → readSlice m.arrs o.preds = l

theorem ScoreInv.get {m : ScoreMem} {A : List (List Pair)} (h : ScoreInv m A) {s : Nat} {o : ScoreObj} (ho : m.objs[s]? = some o) :
    A[s]? = some (readSlice m.arrs o.preds) ∧ (m.objs.map ScoreObj.preds)[s]? = some o.preds := by
  have hs : s < A.length := by rw [← h.len]; exact (List.getElem?_eq_some_iff.1 ho).1
  refine ⟨?_, by simp [ho]⟩
  rw [List.getElem?_eq_getElem hs, h.reads s o _ ho (List.getElem?_eq_getElem hs)]

theorem ScoreInv.setOne {m : ScoreMem} {A : List (List Pair)} (h : ScoreInv m A) (grow : Nat → Nat → Nat) {s : Nat} {o : ScoreObj} (ho : m.objs[s]? = some o) (xs : List Pair)
    (o' : ScoreObj) (ho' : o'.preds = (goAppend grow m.arrs o.preds xs).2) :
    ScoreInv ⟨(goAppend grow m.arrs o.preds xs).1, m.objs.set s o'⟩ (A.set s (readSlice m.arrs o.preds ++ xs)) := by
  obtain ⟨g1, g2, g3⟩ := h.safe.append grow (h.get ho).2 xs
  refine ⟨by simpa [List.map_set, ho'] using g1, by simp [h.len], ?_⟩
  intro u p l h1 h2
  simp only at h1
  rw [List.getElem?_set] at h1 h2
  split at h1
  · rename_i e
    rw [if_pos e] at h2
    split at h1
    · split at h2
      · cases h1; cases h2
        simp only
        rw [ho', g2]
      · cases h2
    · cases h1
  · rename_i e
    rw [if_neg e] at h2
    rw [g3 u p.preds (Ne.symm e) (by simp [h1])]
    exact h.reads u p l h1 h2

theorem ScoreInv.addOne {m : ScoreMem} {A : List (List Pair)} (h : ScoreInv m A) (arrs : Arrays) (o' : ScoreObj) (l' : List Pair)
    (hs : Safe arrs (m.objs.map ScoreObj.preds ++ [o'.preds])) (hr : readSlice arrs o'.preds = l')
    (hk : ∀ (j : Nat) (t : PSlice), (m.objs.map ScoreObj.preds)[j]? = some t → readSlice arrs t = readSlice m.arrs t) :
    ScoreInv ⟨arrs, m.objs ++ [o']⟩ (A ++ [l']) := by
  refine ⟨by simpa using hs, by simp [h.len], ?_⟩
  intro u p l h1 h2
  simp only at h1
  by_cases hu : u < A.length
  · rw [List.getElem?_append_left (by rw [h.len]; exact hu)] at h1
    rw [List.getElem?_append_left hu] at h2
    simp only
    rw [hk u p.preds (by simp [h1])]
    exact h.reads u p l h1 h2
  · rw [List.getElem?_append_right (by rw [h.len]; omega)] at h1
    rw [List.getElem?_append_right (by omega)] at h2
    have e : u - A.length = 0 := by
      have := (List.getElem?_eq_some_iff.1 h2).1
      simpa using this
    rw [h.len, e] at h1
    rw [e] at h2
    simp only [List.getElem?_cons_zero, Option.some.injEq] at h1 h2
    rw [← h1, ← h2]
    exact hr

theorem ScoreInv.step {m m' : ScoreMem} {A : List (List Pair)} (h : ScoreInv m A) (grow : Nat → Nat → Nat) (op : ScoreOp)
    (hf : ∀ s u, op = .add s u → ∀ o, m.objs[s]? = some o → (readSlice m.arrs o.preds).length = sliceCap m.arrs o.preds)
    (hstep : m.step grow op = some m') : ∃ A', scoreStep A op = some A' ∧ ScoreInv m' A' := by
  cases op with
  | new =>
    simp only [ScoreMem.step, Option.some.injEq] at hstep
    subst hstep
    exact ⟨_, rfl, h.addOne _ _ _ h.safe.new rfl fun _ _ _ => rfl⟩
  | register s p e =>
    simp only [ScoreMem.step, ScoreMem.register, Option.map_eq_some_iff] at hstep
    obtain ⟨o, ho, rfl⟩ := hstep
    refine ⟨A.set s (readSlice m.arrs o.preds ++ [⟨p, e⟩]), by simp only [scoreStep, (h.get ho).1, Option.map_some], ?_⟩
    have e1 : (if p = e then { o with hits := o.hits + 1 } else { o with misses := o.misses + 1 } : ScoreObj).preds = o.preds := by split <;> rfl
    rw [e1]
    exact h.setOne grow ho _ _ rfl
  | merge s t =>
    simp only [ScoreMem.step, ScoreMem.merge, Option.bind_eq_some_iff, Option.map_eq_some_iff] at hstep
    obtain ⟨o, ho, p, hp, rfl⟩ := hstep
    refine ⟨A.set s (readSlice m.arrs o.preds ++ readSlice m.arrs p.preds), by simp only [scoreStep, (h.get ho).1, (h.get hp).1, Option.map_some, Option.bind_some], ?_⟩
    exact h.setOne grow ho _ _ rfl
  | add s t =>
    simp only [ScoreMem.step, ScoreMem.add, Option.bind_eq_some_iff, Option.map_eq_some_iff] at hstep
    obtain ⟨o, ho, p, hp, rfl⟩ := hstep
    refine ⟨A ++ [readSlice m.arrs o.preds ++ readSlice m.arrs p.preds], by simp only [scoreStep, (h.get ho).1, (h.get hp).1, Option.map_some, Option.bind_some], ?_⟩
    obtain ⟨g1, g2, g3⟩ := h.safe.appendNew grow (h.get ho).2 (hf s t rfl o ho) (readSlice m.arrs p.preds)
    exact h.addOne _ _ _ g1 g2 g3
  | clear s =>
    simp only [ScoreMem.step, ScoreMem.clear, Option.map_eq_some_iff] at hstep
    obtain ⟨o, ho, rfl⟩ := hstep
    refine ⟨A.set s [], by simp only [scoreStep, (h.get ho).1, Option.map_some], ?_⟩
    refine ⟨by simpa [List.map_set] using h.safe.clear s, by simp [h.len], ?_⟩
    intro u p l h1 h2
    simp only at h1
    rw [List.getElem?_set] at h1 h2
    split at h1
    · rename_i e
      rw [if_pos e] at h2
      split at h1
      · split at h2
        · cases h1; cases h2; rfl
        · cases h2
      · cases h1
    · rename_i e
      rw [if_neg e] at h2
      exact h.reads u p l h1 h2

theorem ScoreInv.run {grow : Nat → Nat → Nat → Nat} : ∀ (ops : List ScoreOp) (t : Nat) (m m' : ScoreMem) (A : List (List Pair)), ScoreInv m A → AddsFull grow t m ops →
    ScoreMem.run grow t m ops = some m' → ∃ A', scoreRun A ops = some A' ∧ ScoreInv m' A' := by
  intro ops
  induction ops with
  | nil =>
    intro t m m' A h _ hr
    simp only [ScoreMem.run, Option.some.injEq] at hr
    subst hr
    exact ⟨A, rfl, h⟩
  | cons op ops ih =>
    intro t m m' A h hf hr
    simp only [ScoreMem.run, Option.bind_eq_some_iff] at hr
    obtain ⟨m1, h1, h2⟩ := hr
    obtain ⟨A1, k1, k2⟩ := h.step (grow t) op hf.1 h1
    obtain ⟨A2, k3, k4⟩ := ih (t + 1) m1 m' A1 k2 (hf.2 m1 h1) h2
    exact ⟨A2, by simp only [scoreRun, k1, Option.bind_some, k3], k4⟩

theorem ScoreInv.preds {m : ScoreMem} {A : List (List Pair)} (h : ScoreInv m A) : PredsAre m A := by
  refine ⟨h.len, fun s l hl => ?_⟩
  have hs : s < m.objs.length := by rw [h.len]; exact (List.getElem?_eq_some_iff.1 hl).1
  unfold ScoreMem.preds
  rw [List.getElem?_eq_getElem hs]
  exact h.reads s _ l (List.getElem?_eq_getElem hs) hl

theorem ScoreInv.start : ScoreInv ScoreMem.start [] :=
  ⟨⟨by intro i s h; simp [ScoreMem.start] at h, by intro i j s t _ h; simp [ScoreMem.start] at h⟩, rfl, by intro s o l h; simp [ScoreMem.start] at h⟩

/-- C48, part: in every history in which no `Add` has a first operand with spare capacity, the scores behave as if each had its own list of predictions, whatever
comes before and after the `Add`: the operands are left as they were and the result stays independent.
Missing: first operands with spare capacity (`C48_refuted`). -/
theorem C48_add_partial (grow : Nat → Nat → Nat → Nat) (ops : List ScoreOp) (hf : AddsFull grow 0 ScoreMem.start ops) (m : ScoreMem)
    (hr : ScoreMem.run grow 0 ScoreMem.start ops = some m) : ∃ A, scoreRun [] ops = some A ∧ CountsAre m A ∧ PredsAre m A := by
  obtain ⟨A, h1, h2⟩ := ScoreInv.run ops 0 _ _ _ ScoreInv.start hf hr
  rcases C47_counts grow ops with ⟨h3, _⟩ | ⟨m', A', h3, h4, h5⟩
  · rw [hr] at h3; cases h3
  · rw [hr] at h3
    rw [h1] at h4
    cases h3
    cases h4
    exact ⟨A, h1, h5, h2.preds⟩

/-- C47, predictions: after any history of `NewScore`, `Register`, `Merge` and `Clear` every score stores exactly the predictions it was given, in order. -/
theorem C47_predictions (grow : Nat → Nat → Nat → Nat) (ops : List ScoreOp) (hf : ∀ s t, ScoreOp.add s t ∉ ops) (m : ScoreMem)
    (hr : ScoreMem.run grow 0 ScoreMem.start ops = some m) : ∃ A, scoreRun [] ops = some A ∧ CountsAre m A ∧ PredsAre m A := by
  refine C48_add_partial grow ops ?_ m hr
  have : ∀ (ops : List ScoreOp) (t : Nat) (m : ScoreMem), (∀ s t, ScoreOp.add s t ∉ ops) → AddsFull grow t m ops := by
    intro ops
    induction ops with
    | nil => intro _ _ _; trivial
    | cons op ops ih =>
      intro t m h
      refine ⟨fun s u he => absurd (by simp [he]) (h s u), fun m' _ => ih _ _ fun s u hm => h s u (by simp [hm])⟩
  exact this ops 0 _ hf

/-! ### The confusion matrix -/

theorem confusionStep_spec (c : Nat) (f : Nat → Nat → Int) (p : Pair) (h1 : 0 ≤ p.expected ∧ p.expected < c) (h2 : 0 ≤ p.predicted ∧ p.predicted < c) :
    confusionStep ((List.range c).map fun e => (List.range c).map fun q => f e q) p =
      some ((List.range c).map fun e => (List.range c).map fun q => f e q + if p = ⟨q, e⟩ then 1 else 0) := by
  obtain ⟨q, e⟩ := p
  obtain ⟨q', rfl⟩ := Int.eq_ofNat_of_zero_le h2.1
  obtain ⟨e', rfl⟩ := Int.eq_ofNat_of_zero_le h1.1
  simp only at h1 h2
  have hq : q' < c := by omega
  have he : e' < c := by omega
  have r1 : goIdx ((List.range c).map fun e => (List.range c).map fun q => f e q) (e' : Int) = some ((List.range c).map fun q => f e' q) := by
    simp [goIdx, he]
  have r2 : goIdx ((List.range c).map fun q => f e' q) (q' : Int) = some (f e' q') := by simp [goIdx, hq]
  unfold confusionStep
  simp only [r1, r2, Option.bind_some]
  rw [goSet_nat _ _ _ (by simpa using hq), range_map_set]
  simp only [Option.bind_some]
  rw [goSet_nat _ _ _ (by simpa using he), range_map_set]
  congr 1
  apply List.map_congr_left
  intro a _
  by_cases ha : a = e'
  · subst ha
    rw [if_pos rfl]
    apply List.map_congr_left
    intro b _
    by_cases hb : b = q'
    · subst hb; simp
    · have : ¬ (q' : Int) = b := by omega
      simp [hb, this]
  · rw [if_neg ha]
    apply List.map_congr_left
    intro b _
    have : ¬ (e' : Int) = a := by omega
    simp [this]

theorem confusion_fold (c : Nat) : ∀ (preds : List Pair) (f : Nat → Nat → Int), (∀ p ∈ preds, (0 ≤ p.expected ∧ p.expected < c) ∧ 0 ≤ p.predicted ∧ p.predicted < c) →
    preds.foldlM confusionStep ((List.range c).map fun e => (List.range c).map fun q => f e q) =
      some ((List.range c).map fun e => (List.range c).map fun q => f e q + (preds.count ⟨q, e⟩ : Nat)) := by
  intro preds
  induction preds with
  | nil => intro f _; simp
  | cons p preds ih =>
    intro f h
    rw [List.foldlM_cons, confusionStep_spec c f p (h p (by simp)).1 (h p (by simp)).2]
    simp only [bind, Option.bind_some]
    refine (ih _ fun q hq => h q (by simp [hq])).trans ?_
    congr 1
    apply List.map_congr_left
    intro e _
    apply List.map_congr_left
    intro q _
    rw [List.count_cons]
    simp only [beq_iff_eq]
    split <;> push_cast <;> omega

theorem sum_range_ite (c : Nat) (k : Nat) (v : Int) : ((List.range c).map fun i => if k = i then v else 0).sum = if k < c then v else 0 := by
  induction c with
  | zero => simp
  | succ c ih =>
    rw [List.range_succ, List.map_append, List.sum_append, ih]
    by_cases h : k < c
    · have : ¬ k = c := by omega
      have : k < c + 1 := by omega
      simp [*]
    · by_cases h' : k = c
      · subst h'; simp
      · have : ¬ k < c + 1 := by omega
        simp [*]

theorem sum_map_add_int {α : Type} (l : List α) (f g : α → Int) : (l.map fun x => f x + g x).sum = (l.map f).sum + (l.map g).sum := by
  induction l with
  | nil => simp
  | cons a l ih => simp only [List.map_cons, List.sum_cons, ih]; omega

/-- The entries of a table of counts sum to the number of pairs counted. -/
theorem count_total (c : Nat) : ∀ (preds : List Pair), (∀ p ∈ preds, (0 ≤ p.expected ∧ p.expected < c) ∧ 0 ≤ p.predicted ∧ p.predicted < c) →
    ((List.range c).map fun (e : Nat) => ((List.range c).map fun (q : Nat) => ((preds.count ⟨(q : Int), (e : Int)⟩ : Nat) : Int)).sum).sum = preds.length := by
  intro preds
  induction preds with
  | nil => intro _; simp
  | cons p preds ih =>
    intro h
    have ih' := ih fun q hq => h q (by simp [hq])
    obtain ⟨⟨a1, a2⟩, a3, a4⟩ := h p (by simp)
    obtain ⟨q', hq'⟩ := Int.eq_ofNat_of_zero_le a3
    obtain ⟨e', he'⟩ := Int.eq_ofNat_of_zero_le a1
    have hrow : ∀ e : Nat, ((List.range c).map fun (q : Nat) => (((p :: preds).count ⟨(q : Int), (e : Int)⟩ : Nat) : Int)).sum =
        ((List.range c).map fun (q : Nat) => ((preds.count ⟨(q : Int), (e : Int)⟩ : Nat) : Int)).sum + if e' = e then 1 else 0 := by
      intro e
      have : ((List.range c).map fun (q : Nat) => (((p :: preds).count ⟨(q : Int), (e : Int)⟩ : Nat) : Int)) =
          (List.range c).map fun (q : Nat) => ((preds.count ⟨(q : Int), (e : Int)⟩ : Nat) : Int) + if q' = q then (if e' = e then 1 else 0) else 0 := by
        apply List.map_congr_left
        intro q _
        rw [List.count_cons]
        have : (p == (⟨(q : Int), (e : Int)⟩ : Pair)) = decide (q' = q ∧ e' = e) := by
          rw [Bool.eq_iff_iff, beq_iff_eq, decide_eq_true_iff]
          obtain ⟨pp, pe⟩ := p
          simp only at hq' he'
          subst hq' he'
          simp only [Pair.mk.injEq]
          constructor
          · rintro ⟨x, y⟩; exact ⟨by omega, by omega⟩
          · rintro ⟨x, y⟩; exact ⟨by omega, by omega⟩
        rw [this]
        by_cases hq : q' = q <;> by_cases he : e' = e <;> simp [hq, he]
      rw [this, sum_map_add_int, sum_range_ite, if_pos (by omega)]
    have : ((List.range c).map fun (e : Nat) => ((List.range c).map fun (q : Nat) => (((p :: preds).count ⟨(q : Int), (e : Int)⟩ : Nat) : Int)).sum) =
        (List.range c).map fun (e : Nat) => ((List.range c).map fun (q : Nat) => ((preds.count ⟨(q : Int), (e : Int)⟩ : Nat) : Int)).sum + if e' = e then 1 else 0 :=
      List.map_congr_left fun e _ => hrow e
    rw [this, sum_map_add_int, ih', sum_range_ite, if_pos (by omega)]
    simp

theorem count_diagonal (c : Nat) : ∀ (preds : List Pair), (∀ p ∈ preds, (0 ≤ p.expected ∧ p.expected < c) ∧ 0 ≤ p.predicted ∧ p.predicted < c) →
    ((List.range c).map fun (e : Nat) => ((preds.count ⟨(e : Int), (e : Int)⟩ : Nat) : Int)).sum = rightOnes preds := by
  intro preds
  induction preds with
  | nil => intro _; simp [rightOnes]
  | cons p preds ih =>
    intro h
    have ih' := ih fun q hq => h q (by simp [hq])
    obtain ⟨⟨a1, a2⟩, a3, a4⟩ := h p (by simp)
    obtain ⟨q', hq'⟩ := Int.eq_ofNat_of_zero_le a3
    obtain ⟨e', he'⟩ := Int.eq_ofNat_of_zero_le a1
    have : ((List.range c).map fun (e : Nat) => (((p :: preds).count ⟨(e : Int), (e : Int)⟩ : Nat) : Int)) =
        (List.range c).map fun (e : Nat) => ((preds.count ⟨(e : Int), (e : Int)⟩ : Nat) : Int) + if q' = e then (if q' = e' then 1 else 0) else 0 := by
      apply List.map_congr_left
      intro e _
      rw [List.count_cons]
      have : (p == (⟨(e : Int), (e : Int)⟩ : Pair)) = decide (q' = e ∧ q' = e') := by
        rw [Bool.eq_iff_iff, beq_iff_eq, decide_eq_true_iff]
        obtain ⟨pp, pe⟩ := p
        simp only at hq' he'
        subst hq' he'
        simp only [Pair.mk.injEq]
        constructor
        · rintro ⟨x, y⟩; exact ⟨by omega, by omega⟩
        · rintro ⟨x, y⟩; exact ⟨by omega, by omega⟩
      rw [this]
      by_cases hq : q' = e <;> by_cases he : q' = e' <;> simp [hq, he]
    rw [this, sum_map_add_int, ih', sum_range_ite, if_pos (by omega)]
    unfold rightOnes
    rw [List.countP_cons]
    obtain ⟨pp, pe⟩ := p
    simp only at hq' he'
    subst hq' he'
    by_cases h : q' = e'
    · simp [h]
    · have : ¬ (q' : Int) = e' := by omega
      simp [h, this]

/-- C47, confusion matrix: for predictions and labels from 0 to `c - 1` it has in row `e`, column `q` the number of predictions `q` for label `e`;
its entries sum to the number of predictions and its diagonal to the number of right ones. -/
theorem C47_confusion (preds : List Pair) (c : Nat) (h : ∀ p ∈ preds, (0 ≤ p.expected ∧ p.expected < c) ∧ 0 ≤ p.predicted ∧ p.predicted < c) :
    ∃ M, confusionMatrix preds (c : Int) = some M ∧ M.length = c ∧ (∀ row ∈ M, row.length = c) ∧
      (∀ e q : Nat, e < c → q < c → (M[e]?).bind (·[q]?) = some ((preds.count ⟨(q : Int), (e : Int)⟩ : Nat) : Int)) ∧
      (M.map List.sum).sum = preds.length ∧
      ((List.range c).map fun e => ((M[e]?).bind (·[e]?)).getD 0).sum = rightOnes preds := by
  have hget : ∀ e q : Nat, e < c → q < c → (((List.range c).map fun (e : Nat) => (List.range c).map fun (q : Nat) => ((preds.count ⟨(q : Int), (e : Int)⟩ : Nat) : Int))[e]?).bind (·[q]?) =
      some ((preds.count ⟨(q : Int), (e : Int)⟩ : Nat) : Int) := by
    intro e q he hq
    simp [he, hq]
  refine ⟨(List.range c).map fun (e : Nat) => (List.range c).map fun (q : Nat) => ((preds.count ⟨(q : Int), (e : Int)⟩ : Nat) : Int), ?_, by simp, ?_, hget, ?_, ?_⟩
  · unfold confusionMatrix
    rw [if_neg (by omega), Int.toNat_natCast]
    have : List.replicate c (List.replicate c (0 : Int)) = (List.range c).map fun e => (List.range c).map fun q => (fun _ _ => 0 : Nat → Nat → Int) e q := by
      simp
    rw [this, confusion_fold c preds _ h]
    simp
  · intro row hr
    obtain ⟨e, _, rfl⟩ := List.mem_map.1 hr
    simp
  · rw [List.map_map]
    exact count_total c preds h
  · rw [← count_diagonal c preds h]
    congr 1
    apply List.map_congr_left
    intro e he
    have := List.mem_range.1 he
    rw [hget e e this this]
    rfl

end Gospn
