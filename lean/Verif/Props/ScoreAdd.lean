/-
What `Add` does to operands with spare capacity: C48, score/score.go.
-/
import Verif.Props.Score

set_option linter.unusedSectionVars false
set_option linter.unusedSimpArgs false

namespace Gospn
open Spec

/-- Go's growth rule for slices of fewer than 256 elements, before rounding up to a size class (exact for these 16-byte elements up to 8 of them). -/
def goGrow (old needed : Nat) : Nat := if 2 * old < needed then needed else 2 * old

/-- C48 fails as stated: a score with three predictions, hence capacity four, and another with one are added; then the first gets another prediction.
That prediction overwrites the last one of the sum: the sum, which was right before, now has another prediction than it was given, and fewer right ones
than its `Hits`. -/
theorem C48_refuted : ∃ (ops : List ScoreOp) (s : Nat) (p e : Int) (m m' : ScoreMem) (A A' : List (List Pair)),
    ScoreMem.run (fun _ => goGrow) 0 ScoreMem.start ops = some m ∧ scoreRun [] ops = some A ∧ PredsAre m A ∧
    m.register goGrow s p e = some m' ∧ scoreStep A (.register s p e) = some A' ∧ s ≠ 2 ∧
    m.preds 2 = [⟨1, 1⟩, ⟨1, 1⟩, ⟨1, 1⟩, ⟨2, 2⟩] ∧ A'[2]? = some [⟨1, 1⟩, ⟨1, 1⟩, ⟨1, 1⟩, ⟨2, 2⟩] ∧
    m'.preds 2 = [⟨1, 1⟩, ⟨1, 1⟩, ⟨1, 1⟩, ⟨5, 6⟩] ∧ (m'.objs[2]?).map ScoreObj.hits = some 4 ∧ rightOnes (m'.preds 2) = 3 := by
  refine ⟨[.new, .new, .register 0 1 1, .register 0 1 1, .register 0 1 1, .register 1 2 2, .add 0 1], 0, 5, 6, _, _, _, _, rfl, rfl, ⟨rfl, ?_⟩, rfl, rfl, by decide, rfl, rfl, rfl, rfl, rfl⟩
  intro s l h
  match s with
  | 0 => simp at h; subst h; rfl
  | 1 => simp at h; subst h; rfl
  | 2 => simp at h; subst h; rfl
  | n + 3 => simp at h

/-- Slices lie in their arrays, and no array is more than twice as long as a slice of it. -/
def HalfFull (A : Arrays) (S : List PSlice) : Prop := ∀ s ∈ S, InBounds A s ∧ sliceCap A s ≤ 2 * (readSlice A s).length

theorem goAppend_half (grow : Nat → Nat → Nat) (hg : ∀ a b, a < b → grow a b ≤ 2 * b) {A : Arrays} {s : PSlice} (hs : InBounds A s) (hc : sliceCap A s ≤ 2 * (readSlice A s).length)
    (xs : List Pair) : sliceCap (goAppend grow A s xs).1 (goAppend grow A s xs).2 ≤ 2 * (readSlice (goAppend grow A s xs).1 (goAppend grow A s xs).2).length := by
  rw [(goAppend_spec grow hs xs).1]
  cases s with
  | none =>
    by_cases hx : xs = []
    · subst hx; simp [goAppend, sliceCap]
    · have := hg 0 xs.length (List.length_pos_iff.2 hx)
      simp only [goAppend, if_neg hx, sliceCap, List.getElem?_concat_length, Option.getD_some, List.length_append, List.length_replicate, readSlice, List.nil_append]
      omega
  | some an =>
    obtain ⟨a, n⟩ := an
    have hl := readSlice_length hs
    obtain ⟨arr, ha, hn⟩ := hs
    have halt : a < A.length := (List.getElem?_eq_some_iff.1 ha).1
    rw [List.length_append, hl]
    rw [hl] at hc
    simp only [sliceCap, ha, Option.getD_some] at hc
    by_cases hcap : n + xs.length ≤ arr.length
    · simp only [goAppend, ha, Option.getD_some, if_pos hcap, sliceCap, List.getElem?_set_self halt]
      simp
      omega
    · have := hg arr.length (n + xs.length) (by omega)
      simp only [goAppend, ha, Option.getD_some, if_neg hcap, sliceCap, List.getElem?_concat_length]
      simp
      omega

/-- A slice at least half of whose array is used keeps its elements when appended to any slice `s`, itself included, and so does `s`. -/
theorem goAppend_operands (grow : Nat → Nat → Nat) {A : Arrays} {s t : PSlice} (hs : InBounds A s) (ht : InBounds A t) (hc : sliceCap A s ≤ 2 * (readSlice A s).length) :
    readSlice (goAppend grow A s (readSlice A t)).1 t = readSlice A t ∧ readSlice (goAppend grow A s (readSlice A t)).1 s = readSlice A s := by
  have g := (goAppend_spec grow hs (readSlice A t)).2.2.2.1
  refine ⟨?_, g s hs (Or.inr (Or.inr (le_refl _)))⟩
  cases s with
  | none => exact g t ht (Or.inl (by cases t <;> simp [Shares]))
  | some an =>
    obtain ⟨a, n⟩ := an
    cases t with
    | none => rfl
    | some bm =>
      obtain ⟨b, m⟩ := bm
      by_cases hab : b = a
      · subst hab
        have hl := readSlice_length hs
        have hm := readSlice_length ht
        obtain ⟨arr, ha, hn⟩ := hs
        by_cases hcap : n + m ≤ arr.length
        · refine g _ ht (Or.inr (Or.inr ?_))
          rw [hl] at hc ⊢
          rw [hm]
          simp only [sliceCap, ha, Option.getD_some] at hc
          omega
        · have hblt : b < A.length := (List.getElem?_eq_some_iff.1 ha).1
          have : ¬ n + (readSlice A (some (b, m))).length ≤ arr.length := by rw [hm]; exact hcap
          simp only [goAppend, ha, Option.getD_some, if_neg this]
          simp only [readSlice, List.getElem?_append_left hblt]
      · exact g _ ht (Or.inl (by simpa [Shares] using Ne.symm hab))

theorem goAppend_keeps (grow : Nat → Nat → Nat) {A : Arrays} {s t : PSlice} (hs : InBounds A s) (ht : InBounds A t ∧ sliceCap A t ≤ 2 * (readSlice A t).length) (xs : List Pair) :
    InBounds (goAppend grow A s xs).1 t ∧ sliceCap (goAppend grow A s xs).1 t ≤ 2 * (readSlice (goAppend grow A s xs).1 t).length := by
  obtain ⟨g1, g2⟩ := (goAppend_spec grow hs xs).2.2.1 t ht.1
  refine ⟨g1, ?_⟩
  cases t with
  | none => simp [sliceCap]
  | some bm =>
    obtain ⟨b, m⟩ := bm
    have := ht.2
    rw [readSlice_length ht.1] at this
    rw [g2, readSlice_length g1]
    exact this

theorem HalfFull.step {m m' : ScoreMem} (grow : Nat → Nat → Nat) (hg : ∀ a b, a < b → grow a b ≤ 2 * b) (h : HalfFull m.arrs (m.objs.map ScoreObj.preds)) (op : ScoreOp)
    (hstep : m.step grow op = some m') : HalfFull m'.arrs (m'.objs.map ScoreObj.preds) := by
  have hin : ∀ {o : ScoreObj}, o ∈ m.objs → InBounds m.arrs o.preds ∧ sliceCap m.arrs o.preds ≤ 2 * (readSlice m.arrs o.preds).length := fun {o} ho => h _ (List.mem_map.2 ⟨o, ho, rfl⟩)
  have keep : ∀ {o o' : ScoreObj} {i : Nat}, m.objs[i]? = some o → o' ∈ m.objs → ∀ xs,
      InBounds (goAppend grow m.arrs o.preds xs).1 o'.preds ∧ sliceCap (goAppend grow m.arrs o.preds xs).1 o'.preds ≤ 2 * (readSlice (goAppend grow m.arrs o.preds xs).1 o'.preds).length :=
    fun ho ho' xs => goAppend_keeps grow (hin (List.mem_of_getElem? ho)).1 (hin ho') xs
  have made : ∀ {o : ScoreObj} {i : Nat}, m.objs[i]? = some o → ∀ xs, InBounds (goAppend grow m.arrs o.preds xs).1 (goAppend grow m.arrs o.preds xs).2 ∧
      sliceCap (goAppend grow m.arrs o.preds xs).1 (goAppend grow m.arrs o.preds xs).2 ≤ 2 * (readSlice (goAppend grow m.arrs o.preds xs).1 (goAppend grow m.arrs o.preds xs).2).length :=
    fun ho xs => ⟨(goAppend_spec grow (hin (List.mem_of_getElem? ho)).1 xs).2.1, goAppend_half grow hg (hin (List.mem_of_getElem? ho)).1 (hin (List.mem_of_getElem? ho)).2 xs⟩
  have hnil : ∀ A : Arrays, InBounds A none ∧ sliceCap A none ≤ 2 * (readSlice A none).length := fun A => ⟨trivial, by simp [sliceCap]⟩
  intro s hs
  obtain ⟨o', ho', rfl⟩ := List.mem_map.1 hs
  cases op with
  | new =>
    simp only [ScoreMem.step, Option.some.injEq] at hstep
    subst hstep
    simp only [ScoreMem.new, List.mem_append, List.mem_singleton] at ho'
    rcases ho' with ho' | rfl
    · exact hin ho'
    · exact hnil _
  | register i p e =>
    simp only [ScoreMem.step, ScoreMem.register, Option.map_eq_some_iff] at hstep
    obtain ⟨o, ho, rfl⟩ := hstep
    have e1 : (if p = e then { o with hits := o.hits + 1 } else { o with misses := o.misses + 1 } : ScoreObj).preds = o.preds := by split <;> rfl
    simp only [e1] at ho' ⊢
    rcases List.mem_or_eq_of_mem_set ho' with ho' | ho'
    · exact keep ho ho' _
    · rw [ho']
      exact made ho _
  | merge i j =>
    simp only [ScoreMem.step, ScoreMem.merge, Option.bind_eq_some_iff, Option.map_eq_some_iff] at hstep
    obtain ⟨o, ho, p, hp, rfl⟩ := hstep
    rcases List.mem_or_eq_of_mem_set ho' with ho' | rfl
    · exact keep ho ho' _
    · exact made ho _
  | add i j =>
    simp only [ScoreMem.step, ScoreMem.add, Option.bind_eq_some_iff, Option.map_eq_some_iff] at hstep
    obtain ⟨o, ho, p, hp, rfl⟩ := hstep
    simp only [List.mem_append, List.mem_singleton] at ho'
    rcases ho' with ho' | rfl
    · exact keep ho ho' _
    · exact made ho _
  | clear i =>
    simp only [ScoreMem.step, ScoreMem.clear, Option.map_eq_some_iff] at hstep
    obtain ⟨o, ho, rfl⟩ := hstep
    rcases List.mem_or_eq_of_mem_set ho' with ho' | rfl
    · exact hin ho'
    · exact hnil _

theorem HalfFull.run {grow : Nat → Nat → Nat → Nat} (hg : ∀ t a b, a < b → grow t a b ≤ 2 * b) : ∀ (ops : List ScoreOp) (t : Nat) (m m' : ScoreMem),
    HalfFull m.arrs (m.objs.map ScoreObj.preds) → ScoreMem.run grow t m ops = some m' → HalfFull m'.arrs (m'.objs.map ScoreObj.preds) := by
  intro ops
  induction ops with
  | nil =>
    intro t m m' h hr
    simp only [ScoreMem.run, Option.some.injEq] at hr
    subst hr
    exact h
  | cons op ops ih =>
    intro t m m' h hr
    simp only [ScoreMem.run, Option.bind_eq_some_iff] at hr
    obtain ⟨m1, h1, h2⟩ := hr
    exact ih (t + 1) m1 m' (HalfFull.step (grow t) (hg t) h op h1) h2

/-- C48, the moment of the call: after any history, sharing or not, if the growth rule never more than doubles what is needed, `Add` of two existing scores returns a
new score with the predictions of both and the sums of the counters, and leaves both operands as they were. -/
theorem C48_call_partial (grow : Nat → Nat → Nat → Nat) (hg : ∀ t a b, a < b → grow t a b ≤ 2 * b) (ops : List ScoreOp) (m : ScoreMem) (hr : ScoreMem.run grow 0 ScoreMem.start ops = some m)
    (s t : Nat) (hs : s < m.objs.length) (ht : t < m.objs.length) :
    ∃ m' o p q, m.add (grow ops.length) s t = some m' ∧ m.objs[s]? = some o ∧ m.objs[t]? = some p ∧ m'.objs = m.objs ++ [q] ∧
      q.hits = o.hits + p.hits ∧ q.misses = o.misses + p.misses ∧ q.total = o.total + p.total ∧
      m'.preds m.objs.length = m.preds s ++ m.preds t ∧ m'.preds s = m.preds s ∧ m'.preds t = m.preds t := by
  have hh := HalfFull.run hg ops 0 _ _ (by intro s hs; simp [ScoreMem.start] at hs) hr
  have hos := List.getElem?_eq_getElem hs
  have hot := List.getElem?_eq_getElem ht
  generalize m.objs[s] = o at hos
  generalize m.objs[t] = p at hot
  have bs := hh _ (List.mem_map.2 ⟨o, List.mem_of_getElem? hos, rfl⟩)
  have bt := hh _ (List.mem_map.2 ⟨p, List.mem_of_getElem? hot, rfl⟩)
  obtain ⟨k1, k2⟩ := goAppend_operands (grow ops.length) bs.1 bt.1 bs.2
  simp only [ScoreMem.add, hos, hot, Option.map_some, Option.bind_some]
  refine ⟨_, o, p, _, rfl, rfl, rfl, rfl, rfl, rfl, rfl, ?_, ?_, ?_⟩
  · simp only [ScoreMem.preds, List.getElem?_concat_length, Option.map_some, Option.getD_some, hos, hot]
    exact (goAppend_spec _ bs.1 _).1
  · simp only [ScoreMem.preds, List.getElem?_append_left hs, hos, Option.map_some, Option.getD_some]
    exact k2
  · simp only [ScoreMem.preds, List.getElem?_append_left ht, hot, Option.map_some, Option.getD_some]
    exact k1

/-! ### Histories that meet the hypotheses -/

/-- Adding a score with four predictions, hence without spare capacity. -/
example : ∃ m, ScoreMem.run (fun _ => goGrow) 0 ScoreMem.start
    [.new, .new, .register 0 1 1, .register 0 1 2, .register 0 3 1, .register 0 2 2, .register 1 2 2, .add 0 1, .register 0 5 6, .register 2 7 7, .clear 0] = some m ∧
    m.preds 2 = [⟨1, 1⟩, ⟨1, 2⟩, ⟨3, 1⟩, ⟨2, 2⟩, ⟨2, 2⟩, ⟨7, 7⟩] ∧ m.preds 1 = [⟨2, 2⟩] ∧ m.preds 0 = [] := ⟨_, rfl, rfl, rfl, rfl⟩

example : ∀ a b, a < b → goGrow a b ≤ 2 * b := by intro a b h; unfold goGrow; split <;> omega

/-- The hypothesis of `C48_add_partial` holds for such a history. -/
example : AddsFull (fun _ => goGrow) 0 ScoreMem.start [.new, .new, .register 0 1 1, .register 0 1 2, .register 1 2 2, .add 0 1, .register 2 7 7] := by
  repeat
    refine ⟨by intro s u h; first | (cases h; done) | (cases h; intro o ho; cases ho; rfl), fun m' h => ?_⟩
    cases h
  trivial

/-- The hypothesis of `C47_confusion` holds for three predictions of two classes. -/
example : ∀ p ∈ [⟨0, 1⟩, ⟨1, 1⟩, (⟨0, 0⟩ : Pair)], (0 ≤ p.expected ∧ p.expected < (2 : Nat)) ∧ 0 ≤ p.predicted ∧ p.predicted < (2 : Nat) := by simp

end Gospn
