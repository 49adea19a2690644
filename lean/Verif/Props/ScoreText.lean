/-
C119: what the text of a score says.
-/
import Verif.Model.ScoreText
import Verif.Props.Score
import Verif.Proofs.Folder
import Verif.Proofs.Log

set_option linter.unusedSectionVars false
set_option linter.unusedSimpArgs false

namespace Gospn
variable {F : Type} [GoFloat F]

/-- The line for a wrong prediction. -/
def Spec.wrongText (p : Pair) : Str := "  Expected ".toList ++ Spec.decimal p.expected ++ ", got ".toList ++ Spec.decimal p.predicted ++ ".".toList

/-- The lines of the text of a score with the predictions `l`, and `acc` for the accuracy. -/
def Spec.scoreLines (acc : Str) (l : List Pair) : List Str :=
  ["Hits: ".toList ++ Spec.decimal (Spec.rightOnes l), "Misses: ".toList ++ Spec.decimal (Spec.wrongOnes l), "Total: ".toList ++ Spec.decimal l.length,
    "Accuracy: ".toList ++ acc, "Wrong predictions:".toList] ++ (l.filter fun p => decide (p.predicted ≠ p.expected)).map Spec.wrongText

open Spec

theorem wrongLines_unlines (l : List Pair) : l.flatMap wrongLine = unlines ((l.filter fun p => decide (p.predicted ≠ p.expected)).map wrongText) := by
  induction l with
  | nil => rfl
  | cons p l ih =>
    rw [List.flatMap_cons, ih]
    by_cases h : p.predicted ≠ p.expected
    · have e1 : wrongLine p = wrongText p ++ ['\n'] := by
        unfold wrongLine wrongText
        rw [if_pos h, itoa_eq, itoa_eq]
        generalize decimal p.expected = x
        generalize decimal p.predicted = y
        simp
      have e2 : (p :: l).filter (fun p => decide (p.predicted ≠ p.expected)) = p :: l.filter (fun p => decide (p.predicted ≠ p.expected)) :=
        List.filter_cons_of_pos (by simpa using h)
      rw [e2, e1]
      rfl
    · rw [List.filter_cons_of_neg (by simpa using h)]
      simp [wrongLine, h]

theorem scoreString_unlines (fmt5 : F → Str) (l : List Pair) :
    scoreString fmt5 (rightOnes l) (wrongOnes l) l.length l = unlines (scoreLines (fmt5 (GoFloat.div (GoFloat.ofInt (rightOnes l)) (GoFloat.ofInt l.length))) l) := by
  unfold scoreString scoreLines
  rw [wrongLines_unlines]
  simp [unlines, itoa_eq]

/-- C119: after any history of `NewScore`, `Register`, `Merge` and `Clear`, the text of a score lists the numbers of its right, wrong and all predictions, the
accuracy, and every wrong prediction, in the order in which they were made; `Save` writes that text and a newline. -/
theorem C119_text (fmt5 : F → Str) (grow : Nat → Nat → Nat → Nat) (ops : List ScoreOp) (hf : ∀ s t, ScoreOp.add s t ∉ ops) (m : ScoreMem)
    (hr : ScoreMem.run grow 0 ScoreMem.start ops = some m) : ∃ A, scoreRun [] ops = some A ∧ ∀ s l, A[s]? = some l →
      m.string fmt5 s = some (unlines (scoreLines (fmt5 (GoFloat.div (GoFloat.ofInt (rightOnes l)) (GoFloat.ofInt l.length))) l)) ∧
      m.save fmt5 s true = some (unlines (scoreLines (fmt5 (GoFloat.div (GoFloat.ofInt (rightOnes l)) (GoFloat.ofInt l.length))) l ++ [[]])) := by
  obtain ⟨A, hA, hc, hp⟩ := C47_predictions grow ops hf m hr
  refine ⟨A, hA, fun s l hl => ?_⟩
  have hs : m.string fmt5 s = some (unlines (scoreLines (fmt5 (GoFloat.div (GoFloat.ofInt (rightOnes l)) (GoFloat.ofInt l.length))) l)) := by
    have hp' := hp.2 s l hl
    rcases hc.get s with ⟨-, h2⟩ | ⟨o, l', ho, hl', h1, h2, h3⟩
    · rw [hl] at h2; cases h2
    · rw [hl] at hl'
      cases hl'
      unfold ScoreMem.preds at hp'
      simp only [ho, Option.map_some, Option.getD_some] at hp'
      unfold ScoreMem.string
      simp only [ho, Option.map_some, hp', h1, h2, h3]
      rw [scoreString_unlines]
  refine ⟨hs, ?_⟩
  unfold ScoreMem.save
  rw [if_pos rfl, hs]
  simp [unlines]

theorem decimal_inj {v w : Int} (hv : Int64Range v) (hw : Int64Range w) (h : decimal v = decimal w) : v = w := by
  have h1 := decimal_atoi hv
  rw [h, decimal_atoi hw] at h1
  simpa using h1.symm

theorem append_comma_inj {a b c d : Str} (ha : ',' ∉ a) (hb : ',' ∉ b) (h : a ++ ',' :: c = b ++ ',' :: d) : a = b ∧ c = d := by
  induction a generalizing b with
  | nil =>
    cases b with
    | nil => simpa using h
    | cons x b => simp at h hb; exact absurd h.1 hb.1
  | cons x a ih =>
    cases b with
    | nil => simp at h ha; exact absurd h.1.symm ha.1
    | cons y b =>
      simp only [List.cons_append, List.cons.injEq] at h
      simp only [List.mem_cons, not_or] at ha hb
      obtain ⟨e1, e2⟩ := ih ha.2 hb.2 h.2
      exact ⟨by rw [h.1, e1], e2⟩

theorem decimal_no_comma (v : Int) : ',' ∉ decimal v := fun h => by
  have := decimal_not_comma v ',' h
  simp [isComma] at this

theorem wrongText_inj {p q : Pair} (hp : Int64Range p.predicted ∧ Int64Range p.expected) (hq : Int64Range q.predicted ∧ Int64Range q.expected)
    (h : wrongText p = wrongText q) : p = q := by
  unfold wrongText at h
  have h' : decimal p.expected ++ ',' :: (" got ".toList ++ decimal p.predicted ++ ".".toList) = decimal q.expected ++ ',' :: (" got ".toList ++ decimal q.predicted ++ ".".toList) := by
    simpa using h
  obtain ⟨h1, h2⟩ := append_comma_inj (decimal_no_comma _) (decimal_no_comma _) h'
  have h3 : decimal p.predicted = decimal q.predicted := by simpa using h2
  have e1 := decimal_inj hp.2 hq.2 h1
  have e2 := decimal_inj hp.1 hq.1 h3
  cases p; cases q
  simp_all

theorem map_inj_on {α β : Type} {f : α → β} : ∀ {l k : List α}, (∀ a ∈ l, ∀ b ∈ k, f a = f b → a = b) → l.map f = k.map f → l = k
  | [], [], _, _ => rfl
  | [], _ :: _, _, h => by simp at h
  | _ :: _, [], _, h => by simp at h
  | a :: l, b :: k, hi, h => by
    simp only [List.map_cons, List.cons.injEq] at h
    rw [hi a List.mem_cons_self b List.mem_cons_self h.1, map_inj_on (fun x hx y hy => hi x (List.mem_cons_of_mem _ hx) y (List.mem_cons_of_mem _ hy)) h.2]

theorem unlines_inj : ∀ {a b : List Str}, (∀ l ∈ a, '\n' ∉ l) → (∀ l ∈ b, '\n' ∉ l) → unlines a = unlines b → a = b
  | [], [], _, _, _ => rfl
  | [], l :: b, _, _, h => by simp [unlines] at h
  | l :: a, [], _, _, h => by simp [unlines] at h
  | l :: a, k :: b, ha, hb, h => by
    have h' : l ++ '\n' :: unlines a = k ++ '\n' :: unlines b := by simpa [unlines] using h
    have gen : ∀ {x y c d : Str}, '\n' ∉ x → '\n' ∉ y → x ++ '\n' :: c = y ++ '\n' :: d → x = y ∧ c = d := by
      intro x
      induction x with
      | nil =>
        intro y c d _ hy h
        cases y with
        | nil => simpa using h
        | cons z y => simp at h hy; exact absurd h.1 hy.1
      | cons w x ih =>
        intro y c d hx hy h
        cases y with
        | nil => simp at h hx; exact absurd h.1.symm hx.1
        | cons z y =>
          simp only [List.cons_append, List.cons.injEq] at h
          simp only [List.mem_cons, not_or] at hx hy
          obtain ⟨e1, e2⟩ := ih hx.2 hy.2 h.2
          exact ⟨by rw [h.1, e1], e2⟩
    obtain ⟨h1, h2⟩ := gen (ha l List.mem_cons_self) (hb k List.mem_cons_self) h'
    rw [h1, unlines_inj (fun x hx => ha x (List.mem_cons_of_mem _ hx)) (fun x hx => hb x (List.mem_cons_of_mem _ hx)) h2]

theorem scoreLines_no_newline {acc : Str} (ha : '\n' ∉ acc) (l : List Pair) : ∀ t ∈ scoreLines acc l, '\n' ∉ t := by
  intro t ht
  have hd : ∀ v, '\n' ∉ decimal v := fun v => (decimal_chars v).1
  unfold scoreLines at ht
  rcases List.mem_append.1 ht with ht | ht
  · simp only [List.mem_cons, List.not_mem_nil, or_false] at ht
    rcases ht with rfl | rfl | rfl | rfl | rfl <;> simp [hd, ha]
  · obtain ⟨p, -, hp⟩ := List.mem_map.1 ht
    rw [← hp]
    have h1 := hd p.expected
    have h2 := hd p.predicted
    unfold wrongText
    generalize decimal p.expected = x at h1
    generalize decimal p.predicted = y at h2
    simp [h1, h2]

/-- C119: nothing is lost. Two scores with the same text have the same numbers of right, wrong and all predictions, and the same wrong predictions in the same order. -/
theorem C119_injective (acc acc' : Str) (ha : '\n' ∉ acc) (ha' : '\n' ∉ acc') (l l' : List Pair) (hl : Int64Range l.length) (hl' : Int64Range l'.length)
    (hr : ∀ p ∈ l, Int64Range p.predicted ∧ Int64Range p.expected) (hr' : ∀ p ∈ l', Int64Range p.predicted ∧ Int64Range p.expected)
    (h : unlines (scoreLines acc l) = unlines (scoreLines acc' l')) :
    rightOnes l = rightOnes l' ∧ wrongOnes l = wrongOnes l' ∧ l.length = l'.length ∧
    (l.filter fun p => decide (p.predicted ≠ p.expected)) = (l'.filter fun p => decide (p.predicted ≠ p.expected)) := by
  have hL := unlines_inj (scoreLines_no_newline ha l) (scoreLines_no_newline ha' l') h
  have hb : ∀ (l : List Pair) (n : Nat), Int64Range l.length → n ≤ l.length → Int64Range (n : Int) := by
    intro l n h1 h2
    unfold Int64Range at *
    omega
  have hle1 : ∀ l : List Pair, rightOnes l ≤ l.length := fun l => List.countP_le_length
  have hle2 : ∀ l : List Pair, wrongOnes l ≤ l.length := fun l => List.countP_le_length
  unfold scoreLines at hL
  simp only [List.cons_append, List.nil_append, List.cons.injEq, List.append_cancel_left_eq] at hL
  obtain ⟨h1, h2, h3, -, -, h5⟩ := hL
  have e1 := decimal_inj (hb l _ hl (hle1 l)) (hb l' _ hl' (hle1 l')) h1
  have e2 := decimal_inj (hb l _ hl (hle2 l)) (hb l' _ hl' (hle2 l')) h2
  have e3 := decimal_inj hl hl' h3
  refine ⟨by omega, by omega, by omega, ?_⟩
  refine map_inj_on ?_ h5
  intro a haa b hbb
  exact wrongText_inj (hr a (List.mem_filter.1 haa).1) (hr' b (List.mem_filter.1 hbb).1)

/-- C119, the accuracy: it is the share of right predictions, between 0 and 1, if there are predictions. -/
theorem C119_accuracy_partial (l : List Pair) (h : l ≠ []) :
    GoFloat.div (GoFloat.ofInt (rightOnes l) : XR) (GoFloat.ofInt l.length) = .fin ((rightOnes l : ℝ) / l.length) ∧ 0 ≤ (rightOnes l : ℝ) / l.length ∧
    (rightOnes l : ℝ) / l.length ≤ 1 := by
  have hpos : (0 : ℝ) < (l.length : ℝ) := by exact_mod_cast List.length_pos_of_ne_nil h
  have hle : (rightOnes l : ℝ) ≤ l.length := by exact_mod_cast (List.countP_le_length (p := fun p : Pair => decide (p.predicted = p.expected)) (l := l))
  refine ⟨?_, by positivity, (div_le_one hpos).2 hle⟩
  change XR.div (.fin (((rightOnes l : Int)) : ℝ)) (.fin ((l.length : Int) : ℝ)) = _
  rw [XR.div_fin (by push_cast; exact hpos.ne')]
  norm_num

/-- C119 fails for an empty score: its accuracy is not a number. -/
theorem C119_empty_refuted : GoFloat.div (GoFloat.ofInt (rightOnes []) : XR) (GoFloat.ofInt ([] : List Pair).length) = .nan := by
  change XR.div (.fin (((0 : Int)) : ℝ)) (.fin (((0 : Nat) : Int) : ℝ)) = _
  simp [XR.div, XR.signedInf]

/-- A history without `Add`, with a right and two wrong predictions. -/
example : (∀ s t, ScoreOp.add s t ∉ [ScoreOp.new, .register 0 1 1, .register 0 2 3, .register 0 (-1) 4]) ∧
    scoreRun [] [ScoreOp.new, .register 0 1 1, .register 0 2 3, .register 0 (-1) 4] = some [[⟨1, 1⟩, ⟨2, 3⟩, ⟨-1, 4⟩]] := by
  constructor
  · simp
  · decide

end Gospn
