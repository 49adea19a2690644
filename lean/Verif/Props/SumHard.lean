/-
Theorems about `Sum.ComputeHard`: C109.
-/
import Verif.Model.SumHard
import Verif.Proofs.Log

set_option linter.unusedSectionVars false
set_option linter.unusedSimpArgs false

namespace Gospn
open Spec GoFloat

theorem hardMax_step {F : Type} [GoFloat F] (w : List F) : ∀ (l : List Nat), (∀ i ∈ l, i < w.length) → ∀ b : Option F, (b.isSome ∨ l ≠ []) → (∀ m, b = some m → m ∈ w) →
    ∃ m, m ∈ w ∧ l.foldlM (hardMaxStep w) b = some (some m) := by
  intro l
  induction l with
  | nil =>
    intro _ b hb hm
    obtain ⟨m, rfl⟩ := Option.isSome_iff_exists.1 (by simpa using hb)
    exact ⟨m, hm m rfl, rfl⟩
  | cons i l ih =>
    intro hl b _ hm
    have hi := hl i (by simp)
    rw [List.foldlM_cons, hardMaxStep, List.getElem?_eq_getElem hi]
    simp only [Option.map_some]
    refine ih (fun j hj => hl j (by simp [hj])) _ (Or.inl ?_) ?_
    · cases b with
      | none => rfl
      | some m => dsimp only; split <;> rfl
    · intro m h
      cases b with
      | none => cases h; exact List.getElem_mem hi
      | some m' =>
        dsimp only at h
        split at h
        · cases h; exact List.getElem_mem hi
        · cases h; exact hm _ rfl

/-- The sum of the weighted probabilities of the children. -/
noncomputable def Spec.weightedTotal (w : List ℝ) (cv : List XR) : ℝ := ((w.zip cv).map fun p => p.1 * unlog p.2).sum

theorem hardTotal_step (w : List ℝ) (m : ℝ) : ∀ (cv : List XR) (k : Nat), (∀ x ∈ cv, IsLogProb x) → k + cv.length ≤ w.length → ∀ a : ℝ,
    (cv.zipIdx k).foldlM (hardTotalStep (w.map XR.fin) (XR.fin m)) (XR.fin a) =
      some (.fin (a + weightedTotal (w.drop k) cv / Real.exp m)) := by
  intro cv
  induction cv with
  | nil => intro k _ _ a; simp [weightedTotal]
  | cons x cv ih =>
    intro k hx hk a
    have hk' : k < w.length := by simp at hk; omega
    have hxe : (GoFloat.exp (GoFloat.sub x (XR.fin m)) : XR) = .fin (unlog x / Real.exp m) := by
      rcases IsLogProb.cases (hx x (by simp)) with rfl | ⟨r, rfl⟩
      · simp
      · simp [Real.exp_sub]
    have hstep : hardTotalStep (w.map XR.fin) (XR.fin m) (XR.fin a) (x, k) = some (.fin (a + w[k] * (unlog x / Real.exp m))) := by
      unfold hardTotalStep
      dsimp only
      rw [hxe, List.getElem?_map, List.getElem?_eq_getElem hk']
      simp
    rw [List.zipIdx_cons, List.foldlM_cons, hstep]
    refine (ih (k + 1) (fun y hy => hx y (by simp [hy])) (by simp at hk; omega) _).trans ?_
    rw [List.drop_eq_getElem_cons hk']
    simp only [weightedTotal, List.zip_cons_cons, List.map_cons, List.sum_cons]
    congr 2
    ring

theorem weightedTotal_nonneg {w : List ℝ} {cv : List XR} (hw : ∀ x ∈ w, 0 ≤ x) (hc : ∀ x ∈ cv, IsLogProb x) : 0 ≤ weightedTotal w cv := by
  unfold weightedTotal
  apply List.sum_nonneg
  intro y hy
  obtain ⟨p, hp, rfl⟩ := List.mem_map.1 hy
  have h1 := hw _ (List.of_mem_zip hp).1
  refine mul_nonneg h1 ?_
  rcases IsLogProb.cases (hc _ (List.of_mem_zip hp).2) with h | ⟨r, h⟩ <;> rw [h] <;> simp [Real.exp_nonneg]

/-- C109: `ComputeHard` is the logarithm of the weighted sum of the children's probabilities over the constant. -/
theorem C109_value (n : Nat) (hn : 0 < n) (w : List ℝ) (hw : ∀ x ∈ w, 0 ≤ x) (hl : n ≤ w.length) (cv : List XR) (hc : ∀ x ∈ cv, IsLogProb x) (hcl : cv.length ≤ w.length)
    (s : ℝ) (hs : 0 < s) : ∃ x, computeHard n (w.map XR.fin) cv (.fin s) = some x ∧ IsLogProb x ∧ unlog x = weightedTotal w cv / s := by
  obtain ⟨m, hm, h⟩ := hardMax_step (w.map XR.fin) (List.range n) (by intro i hi; simp at hi ⊢; omega) none (Or.inr (by simp; omega)) (by simp)
  obtain ⟨r, _, rfl⟩ := List.mem_map.1 hm
  have h2 := hardTotal_step w r cv 0 hc (by omega) 0
  rw [List.drop_zero, zero_add] at h2
  have h0 : (ofInt 0 : XR) = .fin 0 := by simp
  unfold computeHard hardMax hardTotal
  rw [h, Option.bind_some, h0]
  dsimp only
  rw [h2]
  refine ⟨_, rfl, ?_⟩
  have hnn := weightedTotal_nonneg hw hc
  simp only [XR.g_div, XR.div_fin hs.ne', XR.g_log, XR.g_add]
  rcases hnn.eq_or_lt with h0 | hpos
  · rw [← h0]
    simp
  · have : 0 < weightedTotal w cv / Real.exp r / s := by positivity
    rw [XR.log_pos this, XR.add_fin]
    refine ⟨trivial, ?_⟩
    rw [unlog_fin, Real.exp_add, Real.exp_log this]
    field_simp

example : (0 < 2) ∧ (∀ x ∈ [(1 : ℝ), 3], 0 ≤ x) ∧ (∀ x ∈ [XR.fin 0, XR.ninf], IsLogProb x) := by
  refine ⟨by norm_num, ?_, ?_⟩ <;> simp

/-- C109: without children the value is the logarithm of zero, whatever the values given. -/
theorem C109_childless {F : Type} [GoFloat F] (w cv : List F) (s : F) : computeHard 0 w cv s = some ninf := rfl

/-- C109: fewer weights than values make it panic. -/
theorem C109_panics {F : Type} [GoFloat F] (n : Nat) (hn : 0 < n) (w cv : List F) (s : F) (h : w.length < cv.length) : computeHard n w cv s = none := by
  unfold computeHard
  cases hm : hardMax n w with
  | none => rfl
  | some b =>
    rw [Option.bind_some]
    have hb : b ≠ none := by
      rintro rfl
      by_cases hl : n ≤ w.length
      · obtain ⟨m, _, e⟩ := hardMax_step w (List.range n) (by intro i hi; simp at hi; omega) none (Or.inr (by simp; omega)) (by simp)
        unfold hardMax at hm
        rw [e] at hm
        cases hm
      · have : ∀ (l : List Nat), (∃ i ∈ l, w.length ≤ i) → ∀ b : Option F, l.foldlM (hardMaxStep w) b = none := by
          intro l
          induction l with
          | nil => simp
          | cons j l ih =>
            intro hl b
            rw [List.foldlM_cons, hardMaxStep]
            by_cases hj : w.length ≤ j
            · rw [List.getElem?_eq_none hj]; rfl
            · obtain ⟨i, hi, hi'⟩ := hl
              rcases List.mem_cons.1 hi with rfl | hi
              · exact absurd hi' hj
              · rw [List.getElem?_eq_getElem (by omega)]
                exact ih ⟨i, hi, hi'⟩ _
        unfold hardMax at hm
        rw [this (List.range n) ⟨w.length, by simp; omega, le_refl _⟩ none] at hm
        cases hm
    obtain ⟨m, rfl⟩ := Option.ne_none_iff_exists'.1 hb
    dsimp only
    have : ∀ (cv : List F) (k : Nat), k ≤ w.length → w.length < k + cv.length → ∀ a : F, (cv.zipIdx k).foldlM (hardTotalStep w m) a = none := by
      intro cv
      induction cv with
      | nil => intro k h1 h2; simp at h2; omega
      | cons x cv ih =>
        intro k h1 h2 a
        rw [List.zipIdx_cons, List.foldlM_cons, hardTotalStep]
        by_cases hk : k < w.length
        · rw [List.getElem?_eq_getElem hk]
          exact ih (k + 1) hk (by simp at h2; omega) _
        · rw [List.getElem?_eq_none (by omega)]; rfl
    unfold hardTotal
    rw [this cv 0 (by omega) (by omega)]
    rfl

end Gospn
