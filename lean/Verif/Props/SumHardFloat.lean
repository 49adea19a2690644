/-
C109 in floating point arithmetic: ComputeHard shifts by the greatest weight, not by the greatest value.
-/
import Verif.Props.SumHard
import Verif.Props.Rounding

set_option linter.unusedSectionVars false
set_option linter.unusedSimpArgs false

namespace Gospn
open GoFloat Spec
variable {F : Type} [GoFloat F] {val : F → XR}

/-- Laws of floating point numbers around zero; `exp` of a number below `-β` is zero, as it is in double precision for `β = 746`. -/
structure Spec.Underflows (val : F → XR) (β : ℝ) : Prop where
  lt : ∀ a b, GoFloat.lt a b = XR.lt (val a) (val b)
  zero : val (ofInt 0) = .fin 0
  exp : ∀ a m r, IsLogProb (val a) → unlog (val a) ≤ 1 → val m = .fin r → β < r → val (GoFloat.exp (sub a m)) = .fin 0
  mul : ∀ a b r, val a = .fin r → val b = .fin 0 → val (mul a b) = .fin 0
  add : ∀ a b, val a = .fin 0 → val b = .fin 0 → val (add a b) = .fin 0
  div : ∀ a b r, val a = .fin 0 → val b = .fin r → 0 < r → val (div a b) = .fin 0
  log : ∀ a, val a = .fin 0 → val (log a) = .ninf
  addInf : ∀ a b r, val a = .ninf → val b = .fin r → val (GoFloat.add a b) = .ninf

/-- The weight by which `ComputeHard` shifts is the greatest of those of the children. -/
theorem hardMax_greatest (hlt : ∀ a b : F, GoFloat.lt a b = XR.lt (val a) (val b)) (w : List F) (r : F → ℝ) (hw : ∀ x ∈ w, val x = .fin (r x)) : ∀ (l : List Nat), (∀ i ∈ l, i < w.length) → ∀ b : Option F, (∀ m, b = some m → m ∈ w) →
    (b.isSome ∨ l ≠ []) → ∃ m ∈ w, l.foldlM (hardMaxStep w) b = some (some m) ∧ (∀ m', b = some m' → r m' ≤ r m) ∧ ∀ i ∈ l, ∀ x, w[i]? = some x → r x ≤ r m := by
  intro l
  induction l with
  | nil =>
    intro _ b hb hm
    obtain ⟨m, rfl⟩ := Option.isSome_iff_exists.1 (by simpa using hm)
    exact ⟨m, hb m rfl, rfl, fun m' e => by cases e; exact le_rfl, by simp⟩
  | cons i l ih =>
    intro hl b hb _
    have hi := hl i (by simp)
    have hx := List.getElem_mem hi
    rw [List.foldlM_cons, hardMaxStep, List.getElem?_eq_getElem hi]
    simp only [Option.map_some]
    cases b with
    | none =>
      obtain ⟨m, h1, h2, h3, h4⟩ := ih (fun j hj => hl j (by simp [hj])) (some w[i]) (fun m e => by cases e; exact hx) (Or.inl rfl)
      refine ⟨m, h1, h2, by simp, ?_⟩
      intro j hj x hjx
      rcases List.mem_cons.1 hj with rfl | hj
      · rw [List.getElem?_eq_getElem hi] at hjx
        cases hjx
        exact h3 _ rfl
      · exact h4 j hj x hjx
    | some b =>
      have hbw := hb b rfl
      obtain ⟨m, h1, h2, h3, h4⟩ := ih (fun j hj => hl j (by simp [hj])) (if GoFloat.lt b w[i] then some w[i] else some b) (fun m e => by split at e <;> cases e <;> assumption)
        (Or.inl (by split <;> rfl))
      have hle : r b ≤ r m ∧ r w[i] ≤ r m := by
        by_cases hlt' : r b < r w[i]
        · have : GoFloat.lt b w[i] = true := by rw [hlt, hw b hbw, hw _ hx]; simp [XR.lt, hlt']
          rw [if_pos this] at h3
          have := h3 _ rfl
          exact ⟨by linarith, this⟩
        · have : ¬ GoFloat.lt b w[i] = true := by rw [hlt, hw b hbw, hw _ hx]; simp [XR.lt, hlt']
          rw [if_neg this] at h3
          have := h3 _ rfl
          exact ⟨this, by linarith⟩
      refine ⟨m, h1, h2, fun m' e => by cases e; exact hle.1, ?_⟩
      intro j hj x hjx
      rcases List.mem_cons.1 hj with rfl | hj
      · rw [List.getElem?_eq_getElem hi] at hjx
        cases hjx
        exact hle.2
      · exact h4 j hj x hjx

/-- C109 fails in floating point arithmetic: if one of the weights is greater than `β`, `ComputeHard` of probabilities is always the logarithm of zero. Hard weights are counts, which are often that great. -/
theorem C109_underflow_refuted {β : ℝ} (hU : Underflows val β) (w : List F) (r : F → ℝ) (hw : ∀ x ∈ w, val x = .fin (r x)) (hbig : ∃ x ∈ w, β < r x)
    (cv : List F) (hcv : ∀ x ∈ cv, IsLogProb (val x) ∧ unlog (val x) ≤ 1) (hl : cv.length ≤ w.length) (s : F) (sr : ℝ) (hs : val s = .fin sr) (hs0 : 0 < sr) :
    ∃ x, computeHard w.length w cv s = some x ∧ val x = .ninf := by
  obtain ⟨x, hx, hxb⟩ := hbig
  have hne : w ≠ [] := List.ne_nil_of_mem hx
  obtain ⟨m, h1, h2, _, h4⟩ := hardMax_greatest hU.lt w r hw (List.range w.length) (by simp) none (by simp) (Or.inr (by simpa using hne))
  have hm : β < r m := by
    obtain ⟨i, hi, e⟩ := List.mem_iff_getElem.1 hx
    have := h4 i (by simpa using hi) x (by rw [List.getElem?_eq_getElem hi, e])
    linarith
  have htot : ∀ (cv : List F) (k : Nat), (∀ x ∈ cv, IsLogProb (val x) ∧ unlog (val x) ≤ 1) → k + cv.length ≤ w.length → ∀ a : F, val a = .fin 0 →
      ∃ b, (cv.zipIdx k).foldlM (hardTotalStep w m) a = some b ∧ val b = .fin 0 := by
    intro cv
    induction cv with
    | nil => intro k _ _ a ha; exact ⟨a, rfl, ha⟩
    | cons y cv ih =>
      intro k hy hk a ha
      have hk' : k < w.length := by simp at hk; omega
      rw [List.zipIdx_cons, List.foldlM_cons, hardTotalStep, List.getElem?_eq_getElem hk']
      refine ih (k + 1) (fun z hz => hy z (by simp [hz])) (by simp at hk; omega) _ ?_
      have h5 := hU.exp y m _ (hy y (by simp)).1 (hy y (by simp)).2 (hw m h1) hm
      exact hU.add _ _ ha (hU.mul _ _ _ (hw _ (List.getElem_mem hk')) h5)
  obtain ⟨b, hb, hb0⟩ := htot cv 0 hcv (by omega) (ofInt 0) hU.zero
  refine ⟨GoFloat.add (GoFloat.log (GoFloat.div b s)) m, ?_, hU.addInf _ _ _ (hU.log _ (hU.div _ _ _ hb0 hs hs0)) (hw m h1)⟩
  unfold computeHard hardMax hardTotal
  rw [h2, Option.bind_some]
  dsimp only
  rw [hb]
  rfl

/-- The fixed-point numbers have these laws: `exp` of a number below -16 is rounded to zero. -/
theorem fixed_underflows : Underflows Fixed.get 16 where
  lt _ _ := rfl
  zero := by
    show XR.fin ((0 : Int) : ℝ) = _
    simp
  exp a m r ha ha1 hm hr := by
    show (Fixed.fl (XR.exp (Fixed.fl (XR.sub a.get m.get)).get)).get = _
    rw [hm]
    rcases IsLogProb.cases ha with h | ⟨x, h⟩
    · rw [h]
      show (Fixed.fl (XR.exp .ninf)).get = _
      rw [XR.exp_ninf]
      simp [Fixed.fl]
    · rw [h] at ha1
      rw [unlog_fin, Real.exp_le_one_iff] at ha1
      rw [h, XR.sub_fin]
      obtain ⟨z, hz, hz1⟩ := Fixed.fl_fin (x - r)
      rw [hz]
      show (Fixed.fl (.fin (Real.exp z))).get = _
      have hz2 : z ≤ -15 := by
        rw [abs_le] at hz1
        norm_num at hz1
        linarith
      have he : Real.exp z < 1 / 2 ^ 21 := by
        have h1 : Real.exp z ≤ Real.exp (-15) := Real.exp_le_exp.2 hz2
        have h2 : Real.exp (-15) = (Real.exp 1 ^ 15)⁻¹ := by rw [← Real.exp_nat_mul, ← Real.exp_neg]; norm_num
        have h3 : (2.7 : ℝ) ^ 15 ≤ Real.exp 1 ^ 15 := pow_le_pow_left₀ (by norm_num) (by linarith [Real.exp_one_gt_d9]) 15
        have h4 : (2 : ℝ) ^ 21 < 2.7 ^ 15 := by norm_num
        rw [h2] at h1
        refine h1.trans_lt ?_
        rw [one_div]
        exact inv_strictAnti₀ (by positivity) (h4.trans_le h3)
      have hp : 0 < Real.exp z * 2 ^ 20 := by have := Real.exp_pos z; positivity
      simp only [Fixed.fl, XR.fin.injEq, div_eq_zero_iff, Int.cast_eq_zero, round_eq_zero_iff]
      left
      constructor
      · linarith
      · norm_num at he ⊢
        linarith
  mul a b r ha hb := by
    show (Fixed.fl (XR.mul a.get b.get)).get = _
    rw [ha, hb]
    have : XR.mul (.fin r) (.fin 0) = .fin 0 := by simp [XR.mul]
    rw [this]
    simp [Fixed.fl]
  add a b ha hb := by
    show (Fixed.fl (XR.add a.get b.get)).get = _
    rw [ha, hb, XR.add_fin]
    simp [Fixed.fl]
  div a b r ha hb hr := by
    show (Fixed.fl (XR.div a.get b.get)).get = _
    rw [ha, hb, XR.div_fin hr.ne']
    simp [Fixed.fl]
  log a ha := by
    show (Fixed.fl (XR.log a.get)).get = _
    rw [ha, XR.log_zero]
    rfl
  addInf a b r ha hb := by
    show (Fixed.fl (XR.add a.get b.get)).get = _
    rw [ha, hb]
    rfl

/-- Two children of probability one, seen once and twenty times: in fixed-point arithmetic the value is the logarithm of zero, the exact one is the logarithm of 21. -/
theorem C109_counts_refuted : (∃ x, computeHard 2 [(ofInt 1 : Fixed), ofInt 20] [ofInt 0, ofInt 0] (ofInt 1) = some x ∧ x.get = .ninf) ∧
    ∃ y, computeHard 2 ([1, 20].map XR.fin) [XR.fin 0, XR.fin 0] (.fin 1) = some y ∧ unlog y = 21 := by
  have hv : ∀ n : Int, Fixed.get (ofInt n) = .fin (n : ℝ) := fun _ => rfl
  constructor
  · refine C109_underflow_refuted fixed_underflows [(ofInt 1 : Fixed), ofInt 20] (fun x => match x.get with | .fin r => r | _ => 0) ?_ ⟨ofInt 20, by simp, ?_⟩ [ofInt 0, ofInt 0] ?_ (by simp) (ofInt 1) 1 (by simp [hv]) one_pos
    · intro x hx
      simp only [List.mem_cons, List.not_mem_nil, or_false] at hx
      rcases hx with rfl | rfl <;> simp [hv]
    · simp only [hv]
      norm_num
    · intro x hx
      simp only [List.mem_cons, List.not_mem_nil, or_false, or_self] at hx
      subst hx
      simp [hv]
  · obtain ⟨y, h1, _, h3⟩ := C109_value 2 (by omega) [1, 20] (by simp) (by simp) [XR.fin 0, XR.fin 0] (by simp) (by simp) 1 one_pos
    refine ⟨y, h1, ?_⟩
    rw [h3]
    simp [weightedTotal]
    norm_num

end Gospn
