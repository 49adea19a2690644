/-
C140: near equality. C141: logarithms and their inverse.
-/
import Verif.Model.Helpers
import Verif.Props.Rounding

set_option linter.unusedSectionVars false
set_option linter.unusedSimpArgs false

namespace Gospn
open GoFloat Spec

/-- Two numbers are near each other: finite and less than `e` apart or equal, or the same infinity. -/
inductive Spec.Near (e : ℝ) : XR → XR → Prop
  | same (x : ℝ) : Near e (.fin x) (.fin x)
  | close (x y : ℝ) : |x - y| < e → Near e (.fin x) (.fin y)
  | ninf : Near e .ninf .ninf
  | pinf : Near e .pinf .pinf

/-- C140. For a finite `eps`, `ApproxEqual` says whether the numbers are near each other. It never is true of NaN, and an infinity is near itself only. -/
theorem C140_near (a b : XR) (e : ℝ) : approxEqual a b (.fin e) = true ↔ Near e a b := by
  constructor
  · intro h
    cases a <;> cases b <;> simp [approxEqual, GoFloat.eq, GoFloat.lt, GoFloat.abs, sub, XR.eq, XR.lt, XR.abs, XR.sub, XR.add, XR.neg] at h
    · exact .ninf
    · exact .pinf
    · rename_i x y
      rcases h with rfl | h
      · exact .same x
      · exact .close x y (by rwa [sub_eq_add_neg])
  · rintro (x | ⟨x, y, h⟩ | _ | _)
    · simp [approxEqual, GoFloat.eq, XR.eq]
    · simp [approxEqual, GoFloat.eq, GoFloat.lt, GoFloat.abs, sub, XR.eq, XR.lt, XR.abs, XR.sub, XR.add, XR.neg]
      exact Or.inr (by rwa [← sub_eq_add_neg])
    · simp [approxEqual, GoFloat.eq, XR.eq]
    · simp [approxEqual, GoFloat.eq, XR.eq]

/-- C140. The order of the first two arguments does not matter, and a greater `eps` accepts more. -/
theorem C140_symmetric (a b : XR) (e e' : ℝ) (he : e ≤ e') (h : approxEqual a b (.fin e) = true) : approxEqual b a (.fin e') = true := by
  rw [C140_near] at h ⊢
  rcases h with x | ⟨x, y, h⟩ | _ | _
  · exact .same x
  · exact .close y x (by rw [abs_sub_comm]; exact h.trans_le he)
  · exact .ninf
  · exact .pinf

/-- C140. Near equality adds up: two steps of less than `e` and `e'` lead less than `e + e'` away. -/
theorem C140_triangle (a b c : XR) (e e' : ℝ) (he : 0 ≤ e) (he' : 0 ≤ e') (h : approxEqual a b (.fin e) = true) (h' : approxEqual b c (.fin e') = true) : approxEqual a c (.fin (e + e')) = true := by
  rw [C140_near] at h h' ⊢
  rcases h with x | ⟨x, y, h⟩ | _ | _
  · rcases h' with _ | ⟨_, z, h'⟩
    · exact .same x
    · exact .close x z (by linarith)
  · rcases h' with _ | ⟨_, z, h'⟩
    · exact .close x y (by linarith)
    · exact .close x z (by have := abs_sub_le x y z; linarith)
  · cases h'; exact .ninf
  · cases h'; exact .pinf

/-- C140. It is not transitive, whatever the positive `eps` is. -/
theorem C140_not_transitive (e : ℝ) (he : 0 < e) : ∃ a b c : XR, approxEqual a b (.fin e) = true ∧ approxEqual b c (.fin e) = true ∧ approxEqual a c (.fin e) = false := by
  refine ⟨.fin 0, .fin (e / 2), .fin e, ?_, ?_, ?_⟩
  · rw [C140_near]
    exact .close _ _ (by rw [zero_sub, abs_neg, abs_of_pos (by linarith)]; linarith)
  · rw [C140_near]
    exact .close _ _ (by rw [show e / 2 - e = -(e / 2) by ring, abs_neg, abs_of_pos (by linarith)]; linarith)
  · rw [Bool.eq_false_iff, Ne, C140_near]
    rintro (_ | ⟨_, _, h⟩)
    · exact lt_irrefl _ he
    · rw [zero_sub, abs_neg, abs_of_pos he] at h
      exact lt_irrefl _ h

/-- The hypotheses of `C140_symmetric` and `C140_triangle` are met by different numbers. -/
example : approxEqual (.fin 0 : XR) (.fin (1 / 2)) (.fin 1) = true ∧ approxEqual (.fin (1 / 2) : XR) (.fin 1) (.fin 1) = true := by
  constructor <;> rw [C140_near] <;> exact .close _ _ (by norm_num [abs_lt])

/-- C141. In exact arithmetic the logarithm of `AntiLog(l)` is `l`, for every `l`, also minus infinity. Missing: floating point
arithmetic, where it fails (`C141_refuted`). -/
theorem C141_log_antiLog_partial (l : XR) : utilsLog (antiLog l) = l := by
  cases l <;> simp [utilsLog, antiLog, GoFloat.log, GoFloat.exp, XR.log, XR.exp, Real.exp_pos]

/-- C141. `AntiLog(Log(p))` is `p` exactly for the numbers from zero to infinity (and NaN); for negative numbers it is NaN.
Missing: the rounding of floating point arithmetic. -/
theorem C141_antiLog_log_partial (p : XR) : (antiLog (utilsLog p) = p ↔ p = .nan ∨ p = .pinf ∨ ∃ x : ℝ, 0 ≤ x ∧ p = .fin x) ∧ ((p = .ninf ∨ ∃ x : ℝ, x < 0 ∧ p = .fin x) → antiLog (utilsLog p) = .nan) := by
  cases p with
  | nan => simp [utilsLog, antiLog, GoFloat.log, GoFloat.exp, XR.log, XR.exp]
  | ninf => simp [utilsLog, antiLog, GoFloat.log, GoFloat.exp, XR.log, XR.exp]
  | pinf => simp [utilsLog, antiLog, GoFloat.log, GoFloat.exp, XR.log, XR.exp]
  | fin x =>
    rcases lt_trichotomy x 0 with h | rfl | h
    · have h1 : ¬ 0 < x := by linarith
      have h2 : x ≠ 0 := by linarith
      simp [utilsLog, antiLog, GoFloat.log, GoFloat.exp, XR.log, XR.exp, h1, h2, h]
    · simp [utilsLog, antiLog, GoFloat.log, GoFloat.exp, XR.log, XR.exp]
    · simp [utilsLog, antiLog, GoFloat.log, GoFloat.exp, XR.log, XR.exp, h, Real.exp_log h, h.le, not_lt.2 h.le]

/-- C141 is false in every arithmetic in which the exponential function gives the same number twice: float64 is one, as `math.Exp` is zero for all numbers below -746. -/
theorem C141_refuted {F : Type} [GoFloat F] {x y : F} (hxy : x ≠ y) (h : (GoFloat.exp x : F) = GoFloat.exp y) : ¬ ∀ l : F, utilsLog (antiLog l) = l := by
  intro hall
  have h1 := hall x
  have h2 := hall y
  unfold antiLog at h1 h2
  rw [h, h2] at h1
  exact hxy h1.symm

/-- Fixed point arithmetic is another: the exponentials of -100 and -200 are rounded to zero. -/
example : ∃ x y : Fixed, x ≠ y ∧ (GoFloat.exp x : Fixed) = GoFloat.exp y := by
  have small : ∀ t : ℝ, 100 ≤ t → (GoFloat.exp (⟨.fin (-t)⟩ : Fixed) : Fixed) = ⟨.fin 0⟩ := by
    intro t ht
    have h1 : Real.exp (-t) * 2 ^ 20 < 1 / 2 := by
      have h2 : (2 : ℝ) ^ 100 ≤ Real.exp t := by
        have h3 : (2 : ℝ) ≤ Real.exp 1 := by have := Real.add_one_le_exp (1 : ℝ); linarith
        calc (2 : ℝ) ^ 100 ≤ Real.exp 1 ^ 100 := pow_le_pow_left₀ (by norm_num) h3 100
          _ = Real.exp 100 := by rw [← Real.exp_nat_mul]; norm_num
          _ ≤ Real.exp t := Real.exp_le_exp.2 ht
      rw [Real.exp_neg, inv_mul_lt_iff₀ (Real.exp_pos t)]
      have : (2 : ℝ) ^ 20 < 2 ^ 100 * (1 / 2) := by norm_num
      linarith
    have h0 : 0 ≤ Real.exp (-t) * 2 ^ 20 := by positivity
    have hr : _root_.round (Real.exp (-t) * 2 ^ 20) = 0 := by
      rw [round_eq_zero_iff]
      exact ⟨by linarith, h1⟩
    show Fixed.fl (XR.exp (.fin (-t))) = _
    simp [XR.exp, Fixed.fl, hr]
  refine ⟨⟨.fin (-100)⟩, ⟨.fin (-200)⟩, ?_, (small 100 le_rfl).trans (small 200 (by norm_num)).symm⟩
  intro h
  have := congrArg Fixed.get h
  simp at this

end Gospn
