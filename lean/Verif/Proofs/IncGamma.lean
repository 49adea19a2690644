/-
The lower incomplete gamma function: its recurrence, its truncated series, and its place in the chi-square distribution.
-/
import Verif.Model.Chisq
import Verif.Proofs.Log
import Mathlib.Probability.Distributions.Gamma
import Mathlib.MeasureTheory.Integral.IntervalIntegral.FundThmCalculus
import Mathlib.Analysis.SpecialFunctions.Integrability.Basic
import Mathlib.Analysis.SpecialFunctions.Integrals.Basic

set_option linter.unusedSectionVars false
set_option linter.unusedSimpArgs false

namespace Gospn
open MeasureTheory Set

/-- The lower incomplete gamma function. -/
noncomputable def lowInt (s x : ℝ) : ℝ := ∫ t in (0 : ℝ)..x, t ^ (s - 1) * Real.exp (-t)

theorem lowInt_integrable {s : ℝ} (hs : 0 < s) (x : ℝ) : IntervalIntegrable (fun t : ℝ => t ^ (s - 1) * Real.exp (-t)) volume 0 x :=
  (intervalIntegral.intervalIntegrable_rpow' (by linarith)).mul_continuousOn (by fun_prop)

theorem lowInt_nonneg {s x : ℝ} (hx : 0 ≤ x) : 0 ≤ lowInt s x := by
  apply intervalIntegral.integral_nonneg hx
  intro t ht
  have := ht.1
  positivity

theorem lowInt_rec {s x : ℝ} (hs : 0 < s) (hx : 0 ≤ x) : x ^ s * Real.exp (-x) = s * lowInt s x - lowInt (s + 1) x := by
  have h := intervalIntegral.integral_eq_sub_of_hasDerivAt_of_le (f := fun t : ℝ => t ^ s * Real.exp (-t))
    (f' := fun t => s * (t ^ (s - 1) * Real.exp (-t)) - t ^ (s + 1 - 1) * Real.exp (-t)) hx
    (by apply ContinuousOn.mul
        · exact (Real.continuous_rpow_const hs.le).continuousOn
        · fun_prop)
    (by
      intro t ht
      have h1 : HasDerivAt (fun t : ℝ => t ^ s) (s * t ^ (s - 1)) t := Real.hasDerivAt_rpow_const (Or.inl ht.1.ne')
      have h2 : HasDerivAt (fun t : ℝ => Real.exp (-t)) (Real.exp (-t) * (-1)) t := (hasDerivAt_neg t).exp
      have e : s * (t ^ (s - 1) * Real.exp (-t)) - t ^ (s + 1 - 1) * Real.exp (-t) =
          s * t ^ (s - 1) * Real.exp (-t) + t ^ s * (Real.exp (-t) * (-1)) := by
        rw [add_sub_cancel_right]; ring
      simp only [e]
      exact h1.mul h2)
    (((lowInt_integrable hs x).const_mul s).sub (lowInt_integrable (by linarith) x))
  rw [intervalIntegral.integral_sub ((lowInt_integrable hs x).const_mul s) (lowInt_integrable (by linarith) x), intervalIntegral.integral_const_mul] at h
  simp only [Real.zero_rpow hs.ne', zero_mul, sub_zero] at h
  exact h.symm

theorem lowInt_succ_le {s x : ℝ} (hs : 0 < s) (hx : 0 ≤ x) : lowInt (s + 1) x ≤ x * lowInt s x := by
  unfold lowInt
  rw [← intervalIntegral.integral_const_mul]
  apply intervalIntegral.integral_mono_on hx (lowInt_integrable (by linarith) x) ((lowInt_integrable hs x).const_mul x)
  intro t ht
  rcases eq_or_lt_of_le ht.1 with h0 | h0
  · subst h0
    rw [add_sub_cancel_right, Real.zero_rpow hs.ne', zero_mul]
    have := ht.2
    positivity
  · have : t ^ (s + 1 - 1) = t * t ^ (s - 1) := by
      rw [add_sub_cancel_right, ← Real.rpow_one_add' h0.le (by linarith)]
      congr 1; ring
    rw [this, mul_assoc]
    exact mul_le_mul_of_nonneg_right ht.2 (by positivity)

/-- With `x < s`, the incomplete gamma function is at most `x ^ s * exp (-x) / (s - x)`. -/
theorem lowInt_le {s x : ℝ} (hs : 0 < s) (hx : 0 ≤ x) (hlt : x < s) : lowInt s x ≤ x ^ s * Real.exp (-x) / (s - x) := by
  rw [le_div_iff₀ (by linarith)]
  have := lowInt_rec hs hx
  have := lowInt_succ_le hs hx
  nlinarith

theorem lowInt_le_pow {s x : ℝ} (hs : 0 < s) (hx : 0 ≤ x) : lowInt s x ≤ x ^ s / s := by
  have h : ∫ t in (0 : ℝ)..x, t ^ (s - 1) = x ^ s / s := by
    rw [integral_rpow (Or.inl (by linarith))]
    rw [sub_add_cancel, Real.zero_rpow hs.ne', sub_zero]
  rw [← h]
  unfold lowInt
  apply intervalIntegral.integral_mono_on hx (lowInt_integrable hs x) (intervalIntegral.intervalIntegrable_rpow' (by linarith))
  intro t ht
  have h1 : Real.exp (-t) ≤ 1 := Real.exp_le_one_iff.2 (by linarith [ht.1])
  have h2 : (0 : ℝ) ≤ t ^ (s - 1) := Real.rpow_nonneg ht.1 _
  nlinarith

/-- The terms of the series. -/
noncomputable def serTerm (s x : ℝ) : Nat → ℝ
  | 0 => 1
  | n + 1 => serTerm s x n * (x / (s + (n + 1 : Nat)))

/-- The partial sums of the series. -/
noncomputable def serSum (s x : ℝ) : Nat → ℝ
  | 0 => 1
  | n + 1 => serSum s x n + serTerm s x (n + 1)

theorem serTerm_pos {s x : ℝ} (hs : 0 < s) (hx : 0 < x) : ∀ n, 0 < serTerm s x n
  | 0 => by simp [serTerm]
  | n + 1 => by
    have := serTerm_pos hs hx n
    unfold serTerm
    positivity

theorem one_le_serSum {s x : ℝ} (hs : 0 < s) (hx : 0 < x) : ∀ n, 1 ≤ serSum s x n
  | 0 => by simp [serSum]
  | n + 1 => by
    have := one_le_serSum hs hx n
    have := serTerm_pos hs hx (n + 1)
    unfold serSum
    linarith

/-- The terms fall at least geometrically. -/
theorem serTerm_le {s x : ℝ} (hs : 0 < s) (hx : 0 < x) : ∀ n, serTerm s x n ≤ (x / (s + 1)) ^ n
  | 0 => by simp [serTerm]
  | n + 1 => by
    have h := serTerm_le hs hx n
    have h0 := serTerm_pos hs hx n
    unfold serTerm
    rw [pow_succ]
    apply mul_le_mul h _ (by positivity) (by positivity)
    apply div_le_div_of_nonneg_left hx.le (by linarith)
    push_cast
    have : (0 : ℝ) ≤ n := Nat.cast_nonneg n
    linarith

/-- The truncated series and what is left over. -/
theorem lowInt_series {s x : ℝ} (hs : 0 < s) (hx : 0 < x) :
    ∀ n : Nat, s * lowInt s x = x ^ s * Real.exp (-x) * serSum s x n + serTerm s x n / x ^ n * lowInt (s + (n + 1 : Nat)) x
  | 0 => by
    have := lowInt_rec hs hx.le
    simp [serSum, serTerm]
    linarith
  | n + 1 => by
    have h := lowInt_series hs hx n
    have hn : (0 : ℝ) ≤ n := Nat.cast_nonneg n
    have hpos : 0 < s + ((n + 1 : Nat) : ℝ) := by push_cast; linarith
    have hr := lowInt_rec hpos hx.le
    have hxs : x ^ (s + ((n + 1 : Nat) : ℝ)) = x ^ s * x ^ (n + 1) := by rw [Real.rpow_add hx, Real.rpow_natCast]
    rw [hxs] at hr
    have hc : s + ((n + 1 + 1 : Nat) : ℝ) = s + ((n + 1 : Nat) : ℝ) + 1 := by push_cast; ring
    rw [h, hc]
    set G := lowInt (s + ((n + 1 : Nat) : ℝ)) x
    set H := lowInt (s + ((n + 1 : Nat) : ℝ) + 1) x
    set r := s + ((n + 1 : Nat) : ℝ)
    have hG : G = (x ^ s * x ^ (n + 1) * Real.exp (-x) + H) / r := by
      field_simp
      linarith
    have hT : serTerm s x (n + 1) = serTerm s x n * (x / r) := rfl
    have hS : serSum s x (n + 1) = serSum s x n + serTerm s x (n + 1) := rfl
    rw [hS, hT, hG]
    have hx' : x ^ n ≠ 0 := by positivity
    field_simp
    ring

/-- The truncated series is below the function by at most the last term times `x / (s + n + 1 - x)`. -/
theorem lowInt_truncated {s x : ℝ} (hs : 0 < s) (hx : 0 < x) (n : Nat) (hlt : x < s + (n + 1 : Nat)) :
    x ^ s * Real.exp (-x) * serSum s x n ≤ s * lowInt s x ∧
    s * lowInt s x ≤ x ^ s * Real.exp (-x) * (serSum s x n + serTerm s x n * (x / (s + (n + 1 : Nat) - x))) := by
  have h := lowInt_series hs hx n
  have hT := serTerm_pos hs hx n
  have hn : (0 : ℝ) ≤ n := Nat.cast_nonneg n
  have hpos : 0 < s + ((n + 1 : Nat) : ℝ) := by push_cast; linarith
  have hG0 : 0 ≤ lowInt (s + ((n + 1 : Nat) : ℝ)) x := lowInt_nonneg hx.le
  have hG := lowInt_le hpos hx.le hlt
  have hxs : x ^ (s + ((n + 1 : Nat) : ℝ)) = x ^ s * x ^ (n + 1) := by rw [Real.rpow_add hx, Real.rpow_natCast]
  rw [hxs] at hG
  constructor
  · rw [h]
    have : 0 ≤ serTerm s x n / x ^ n * lowInt (s + ((n + 1 : Nat) : ℝ)) x := by positivity
    linarith
  · rw [h, mul_add]
    have h1 : serTerm s x n / x ^ n * lowInt (s + ((n + 1 : Nat) : ℝ)) x ≤
        serTerm s x n / x ^ n * (x ^ s * x ^ (n + 1) * Real.exp (-x) / (s + ((n + 1 : Nat) : ℝ) - x)) :=
      mul_le_mul_of_nonneg_left hG (by positivity)
    have h2 : serTerm s x n / x ^ n * (x ^ s * x ^ (n + 1) * Real.exp (-x) / (s + ((n + 1 : Nat) : ℝ) - x)) =
        x ^ s * Real.exp (-x) * (serTerm s x n * (x / (s + ((n + 1 : Nat) : ℝ) - x))) := by
      have hx' : x ^ n ≠ 0 := by positivity
      rw [pow_succ]
      field_simp
    linarith

/-- Where the loop over the terms stops. -/
theorem seriesLoop_stop {s x : ℝ} (hs : 0 < s) (hx : 0 < x) :
    ∀ (fuel n : Nat) (v : XR), seriesLoop (XR.fin x) fuel (.fin (s + n)) (.fin (serTerm s x n)) (.fin (serSum s x n)) = some v →
      ∃ m, v = .fin (serSum s x m) ∧ serTerm s x m ≤ 1 / 1000000000000 * serSum s x m
  | 0, _, _, h => by simp [seriesLoop] at h
  | k + 1, n, v, h => by
    have hS : 0 < serSum s x n := lt_of_lt_of_le one_pos (one_le_serSum hs hx n)
    have hS0 : ¬ serSum s x n = 0 := hS.ne'
    unfold seriesLoop at h
    split at h
    · have hr : GoFloat.add (XR.fin (s + n)) (GoFloat.ofInt 1) = XR.fin (s + (n + 1 : Nat)) := by
        simp [add_assoc]
      have hr0 : ¬ s + ((n + 1 : Nat) : ℝ) = 0 := by positivity
      have hc : GoFloat.mul (XR.fin (serTerm s x n)) (GoFloat.div (XR.fin x) (XR.fin (s + (n + 1 : Nat)))) = XR.fin (serTerm s x (n + 1)) := by
        change XR.mul _ (XR.div _ _) = _
        rw [XR.div_fin hr0]
        rfl
      simp only [hr, hc] at h
      have hp : GoFloat.add (XR.fin (serSum s x n)) (XR.fin (serTerm s x (n + 1))) = XR.fin (serSum s x (n + 1)) := rfl
      rw [hp] at h
      exact seriesLoop_stop hs hx k (n + 1) v h
    · rename_i hc
      have hv : v = .fin (serSum s x n) := by simpa using h.symm
      refine ⟨n, hv, ?_⟩
      simp [XR.lt, XR.div_fin, hS0] at hc
      rw [div_le_iff₀ hS] at hc
      linarith

/-- The loop over the terms stops, if the terms fall. -/
theorem seriesLoop_stops {s x : ℝ} (hs : 0 < s) (hx : 0 < x) (m : Nat) (hm : serTerm s x m ≤ 1 / 1000000000000) :
    ∀ (d n fuel : Nat), n + d = m → d < fuel → (seriesLoop (XR.fin x) fuel (.fin (s + n)) (.fin (serTerm s x n)) (.fin (serSum s x n))).isSome
  | d, n, 0, _, hf => by omega
  | d, n, k + 1, hd, hf => by
    have hS : 0 < serSum s x n := lt_of_lt_of_le one_pos (one_le_serSum hs hx n)
    have hS0 : ¬ serSum s x n = 0 := hS.ne'
    unfold seriesLoop
    split
    · rename_i hlt
      have hr : GoFloat.add (XR.fin (s + n)) (GoFloat.ofInt 1) = XR.fin (s + (n + 1 : Nat)) := by
        simp [add_assoc]
      have hr0 : ¬ s + ((n + 1 : Nat) : ℝ) = 0 := by positivity
      have hc : GoFloat.mul (XR.fin (serTerm s x n)) (GoFloat.div (XR.fin x) (XR.fin (s + (n + 1 : Nat)))) = XR.fin (serTerm s x (n + 1)) := by
        change XR.mul _ (XR.div _ _) = _
        rw [XR.div_fin hr0]
        rfl
      simp only [hr, hc]
      have hp : GoFloat.add (XR.fin (serSum s x n)) (XR.fin (serTerm s x (n + 1))) = XR.fin (serSum s x (n + 1)) := rfl
      rw [hp]
      match d with
      | 0 =>
        exfalso
        have : n = m := by omega
        subst this
        simp [XR.lt, XR.div_fin, hS0] at hlt
        rw [lt_div_iff₀ hS] at hlt
        have := one_le_serSum hs hx n
        nlinarith
      | d + 1 => exact seriesLoop_stops hs hx m hm d (n + 1) k (by omega) (by omega)
    · rfl

end Gospn
