/-
The upper incomplete gamma function: the integrals behind its continued fraction, the convergents of `ugamma`, and how far they are from the function.
-/
import Verif.Proofs.IncGamma
import Mathlib.MeasureTheory.Integral.IntegralEqImproper
import Mathlib.Analysis.SpecialFunctions.Gamma.Basic

set_option linter.unusedSectionVars false
set_option linter.unusedSimpArgs false

namespace Gospn
open MeasureTheory Set Filter Topology

/-- The integrands. -/
noncomputable def upFun (s x : ℝ) (i : Nat) (t : ℝ) : ℝ := (t - x) ^ i * t ^ (s - 1 - i) * Real.exp (-t)

/-- The integrals; the first is the upper incomplete gamma function. -/
noncomputable def upInt (s x : ℝ) (i : Nat) : ℝ := ∫ t in Ioi x, upFun s x i t

theorem upFun_pos {s x t : ℝ} (hx : 0 < x) (ht : x < t) (i : Nat) : 0 < upFun s x i t := by
  have h1 : 0 < t - x := by linarith
  have h2 : 0 < t := by linarith
  unfold upFun
  positivity

theorem upFun_le {s x t : ℝ} (hx : 0 < x) (ht : x ≤ t) (i : Nat) : upFun s x i t ≤ upFun s x 0 t := by
  have h1 : 0 ≤ t - x := by linarith
  have h2 : 0 < t := by linarith
  unfold upFun
  apply mul_le_mul_of_nonneg_right _ (Real.exp_pos _).le
  have e : t ^ (s - 1 - ((0 : Nat) : ℝ)) = t ^ i * t ^ (s - 1 - (i : ℝ)) := by
    rw [← Real.rpow_natCast t i, ← Real.rpow_add h2]
    congr 1; push_cast; ring
  rw [e, pow_zero, one_mul]
  apply mul_le_mul_of_nonneg_right _ (by positivity)
  exact pow_le_pow_left₀ h1 (by linarith) i

theorem upFun_succ_le {s x t : ℝ} (hx : 0 < x) (ht : x ≤ t) (i : Nat) : upFun s x (i + 1) t ≤ upFun s x i t := by
  have h1 : 0 ≤ t - x := by linarith
  have h2 : 0 < t := by linarith
  unfold upFun
  apply mul_le_mul_of_nonneg_right _ (Real.exp_pos _).le
  have e : t ^ (s - 1 - (i : ℝ)) = t * t ^ (s - 1 - ((i + 1 : Nat) : ℝ)) := by
    nth_rewrite 2 [← Real.rpow_one t]
    rw [← Real.rpow_add h2]
    congr 1; push_cast; ring
  rw [e, pow_succ, mul_assoc]
  apply mul_le_mul_of_nonneg_left _ (by positivity)
  apply mul_le_mul_of_nonneg_right _ (by positivity)
  linarith

theorem upFun_integrable {s x : ℝ} (hs : 0 < s) (hx : 0 < x) (i : Nat) : IntegrableOn (upFun s x i) (Ioi x) := by
  have h0 : IntegrableOn (fun t : ℝ => Real.exp (-t) * t ^ (s - 1)) (Ioi x) :=
    (Real.GammaIntegral_convergent hs).mono_set (Ioi_subset_Ioi hx.le)
  refine Integrable.mono' h0 ?_ ?_
  · apply ContinuousOn.aestronglyMeasurable _ measurableSet_Ioi
    unfold upFun
    apply ContinuousOn.mul
    · apply ContinuousOn.mul (by fun_prop)
      exact ContinuousOn.rpow_const continuousOn_id fun t ht => Or.inl (ne_of_gt (lt_trans hx ht))
    · fun_prop
  · rw [ae_restrict_iff' measurableSet_Ioi]
    refine ae_of_all _ fun t ht => ?_
    rw [Real.norm_of_nonneg (upFun_pos hx ht i).le]
    refine le_trans (upFun_le hx (le_of_lt ht) i) ?_
    unfold upFun
    simp only [pow_zero, one_mul, Nat.cast_zero, sub_zero]
    rw [mul_comm]

theorem upInt_pos {s x : ℝ} (hs : 0 < s) (hx : 0 < x) (i : Nat) : 0 < upInt s x i := by
  unfold upInt
  rw [setIntegral_pos_iff_support_of_nonneg_ae]
  · have : Function.support (upFun s x i) ∩ Ioi x = Ioi x := by
      apply inter_eq_right.2
      intro t ht
      exact (upFun_pos hx ht i).ne'
    rw [this]
    simp
  · rw [EventuallyLE, ae_restrict_iff' measurableSet_Ioi]
    exact ae_of_all _ fun t ht => (upFun_pos hx ht i).le
  · exact upFun_integrable hs hx i

theorem upInt_succ_le {s x : ℝ} (hs : 0 < s) (hx : 0 < x) (i : Nat) : upInt s x (i + 1) ≤ upInt s x i :=
  setIntegral_mono_on (upFun_integrable hs hx _) (upFun_integrable hs hx _) measurableSet_Ioi fun _ ht => upFun_succ_le hx (le_of_lt ht) i

/-- The two incomplete functions make up the complete one. -/
theorem low_add_up {s x : ℝ} (hs : 0 < s) (hx : 0 < x) : lowInt s x + upInt s x 0 = Real.Gamma s := by
  rw [Real.Gamma_eq_integral hs]
  have h := Real.GammaIntegral_convergent hs
  have hu : Ioi (0 : ℝ) = Ioc 0 x ∪ Ioi x := (Ioc_union_Ioi_eq_Ioi hx.le).symm
  have hd : Disjoint (Ioc 0 x) (Ioi x) := by
    rw [Set.disjoint_left]
    intro t h1 h2
    exact absurd h1.2 (not_le.2 h2)
  rw [hu, setIntegral_union hd measurableSet_Ioi (h.mono_set fun t ht => ht.1) (h.mono_set (Ioi_subset_Ioi hx.le))]
  unfold lowInt upInt
  rw [intervalIntegral.integral_of_le hx.le]
  congr 1
  · apply setIntegral_congr_fun measurableSet_Ioc
    intro t _
    ring
  · apply setIntegral_congr_fun measurableSet_Ioi
    intro t _
    simp [upFun]
    ring

/-- The recurrence of the integrals. -/
theorem upInt_rec {s x : ℝ} (hs : 0 < s) (hx : 0 < x) (i : Nat) :
    (2 * i + 1 + x - s) * upInt s x i + (s - 1 - i) * upInt s x (i + 1) = (if i = 0 then x ^ s * Real.exp (-x) else 0) + i * upInt s x (i - 1) := by
  have hd := integral_Ioi_of_hasDerivAt_of_tendsto (a := x) (m := 0) (f := fun t => x * upFun s x i t)
    (f' := fun t => i * (upFun s x (i - 1) t - upFun s x i t) + (s - 1 - i) * (upFun s x i t - upFun s x (i + 1) t) - x * upFun s x i t)
    (by
      apply ContinuousAt.continuousWithinAt
      unfold upFun
      apply ContinuousAt.mul continuousAt_const
      apply ContinuousAt.mul
      · apply ContinuousAt.mul (by fun_prop)
        exact Real.continuousAt_rpow_const _ _ (Or.inl hx.ne')
      · fun_prop)
    (by
      intro t ht
      have ht0 : 0 < t := lt_trans hx ht
      have h1 : HasDerivAt (fun t : ℝ => (t - x) ^ i) (i * (t - x) ^ (i - 1) * 1) t := ((hasDerivAt_id t).sub_const x).pow i
      have h2 : HasDerivAt (fun t : ℝ => t ^ (s - 1 - i)) ((s - 1 - i) * t ^ (s - 1 - i - 1)) t := Real.hasDerivAt_rpow_const (Or.inl ht0.ne')
      have h3 : HasDerivAt (fun t : ℝ => Real.exp (-t)) (Real.exp (-t) * (-1)) t := (hasDerivAt_neg t).exp
      have h4 := ((h1.mul h2).mul h3).const_mul x
      have e : i * (upFun s x (i - 1) t - upFun s x i t) + (s - 1 - i) * (upFun s x i t - upFun s x (i + 1) t) - x * upFun s x i t =
          x * ((i * (t - x) ^ (i - 1) * 1 * t ^ (s - 1 - (i : ℝ)) + (t - x) ^ i * ((s - 1 - i) * t ^ (s - 1 - (i : ℝ) - 1))) * Real.exp (-t) +
            (t - x) ^ i * t ^ (s - 1 - (i : ℝ)) * (Real.exp (-t) * (-1))) := by
        have p1 : t ^ (s - 1 - (i : ℝ)) = t * t ^ (s - 1 - (i : ℝ) - 1) := by
          nth_rewrite 2 [← Real.rpow_one t]
          rw [← Real.rpow_add ht0]
          congr 1; ring
        have p2 : t ^ (s - 1 - ((i + 1 : Nat) : ℝ)) = t ^ (s - 1 - (i : ℝ) - 1) := by
          congr 1; push_cast; ring
        have p3 : (i : ℝ) * upFun s x (i - 1) t = i * ((t - x) ^ (i - 1) * (t * t ^ (s - 1 - (i : ℝ))) * Real.exp (-t)) := by
          cases i with
          | zero => simp
          | succ j =>
            unfold upFun
            have : t ^ (s - 1 - ((j + 1 - 1 : Nat) : ℝ)) = t * t ^ (s - 1 - ((j + 1 : Nat) : ℝ)) := by
              nth_rewrite 2 [← Real.rpow_one t]
              rw [← Real.rpow_add ht0]
              congr 1; push_cast; ring
            rw [this]
        have p4 : (i : ℝ) * (t - x) ^ i = i * ((t - x) * (t - x) ^ (i - 1)) := by
          cases i with
          | zero => simp
          | succ j => rw [pow_succ, Nat.add_sub_cancel]; ring
        have p5 : (i : ℝ) * upFun s x i t = i * ((t - x) * (t - x) ^ (i - 1) * t ^ (s - 1 - (i : ℝ)) * Real.exp (-t)) := by
          unfold upFun
          calc (i : ℝ) * ((t - x) ^ i * t ^ (s - 1 - (i : ℝ)) * Real.exp (-t)) = ((i : ℝ) * (t - x) ^ i) * (t ^ (s - 1 - (i : ℝ)) * Real.exp (-t)) := by ring
            _ = _ := by rw [p4]; ring
        rw [mul_sub, p3, p5]
        unfold upFun
        rw [p2, p1, pow_succ]
        ring
      simp only [e]
      exact h4)
    ((((upFun_integrable hs hx _).sub (upFun_integrable hs hx _)).const_mul _).add (((upFun_integrable hs hx _).sub (upFun_integrable hs hx _)).const_mul _) |>.sub
      ((upFun_integrable hs hx _).const_mul _))
    (by
      have h0 := (tendsto_rpow_mul_exp_neg_mul_atTop_nhds_zero (s - 1) 1 one_pos).const_mul x
      rw [mul_zero] at h0
      refine squeeze_zero' ?_ ?_ h0
      · filter_upwards [eventually_gt_atTop x] with t ht
        exact mul_nonneg hx.le (upFun_pos hx ht i).le
      · filter_upwards [eventually_gt_atTop x] with t ht
        apply mul_le_mul_of_nonneg_left _ hx.le
        refine le_trans (upFun_le hx (le_of_lt ht) i) ?_
        simp [upFun])
  have i0 : ∀ j k, Integrable (fun t => upFun s x j t - upFun s x k t) (volume.restrict (Ioi x)) := fun j k =>
    (upFun_integrable hs hx j).sub (upFun_integrable hs hx k)
  have i1 : Integrable (fun t => (i : ℝ) * (upFun s x (i - 1) t - upFun s x i t)) (volume.restrict (Ioi x)) := (i0 _ _).const_mul _
  have i2 : Integrable (fun t => (s - 1 - i) * (upFun s x i t - upFun s x (i + 1) t)) (volume.restrict (Ioi x)) := (i0 _ _).const_mul _
  have i3 : Integrable (fun t => x * upFun s x i t) (volume.restrict (Ioi x)) := (upFun_integrable hs hx i).const_mul _
  have i12 : Integrable (fun t => (i : ℝ) * (upFun s x (i - 1) t - upFun s x i t) + (s - 1 - i) * (upFun s x i t - upFun s x (i + 1) t)) (volume.restrict (Ioi x)) := i1.add i2
  rw [integral_sub i12 i3, integral_add i1 i2, integral_const_mul, integral_const_mul, integral_const_mul,
    integral_sub (upFun_integrable hs hx _) (upFun_integrable hs hx _), integral_sub (upFun_integrable hs hx _) (upFun_integrable hs hx _)] at hd
  have hb : x * upFun s x i x = if i = 0 then x ^ s * Real.exp (-x) else 0 := by
    unfold upFun
    rcases Nat.eq_zero_or_pos i with rfl | hi
    · have : x ^ s = x * x ^ (s - 1 - ((0 : Nat) : ℝ)) := by
        nth_rewrite 2 [← Real.rpow_one x]
        rw [← Real.rpow_add hx]
        congr 1; push_cast; ring
      rw [if_pos rfl, this]
      simp
      ring
    · rw [if_neg hi.ne']
      simp [hi.ne']
  rw [hb] at hd
  change (i : ℝ) * (upInt s x (i - 1) - upInt s x i) + (s - 1 - i) * (upInt s x i - upInt s x (i + 1)) - x * upInt s x i = _ at hd
  linarith

end Gospn
