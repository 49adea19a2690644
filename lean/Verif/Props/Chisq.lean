/-
C114: the chi-square distribution computed by utils/indep/chisq.go.
-/
import Verif.Model.Chisq
import Verif.Proofs.Log
import Verif.Proofs.IncGamma
import Verif.Proofs.Settle
import Mathlib.Probability.Distributions.Exponential

set_option linter.unusedSectionVars false
set_option linter.unusedSimpArgs false

namespace Gospn
open GoFloat ProbabilityTheory MeasureTheory

/-- The chi-square distribution with `df` degrees of freedom: the gamma distribution with shape `df / 2` and rate 1/2. -/
noncomputable def Spec.chiMeasure (df : Nat) : Measure ℝ := gammaMeasure ((df : ℝ) / 2) (1 / 2)

/-- The probability of exceeding `cv`. -/
noncomputable def Spec.pValue (df : Nat) (cv : ℝ) : ℝ := (Spec.chiMeasure df).real (Set.Ioi cv)

open Spec

theorem pValue_compl {df : Nat} (h : 0 < df) (cv : ℝ) : pValue df cv = 1 - cdf (chiMeasure df) cv := by
  have hd : (0 : ℝ) < (df : ℝ) / 2 := by positivity
  have hp : IsProbabilityMeasure (chiMeasure df) := isProbabilityMeasure_gammaMeasure hd (by norm_num)
  rw [cdf_eq_real]
  unfold pValue
  rw [← Set.compl_Iic, probReal_compl_eq_one_sub measurableSet_Iic]

/-- The probability of exceeding zero, or a negative number, is one. -/
theorem pValue_nonpos {df : Nat} (h : 0 < df) {cv : ℝ} (hcv : cv ≤ 0) : pValue df cv = 1 := by
  have hd : (0 : ℝ) < (df : ℝ) / 2 := by positivity
  rw [pValue_compl h]
  unfold chiMeasure
  rw [cdf_gammaMeasure_eq_lintegral hd (by norm_num)]
  have : ∫⁻ x in Set.Iic cv, gammaPDF ((df : ℝ) / 2) (1 / 2) x = 0 := by
    have h1 : ∫⁻ x in Set.Iio (0 : ℝ), gammaPDF ((df : ℝ) / 2) (1 / 2) x = 0 := lintegral_gammaPDF_of_nonpos le_rfl
    have h2 : ∫⁻ x in Set.Iic (0 : ℝ), gammaPDF ((df : ℝ) / 2) (1 / 2) x = 0 := by
      rw [setLIntegral_congr (Iio_ae_eq_Iic (a := (0 : ℝ))).symm]
      exact h1
    exact le_antisymm (h2 ▸ lintegral_mono_set (Set.Iic_subset_Iic.2 hcv)) zero_le
  rw [this]
  simp

/-- C114, part: for two degrees of freedom, `Chisquare` is the probability of exceeding the value. -/
theorem C114_two_partial (gamma : XR → XR) (fuel : Nat) (cv : ℝ) (h : 0 ≤ cv) : chisquare gamma fuel 2 (.fin cv) = some (.fin (pValue 2 cv)) := by
  have hp : pValue 2 cv = Real.exp (-(cv / 2)) := by
    rw [pValue_compl (by norm_num)]
    have : chiMeasure 2 = expMeasure (1 / 2) := by unfold chiMeasure expMeasure; norm_num
    rw [this, cdf_expMeasure_eq (by norm_num), if_pos h]
    have : -(1 / 2 * cv) = -(cv / 2) := by ring
    rw [this]; ring
  have hlt : ¬ cv < 0 := not_lt.2 h
  rw [hp]
  unfold chisquare
  simp [XR.lt, hlt, XR.div_fin, XR.exp]

/-- C114 fails everywhere else at zero: for every number of degrees of freedom but two, `Chisquare` gives 1e-14 to the value 0, which is exceeded with probability one. -/
theorem C114_zero_refuted (gamma : XR → XR) (fuel : Nat) (df : Nat) (h : 0 < df) (h2 : df ≠ 2) :
    chisquare gamma fuel df (.fin 0) = some (.fin (1 / 100000000000000)) ∧ pValue df 0 = 1 := by
  refine ⟨?_, pValue_nonpos h le_rfl⟩
  have hd : ¬ ((df : Int) < 1) := by omega
  have hd2 : ¬ ((df : Int) = 2) := by omega
  unfold chisquare lowerGamma
  simp [XR.lt, XR.eq, XR.isInf, XR.div_fin, hd, hd2]

/-- C114 fails for negative values, which are exceeded with probability one: `Chisquare` returns 0. -/
theorem C114_negative_refuted (gamma : XR → XR) (fuel : Nat) (df : Nat) (h : 0 < df) (cv : ℝ) (hcv : cv < 0) :
    chisquare gamma fuel df (.fin cv) = some (.fin 0) ∧ pValue df cv = 1 := by
  refine ⟨?_, pValue_nonpos h hcv.le⟩
  unfold chisquare
  simp [XR.lt, hcv]

/-- C114 fails for `Chisqr`, which swaps the arguments of `lgamma`: at zero it is not a number, for every number of degrees of freedom. -/
theorem C114_chisqr_refuted (gamma : XR → XR) (fuel : Nat) (df : Nat) (h : 0 < df) : chisqr gamma fuel df (.fin 0) = some .nan := by
  have hd : ¬ ((df : ℝ) / 2 = 0) := by positivity
  have hd' : ¬ (df : ℝ) = 0 := by positivity
  have hd2 : ¬ ((df : ℝ) / 2 < 0) := not_lt.2 (by positivity)
  unfold chisqr lowerGamma
  simp [XR.lt, XR.eq, XR.div_fin, hd, hd', hd2, goNaN]
  have h0 : (XR.fin 0).div (XR.fin 0) = .nan := by simp [XR.div, XR.signedInf]
  rw [h0]
  rfl

/-- The probability of not exceeding a positive number is the incomplete gamma function over the complete one. -/
theorem cdf_chi {df : Nat} (h : 0 < df) {cv : ℝ} (hcv : 0 < cv) : cdf (chiMeasure df) cv = lowInt ((df : ℝ) / 2) (cv / 2) / Real.Gamma ((df : ℝ) / 2) := by
  have hd : (0 : ℝ) < (df : ℝ) / 2 := by positivity
  unfold chiMeasure
  rw [cdf_gammaMeasure_eq_integral hd (by norm_num)]
  generalize (df : ℝ) / 2 = a at hd
  have h1 : ∫ x in Set.Iic cv, gammaPDFReal a (1 / 2) x = ∫ x in Set.Icc 0 cv, gammaPDFReal a (1 / 2) x := by
    apply setIntegral_eq_of_subset_of_forall_diff_eq_zero measurableSet_Iic (fun x hx => hx.2)
    intro x hx
    have : ¬ 0 ≤ x := fun h0 => hx.2 ⟨h0, hx.1⟩
    simp [gammaPDFReal, this]
  have h2 : ∫ x in (0 : ℝ)..cv, gammaPDFReal a (1 / 2) x = ∫ x in (0 : ℝ)..cv, (1 / 2 / Real.Gamma a) * ((1 / 2 * x) ^ (a - 1) * Real.exp (-(1 / 2 * x))) := by
    apply intervalIntegral.integral_congr
    intro x hx
    rw [Set.uIcc_of_le hcv.le] at hx
    have hx0 : 0 ≤ x := hx.1
    have e : ((1 : ℝ) / 2) ^ a = 1 / 2 * (1 / 2) ^ (a - 1) := by
      have := Real.rpow_add (by norm_num : (0 : ℝ) < 1 / 2) 1 (a - 1)
      rw [Real.rpow_one, add_sub_cancel] at this
      exact this
    simp only [gammaPDFReal, if_pos hx0]
    rw [Real.mul_rpow (by norm_num) hx0, e]
    ring
  rw [h1, integral_Icc_eq_integral_Ioc, ← intervalIntegral.integral_of_le hcv.le, h2, intervalIntegral.integral_const_mul,
    intervalIntegral.integral_comp_mul_left (fun t : ℝ => t ^ (a - 1) * Real.exp (-t)) (by norm_num : (1 / 2 : ℝ) ≠ 0)]
  unfold lowInt
  rw [smul_eq_mul, mul_zero]
  have e1 : (1 : ℝ) / 2 * cv = cv / 2 := by ring
  rw [e1]
  ring

/-- What `lgamma` returns where it sums the series. -/
theorem lowerGamma_series (gamma : XR → XR) (fuel : Nat) {s x : ℝ} (hs : 0 < s) (hx : 0 < x) (hbr : x ≤ 11 / 10 ∨ x ≤ s) (v : XR)
    (h : lowerGamma gamma fuel (.fin x) (.fin s) = some v) :
    ∃ m, v = .fin (serSum s x m * (x ^ s * Real.exp (-x)) / s) ∧ serTerm s x m ≤ 1 / 1000000000000 * serSum s x m := by
  have hx0 : ¬ x = 0 := hx.ne'
  have hxn : ¬ x < 0 := not_lt.2 hx.le
  have hsn : ¬ s < 0 := not_lt.2 hs.le
  have hs0 : ¬ s = 0 := hs.ne'
  have hb : ¬ (11 / 10 < x ∧ s < x) := by
    rintro ⟨h1, h2⟩
    rcases hbr with h3 | h3 <;> linarith
  have hl : XR.log (.fin x) = .fin (Real.log x) := XR.log_pos hx
  have h11 : XR.div (.fin 11) (.fin 10) = .fin (11 / 10) := XR.div_fin (by norm_num)
  unfold lowerGamma at h
  rw [if_neg (by simp [hx0]), if_neg (by simp [XR.lt, XR.eq, hxn, hsn, hs0]), if_neg (by simp [XR.lt, h11]; intro h1; by_contra h2; exact hb ⟨h1, not_le.1 h2⟩)] at h
  simp only [Option.map_eq_some_iff] at h
  obtain ⟨pws, hp, hv⟩ := h
  have hp' : seriesLoop (XR.fin x) fuel (.fin (s + (0 : Nat))) (.fin (serTerm s x 0)) (.fin (serSum s x 0)) = some pws := by
    have : s + ((0 : Nat) : ℝ) = s := by simp
    rw [this]
    simpa [serTerm, serSum] using hp
  obtain ⟨m, hm, hc⟩ := seriesLoop_stop hs hx fuel 0 pws hp'
  refine ⟨m, ?_, hc⟩
  rw [← hv, hm]
  have he : Real.exp (s * Real.log x - x) = x ^ s * Real.exp (-x) := by
    rw [Real.rpow_def_of_pos hx, ← Real.exp_add]
    congr 1; ring
  simp [hl, XR.div_fin hs0, he]

/-- The truncation error of the series `lgamma` sums. -/
theorem series_error {s x : ℝ} (hs : 1 / 2 ≤ s) (hx : 0 < x) (hbr : x ≤ 11 / 10 ∨ x ≤ s) (m : Nat) (hm : serTerm s x m ≤ 1 / 1000000000000 * serSum s x m) :
    serSum s x m * (x ^ s * Real.exp (-x)) / s ≤ lowInt s x ∧
    lowInt s x ≤ serSum s x m * (x ^ s * Real.exp (-x)) / s * (1 + max s 3 / 1000000000000) := by
  have hs0 : 0 < s := by linarith
  have hmn : (0 : ℝ) ≤ m := Nat.cast_nonneg m
  have hlt : x < s + ((m + 1 : Nat) : ℝ) := by
    push_cast
    rcases hbr with h | h <;> linarith
  obtain ⟨h1, h2⟩ := lowInt_truncated hs0 hx m hlt
  have hE : 0 < x ^ s * Real.exp (-x) := by positivity
  have hS : 1 ≤ serSum s x m := one_le_serSum hs0 hx m
  have hT := serTerm_pos hs0 hx m
  have hq : x / (s + ((m + 1 : Nat) : ℝ) - x) ≤ max s 3 := by
    rw [div_le_iff₀ (by linarith)]
    push_cast
    have h3 : (3 : ℝ) ≤ max s 3 := le_max_right _ _
    have hss : s ≤ max s 3 := le_max_left _ _
    rcases hbr with h | h
    · nlinarith
    · nlinarith
  have hq0 : 0 ≤ x / (s + ((m + 1 : Nat) : ℝ) - x) := div_nonneg hx.le (by linarith)
  constructor
  · rw [div_le_iff₀ hs0]; linarith
  · have h4 : serTerm s x m * (x / (s + ((m + 1 : Nat) : ℝ) - x)) ≤ 1 / 1000000000000 * serSum s x m * max s 3 :=
      mul_le_mul hm hq hq0 (by positivity)
    have h5 := mul_le_mul_of_nonneg_left h4 hE.le
    rw [div_mul_eq_mul_div, le_div_iff₀ hs0]
    nlinarith

/-- C114, part: for values of at most 2.2, or at most the number of degrees of freedom, `Chisquare` is above the probability of exceeding the value, by at most
`max (df / 2) 3 * 1e-12`, unless the incomplete gamma function comes out as at most 1e-8: then it returns 1e-14, where the probability is at least
`1 - 1.1e-8 / gamma (df / 2)` or so. -/
theorem C114_series_partial (gamma : XR → XR) (fuel : Nat) (df : Nat) (h : 0 < df) (h2 : df ≠ 2) (cv : ℝ) (hcv : 0 < cv) (hbr : cv ≤ 11 / 5 ∨ cv ≤ df)
    (hg : gamma (.fin ((df : ℝ) / 2)) = .fin (Real.Gamma ((df : ℝ) / 2))) (p : XR) (hp : chisquare gamma fuel df (.fin cv) = some p) :
    (∃ q, p = .fin q ∧ pValue df cv ≤ q ∧ q ≤ pValue df cv + max ((df : ℝ) / 2) 3 / 1000000000000) ∨
    (p = .fin (1 / 100000000000000) ∧ 1 - 1 / 100000000 * (1 + max ((df : ℝ) / 2) 3 / 1000000000000) / Real.Gamma ((df : ℝ) / 2) ≤ pValue df cv) := by
  have hdf : (1 : ℝ) ≤ df := by exact_mod_cast h
  have hd : ¬ ((df : Int) < 1) := by omega
  have hd2 : ¬ ((df : Int) = 2) := by omega
  have hlt : ¬ cv < 0 := not_lt.2 hcv.le
  have hG : 0 < Real.Gamma ((df : ℝ) / 2) := Real.Gamma_pos_of_pos (by positivity)
  have hpv := pValue_compl h cv
  have hcdf := cdf_chi h hcv
  have hle : cdf (chiMeasure df) cv ≤ 1 := cdf_le_one _ _
  have hdiv : GoFloat.div (GoFloat.ofInt (df : Int) : XR) (GoFloat.ofInt 2) = .fin ((df : ℝ) / 2) := by
    change XR.div (.fin ((df : Int) : ℝ)) (.fin ((2 : Int) : ℝ)) = _
    rw [XR.div_fin (by norm_num)]
    norm_num
  have hxd : GoFloat.div (XR.fin cv) (GoFloat.ofInt 2) = .fin (cv / 2) := by
    change XR.div (.fin cv) (.fin ((2 : Int) : ℝ)) = _
    rw [XR.div_fin (by norm_num)]
    norm_num
  unfold chisquare at hp
  rw [if_neg (by simp [XR.lt, hlt, hd])] at hp
  simp only [hdiv, hxd, if_neg hd2, Option.map_eq_some_iff] at hp
  obtain ⟨l, hl, hp⟩ := hp
  have hbr' : cv / 2 ≤ 11 / 10 ∨ cv / 2 ≤ (df : ℝ) / 2 := by
    rcases hbr with h | h
    · left; linarith
    · right; linarith
  obtain ⟨m, hm, hc⟩ := lowerGamma_series gamma fuel (by positivity) (by positivity) hbr' l hl
  obtain ⟨e1, e2⟩ := series_error (by linarith) (by positivity) hbr' m hc
  have hpos : 0 < serSum ((df : ℝ) / 2) (cv / 2) m * ((cv / 2) ^ ((df : ℝ) / 2) * Real.exp (-(cv / 2))) / ((df : ℝ) / 2) := by
    have := one_le_serSum (s := (df : ℝ) / 2) (x := cv / 2) (by positivity) (by positivity) m
    positivity
  have hmax : (3 : ℝ) ≤ max ((df : ℝ) / 2) 3 := le_max_right _ _
  generalize serSum ((df : ℝ) / 2) (cv / 2) m * ((cv / 2) ^ ((df : ℝ) / 2) * Real.exp (-(cv / 2))) / ((df : ℝ) / 2) = g at *
  generalize lowInt ((df : ℝ) / 2) (cv / 2) = L at *
  generalize max ((df : ℝ) / 2) 3 = M at *
  subst hm
  rw [hcdf] at hle hpv
  rw [div_le_iff₀ hG, one_mul] at hle
  have h8 : GoFloat.div (GoFloat.ofInt 1 : XR) (GoFloat.ofInt 100000000) = .fin (1 / 100000000) := by
    change XR.div (.fin ((1 : Int) : ℝ)) (.fin ((100000000 : Int) : ℝ)) = _
    rw [XR.div_fin (by norm_num)]
    norm_num
  have h14 : GoFloat.div (GoFloat.ofInt 1 : XR) (GoFloat.ofInt 100000000000000) = .fin (1 / 100000000000000) := by
    change XR.div (.fin ((1 : Int) : ℝ)) (.fin ((100000000000000 : Int) : ℝ)) = _
    rw [XR.div_fin (by norm_num)]
    norm_num
  rw [h8, h14, hg] at hp
  by_cases hsm : g ≤ 1 / 100000000
  · right
    rw [if_pos (by
      rcases eq_or_lt_of_le hsm with h | h
      · simp [XR.lt, XR.eq, h]
      · simp only [XR.g_le]
        have : XR.lt (.fin g) (.fin (1 / 100000000)) = true := (XR.lt_fin _ _).2 h
        rw [this]; simp)] at hp
    refine ⟨hp.symm, ?_⟩
    rw [hpv]
    have : L / Real.Gamma ((df : ℝ) / 2) ≤ 1 / 100000000 * (1 + M / 1000000000000) / Real.Gamma ((df : ℝ) / 2) := by
      apply div_le_div_of_nonneg_right _ hG.le
      refine le_trans e2 ?_
      apply mul_le_mul_of_nonneg_right hsm
      positivity
    linarith
  · left
    have n1 : ¬ g < 1 / 100000000 := fun h => hsm h.le
    have n2 : ¬ g = 1 / 100000000 := fun h => hsm h.le
    have hcond : ¬ ((!(GoFloat.eq (XR.fin g) (XR.fin g)) || GoFloat.isInf (XR.fin g) || GoFloat.le (XR.fin g) (XR.fin (1 / 100000000))) = true) := by
      have t1 : XR.lt (.fin g) (.fin (1 / 100000000)) = false := by
        rw [← Bool.not_eq_true, XR.lt_fin]; exact n1
      have t2 : XR.eq (.fin g) (.fin (1 / 100000000)) = false := by
        rw [← Bool.not_eq_true, XR.eq_fin]; exact n2
      simp only [XR.g_le, XR.g_eq, XR.g_isInf, XR.isInf_fin, t1, t2]
      simp
    rw [if_neg hcond] at hp
    have hq : GoFloat.sub (GoFloat.ofInt 1 : XR) (GoFloat.div (XR.fin g) (XR.fin (Real.Gamma ((df : ℝ) / 2)))) = .fin (1 - g / Real.Gamma ((df : ℝ) / 2)) := by
      simp [XR.div_fin hG.ne']
    rw [hq] at hp
    refine ⟨_, hp.symm, ?_, ?_⟩
    · rw [hpv]
      have := div_le_div_of_nonneg_right e1 hG.le
      linarith
    · rw [hpv]
      have h1 : L / Real.Gamma ((df : ℝ) / 2) ≤ g * (1 + M / 1000000000000) / Real.Gamma ((df : ℝ) / 2) := div_le_div_of_nonneg_right e2 hG.le
      have h2 : g / Real.Gamma ((df : ℝ) / 2) ≤ 1 := by rw [div_le_one hG]; linarith
      have h3 : g * (1 + M / 1000000000000) / Real.Gamma ((df : ℝ) / 2) = g / Real.Gamma ((df : ℝ) / 2) + g / Real.Gamma ((df : ℝ) / 2) * (M / 1000000000000) := by ring
      have h4 : g / Real.Gamma ((df : ℝ) / 2) * (M / 1000000000000) ≤ 1 * (M / 1000000000000) := mul_le_mul_of_nonneg_right h2 (by positivity)
      linarith

/-- C114, part: on these values `Chisquare` comes to an end. -/
theorem C114_series_ends (gamma : XR → XR) (df : Nat) (h : 0 < df) (cv : ℝ) (hcv : 0 < cv) (hbr : cv ≤ 11 / 5 ∨ cv ≤ df) :
    ∃ N, ∀ fuel, N ≤ fuel → (chisquare gamma fuel df (.fin cv)).isSome := by
  have hdf : (1 : ℝ) ≤ df := by exact_mod_cast h
  have hs : (0 : ℝ) < (df : ℝ) / 2 := by positivity
  have hx : (0 : ℝ) < cv / 2 := by positivity
  have hq : cv / 2 / ((df : ℝ) / 2 + 1) < 1 := by
    rw [div_lt_one (by positivity)]
    rcases hbr with h | h <;> linarith
  obtain ⟨m, hm⟩ := exists_pow_lt_of_lt_one (by norm_num : (0 : ℝ) < 1 / 1000000000000) hq
  have hm' : serTerm ((df : ℝ) / 2) (cv / 2) m ≤ 1 / 1000000000000 := le_trans (serTerm_le hs hx m) hm.le
  refine ⟨m + 1, fun fuel hf => ?_⟩
  have hsome := seriesLoop_stops hs hx m hm' m 0 fuel (by omega) (by omega)
  have e0 : (df : ℝ) / 2 + ((0 : Nat) : ℝ) = (df : ℝ) / 2 := by simp
  rw [e0] at hsome
  have hdiv : GoFloat.div (GoFloat.ofInt (df : Int) : XR) (GoFloat.ofInt 2) = .fin ((df : ℝ) / 2) := by
    change XR.div (.fin ((df : Int) : ℝ)) (.fin ((2 : Int) : ℝ)) = _
    rw [XR.div_fin (by norm_num)]
    norm_num
  have hxd : GoFloat.div (XR.fin cv) (GoFloat.ofInt 2) = .fin (cv / 2) := by
    change XR.div (.fin cv) (.fin ((2 : Int) : ℝ)) = _
    rw [XR.div_fin (by norm_num)]
    norm_num
  unfold chisquare
  split
  · rfl
  simp only [hdiv, hxd]
  split
  · rfl
  rw [Option.isSome_map]
  unfold lowerGamma
  split
  · rfl
  split
  · rfl
  split
  · rfl
  rw [Option.isSome_map]
  simpa [serTerm, serSum] using hsome

/-- C114 fails near zero as well: whenever `(cv / 2) ^ (df / 2)` is at most `1e-8 * df / 2`, `Chisquare` gives 1e-14 to a value that is exceeded with probability
at least `1 - 1e-8 / gamma (df / 2)`. -/
theorem C114_small_refuted (gamma : XR → XR) (fuel : Nat) (df : Nat) (h : 0 < df) (h2 : df ≠ 2) (cv : ℝ) (hcv : 0 < cv) (hbr : cv ≤ 11 / 5 ∨ cv ≤ df)
    (hsm : (cv / 2) ^ ((df : ℝ) / 2) ≤ 1 / 100000000 * ((df : ℝ) / 2)) (p : XR) (hp : chisquare gamma fuel df (.fin cv) = some p) :
    p = .fin (1 / 100000000000000) ∧ 1 - 1 / 100000000 / Real.Gamma ((df : ℝ) / 2) ≤ pValue df cv := by
  have hdf : (1 : ℝ) ≤ df := by exact_mod_cast h
  have hs : (0 : ℝ) < (df : ℝ) / 2 := by positivity
  have hx : (0 : ℝ) < cv / 2 := by positivity
  have hd : ¬ ((df : Int) < 1) := by omega
  have hd2 : ¬ ((df : Int) = 2) := by omega
  have hlt : ¬ cv < 0 := not_lt.2 hcv.le
  have hG : 0 < Real.Gamma ((df : ℝ) / 2) := Real.Gamma_pos_of_pos hs
  have hL : lowInt ((df : ℝ) / 2) (cv / 2) ≤ 1 / 100000000 := by
    refine le_trans (lowInt_le_pow hs hx.le) ?_
    rw [div_le_iff₀ hs]
    exact hsm
  refine ⟨?_, ?_⟩
  · have hdiv : GoFloat.div (GoFloat.ofInt (df : Int) : XR) (GoFloat.ofInt 2) = .fin ((df : ℝ) / 2) := by
      change XR.div (.fin ((df : Int) : ℝ)) (.fin ((2 : Int) : ℝ)) = _
      rw [XR.div_fin (by norm_num)]
      norm_num
    have hxd : GoFloat.div (XR.fin cv) (GoFloat.ofInt 2) = .fin (cv / 2) := by
      change XR.div (.fin cv) (.fin ((2 : Int) : ℝ)) = _
      rw [XR.div_fin (by norm_num)]
      norm_num
    unfold chisquare at hp
    rw [if_neg (by simp [XR.lt, hlt, hd])] at hp
    simp only [hdiv, hxd, if_neg hd2, Option.map_eq_some_iff] at hp
    obtain ⟨l, hl, hp⟩ := hp
    have hbr' : cv / 2 ≤ 11 / 10 ∨ cv / 2 ≤ (df : ℝ) / 2 := by
      rcases hbr with h | h
      · left; linarith
      · right; linarith
    obtain ⟨m, hm, hc⟩ := lowerGamma_series gamma fuel hs hx hbr' l hl
    obtain ⟨e1, -⟩ := series_error (by linarith) hx hbr' m hc
    have hg := le_trans e1 hL
    generalize serSum ((df : ℝ) / 2) (cv / 2) m * ((cv / 2) ^ ((df : ℝ) / 2) * Real.exp (-(cv / 2))) / ((df : ℝ) / 2) = g at *
    subst hm
    have h8 : GoFloat.div (GoFloat.ofInt 1 : XR) (GoFloat.ofInt 100000000) = .fin (1 / 100000000) := by
      change XR.div (.fin ((1 : Int) : ℝ)) (.fin ((100000000 : Int) : ℝ)) = _
      rw [XR.div_fin (by norm_num)]
      norm_num
    have h14 : GoFloat.div (GoFloat.ofInt 1 : XR) (GoFloat.ofInt 100000000000000) = .fin (1 / 100000000000000) := by
      change XR.div (.fin ((1 : Int) : ℝ)) (.fin ((100000000000000 : Int) : ℝ)) = _
      rw [XR.div_fin (by norm_num)]
      norm_num
    rw [h8, h14] at hp
    rw [if_pos (by
      rcases eq_or_lt_of_le hg with h | h
      · simp [XR.lt, XR.eq, h]
      · simp only [XR.g_le]
        have : XR.lt (.fin g) (.fin (1 / 100000000)) = true := (XR.lt_fin _ _).2 h
        rw [this]; simp)] at hp
    exact hp.symm
  · rw [pValue_compl h, cdf_chi h hcv]
    have := div_le_div_of_nonneg_right hL hG.le
    linarith

/-- For four degrees of freedom: every value of at most 1/5000 is taken to be exceeded with probability 1e-14, and is exceeded with probability at least `1 - 1e-8`. -/
theorem C114_four_refuted (gamma : XR → XR) (fuel : Nat) (cv : ℝ) (hcv : 0 < cv) (hsm : cv ≤ 1 / 5000) (p : XR) (hp : chisquare gamma fuel 4 (.fin cv) = some p) :
    p = .fin (1 / 100000000000000) ∧ 1 - 1 / 100000000 ≤ pValue 4 cv := by
  have e : (((4 : Nat) : ℝ) / 2) = ((2 : Nat) : ℝ) := by norm_num
  have h := C114_small_refuted gamma fuel 4 (by norm_num) (by norm_num) cv hcv (Or.inl (by linarith)) (by
    rw [e, Real.rpow_natCast]
    norm_num
    nlinarith) p hp
  rw [e] at h
  have hG : Real.Gamma ((2 : Nat) : ℝ) = 1 := by
    have h1 := Real.Gamma_nat_eq_factorial 1
    have e2 : ((1 : Nat) : ℝ) + 1 = ((2 : Nat) : ℝ) := by norm_num
    rw [e2] at h1
    rw [h1]
    simp
  rw [hG] at h
  simpa using h

/-- C114, part: for values above 2.2 and above the number of degrees of freedom, with up to 600 degrees of freedom (or an even number of them, up to 19998), the
continued fraction settles within its 9999 steps, and `Chisquare` is within 1e-8, relatively, of the probability of exceeding the value, unless the lower incomplete
gamma function comes out as at most 1e-8: then it returns 1e-14. -/
theorem C114_fraction_partial (gamma : XR → XR) (fuel : Nat) (df : Nat) (h : 0 < df) (h2 : df ≠ 2) (hdf : df ≤ 600 ∨ (2 ∣ df ∧ df ≤ 19998)) (cv : ℝ)
    (hcv : 11 / 5 < cv) (hbr : df < cv) (hg : gamma (.fin ((df : ℝ) / 2)) = .fin (Real.Gamma ((df : ℝ) / 2))) :
    ∃ q, chisquare gamma fuel df (.fin cv) = some (.fin q) ∧
      (|q - pValue df cv| ≤ 1 / 100000000 * pValue df cv ∨
        (q = 1 / 100000000000000 ∧ 1 - pValue df cv ≤ 1 / 100000000 / Real.Gamma ((df : ℝ) / 2) + 1 / 100000000 * pValue df cv)) := by
  have hdf1 : (1 : ℝ) ≤ df := by exact_mod_cast h
  have hs : (0 : ℝ) < (df : ℝ) / 2 := by positivity
  have hcv0 : 0 < cv := by linarith
  have hx : (0 : ℝ) < cv / 2 := by positivity
  have hx11 : 11 / 10 < cv / 2 := by linarith
  have hxs : (df : ℝ) / 2 < cv / 2 := by linarith
  have hd : ¬ ((df : Int) < 1) := by omega
  have hd2 : ¬ ((df : Int) = 2) := by omega
  have hlt : ¬ cv < 0 := not_lt.2 hcv0.le
  have hG : 0 < Real.Gamma ((df : ℝ) / 2) := Real.Gamma_pos_of_pos hs
  obtain ⟨u, hu, hue⟩ := upperGamma_settles hs hx11 hxs (settles_chi df h hdf hx11 hxs)
  have hsum := low_add_up hs hx
  have hpv : pValue df cv = upInt ((df : ℝ) / 2) (cv / 2) 0 / Real.Gamma ((df : ℝ) / 2) := by
    rw [pValue_compl h, cdf_chi h hcv0, ← hsum]
    have : lowInt ((df : ℝ) / 2) (cv / 2) + upInt ((df : ℝ) / 2) (cv / 2) 0 ≠ 0 := by rw [hsum]; exact hG.ne'
    field_simp
    ring
  have hdiv : GoFloat.div (GoFloat.ofInt (df : Int) : XR) (GoFloat.ofInt 2) = .fin ((df : ℝ) / 2) := by
    change XR.div (.fin ((df : Int) : ℝ)) (.fin ((2 : Int) : ℝ)) = _
    rw [XR.div_fin (by norm_num)]
    norm_num
  have hxd : GoFloat.div (XR.fin cv) (GoFloat.ofInt 2) = .fin (cv / 2) := by
    change XR.div (.fin cv) (.fin ((2 : Int) : ℝ)) = _
    rw [XR.div_fin (by norm_num)]
    norm_num
  have h11 : GoFloat.div (GoFloat.ofInt 11 : XR) (GoFloat.ofInt 10) = .fin (11 / 10) := by
    change XR.div (.fin ((11 : Int) : ℝ)) (.fin ((10 : Int) : ℝ)) = _
    rw [XR.div_fin (by norm_num)]
    norm_num
  have h8 : GoFloat.div (GoFloat.ofInt 1 : XR) (GoFloat.ofInt 100000000) = .fin (1 / 100000000) := by
    change XR.div (.fin ((1 : Int) : ℝ)) (.fin ((100000000 : Int) : ℝ)) = _
    rw [XR.div_fin (by norm_num)]
    norm_num
  have h14 : GoFloat.div (GoFloat.ofInt 1 : XR) (GoFloat.ofInt 100000000000000) = .fin (1 / 100000000000000) := by
    change XR.div (.fin ((1 : Int) : ℝ)) (.fin ((100000000000000 : Int) : ℝ)) = _
    rw [XR.div_fin (by norm_num)]
    norm_num
  have hlow : lowerGamma gamma fuel (.fin (cv / 2)) (.fin ((df : ℝ) / 2)) = some (.fin (Real.Gamma ((df : ℝ) / 2) - u)) := by
    have n1 : ¬ cv / 2 = 0 := hx.ne'
    have n2 : ¬ cv / 2 < 0 := not_lt.2 hx.le
    have n3 : ¬ (df : ℝ) / 2 < 0 := not_lt.2 hs.le
    have n4 : ¬ (df : ℝ) / 2 = 0 := hs.ne'
    have t1 : XR.eq (.fin (cv / 2)) (.fin ((0 : Int) : ℝ)) = false := by rw [← Bool.not_eq_true, XR.eq_fin]; push_cast; exact n1
    have t2 : XR.lt (.fin (cv / 2)) (.fin ((0 : Int) : ℝ)) = false := by rw [← Bool.not_eq_true, XR.lt_fin]; push_cast; exact n2
    have t3 : XR.lt (.fin ((df : ℝ) / 2)) (.fin ((0 : Int) : ℝ)) = false := by rw [← Bool.not_eq_true, XR.lt_fin]; push_cast; exact n3
    have t4 : XR.eq (.fin ((df : ℝ) / 2)) (.fin ((0 : Int) : ℝ)) = false := by rw [← Bool.not_eq_true, XR.eq_fin]; push_cast; exact n4
    have t5 : XR.lt (.fin (11 / 10)) (.fin (cv / 2)) = true := (XR.lt_fin _ _).2 hx11
    have t6 : XR.lt (.fin ((df : ℝ) / 2)) (.fin (cv / 2)) = true := (XR.lt_fin _ _).2 hxs
    unfold lowerGamma
    rw [h11]
    simp only [XR.g_eq, XR.g_lt, XR.g_le, XR.g_ofInt, t1, t2, t3, t4, t5, t6, hu, hg]
    simp
  have hval : chisquare gamma fuel df (.fin cv) =
      some (if !(GoFloat.eq (XR.fin (Real.Gamma ((df : ℝ) / 2) - u)) (XR.fin (Real.Gamma ((df : ℝ) / 2) - u))) || GoFloat.isInf (XR.fin (Real.Gamma ((df : ℝ) / 2) - u)) ||
          GoFloat.le (XR.fin (Real.Gamma ((df : ℝ) / 2) - u)) (.fin (1 / 100000000)) then .fin (1 / 100000000000000)
        else GoFloat.sub (GoFloat.ofInt 1) (GoFloat.div (XR.fin (Real.Gamma ((df : ℝ) / 2) - u)) (.fin (Real.Gamma ((df : ℝ) / 2))))) := by
    unfold chisquare
    rw [if_neg (by simp [XR.lt, hlt, hd])]
    simp only [hdiv, hxd, if_neg hd2, hlow, Option.map_some, h8, h14, hg]
  rw [hval]
  generalize Real.Gamma ((df : ℝ) / 2) = G at *
  have hrel : |u / G - pValue df cv| ≤ 1 / 100000000 * pValue df cv := by
    rw [hpv, ← sub_div, abs_div, abs_of_pos hG, mul_div_assoc']
    exact div_le_div_of_nonneg_right hue hG.le
  by_cases hsm : G - u ≤ 1 / 100000000
  · refine ⟨1 / 100000000000000, ?_, Or.inr ⟨rfl, ?_⟩⟩
    · rw [if_pos]
      rcases eq_or_lt_of_le hsm with h | h
      · simp [XR.lt, XR.eq, h]
      · simp only [XR.g_le]
        have : XR.lt (.fin (G - u)) (.fin (1 / 100000000)) = true := (XR.lt_fin _ _).2 h
        rw [this]; simp
    · have h3 : 1 - u / G ≤ 1 / 100000000 / G := by
        rw [← div_self hG.ne', ← sub_div]
        rw [div_self hG.ne']
        exact div_le_div_of_nonneg_right hsm hG.le
      have := (abs_le.1 hrel).2
      linarith
  · refine ⟨u / G, ?_, Or.inl hrel⟩
    have t1 : XR.lt (.fin (G - u)) (.fin (1 / 100000000)) = false := by
      rw [← Bool.not_eq_true, XR.lt_fin]; exact fun h => hsm h.le
    have t2 : XR.eq (.fin (G - u)) (.fin (1 / 100000000)) = false := by
      rw [← Bool.not_eq_true, XR.eq_fin]; exact fun h => hsm h.le
    rw [if_neg (by
      simp only [XR.g_le, XR.g_eq, XR.g_isInf, XR.isInf_fin, t1, t2]
      simp)]
    have e : 1 - (G - u) / G = u / G := by field_simp; ring
    simp [XR.div_fin hG.ne', e]

/-- C114, part: within 1e-8 everywhere. For up to 600 degrees of freedom (or an even number of them, up to 19998) and every positive value, `Chisquare` comes to an
end, and is within 1e-8 of the probability of exceeding the value, or else returns 1e-14 where the probability of NOT exceeding it is at most
`1.1e-8 * (1 + 1 / gamma (df / 2))`. -/
theorem C114_accuracy_partial (gamma : XR → XR) (df : Nat) (h : 0 < df) (hdf : df ≤ 600 ∨ (2 ∣ df ∧ df ≤ 19998)) (cv : ℝ) (hcv : 0 < cv)
    (hg : gamma (.fin ((df : ℝ) / 2)) = .fin (Real.Gamma ((df : ℝ) / 2))) :
    ∃ N, ∀ fuel, N ≤ fuel → ∃ q, chisquare gamma fuel df (.fin cv) = some (.fin q) ∧
      (|q - pValue df cv| ≤ 1 / 100000000 ∨ (q = 1 / 100000000000000 ∧ 1 - pValue df cv ≤ 11 / 1000000000 * (1 + 1 / Real.Gamma ((df : ℝ) / 2)))) := by
  have hG : 0 < Real.Gamma ((df : ℝ) / 2) := Real.Gamma_pos_of_pos (by positivity)
  have hd : (df : ℝ) ≤ 19998 := by
    rcases hdf with h | h
    · exact_mod_cast (by omega : df ≤ 19998)
    · exact_mod_cast h.2
  have hp1 : pValue df cv ≤ 1 := by
    rw [pValue_compl h]
    have := cdf_nonneg (chiMeasure df) cv
    linarith
  by_cases h2 : df = 2
  · subst h2
    refine ⟨0, fun fuel _ => ⟨_, C114_two_partial gamma fuel cv hcv.le, Or.inl ?_⟩⟩
    norm_num
  · have hGi : 0 < 1 / Real.Gamma ((df : ℝ) / 2) := one_div_pos.2 hG
    by_cases hbr : cv ≤ 11 / 5 ∨ cv ≤ df
    · obtain ⟨N, hN⟩ := C114_series_ends gamma df h cv hcv hbr
      refine ⟨N, fun fuel hf => ?_⟩
      obtain ⟨p, hp⟩ := Option.isSome_iff_exists.1 (hN fuel hf)
      have hM : max ((df : ℝ) / 2) 3 ≤ 10000 := max_le (by linarith) (by norm_num)
      rcases C114_series_partial gamma fuel df h h2 cv hcv hbr hg p hp with ⟨q, rfl, h1, h3⟩ | ⟨rfl, h1⟩
      · refine ⟨q, hp, Or.inl ?_⟩
        rw [abs_of_nonneg (by linarith)]
        linarith
      · refine ⟨_, hp, Or.inr ⟨rfl, ?_⟩⟩
        have h5 : 1 / 100000000 * (1 + max ((df : ℝ) / 2) 3 / 1000000000000) / Real.Gamma ((df : ℝ) / 2) ≤ 11 / 1000000000 * (1 / Real.Gamma ((df : ℝ) / 2)) := by
          rw [mul_one_div]
          apply div_le_div_of_nonneg_right _ hG.le
          linarith
        linarith
    · have hb : 11 / 5 < cv ∧ (df : ℝ) < cv := by
        push Not at hbr
        exact hbr
      refine ⟨0, fun fuel _ => ?_⟩
      obtain ⟨q, hq, hcase⟩ := C114_fraction_partial gamma fuel df h h2 hdf cv hb.1 hb.2 hg
      refine ⟨q, hq, ?_⟩
      rcases hcase with h3 | ⟨h3, h4⟩
      · left
        refine le_trans h3 ?_
        linarith
      · right
        refine ⟨h3, le_trans h4 ?_⟩
        have : 1 / 100000000 / Real.Gamma ((df : ℝ) / 2) = 1 / 100000000 * (1 / Real.Gamma ((df : ℝ) / 2)) := by ring
        rw [this]
        nlinarith

example : (0 : ℝ) ≤ 3.84 ∧ (0 < 3 ∧ (3 : Nat) ≠ 2) := by norm_num

/-- Three degrees of freedom and the value 1 meet the hypotheses of `C114_series_partial`, for some number of steps. -/
example : ∃ fuel p, chisquare (fun x : XR => match x with | .fin r => .fin (Real.Gamma r) | y => y) fuel (3 : Nat) (.fin 1) = some p := by
  obtain ⟨N, hN⟩ := C114_series_ends (fun x : XR => match x with | .fin r => .fin (Real.Gamma r) | y => y) 3 (by norm_num) 1 (by norm_num) (Or.inl (by norm_num))
  exact ⟨N, Option.isSome_iff_exists.1 (hN N le_rfl)⟩

/-- Five degrees of freedom and the value 11.07, the usual quantile, meet the hypotheses of `C114_fraction_partial` and `C114_accuracy_partial`. -/
example : 0 < 5 ∧ (5 : Nat) ≠ 2 ∧ (5 ≤ 600 ∨ (2 ∣ 5 ∧ 5 ≤ 19998)) ∧ (11 / 5 : ℝ) < 11.07 ∧ ((5 : Nat) : ℝ) < 11.07 := by norm_num

end Gospn
