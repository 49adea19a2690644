/-
Theorems about Gaussian leaves: C67, C68.
-/
import Verif.Model.Gauss
import Verif.Props.Stats
import Mathlib.Probability.Distributions.Gaussian.Real
import Mathlib.Tactic.NormNum
import Mathlib.Analysis.Real.Pi.Bounds

set_option linter.unusedSectionVars false
set_option linter.unusedSimpArgs false

namespace Gospn
open Spec GoFloat

/-- Mean of real values. -/
noncomputable def Spec.realMean (X : List ℝ) : ℝ := X.sum / X.length
/-- Standard deviation of real values. -/
noncomputable def Spec.realSd (X : List ℝ) : ℝ := Real.sqrt ((X.map fun x => (x - realMean X) ^ 2).sum / X.length)

/-- C67: `NewGaussianRaw` takes mean and standard deviation of the values. -/
theorem C67_raw_partial (varid : Int) (X : List ℝ) (hX : X ≠ []) :
    newGaussianRaw varid (X.map XR.fin) = Leaf.gaussian varid (.fin (realMean X)) (.fin (realSd X)) := by
  have hn : (X.length : ℝ) ≠ 0 := by
    have : X.length ≠ 0 := by simpa using hX
    exact_mod_cast this
  have h0 : (ofInt 0 : XR) = .fin 0 := by simp
  have hs : (X.map XR.fin).foldl GoFloat.add (XR.fin 0) = .fin X.sum := by
    rw [List.foldl_map, foldl_add_total XR.fin id X (fun _ _ => rfl) 0]
    simp [total]
  have hmean : (GoFloat.div ((X.map XR.fin).foldl GoFloat.add (ofInt 0)) (ofInt ((X.map XR.fin).length : Int)) : XR) = .fin (realMean X) := by
    rw [h0, hs]
    simp only [XR.g_ofInt, XR.g_div, List.length_map, Int.cast_natCast, XR.div_fin hn, realMean]
  unfold newGaussianRaw
  simp only [hmean]
  congr 1
  rw [List.foldl_map, h0, foldl_add_total (fun v => GoFloat.mul (GoFloat.sub (XR.fin v) (XR.fin (realMean X))) (GoFloat.sub (XR.fin v) (XR.fin (realMean X))))
    (fun v => (v - realMean X) ^ 2) X (fun v _ => by simp [pow_two]) 0]
  simp only [XR.g_ofInt, XR.g_div, List.length_map, Int.cast_natCast, XR.div_fin hn, zero_add, XR.g_sqrt, XR.sqrt]
  have hp : (0 : ℝ) ≤ total (fun v => (v - realMean X) ^ 2) X := by
    unfold total
    apply List.sum_nonneg
    intro y hy
    obtain ⟨x, _, rfl⟩ := List.mem_map.1 hy
    positivity
  rw [if_neg (not_lt.2 (by positivity))]
  rfl

/-- C67: `NewGaussian` takes mean and standard deviation of the position. -/
theorem C67_counts_partial (varid : Int) (c : List Int) (h0 : ∀ x ∈ c, 0 ≤ x) (hc : c.sum ≠ 0) :
    (newGaussian varid c : Leaf XR) = .gaussian varid (.fin (countMean c)) (.fin (countSd c)) := by
  have h1 := C60_mean c hc
  have h2 := C60_stdDev c h0 hc
  have : (newGaussian varid c : Leaf XR) = .gaussian varid (statMean c) (statStdDev c) := rfl
  rw [this, h1, h2]

/-- `m` is a most frequent position of the counts. -/
def Spec.IsCountMode (c : List Int) (m : Nat) : Prop := m < c.length ∧ ∀ i, c.getD i 0 ≤ c.getD m 0

/-- C67 fails for `NewGaussianMode`: the leaf is centred on zero whatever the counts are. -/
theorem C67_mode_refuted (varid : Int) (c : List Int) (h0 : ∀ x ∈ c, 0 ≤ x) (hc : c.sum ≠ 0) :
    (newGaussianMode varid c : Leaf XR) = .gaussian varid (.fin 0) (.fin (countSd c)) := by
  have h2 := C60_stdDev c h0 hc
  have : (newGaussianMode varid c : Leaf XR) = .gaussian varid (ofInt 0) (statStdDev c) := rfl
  rw [this, h2]
  simp

/-- Counts whose only mode is position 2, on which the leaf is not centred. -/
theorem C67_mode_refuted_witness : (∀ m, IsCountMode [1, 0, 5] m ↔ m = 2) ∧
    ∀ varid, ∃ mu sigma, (newGaussianMode varid [1, 0, 5] : Leaf XR) = .gaussian varid (.fin mu) sigma ∧ mu ≠ 2 := by
  constructor
  · intro m
    constructor
    · rintro ⟨h1, h2⟩
      have := h2 2
      simp only [List.length_cons, List.length_nil] at h1
      interval_cases m
      · exact absurd this (by decide)
      · exact absurd this (by decide)
      · rfl
    · rintro rfl
      refine ⟨by decide, fun i => ?_⟩
      by_cases hi : i < 3
      · interval_cases i <;> decide
      · simp [List.getD_eq_getElem?_getD, List.getElem?_eq_none (show [1, 0, (5 : Int)].length ≤ i by simp; omega)]
  · intro varid
    exact ⟨0, _, C67_mode_refuted varid [1, 0, 5] (by decide) (by decide), by norm_num⟩

example : (∀ x ∈ [3, 0, (4 : Int)], 0 ≤ x) ∧ [3, 0, (4 : Int)].sum ≠ 0 := by decide
example : [(0.5 : ℝ), 2] ≠ [] := by simp

/-! ### C68 -/

/-- The variance as a non-negative real. -/
noncomputable def Spec.variance (sigma : ℝ) : NNReal := ⟨sigma ^ 2, sq_nonneg sigma⟩

theorem normLogProb_fin (mu sigma x : ℝ) (hs : 0 < sigma) :
    XR.normLogProb (.fin mu) (.fin sigma) (.fin x) = .fin (Real.log (ProbabilityTheory.gaussianPDFReal mu (variance sigma) x)) := by
  unfold XR.normLogProb
  have h2 : (2 : ℝ) * sigma * sigma ≠ 0 := by positivity
  simp only [XR.log, hs, if_true, XR.sub_fin, XR.mul_fin, XR.div_fin h2]
  congr 1
  have hv : ((variance sigma : NNReal) : ℝ) = sigma ^ 2 := rfl
  unfold ProbabilityTheory.gaussianPDFReal
  rw [hv]
  have hpi := Real.pi_pos
  have hsq : (0 : ℝ) < Real.sqrt (2 * Real.pi * sigma ^ 2) := Real.sqrt_pos.2 (by positivity)
  rw [Real.log_mul (by positivity) (by positivity : Real.exp (-(x - mu) ^ 2 / (2 * sigma ^ 2)) ≠ 0), Real.log_exp, Real.log_inv, Real.log_sqrt (by positivity),
    Real.log_mul (by positivity) (by positivity : sigma ^ 2 ≠ 0), Real.log_pow]
  push_cast
  field_simp
  ring

/-- The density falls with the distance from the mean. -/
theorem gaussian_le (mu sigma x y : ℝ) (hs : 0 < sigma) (h : |y - mu| ≤ |x - mu|) :
    ProbabilityTheory.gaussianPDFReal mu (variance sigma) x ≤ ProbabilityTheory.gaussianPDFReal mu (variance sigma) y := by
  unfold ProbabilityTheory.gaussianPDFReal
  apply mul_le_mul_of_nonneg_left _ (by positivity)
  apply Real.exp_le_exp.2
  have hv : ((variance sigma : NNReal) : ℝ) = sigma ^ 2 := rfl
  rw [hv]
  have : (y - mu) ^ 2 ≤ (x - mu) ^ 2 := sq_le_sq.2 h
  rw [neg_div, neg_div, neg_le_neg_iff]
  exact div_le_div_of_nonneg_right this (by positivity)

/-- No integer is closer than the rounded number. -/
theorem round_closest (mu : ℝ) (v : Int) : |(XR.toInt (XR.round (.fin mu)) : ℝ) - mu| ≤ |(v : ℝ) - mu| := by
  have key : ∀ r : Int, |(r : ℝ) - mu| ≤ 1 / 2 → |(r : ℝ) - mu| ≤ |(v : ℝ) - mu| := by
    intro r hr
    by_cases hv : v = r
    · rw [hv]
    · have h1 : (1 : ℝ) ≤ |(v : ℝ) - r| := by
        have : (1 : Int) ≤ |v - r| := Int.one_le_abs (sub_ne_zero.2 hv)
        exact_mod_cast this
      have h2 : |(v : ℝ) - r| ≤ |(v : ℝ) - mu| + |(r : ℝ) - mu| := by
        have := abs_sub_abs_le_abs_sub ((v : ℝ) - r) ((v : ℝ) - mu)
        have e : ((v : ℝ) - r) - ((v : ℝ) - mu) = -((r : ℝ) - mu) := by ring
        rw [e, abs_neg] at this
        linarith
      linarith
  apply key
  simp only [XR.round]
  split
  · rename_i h
    have hf : (0 : ℝ) ≤ (⌊mu + 1 / 2⌋ : ℝ) := by
      have : 0 ≤ ⌊mu + 1 / 2⌋ := Int.floor_nonneg.2 (by linarith)
      exact_mod_cast this
    simp only [XR.toInt, if_pos hf, Int.floor_intCast]
    rw [abs_le]
    have h1 := Int.floor_le (mu + 1 / 2)
    have h2 := Int.lt_floor_add_one (mu + 1 / 2)
    constructor <;> linarith
  · rename_i h
    have hc : XR.toInt (.fin (⌈mu - 1 / 2⌉ : ℝ)) = ⌈mu - 1 / 2⌉ := by
      simp only [XR.toInt]
      split
      · exact Int.floor_intCast _
      · exact Int.ceil_intCast _
    rw [hc, abs_le]
    have h1 := Int.le_ceil (mu - 1 / 2)
    have h2 := Int.ceil_lt_add_one (mu - 1 / 2)
    constructor <;> linarith

/-- C68, part: a Gaussian leaf with positive deviation gives the log-density of the normal distribution for an observed value, the logarithm of the integral of the density (log 1 = 0) for an
unobserved one, as `Max` the greatest log-density, and `ArgMax` returns an integer of greatest density. Missing: deviation zero, and that the numbers are probabilities (`C68_zero_refuted`, `C68_positive_refuted`). -/
theorem C68_gaussian_partial (varid : Int) (mu sigma : ℝ) (hs : 0 < sigma) (I : VarSet) :
    (∀ v, I varid = some v → (Leaf.gaussian varid (.fin mu) (.fin sigma) : Leaf XR).value I = some (.fin (Real.log (ProbabilityTheory.gaussianPDFReal mu (variance sigma) v)))) ∧
    (I varid = none → (Leaf.gaussian varid (.fin mu) (.fin sigma) : Leaf XR).value I = some (.fin (Real.log (∫ x, ProbabilityTheory.gaussianPDFReal mu (variance sigma) x)))) ∧
    (I varid = none → ∃ m, (Leaf.gaussian varid (.fin mu) (.fin sigma) : Leaf XR).max I = some (.fin m) ∧
      IsGreatest (Set.range fun x : ℝ => Real.log (ProbabilityTheory.gaussianPDFReal mu (variance sigma) x)) m) ∧
    (I varid = none → ∃ (st : VarSet) (r : XR) (b : Int), (Leaf.gaussian varid (.fin mu) (.fin sigma) : Leaf XR).argMax I = some (st, r) ∧ st = VarSet.single varid b ∧
      ∀ v : Int, ProbabilityTheory.gaussianPDFReal mu (variance sigma) v ≤ ProbabilityTheory.gaussianPDFReal mu (variance sigma) b) := by
  have hv0 : variance sigma ≠ 0 := by
    intro h
    have : ((variance sigma : NNReal) : ℝ) = 0 := by rw [h]; rfl
    have hv : ((variance sigma : NNReal) : ℝ) = sigma ^ 2 := rfl
    rw [hv] at this
    exact hs.ne' (pow_eq_zero_iff (by norm_num) |>.1 this)
  have hz : (GoFloat.eq (XR.fin sigma) (GoFloat.ofInt 0)) = false := by simp [XR.eq, hs.ne']
  refine ⟨?_, ?_, ?_, ?_⟩
  · intro v hv
    simp only [Leaf.value, hz, Bool.false_eq_true, if_false, hv]
    simp only [XR.g_normLogProb, XR.g_ofInt, normLogProb_fin mu sigma _ hs]
  · intro hv
    simp only [Leaf.value, hz, Bool.false_eq_true, if_false, hv]
    rw [ProbabilityTheory.integral_gaussianPDFReal_eq_one mu hv0]
    simp
  · intro hv
    refine ⟨Real.log (ProbabilityTheory.gaussianPDFReal mu (variance sigma) mu), ?_, ⟨mu, rfl⟩, ?_⟩
    · simp only [Leaf.max, hz, Bool.false_eq_true, if_false, hv, XR.g_normLogProb, normLogProb_fin mu sigma _ hs]
    · rintro _ ⟨x, rfl⟩
      exact Real.log_le_log (ProbabilityTheory.gaussianPDFReal_pos _ _ _ hv0) (gaussian_le mu sigma x mu hs (by simp))
  · intro hv
    refine ⟨VarSet.single varid (XR.toInt (XR.round (.fin mu))), XR.normLogProb (.fin mu) (.fin sigma) (.fin mu), XR.toInt (XR.round (.fin mu)), ?_, rfl, ?_⟩
    · simp only [Leaf.argMax, hz, Bool.false_eq_true, if_false, hv]
      rfl
    · intro v
      exact gaussian_le mu sigma v _ hs (round_closest mu v)

/-- C68 fails for deviation zero: without evidence `Value` and `Max` are the logarithm of zero instead of one, although `ArgMax` returns a state of log-probability zero. -/
theorem C68_zero_refuted (varid : Int) (mu : ℝ) (I : VarSet) (h : I varid = none) :
    (Leaf.gaussian varid (.fin mu) (.fin 0) : Leaf XR).value I = some .ninf ∧ (Leaf.gaussian varid (.fin mu) (.fin 0) : Leaf XR).max I = some .ninf ∧
    ∃ st, (Leaf.gaussian varid (.fin mu) (.fin 0) : Leaf XR).argMax I = some (st, .fin 0) := by
  have hz : (GoFloat.eq (XR.fin 0) (GoFloat.ofInt 0)) = true := by simp [XR.eq]
  refine ⟨?_, ?_, ⟨VarSet.single varid (toInt (XR.fin mu)), ?_⟩⟩
  · simp [Leaf.value, hz, h, zeroSigma, XR.eq]
  · simp [Leaf.max, hz, h, zeroSigma, XR.eq]
  · simp only [Leaf.argMax, hz, if_true]
    simp

/-- C68 fails for deviation zero in another way: `ArgMax` overwrites an observed value. -/
theorem C68_evidence_refuted (varid : Int) (I : VarSet) (h : I varid = some 5) :
    ∃ st r, (Leaf.gaussian varid (.fin 3) (.fin 0) : Leaf XR).argMax I = some (st, r) ∧ st varid ≠ I varid := by
  have hz : (GoFloat.eq (XR.fin 0) (GoFloat.ofInt 0)) = true := by simp [XR.eq]
  refine ⟨VarSet.single varid (toInt (XR.fin 3)), .fin 0, ?_, ?_⟩
  · simp only [Leaf.argMax, hz, if_true]
    simp
  · rw [h]
    simp [VarSet.single, XR.toInt]

/-- C68 fails as stated for small deviations: the "probability" of the value 3 under mean 3 and deviation 1/10 is greater than one. -/
theorem C68_positive_refuted (varid : Int) (I : VarSet) (h : I varid = some 3) :
    ∃ r, (Leaf.gaussian varid (.fin 3) (.fin (1 / 10)) : Leaf XR).value I = some (.fin r) ∧ 0 < r := by
  refine ⟨_, (C68_gaussian_partial varid 3 (1 / 10) (by norm_num) I).1 3 h, ?_⟩
  apply Real.log_pos
  unfold ProbabilityTheory.gaussianPDFReal
  have hv : ((variance (1 / 10) : NNReal) : ℝ) = (1 / 10) ^ 2 := rfl
  rw [hv]
  push_cast
  rw [sub_self]
  simp only [ne_eq, OfNat.ofNat_ne_zero, not_false_eq_true, zero_pow, neg_zero, zero_div, Real.exp_zero, mul_one]
  have hpi := Real.pi_lt_four
  have hpi0 := Real.pi_pos
  have hlt : Real.sqrt (2 * Real.pi * (1 / 10) ^ 2) < 1 := by
    rw [Real.sqrt_lt' one_pos]
    linarith
  exact one_lt_inv₀ (Real.sqrt_pos.2 (by positivity)) |>.2 hlt

example : (0 : ℝ) < 3 / 2 := by norm_num

end Gospn
