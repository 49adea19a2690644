/-
The continued fraction of `ugamma` settles within its 9999 steps, and what `ugamma` returns then.
-/
import Verif.Proofs.Lentz

set_option linter.unusedSectionVars false
set_option linter.unusedSimpArgs false

namespace Gospn

/-- Some factor within the 9999 steps is within 1e-12 of one. -/
def Settles (s x : ℝ) : Prop := ∃ m, m < 9999 ∧ |lC s x (m + 1) * lD s x (m + 1) - 1| < 1 / 1000000000000

variable {s x : ℝ}

/-- With a whole `s` the fraction is finite. -/
theorem settles_whole (k : Nat) (hk : 0 < k) (hk2 : k ≤ 9999) (hxs : (k : ℝ) < x) : Settles k x := by
  obtain ⟨m, rfl⟩ : ∃ m, k = m + 1 := ⟨k - 1, by omega⟩
  refine ⟨m, by omega, ?_⟩
  have hA : cfA ((m + 1 : Nat) : ℝ) (m + 1) = 0 := by simp [cfA]
  have hB : 0 < cfB ((m + 1 : Nat) : ℝ) x (m + 1) := by
    unfold cfB
    have : (0 : ℝ) ≤ ((m + 1 : Nat) : ℝ) := Nat.cast_nonneg _
    linarith
  have h1 : lC ((m + 1 : Nat) : ℝ) x (m + 1) = cfB ((m + 1 : Nat) : ℝ) x (m + 1) := by rw [lC, hA]; simp
  have h2 : lD ((m + 1 : Nat) : ℝ) x (m + 1) = 1 / cfB ((m + 1 : Nat) : ℝ) x (m + 1) := by rw [lD, hA]; simp
  rw [h1, h2, mul_one_div_cancel hB.ne']
  norm_num

theorem ratio_mono {m s x a : ℝ} (hm : 0 < m) (has : a ≤ s) (ha : 0 < a) (hax : a ≤ x) (hms : s ≤ m) :
    m * (m - s) / ((m + x) * (m + 1 + x)) ≤ m * (m - a) / ((m + a) * (m + 1 + a)) := by
  apply div_le_div₀
  · apply mul_nonneg hm.le; linarith
  · apply mul_le_mul_of_nonneg_left _ hm.le; linarith
  · positivity
  · apply mul_le_mul <;> first | linarith | positivity

theorem settles_half (hx : 11 / 10 < x) : Settles (1 / 2) x := by
  have hs : (0 : ℝ) < 1 / 2 := by norm_num
  have hxs : (1 / 2 : ℝ) < x := by linarith
  have h0 : |lStep (1 / 2) x 0| ≤ 5 / 36 := by
    refine le_trans (lStep_zero_le hs hxs) ?_
    have e : |(1 / 2 : ℝ) - 1| = 1 / 2 := by norm_num
    rw [e, div_le_iff₀ (by linarith)]
    linarith
  have h1 : |lStep (1 / 2) x 1| ≤ 300 / 1271 * (5 / 36) := by
    rw [lStep_succ hs hxs 0, abs_mul]
    have hf := lRatio_fast hs hxs 0 (by norm_num)
    refine mul_le_mul (le_trans hf ?_) h0 (abs_nonneg _) (by norm_num)
    rw [div_le_iff₀ (by norm_num; nlinarith)]
    norm_num
    nlinarith
  have hp := lStep_power hs hxs 3 1 (9 / 10) (by norm_num) (by norm_num; linarith) (by
    intro n _
    have hn : (0 : ℝ) ≤ n := Nat.cast_nonneg n
    generalize (n : ℝ) = y at *
    rw [div_mul_eq_mul_div, div_le_iff₀ (by positivity)]
    have h2 : (y + 2) * (y + 2 - 1 / 2) * (y + 3) ^ 3 ≤ (y + 2) ^ 3 * ((y + 2 + 11 / 10) * (y + 3 + 11 / 10)) := by
      have : (y + 2) ^ 3 * ((y + 2 + 11 / 10) * (y + 3 + 11 / 10)) - (y + 2) * (y + 2 - 1 / 2) * (y + 3) ^ 3 =
          (y + 2) * (7 / 10 * (y + 2) ^ 3 + 81 / 100 * (y + 2) ^ 2 + 1 / 2 * (y + 2) + 1 / 2) := by ring
      have : 0 ≤ (y + 2) * (7 / 10 * (y + 2) ^ 3 + 81 / 100 * (y + 2) ^ 2 + 1 / 2 * (y + 2) + 1 / 2) := by positivity
      linarith
    refine le_trans h2 ?_
    apply mul_le_mul_of_nonneg_left _ (by positivity)
    apply mul_le_mul <;> first | linarith | positivity) 9997
  refine ⟨9998, by norm_num, lt_of_le_of_lt (chg_le_step hs hxs (by linarith) 9998) ?_⟩
  norm_num at hp ⊢
  linarith

theorem settles_low (h1 : 3 / 2 ≤ s) (h2 : s ≤ 5) (hxs : s < x) : Settles s x := by
  have hs : 0 < s := by linarith
  have h0 : |lStep s x 4| ≤ 4 / 3 := by
    refine le_trans (lStep_le_zero hs hxs 4) (le_trans (lStep_zero_le hs hxs) ?_)
    rw [abs_of_nonneg (by linarith), div_le_iff₀ (by linarith)]
    linarith
  have hp := lStep_power hs hxs 5 4 10368 (by norm_num; linarith) (by norm_num; linarith) (by
    intro n hn4
    have hn : (4 : ℝ) ≤ n := by exact_mod_cast hn4
    generalize (n : ℝ) = y at *
    have hr := ratio_mono (m := y + 2) (s := s) (x := x) (a := 3 / 2) (by linarith) h1 (by norm_num) (by linarith) (by linarith)
    have e3 : y + 3 + x = y + 2 + 1 + x := by ring
    rw [e3]
    refine le_trans (mul_le_mul_of_nonneg_right hr (by positivity)) ?_
    rw [div_mul_eq_mul_div, div_le_iff₀ (by positivity)]
    have : (y + 2) ^ 5 * ((y + 2 + 3 / 2) * (y + 2 + 1 + 3 / 2)) - (y + 2) * (y + 2 - 3 / 2) * (y + 3) ^ 5 =
        (y + 2) * (1 / 2 * (y + 2) ^ 5 + 5 / 4 * (y + 2) ^ 4 + 5 * (y + 2) ^ 3 + 10 * (y + 2) ^ 2 + 13 / 2 * (y + 2) + 3 / 2) := by ring
    have : 0 ≤ (y + 2) * (1 / 2 * (y + 2) ^ 5 + 5 / 4 * (y + 2) ^ 4 + 5 * (y + 2) ^ 3 + 10 * (y + 2) ^ 2 + 13 / 2 * (y + 2) + 3 / 2) := by positivity
    linarith) 9994
  refine ⟨9998, by norm_num, lt_of_le_of_lt (chg_le_step hs hxs (by linarith) 9998) ?_⟩
  norm_num at hp ⊢
  linarith

theorem settles_high (h1 : 7 / 2 ≤ s) (h2 : s ≤ 300) (hxs : s < x) : Settles s x := by
  have hs : 0 < s := by linarith
  have h0 : |lStep s x 299| ≤ 100 := by
    refine le_trans (lStep_le_zero hs hxs 299) (le_trans (lStep_zero_le hs hxs) ?_)
    rw [abs_of_nonneg (by linarith), div_le_iff₀ (by linarith)]
    linarith
  have hp := lStep_power hs hxs 10 299 (100 * 301 ^ 10) (by norm_num; linarith) (by norm_num; linarith) (by
    intro n hn4
    have hn : (299 : ℝ) ≤ n := by exact_mod_cast hn4
    generalize (n : ℝ) = y at *
    have hr := ratio_mono (m := y + 2) (s := s) (x := x) (a := 7 / 2) (by linarith) h1 (by norm_num) (by linarith) (by linarith)
    have e3 : y + 3 + x = y + 2 + 1 + x := by ring
    rw [e3]
    refine le_trans (mul_le_mul_of_nonneg_right hr (by positivity)) ?_
    rw [div_mul_eq_mul_div, div_le_iff₀ (by positivity)]
    have hm : 0 ≤ y + 2 := by linarith
    have e4 : y + 3 = y + 2 + 1 := by ring
    rw [e4]
    generalize y + 2 = m at *
    have : m ^ 10 * ((m + 7 / 2) * (m + 1 + 7 / 2)) - m * (m - 7 / 2) * (m + 1) ^ 10 =
        m * (3 / 2 * m ^ 10 + 23 / 4 * m ^ 9 + 75 / 2 * m ^ 8 + 210 * m ^ 7 + 483 * m ^ 6 + 672 * m ^ 5 + 615 * m ^ 4 + 375 * m ^ 3 + 295 / 2 * m ^ 2 + 34 * m + 7 / 2) := by ring
    have : 0 ≤ m * (3 / 2 * m ^ 10 + 23 / 4 * m ^ 9 + 75 / 2 * m ^ 8 + 210 * m ^ 7 + 483 * m ^ 6 + 672 * m ^ 5 + 615 * m ^ 4 + 375 * m ^ 3 + 295 / 2 * m ^ 2 + 34 * m + 7 / 2) := by positivity
    linarith) 9699
  refine ⟨9998, by norm_num, lt_of_le_of_lt (chg_le_step hs hxs (by linarith) 9998) ?_⟩
  norm_num at hp ⊢
  linarith

/-- The fraction settles for every number of degrees of freedom up to 600, and for every even one up to 19998. -/
theorem settles_chi (df : Nat) (h : 0 < df) (hdf : df ≤ 600 ∨ (2 ∣ df ∧ df ≤ 19998)) (hx : 11 / 10 < x) (hxs : (df : ℝ) / 2 < x) : Settles ((df : ℝ) / 2) x := by
  by_cases he : 2 ∣ df
  · obtain ⟨k, rfl⟩ := he
    have e : ((2 * k : Nat) : ℝ) / 2 = (k : ℝ) := by push_cast; ring
    rw [e] at hxs ⊢
    exact settles_whole k (by omega) (by omega) hxs
  · have h6 : df ≤ 600 := by
      rcases hdf with h | h
      · exact h
      · exact absurd h.1 he
    by_cases h1 : df = 1
    · subst h1
      have e : ((1 : Nat) : ℝ) / 2 = 1 / 2 := by norm_num
      rw [e]
      exact settles_half hx
    · have h3 : (3 : ℝ) ≤ df := by exact_mod_cast (by omega : 3 ≤ df)
      have h6' : (df : ℝ) ≤ 600 := by exact_mod_cast h6
      by_cases h7 : 7 ≤ df
      · have : (7 : ℝ) ≤ df := by exact_mod_cast h7
        exact settles_high (by linarith) (by linarith) hxs
      · have : (df : ℝ) ≤ 6 := by exact_mod_cast (by omega : df ≤ 6)
        exact settles_low (by linarith) (by linarith) hxs

/-- What the loop over the convergents returns, if the fraction settles. -/
theorem fractionLoop_settles (hs : 0 < s) (hxs : s < x) :
    ∀ (k n m : Nat), n ≤ m → m < n + k → |lC s x (m + 1) * lD s x (m + 1) - 1| < 1 / 1000000000000 →
      ∃ j, n ≤ j ∧ j ≤ m ∧ |lC s x (j + 1) * lD s x (j + 1) - 1| < 1 / 1000000000000 ∧
        fractionLoop (XR.fin x) (XR.fin s) k ((n + 1 : Nat) : Int) (.fin (lC s x n)) (.fin (lD s x n)) (.fin (lF s x n)) = .fin (lF s x (j + 1))
  | 0, n, m, h1, h2, _ => by omega
  | k + 1, n, m, h1, h2, h3 => by
    have hC := lC_pos hs hxs n
    have hE := lE_pos hs hxs n
    have ha : GoFloat.mul (GoFloat.ofInt ((n + 1 : Nat) : Int) : XR) (GoFloat.sub (XR.fin s) (GoFloat.ofInt ((n + 1 : Nat) : Int))) = .fin (cfA s (n + 1)) := by
      simp [cfA]
    have hb : GoFloat.sub (GoFloat.add (GoFloat.add (GoFloat.ofInt (2 * ((n + 1 : Nat) : Int)) : XR) (GoFloat.ofInt 1)) (XR.fin x)) (XR.fin s) = .fin (cfB s x (n + 1)) := by
      simp [cfB]
    have hD : GoFloat.div (GoFloat.ofInt 1 : XR) (GoFloat.add (XR.fin (cfB s x (n + 1))) (GoFloat.mul (XR.fin (cfA s (n + 1))) (XR.fin (lD s x n)))) = .fin (lD s x (n + 1)) := by
      change XR.div (.fin ((1 : Int) : ℝ)) (.fin (lE s x n)) = _
      have hDe : lD s x (n + 1) = 1 / lE s x n := rfl
      rw [XR.div_fin hE.ne', hDe]
      norm_num
    have hCn : GoFloat.add (XR.fin (cfB s x (n + 1))) (GoFloat.div (XR.fin (cfA s (n + 1))) (XR.fin (lC s x n))) = .fin (lC s x (n + 1)) := by
      change XR.add _ (XR.div _ _) = _
      rw [XR.div_fin hC.ne']
      rfl
    have hm : GoFloat.mul (XR.fin (lC s x (n + 1))) (XR.fin (lD s x (n + 1))) = .fin (lC s x (n + 1) * lD s x (n + 1)) := rfl
    have hF : GoFloat.mul (XR.fin (lF s x n)) (XR.fin (lC s x (n + 1) * lD s x (n + 1))) = .fin (lF s x (n + 1)) := rfl
    have h12 : GoFloat.div (GoFloat.ofInt 1 : XR) (GoFloat.ofInt 1000000000000) = .fin (1 / 1000000000000) := by
      change XR.div (.fin ((1 : Int) : ℝ)) (.fin ((1000000000000 : Int) : ℝ)) = _
      rw [XR.div_fin (by norm_num)]
      norm_num
    unfold fractionLoop
    simp only [ha, hb, hD, hCn, hm, hF, h12]
    have hab : GoFloat.abs (GoFloat.sub (XR.fin (lC s x (n + 1) * lD s x (n + 1))) (GoFloat.ofInt 1)) = XR.fin |lC s x (n + 1) * lD s x (n + 1) - 1| := by
      simp [XR.abs]
    rw [hab]
    by_cases hc : |lC s x (n + 1) * lD s x (n + 1) - 1| < 1 / 1000000000000
    · refine ⟨n, le_rfl, h1, hc, ?_⟩
      rw [if_pos]
      exact (XR.lt_fin _ _).2 hc
    · have hnm : n ≠ m := by rintro rfl; exact hc h3
      obtain ⟨j, j1, j2, j3, j4⟩ := fractionLoop_settles hs hxs k (n + 1) m (by omega) (by omega) h3
      refine ⟨j, by omega, j2, j3, ?_⟩
      rw [if_neg]
      · exact j4
      · intro hlt
        exact hc ((XR.lt_fin _ _).1 hlt)

/-- What `ugamma` returns, if the fraction settles: within 1e-8, relatively, of the upper incomplete gamma function. -/
theorem upperGamma_settles (hs : 0 < s) (hx : 11 / 10 < x) (hxs : s < x) (hset : Settles s x) :
    ∃ u, upperGamma (XR.fin x) (XR.fin s) = .fin u ∧ |u - upInt s x 0| ≤ 1 / 100000000 * upInt s x 0 := by
  have hx0 : 0 < x := by linarith
  obtain ⟨m, hm, hc⟩ := hset
  obtain ⟨j, -, hj, hcj, hl⟩ := fractionLoop_settles hs hxs 9999 0 m (by omega) (by omega) hc
  have hF := lF_pos hs hxs (j + 1)
  have hU := upInt_pos hs hx0 0
  have hlx : XR.log (.fin x) = .fin (Real.log x) := XR.log_pos hx0
  have hlf : XR.log (.fin (lF s x (j + 1))) = .fin (Real.log (lF s x (j + 1))) := XR.log_pos hF
  refine ⟨x ^ s * Real.exp (-x) / lF s x (j + 1), ?_, ?_⟩
  · have h0 : GoFloat.sub (GoFloat.add (GoFloat.ofInt 1 : XR) (XR.fin x)) (XR.fin s) = .fin (1 + x - s) := by simp
    unfold upperGamma
    simp only [h0]
    have hl' : fractionLoop (XR.fin x) (XR.fin s) 9999 1 (.fin (1 + x - s)) (GoFloat.ofInt 0) (.fin (1 + x - s)) = .fin (lF s x (j + 1)) := by
      have e : (GoFloat.ofInt 0 : XR) = .fin (lD s x 0) := by simp [lD]
      rw [e]
      exact hl
    rw [hl']
    have he : Real.exp (s * Real.log x - x - Real.log (lF s x (j + 1))) = x ^ s * Real.exp (-x) / lF s x (j + 1) := by
      rw [Real.exp_sub, Real.exp_log hF, Real.rpow_def_of_pos hx0, ← Real.exp_add]
      congr 2; ring
    simp [hlx, hlf, he]
  · have herr := cf_error hs hxs j
    have e : x ^ s * Real.exp (-x) / lF s x (j + 1) - upInt s x 0 = upInt s x 0 * (cfExact s x / lF s x (j + 1) - 1) := by
      unfold cfExact
      field_simp
    rw [e, abs_mul, abs_of_pos hU, mul_comm]
    apply mul_le_mul_of_nonneg_right _ hU.le
    refine le_trans herr ?_
    have hj' : (j : ℝ) ≤ 9998 := by exact_mod_cast (by omega : j ≤ 9998)
    have hmax : max 1 (((j : ℝ) + 2) / x) ≤ 9100 := by
      apply max_le (by norm_num)
      rw [div_le_iff₀ hx0]
      linarith
    have hq := abs_lt.1 hcj
    generalize lC s x (j + 1) * lD s x (j + 1) = c at *
    have hc0 : 0 < c := by linarith
    have hinv : |1 / c - 1| ≤ 1 / 999999999999 := by
      have : 1 / c - 1 = (1 - c) / c := by field_simp
      rw [this, abs_div, abs_of_pos hc0, div_le_iff₀ hc0, abs_le]
      constructor <;> linarith
    calc max 1 (((j : ℝ) + 2) / x) * |1 / c - 1| ≤ 9100 * (1 / 999999999999) := mul_le_mul hmax hinv (abs_nonneg _) (by norm_num)
      _ ≤ 1 / 100000000 := by norm_num

end Gospn
