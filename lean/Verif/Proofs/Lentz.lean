/-
The continued fraction of `ugamma`: its convergents stay positive, how far each is from the upper incomplete gamma function, and that they settle.
-/
import Verif.Proofs.UpperGamma

set_option linter.unusedSectionVars false
set_option linter.unusedSimpArgs false

namespace Gospn
open MeasureTheory Set

/-- The partial numerators and denominators. -/
def cfA (s : ℝ) (n : Nat) : ℝ := n * (s - n)
def cfB (s x : ℝ) (n : Nat) : ℝ := 2 * n + 1 + x - s

/-- The successive values of `C`, `D` and `f` in `ugamma`. -/
noncomputable def lC (s x : ℝ) : Nat → ℝ
  | 0 => 1 + x - s
  | n + 1 => cfB s x (n + 1) + cfA s (n + 1) / lC s x n

noncomputable def lD (s x : ℝ) : Nat → ℝ
  | 0 => 0
  | n + 1 => 1 / (cfB s x (n + 1) + cfA s (n + 1) * lD s x n)

noncomputable def lF (s x : ℝ) : Nat → ℝ
  | 0 => 1 + x - s
  | n + 1 => lF s x n * (lC s x (n + 1) * lD s x (n + 1))

/-- The denominators of `D`. -/
noncomputable def lE (s x : ℝ) (n : Nat) : ℝ := cfB s x (n + 1) + cfA s (n + 1) * lD s x n

variable {s x : ℝ}

theorem cfA_nonneg {n : Nat} (h : (n : ℝ) ≤ s) : 0 ≤ cfA s n := mul_nonneg (Nat.cast_nonneg n) (by linarith)

theorem lC_ge (hs : 0 < s) (hxs : s < x) : ∀ n : Nat, ((n : ℝ) + 1) ≤ lC s x n
  | 0 => by simp [lC]; linarith
  | n + 1 => by
    have ih := lC_ge hs hxs n
    have hn : (0 : ℝ) ≤ n := Nat.cast_nonneg n
    have hC : 0 < lC s x n := by linarith
    rw [lC]
    by_cases h : ((n + 1 : Nat) : ℝ) ≤ s
    · have := div_nonneg (cfA_nonneg h) hC.le
      unfold cfB
      push_cast at *
      linarith
    · push Not at h
      have h1 : -((((n + 1 : Nat) : ℝ)) - s) ≤ cfA s (n + 1) / lC s x n := by
        rw [le_div_iff₀ hC]
        unfold cfA
        push_cast at *
        nlinarith
      unfold cfB
      push_cast at *
      linarith

theorem lC_pos (hs : 0 < s) (hxs : s < x) (n : Nat) : 0 < lC s x n := by
  have := lC_ge hs hxs n
  have hn : (0 : ℝ) ≤ n := Nat.cast_nonneg n
  linarith

theorem lE_ge (hs : 0 < s) (hxs : s < x) : ∀ n : Nat, ((n : ℝ) + 2) ≤ lE s x n ∧ 0 ≤ lD s x n ∧ lD s x n ≤ 1 / ((n : ℝ) + 1)
  | 0 => by simp [lE, lD, cfB]; linarith
  | n + 1 => by
    obtain ⟨ih, hD0, -⟩ := lE_ge hs hxs n
    have hn : (0 : ℝ) ≤ n := Nat.cast_nonneg n
    have hE : 0 < lE s x n := by linarith
    have hD : lD s x (n + 1) = 1 / lE s x n := rfl
    have hDp : 0 < lD s x (n + 1) := by rw [hD]; positivity
    have hDl : lD s x (n + 1) ≤ 1 / (((n + 1 : Nat) : ℝ) + 1) := by
      rw [hD]
      apply one_div_le_one_div_of_le (by positivity)
      push_cast
      linarith
    refine ⟨?_, hDp.le, hDl⟩
    by_cases h : ((n + 1 + 1 : Nat) : ℝ) ≤ s
    · have := mul_nonneg (cfA_nonneg h) hDp.le
      unfold lE cfB
      push_cast at *
      linarith
    · push Not at h
      have hpos : (0 : ℝ) < ((n + 1 : Nat) : ℝ) + 1 := by positivity
      rw [le_div_iff₀ hpos] at hDl
      have h1 : -((((n + 1 + 1 : Nat) : ℝ)) - s) ≤ cfA s (n + 1 + 1) * lD s x (n + 1) := by
        unfold cfA
        push_cast at *
        nlinarith
      unfold lE cfB
      push_cast at *
      linarith

theorem lE_pos (hs : 0 < s) (hxs : s < x) (n : Nat) : 0 < lE s x n := by
  have := (lE_ge hs hxs n).1
  have hn : (0 : ℝ) ≤ n := Nat.cast_nonneg n
  linarith

theorem lD_pos (hs : 0 < s) (hxs : s < x) (n : Nat) : 0 < lD s x (n + 1) := by
  have : lD s x (n + 1) = 1 / lE s x n := rfl
  rw [this]
  exact one_div_pos.2 (lE_pos hs hxs n)

/-- Beyond `s` the denominators grow with `x`. -/
theorem lE_beyond (hs : 0 < s) (hxs : s < x) (n : Nat) (h : s ≤ ((n + 1 : Nat) : ℝ)) : ((n : ℝ) + 2 + x) ≤ lE s x n := by
  obtain ⟨-, hD0, hDl⟩ := lE_ge hs hxs n
  have hpos : (0 : ℝ) < (n : ℝ) + 1 := by positivity
  rw [le_div_iff₀ hpos] at hDl
  have h1 : -((((n + 1 : Nat) : ℝ)) - s) ≤ cfA s (n + 1) * lD s x n := by
    unfold cfA
    push_cast at *
    nlinarith
  unfold lE cfB
  push_cast at *
  linarith

theorem lE_before (hs : 0 < s) (hxs : s < x) (n : Nat) (h : ((n + 1 : Nat) : ℝ) ≤ s) : cfB s x (n + 1) ≤ lE s x n := by
  have := mul_nonneg (cfA_nonneg h) (lE_ge hs hxs n).2.1
  unfold lE
  linarith

theorem lF_pos (hs : 0 < s) (hxs : s < x) : ∀ n, 0 < lF s x n
  | 0 => by simp [lF]; linarith
  | n + 1 => mul_pos (lF_pos hs hxs n) (mul_pos (lC_pos hs hxs _) (lD_pos hs hxs n))

/-- The tails of the fraction. -/
noncomputable def cfH (s x : ℝ) (n : Nat) : ℝ := (s - 1 - n) * upInt s x (n + 1) / upInt s x n

/-- What the fraction is for. -/
noncomputable def cfExact (s x : ℝ) : ℝ := x ^ s * Real.exp (-x) / upInt s x 0

theorem cfExact_eq (hs : 0 < s) (hx : 0 < x) : cfExact s x = 1 + x - s + cfH s x 0 := by
  have h := upInt_rec hs hx 0
  have h0 := upInt_pos hs hx 0
  simp only [Nat.cast_zero, mul_zero, zero_add, if_true, zero_mul, add_zero, sub_zero] at h
  unfold cfExact cfH
  rw [← h]
  field_simp
  simp
  ring

theorem cfH_eq (hs : 0 < s) (hx : 0 < x) (n : Nat) :
    0 < cfB s x (n + 1) + cfH s x (n + 1) ∧ cfH s x n = cfA s (n + 1) / (cfB s x (n + 1) + cfH s x (n + 1)) := by
  have h := upInt_rec hs hx (n + 1)
  have h0 := upInt_pos hs hx n
  have h1 := upInt_pos hs hx (n + 1)
  rw [if_neg (Nat.succ_ne_zero n), zero_add, Nat.add_sub_cancel] at h
  have hg : cfB s x (n + 1) + cfH s x (n + 1) = ((n + 1 : Nat) : ℝ) * upInt s x n / upInt s x (n + 1) := by
    unfold cfB cfH
    rw [← h]
    field_simp
  rw [hg]
  constructor
  · positivity
  · unfold cfH cfA
    have : ((n + 1 : Nat) : ℝ) ≠ 0 := by positivity
    field_simp
    push_cast
    ring

theorem cfH_bound (hs : 0 < s) (hx : 0 < x) (n : Nat) : (s ≤ n + 1 → cfH s x n ≤ 0 ∧ -(n + 1 - s) ≤ cfH s x n) ∧ ((n : ℝ) + 1 ≤ s → 0 ≤ cfH s x n) := by
  have h0 := upInt_pos hs hx n
  have h1 := upInt_pos hs hx (n + 1)
  have hle := upInt_succ_le hs hx n
  have hq1 : upInt s x (n + 1) / upInt s x n ≤ 1 := (div_le_one h0).2 hle
  have hq0 : 0 ≤ upInt s x (n + 1) / upInt s x n := by positivity
  have e : cfH s x n = (s - 1 - n) * (upInt s x (n + 1) / upInt s x n) := by unfold cfH; ring
  rw [e]
  constructor
  · intro h
    constructor <;> nlinarith
  · intro h
    exact mul_nonneg (by linarith) hq0

/-- The denominators leave room for the tails. -/
theorem lE_add_cfH (hs : 0 < s) (hxs : s < x) (n : Nat) (h : cfH s x (n + 1) < 0) : x ≤ lE s x n + cfH s x (n + 1) ∧ -cfH s x (n + 1) ≤ n + 2 := by
  have hx : 0 < x := by linarith
  have hb := cfH_bound hs hx (n + 1)
  have hn : (0 : ℝ) ≤ n := Nat.cast_nonneg n
  have hlt : s ≤ ((n + 1 : Nat) : ℝ) + 1 := by
    by_contra hc
    exact absurd (hb.2 (by linarith)) (not_le.2 h)
  have h2 := (hb.1 hlt).2
  push_cast at h2 hlt
  constructor
  · by_cases hc : s ≤ ((n + 1 : Nat) : ℝ)
    · have := lE_beyond hs hxs n hc
      linarith
    · push Not at hc
      have := lE_before hs hxs n hc.le
      unfold cfB at this
      push_cast at *
      linarith
  · linarith

theorem tail_pos (hs : 0 < s) (hxs : s < x) (n : Nat) : 0 < 1 + cfH s x n * lD s x n := by
  have hx : 0 < x := by linarith
  cases n with
  | zero => simp [lD]
  | succ n =>
    have hD : lD s x (n + 1) = 1 / lE s x n := rfl
    have hE := lE_pos hs hxs n
    rw [hD]
    by_cases h : cfH s x (n + 1) < 0
    · have := (lE_add_cfH hs hxs n h).1
      have e : 1 + cfH s x (n + 1) * (1 / lE s x n) = (lE s x n + cfH s x (n + 1)) / lE s x n := by field_simp
      rw [e]
      apply div_pos _ hE
      linarith
    · push Not at h
      have := mul_nonneg h (one_div_nonneg.2 hE.le)
      linarith

theorem chg_eq (hs : 0 < s) (hxs : s < x) (n : Nat) : lC s x (n + 1) * lD s x (n + 1) = lC s x (n + 1) / lE s x n := by
  have : lD s x (n + 1) = 1 / lE s x n := rfl
  rw [this]; ring

/-- The fraction completed with its tail is exact. -/
theorem cf_complete (hs : 0 < s) (hxs : s < x) : ∀ n, cfExact s x * (1 + cfH s x n * lD s x n) = lF s x n * (1 + cfH s x n / lC s x n)
  | 0 => by
    have h := cfExact_eq hs (by linarith : 0 < x)
    have hb : (1 + x - s) ≠ 0 := by linarith
    rw [h]
    simp only [lD, lF, lC]
    field_simp
    ring
  | n + 1 => by
    have ih := cf_complete hs hxs n
    obtain ⟨hg, hh⟩ := cfH_eq hs (by linarith : 0 < x) n
    have hC := lC_pos hs hxs n
    have hC' := lC_pos hs hxs (n + 1)
    have hE := lE_pos hs hxs n
    have hF : lF s x (n + 1) = lF s x n * (lC s x (n + 1) * lD s x (n + 1)) := rfl
    have hD : lD s x (n + 1) = 1 / lE s x n := rfl
    rw [hh] at ih
    have e1 : 1 + cfA s (n + 1) / (cfB s x (n + 1) + cfH s x (n + 1)) * lD s x n = (lE s x n + cfH s x (n + 1)) / (cfB s x (n + 1) + cfH s x (n + 1)) := by
      unfold lE
      field_simp
      ring
    have e2 : 1 + cfA s (n + 1) / (cfB s x (n + 1) + cfH s x (n + 1)) / lC s x n = (lC s x (n + 1) + cfH s x (n + 1)) / (cfB s x (n + 1) + cfH s x (n + 1)) := by
      have : lC s x (n + 1) = cfB s x (n + 1) + cfA s (n + 1) / lC s x n := rfl
      rw [this]
      field_simp
      ring
    rw [e1, e2] at ih
    have ih' : cfExact s x * (lE s x n + cfH s x (n + 1)) = lF s x n * (lC s x (n + 1) + cfH s x (n + 1)) := by
      field_simp at ih
      linarith
    rw [hF, hD]
    have e3 : 1 + cfH s x (n + 1) * (1 / lE s x n) = (lE s x n + cfH s x (n + 1)) / lE s x n := by field_simp
    have e4 : 1 + cfH s x (n + 1) / lC s x (n + 1) = (lC s x (n + 1) + cfH s x (n + 1)) / lC s x (n + 1) := by field_simp
    rw [e3, e4, mul_div_assoc', ih']
    field_simp

/-- How far a convergent is from the exact value, by the last factor. -/
theorem cf_error (hs : 0 < s) (hxs : s < x) (n : Nat) :
    |cfExact s x / lF s x (n + 1) - 1| ≤ max 1 ((n + 2) / x) * |1 / (lC s x (n + 1) * lD s x (n + 1)) - 1| := by
  have hx : 0 < x := by linarith
  have hc := cf_complete hs hxs (n + 1)
  have hF := lF_pos hs hxs (n + 1)
  have hC := lC_pos hs hxs (n + 1)
  have hD := lD_pos hs hxs n
  have ht := tail_pos hs hxs (n + 1)
  have hE := lE_pos hs hxs n
  have hDE : lD s x (n + 1) = 1 / lE s x n := rfl
  have e : cfExact s x / lF s x (n + 1) - 1 =
      (cfH s x (n + 1) * lD s x (n + 1) / (1 + cfH s x (n + 1) * lD s x (n + 1))) * (1 / (lC s x (n + 1) * lD s x (n + 1)) - 1) := by
    have h1 : cfExact s x = lF s x (n + 1) * (1 + cfH s x (n + 1) / lC s x (n + 1)) / (1 + cfH s x (n + 1) * lD s x (n + 1)) := by
      rw [eq_div_iff ht.ne']; exact hc
    rw [h1]
    field_simp
    ring
  rw [e, abs_mul]
  apply mul_le_mul_of_nonneg_right _ (abs_nonneg _)
  rw [abs_div, abs_of_pos ht, div_le_iff₀ ht]
  by_cases h : cfH s x (n + 1) < 0
  · obtain ⟨h1, h2⟩ := lE_add_cfH hs hxs n h
    have hab : |cfH s x (n + 1) * lD s x (n + 1)| = -cfH s x (n + 1) / lE s x n := by
      rw [hDE, abs_of_nonpos (by
        have : 0 < 1 / lE s x n := one_div_pos.2 hE
        nlinarith)]
      ring
    have e2 : 1 + cfH s x (n + 1) * lD s x (n + 1) = (lE s x n + cfH s x (n + 1)) / lE s x n := by
      rw [hDE]; field_simp
    rw [hab, e2, mul_div_assoc']
    apply div_le_div_of_nonneg_right _ hE.le
    have hm : ((n : ℝ) + 2) / x ≤ max 1 ((n + 2) / x) := le_max_right _ _
    have hq : 0 ≤ ((n : ℝ) + 2) / x := by positivity
    calc -cfH s x (n + 1) ≤ n + 2 := h2
      _ = (n + 2) / x * x := by field_simp
      _ ≤ max 1 ((n + 2) / x) * (lE s x n + cfH s x (n + 1)) := mul_le_mul hm h1 hx.le (le_trans hq hm)
  · push Not at h
    have hp : 0 ≤ cfH s x (n + 1) * lD s x (n + 1) := mul_nonneg h hD.le
    rw [abs_of_nonneg hp]
    have hm : (1 : ℝ) ≤ max 1 ((n + 2) / x) := le_max_left _ _
    nlinarith

/-- The steps from one convergent to the next. -/
noncomputable def lStep (s x : ℝ) (n : Nat) : ℝ := lF s x (n + 1) - lF s x n

theorem lStep_eq (s x : ℝ) (n : Nat) : lStep s x n = lF s x n * (lC s x (n + 1) * lD s x (n + 1) - 1) := by
  have : lF s x (n + 1) = lF s x n * (lC s x (n + 1) * lD s x (n + 1)) := rfl
  unfold lStep
  rw [this]; ring

theorem lStep_zero (hs : 0 < s) (hxs : s < x) : lStep s x 0 = cfA s 1 * lD s x 1 := by
  rw [lStep_eq]
  have hE := lE_pos hs hxs 0
  have hD : lD s x 1 = 1 / lE s x 0 := rfl
  have hE0 : lE s x 0 = cfB s x 1 := by simp [lE, lD]
  have hC : lC s x 1 = cfB s x 1 + cfA s 1 / (1 + x - s) := rfl
  have hb : (1 + x - s) ≠ 0 := by linarith
  rw [hE0] at hD hE
  rw [hD, hC]
  change (1 + x - s) * _ = _
  field_simp
  ring

theorem lStep_succ (hs : 0 < s) (hxs : s < x) (n : Nat) : lStep s x (n + 1) = -(cfA s (n + 2) * lD s x (n + 2) * lD s x (n + 1)) * lStep s x n := by
  rw [lStep_eq, lStep_eq]
  have hF : lF s x (n + 1) = lF s x n * (lC s x (n + 1) * lD s x (n + 1)) := rfl
  have hE := lE_pos hs hxs (n + 1)
  have hD : lD s x (n + 2) = 1 / lE s x (n + 1) := rfl
  have hEe : lE s x (n + 1) = cfB s x (n + 2) + cfA s (n + 2) * lD s x (n + 1) := rfl
  have hC : lC s x (n + 2) = cfB s x (n + 2) + cfA s (n + 2) / lC s x (n + 1) := rfl
  have hCp := lC_pos hs hxs (n + 1)
  have hb : cfB s x (n + 2) = lE s x (n + 1) - cfA s (n + 2) * lD s x (n + 1) := by rw [hEe]; ring
  rw [hF, hD, hC, hb]
  field_simp
  ring

/-- Before `s` the steps change their sign, and never grow. -/
theorem lRatio_before (hs : 0 < s) (hxs : s < x) (n : Nat) (h : ((n + 2 : Nat) : ℝ) ≤ s) :
    0 ≤ cfA s (n + 2) * lD s x (n + 2) * lD s x (n + 1) ∧ cfA s (n + 2) * lD s x (n + 2) * lD s x (n + 1) ≤ 1 := by
  have hA := cfA_nonneg h
  have hD := lD_pos hs hxs n
  have hE := lE_pos hs hxs (n + 1)
  have hDe : lD s x (n + 2) = 1 / lE s x (n + 1) := rfl
  have hEe : lE s x (n + 1) = cfB s x (n + 2) + cfA s (n + 2) * lD s x (n + 1) := rfl
  have hB : 0 ≤ cfB s x (n + 2) := by unfold cfB; push_cast at *; linarith
  refine ⟨mul_nonneg (mul_nonneg hA (lD_pos hs hxs (n + 1)).le) hD.le, ?_⟩
  have e : cfA s (n + 2) * lD s x (n + 2) * lD s x (n + 1) = cfA s (n + 2) * lD s x (n + 1) / lE s x (n + 1) := by rw [hDe]; ring
  rw [e, div_le_one hE, hEe]
  linarith

/-- Beyond `s` the steps keep their sign, and never grow. -/
theorem lRatio_beyond (hs : 0 < s) (hxs : s < x) (n : Nat) (h : s ≤ ((n + 2 : Nat) : ℝ)) :
    0 ≤ -(cfA s (n + 2) * lD s x (n + 2) * lD s x (n + 1)) ∧ -(cfA s (n + 2) * lD s x (n + 2) * lD s x (n + 1)) ≤ 1 := by
  have hD := lD_pos hs hxs n
  have hD2 := lD_pos hs hxs (n + 1)
  have hDl := (lE_ge hs hxs (n + 1)).2.2
  have hE := lE_pos hs hxs (n + 1)
  have hEb := lE_beyond hs hxs (n + 1) h
  have hDe : lD s x (n + 2) = 1 / lE s x (n + 1) := rfl
  have hA : 0 ≤ -cfA s (n + 2) := by
    unfold cfA
    have : (0 : ℝ) ≤ ((n + 2 : Nat) : ℝ) := Nat.cast_nonneg _
    nlinarith
  have e : -(cfA s (n + 2) * lD s x (n + 2) * lD s x (n + 1)) = -cfA s (n + 2) * lD s x (n + 1) / lE s x (n + 1) := by rw [hDe]; ring
  rw [e]
  constructor
  · positivity
  · rw [div_le_one hE]
    have hpos : (0 : ℝ) < ((n + 1 : Nat) : ℝ) + 1 := by positivity
    rw [le_div_iff₀ hpos] at hDl
    unfold cfA
    push_cast at *
    nlinarith

theorem lStep_mono (hs : 0 < s) (hxs : s < x) (n : Nat) : |lStep s x (n + 1)| ≤ |lStep s x n| := by
  rw [lStep_succ hs hxs, abs_mul]
  have : |(-(cfA s (n + 2) * lD s x (n + 2) * lD s x (n + 1)))| ≤ 1 := by
    rcases le_total (((n + 2 : Nat) : ℝ)) s with h | h
    · rw [abs_neg, abs_of_nonneg (lRatio_before hs hxs n h).1]
      exact (lRatio_before hs hxs n h).2
    · rw [abs_of_nonneg (lRatio_beyond hs hxs n h).1]
      exact (lRatio_beyond hs hxs n h).2
  nlinarith [abs_nonneg (lStep s x n)]

theorem lStep_le_zero (hs : 0 < s) (hxs : s < x) : ∀ n, |lStep s x n| ≤ |lStep s x 0|
  | 0 => le_rfl
  | n + 1 => le_trans (lStep_mono hs hxs n) (lStep_le_zero hs hxs n)

theorem lStep_zero_le (hs : 0 < s) (hxs : s < x) : |lStep s x 0| ≤ |s - 1| / (3 + x - s) := by
  rw [lStep_zero hs hxs]
  have hD : lD s x 1 = 1 / (3 + x - s) := by
    simp [lD, cfB]
    congr 1
    ring
  have hA : cfA s 1 = s - 1 := by simp [cfA]
  rw [hD, hA, abs_mul, abs_of_pos (a := 1 / (3 + x - s)) (by apply one_div_pos.2; linarith)]
  rw [mul_one_div]

theorem one_le_cfExact (hs : 0 < s) (hxs : s < x) (hx1 : 1 ≤ x) : 1 ≤ cfExact s x := by
  have hx : 0 < x := by linarith
  rw [cfExact_eq hs hx]
  have hb := cfH_bound hs hx 0
  push_cast at hb
  rcases le_total s 1 with h | h
  · have := (hb.1 (by linarith)).2
    linarith
  · have := hb.2 (by linarith)
    linarith

/-- The convergents are at least one. -/
theorem one_le_lF (hs : 0 < s) (hxs : s < x) (hx1 : 1 ≤ x) : ∀ n, 1 ≤ lF s x n ∧ 1 ≤ lF s x (n + 1) := by
  have hx : 0 < x := by linarith
  have hex := one_le_cfExact hs hxs hx1
  -- one convergent, by the sign of its tail and of the step to it
  have key : ∀ n, 1 ≤ lF s x n → (0 ≤ cfH s x (n + 1) → lStep s x n < 0 → 1 ≤ lF s x (n + 1)) → 1 ≤ lF s x (n + 1) := by
    intro n hn hcase
    have hC := lC_pos hs hxs (n + 1)
    have hD := lD_pos hs hxs n
    have hF := lF_pos hs hxs n
    have hF' := lF_pos hs hxs (n + 1)
    have hcc := cf_complete hs hxs (n + 1)
    have ht := tail_pos hs hxs (n + 1)
    have hst := lStep_eq s x n
    have hdef : lStep s x n = lF s x (n + 1) - lF s x n := rfl
    have hcomp : ∀ {a b : ℝ}, b ≤ a → 0 < b → cfExact s x * a = lF s x (n + 1) * b → 1 ≤ lF s x (n + 1) := by
      intro a b hab hb he
      have : lF s x (n + 1) * b ≥ 1 * b := by rw [← he]; nlinarith
      exact le_of_mul_le_mul_right this hb
    by_cases h0 : 0 ≤ lStep s x n
    · by_cases hh : 0 ≤ cfH s x (n + 1)
      · have h1 : 0 ≤ lC s x (n + 1) * lD s x (n + 1) - 1 := by
          by_contra hc
          push Not at hc
          have := mul_neg_of_pos_of_neg hF hc
          linarith
        have h2 : 1 / lC s x (n + 1) ≤ lD s x (n + 1) := by rw [div_le_iff₀ hC]; linarith
        refine hcomp ?_ ?_ hcc
        · have := mul_le_mul_of_nonneg_left h2 hh
          rw [mul_one_div] at this
          linarith
        · have := div_nonneg hh hC.le
          linarith
      · linarith
    · push Not at h0
      by_cases hh : 0 ≤ cfH s x (n + 1)
      · exact hcase hh h0
      · push Not at hh
        have h1 : lC s x (n + 1) * lD s x (n + 1) - 1 < 0 := by
          by_contra hc
          push Not at hc
          have := mul_nonneg hF.le hc
          linarith
        have h2 : lD s x (n + 1) ≤ 1 / lC s x (n + 1) := by rw [le_div_iff₀ hC]; linarith
        have h3 : cfH s x (n + 1) / lC s x (n + 1) ≤ cfH s x (n + 1) * lD s x (n + 1) := by
          have := mul_le_mul_of_nonpos_left h2 hh.le
          rw [mul_one_div] at this
          linarith
        refine hcomp (b := 1 + cfH s x (n + 1) / lC s x (n + 1)) (by linarith) ?_ hcc
        by_contra hc
        push Not at hc
        have h4 : cfExact s x * (1 + cfH s x (n + 1) * lD s x (n + 1)) > 0 := by positivity
        rw [hcc] at h4
        nlinarith
  intro n
  induction n with
  | zero =>
    have h0 : 1 ≤ lF s x 0 := by simp [lF]; linarith
    refine ⟨h0, key 0 h0 ?_⟩
    intro hh hneg
    exfalso
    rw [lStep_zero hs hxs] at hneg
    have hD := lD_pos hs hxs 0
    have hA : cfA s 1 < 0 := by
      by_contra hc
      push Not at hc
      have := mul_nonneg hc hD.le
      linarith
    have hA1 : cfA s 1 = s - 1 := by simp [cfA]
    rw [hA1] at hA
    have h1 := upInt_pos hs hx 1
    have h2 := upInt_pos hs hx 2
    unfold cfH at hh
    rw [le_div_iff₀ h1, zero_mul] at hh
    push_cast at hh
    nlinarith
  | succ n ih =>
    refine ⟨ih.2, key (n + 1) ih.2 ?_⟩
    intro hh hneg
    have h1 := upInt_pos hs hx (n + 2)
    have h2 := upInt_pos hs hx (n + 3)
    have hle : ((n + 2 : Nat) : ℝ) ≤ s := by
      by_contra hc
      push Not at hc
      unfold cfH at hh
      rw [le_div_iff₀ h1, zero_mul] at hh
      push_cast at hh hc
      nlinarith
    obtain ⟨r0, r1⟩ := lRatio_before hs hxs n hle
    have hst := lStep_succ hs hxs n
    have hpos : 0 ≤ lStep s x n := by
      by_contra hc
      push Not at hc
      have := mul_nonneg r0 (neg_nonneg.2 hc.le)
      nlinarith
    have hd1 : lStep s x (n + 1) = lF s x (n + 2) - lF s x (n + 1) := rfl
    have hd0 : lStep s x n = lF s x (n + 1) - lF s x n := rfl
    have : -lStep s x n ≤ lStep s x (n + 1) := by rw [hst]; nlinarith
    linarith [ih.1]

/-- The last factor is as close to one as the last step is small. -/
theorem chg_le_step (hs : 0 < s) (hxs : s < x) (hx1 : 1 ≤ x) (n : Nat) : |lC s x (n + 1) * lD s x (n + 1) - 1| ≤ |lStep s x n| := by
  rw [lStep_eq, abs_mul]
  have h := (one_le_lF hs hxs hx1 n).1
  rw [abs_of_pos (lF_pos hs hxs n)]
  nlinarith [abs_nonneg (lC s x (n + 1) * lD s x (n + 1) - 1)]

/-- How fast the steps fall beyond `s`. -/
theorem lRatio_fast (hs : 0 < s) (hxs : s < x) (n : Nat) (h : s ≤ ((n + 1 : Nat) : ℝ)) :
    |(-(cfA s (n + 2) * lD s x (n + 2) * lD s x (n + 1)))| ≤ (n + 2) * (n + 2 - s) / ((n + 2 + x) * (n + 3 + x)) := by
  have h2 : s ≤ ((n + 2 : Nat) : ℝ) := by push_cast at *; linarith
  have hn : (0 : ℝ) ≤ n := Nat.cast_nonneg n
  rw [abs_of_nonneg (lRatio_beyond hs hxs n h2).1]
  have e1 := lE_beyond hs hxs n h
  have e2 := lE_beyond hs hxs (n + 1) h2
  have d1 : lD s x (n + 1) = 1 / lE s x n := rfl
  have d2 : lD s x (n + 2) = 1 / lE s x (n + 1) := rfl
  have p1 := lE_pos hs hxs n
  have p2 := lE_pos hs hxs (n + 1)
  have e : -(cfA s (n + 2) * lD s x (n + 2) * lD s x (n + 1)) = (n + 2) * (n + 2 - s) / (lE s x n * lE s x (n + 1)) := by
    rw [d1, d2]
    unfold cfA
    push_cast
    field_simp
    ring
  rw [e]
  push_cast at e1 e2 h2
  apply div_le_div_of_nonneg_left
  · apply mul_nonneg (by linarith); linarith
  · apply mul_pos <;> linarith
  · apply mul_le_mul e1 _ _ p1.le <;> linarith

/-- Steps bounded by a falling power: the ratio falls below that of the power from some point on. -/
theorem lStep_power (hs : 0 < s) (hxs : s < x) (p k : Nat) (c : ℝ) (hk : s ≤ ((k + 1 : Nat) : ℝ)) (h0 : |lStep s x k| * ((k : ℝ) + 2) ^ p ≤ c)
    (hr : ∀ n : Nat, k ≤ n → ((n : ℝ) + 2) * (n + 2 - s) / ((n + 2 + x) * (n + 3 + x)) * ((n : ℝ) + 3) ^ p ≤ ((n : ℝ) + 2) ^ p) :
    ∀ d : Nat, |lStep s x (k + d)| * (((k + d : Nat) : ℝ) + 2) ^ p ≤ c
  | 0 => by simpa using h0
  | d + 1 => by
    have ih := lStep_power hs hxs p k c hk h0 hr d
    have hle : s ≤ ((k + d + 1 : Nat) : ℝ) := by push_cast at *; linarith [(Nat.cast_nonneg d : (0 : ℝ) ≤ d)]
    have hf := lRatio_fast hs hxs (k + d) hle
    have hr' := hr (k + d) (by omega)
    have hst : lStep s x (k + (d + 1)) = -(cfA s (k + d + 2) * lD s x (k + d + 2) * lD s x (k + d + 1)) * lStep s x (k + d) := lStep_succ hs hxs (k + d)
    rw [hst, abs_mul]
    have e : (((k + (d + 1) : Nat) : ℝ) + 2) = ((k + d : Nat) : ℝ) + 3 := by push_cast; ring
    rw [e]
    have hp : (0 : ℝ) ≤ (((k + d : Nat) : ℝ) + 3) ^ p := by positivity
    calc |(-(cfA s (k + d + 2) * lD s x (k + d + 2) * lD s x (k + d + 1)))| * |lStep s x (k + d)| * (((k + d : Nat) : ℝ) + 3) ^ p
        = |lStep s x (k + d)| * (|(-(cfA s (k + d + 2) * lD s x (k + d + 2) * lD s x (k + d + 1)))| * (((k + d : Nat) : ℝ) + 3) ^ p) := by ring
      _ ≤ |lStep s x (k + d)| * ((((k + d : Nat) : ℝ) + 2) ^ p) := by
          apply mul_le_mul_of_nonneg_left _ (abs_nonneg _)
          exact le_trans (mul_le_mul_of_nonneg_right hf hp) hr'
      _ ≤ c := ih

end Gospn
