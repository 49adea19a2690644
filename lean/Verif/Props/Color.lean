/-
Theorems about colours by hue: C111.
-/
import Verif.Model.Color
import Verif.Proofs.Log
import Mathlib.Algebra.Order.Floor.Ring
import Mathlib.Tactic.NormNum
import Mathlib.Tactic.IntervalCases

set_option linter.unusedSectionVars false
set_option linter.unusedSimpArgs false

namespace Gospn
open Spec GoFloat

/-- How far a component with offset `n` is from the value: with `k = n + h / 60` modulo 6, the number min(k, 4 − k) cut to the interval from 0 to 1. -/
noncomputable def Spec.hueDrop (n h : ℝ) : ℝ :=
  let k := n + h / 60 - 6 * ⌊(n + h / 60) / 6⌋
  max 0 (min (min k (4 - k)) 1)

/-- Red, green and blue of the colour with hue `h` in degrees, saturation `s` and value `v`: the usual formula. -/
noncomputable def Spec.rgbOf (h s v : ℝ) : ℝ × ℝ × ℝ := (v - v * s * hueDrop 5 h, v - v * s * hueDrop 3 h, v - v * s * hueDrop 1 h)

theorem hueDrop_eq {n h : ℝ} (z : Int) (h1 : 6 * (z : ℝ) ≤ n + h / 60) (h2 : n + h / 60 < 6 * z + 6) :
    hueDrop n h = max 0 (min (min (n + h / 60 - 6 * z) (4 - (n + h / 60 - 6 * z))) 1) := by
  have : ⌊(n + h / 60) / 6⌋ = z := by
    rw [Int.floor_eq_iff]
    constructor <;> linarith
  simp only [hueDrop, this]

theorem drop_low {k : ℝ} (h0 : 0 ≤ k) (h1 : k ≤ 1) : max 0 (min (min k (4 - k)) 1) = k := by
  rw [min_eq_left (by linarith : k ≤ 4 - k), min_eq_left h1, max_eq_right h0]

theorem drop_one {k : ℝ} (h0 : 1 ≤ k) (h1 : k ≤ 3) : max 0 (min (min k (4 - k)) 1) = 1 := by
  rw [min_eq_right (le_min h0 (by linarith)), max_eq_right (by norm_num)]

theorem drop_high {k : ℝ} (h0 : 3 ≤ k) (h1 : k ≤ 4) : max 0 (min (min k (4 - k)) 1) = 4 - k := by
  rw [min_eq_right (by linarith : 4 - k ≤ k), min_eq_left (by linarith), max_eq_right (by linarith)]

theorem drop_zero {k : ℝ} (h0 : 4 ≤ k) : max 0 (min (min k (4 - k)) 1) = 0 :=
  max_eq_left ((min_le_left _ _).trans ((min_le_right _ _).trans (by linarith)))

/-- What `hsv2rgb` computes for a positive saturation and a hue from 0 to below 360. -/
theorem hsv2rgb_pos {h s v : ℝ} (h0 : 0 ≤ h) (h1 : h < 360) (hs : 0 < s) : hsv2rgb (XR.fin h) (.fin s) (.fin v) =
    hueCase ⌊h / 60⌋ (.fin v) (.fin (v * (1 - s))) (.fin (v * (1 - s * (h / 60 - ⌊h / 60⌋)))) (.fin (v * (1 - s * (1 - (h / 60 - ⌊h / 60⌋))))) := by
  have hc : (XR.lt (.fin s) (.fin 0) || XR.eq (.fin s) (.fin 0)) = false := by
    simp only [Bool.or_eq_false_iff]
    constructor
    · simp [XR.lt, hs.le]
    · simp [XR.eq, hs.ne']
  have hd : (XR.lt (.fin 360) (.fin h) || XR.eq (.fin 360) (.fin h)) = false := by
    simp only [Bool.or_eq_false_iff]
    constructor
    · simp [XR.lt, h1.le]
    · simp [XR.eq, h1.ne']
  unfold hsv2rgb
  have e60 : XR.div (.fin h) (.fin 60) = .fin (h / 60) := XR.div_fin (by norm_num)
  have hi : XR.toInt (.fin (h / 60)) = ⌊h / 60⌋ := by
    have : (0 : ℝ) ≤ h / 60 := by positivity
    simp only [XR.toInt, if_pos this]
  simp only [XR.g_le, XR.g_ofInt, Int.cast_zero, Int.cast_ofNat, hc, hd, XR.g_div, e60, XR.g_toInt, hi, XR.g_sub, XR.g_mul, Int.cast_one, XR.sub_fin, XR.mul_fin]
  simp only [Bool.false_eq_true, if_false, e60, hi, XR.sub_fin, XR.mul_fin]

/-- C111: for hues from 0 to below 300 degrees and saturations from 0 to 1, `hsv2rgb` gives the colour. -/
theorem C111_rgb_partial (h s v : ℝ) (h0 : 0 ≤ h) (h1 : h < 300) (hs : 0 ≤ s) :
    hsv2rgb (XR.fin h) (.fin s) (.fin v) = (.fin (rgbOf h s v).1, .fin (rgbOf h s v).2.1, .fin (rgbOf h s v).2.2) := by
  rcases hs.eq_or_lt with rfl | hs
  · simp [hsv2rgb, rgbOf, XR.eq]
  rw [hsv2rgb_pos h0 (by linarith) hs]
  have hx0 : 0 ≤ h / 60 := by positivity
  have hx1 : h / 60 < 5 := by linarith
  obtain ⟨i, hi⟩ : ∃ i : Int, ⌊h / 60⌋ = i := ⟨_, rfl⟩
  rw [hi]
  obtain ⟨hf1, hf2⟩ := Int.floor_eq_iff.1 hi
  have hi0 : 0 ≤ i := by rw [← hi]; exact Int.floor_nonneg.2 hx0
  have hi5 : i < 5 := by
    have : (i : ℝ) < 5 := by linarith
    exact_mod_cast this
  interval_cases i <;> norm_num at hf1 hf2 <;> simp only [rgbOf]
  · rw [hueDrop_eq (n := 5) 0 (by push_cast; linarith) (by push_cast; linarith), hueDrop_eq (n := 3) 0 (by push_cast; linarith) (by push_cast; linarith),
      hueDrop_eq (n := 1) 0 (by push_cast; linarith) (by push_cast; linarith), drop_zero (by push_cast; linarith), drop_high (by push_cast; linarith) (by push_cast; linarith),
      drop_one (by push_cast; linarith) (by push_cast; linarith)]
    simp only [hueCase, if_true]
    refine Prod.ext ?_ (Prod.ext ?_ ?_) <;> simp <;> ring
  · rw [hueDrop_eq (n := 5) 1 (by push_cast; linarith) (by push_cast; linarith), hueDrop_eq (n := 3) 0 (by push_cast; linarith) (by push_cast; linarith),
      hueDrop_eq (n := 1) 0 (by push_cast; linarith) (by push_cast; linarith), drop_low (by push_cast; linarith) (by push_cast; linarith), drop_zero (by push_cast; linarith),
      drop_one (by push_cast; linarith) (by push_cast; linarith)]
    simp [hueCase]
    constructor <;> ring
  · rw [hueDrop_eq (n := 5) 1 (by push_cast; linarith) (by push_cast; linarith), hueDrop_eq (n := 3) 0 (by push_cast; linarith) (by push_cast; linarith),
      hueDrop_eq (n := 1) 0 (by push_cast; linarith) (by push_cast; linarith), drop_one (by push_cast; linarith) (by push_cast; linarith), drop_zero (by push_cast; linarith),
      drop_high (by push_cast; linarith) (by push_cast; linarith)]
    simp [hueCase]
    constructor <;> ring
  · rw [hueDrop_eq (n := 5) 1 (by push_cast; linarith) (by push_cast; linarith), hueDrop_eq (n := 3) 1 (by push_cast; linarith) (by push_cast; linarith),
      hueDrop_eq (n := 1) 0 (by push_cast; linarith) (by push_cast; linarith), drop_one (by push_cast; linarith) (by push_cast; linarith),
      drop_low (by push_cast; linarith) (by push_cast; linarith), drop_zero (by push_cast; linarith)]
    simp [hueCase]
    constructor <;> ring
  · rw [hueDrop_eq (n := 5) 1 (by push_cast; linarith) (by push_cast; linarith), hueDrop_eq (n := 3) 1 (by push_cast; linarith) (by push_cast; linarith),
      hueDrop_eq (n := 1) 0 (by push_cast; linarith) (by push_cast; linarith), drop_high (by push_cast; linarith) (by push_cast; linarith),
      drop_one (by push_cast; linarith) (by push_cast; linarith), drop_zero (by push_cast; linarith)]
    simp [hueCase]
    constructor <;> ring

example : (0 : ℝ) ≤ 240 ∧ (240 : ℝ) < 300 ∧ (0 : ℝ) ≤ 1 / 2 := by norm_num

/-- C111 fails for every hue from 300 to below 360 degrees with positive saturation: the colour is black, although its largest component is the value. -/
theorem C111_refuted (h s v : ℝ) (h0 : 300 ≤ h) (h1 : h < 360) (hs : 0 < s) (hv : 0 < v) :
    hsv2rgb (XR.fin h) (.fin s) (.fin v) = (.fin 0, .fin 0, .fin 0) ∧ (rgbOf h s v).1 = v := by
  constructor
  · rw [hsv2rgb_pos (by linarith) h1 hs]
    have : ⌊h / 60⌋ = 5 := by
      rw [Int.floor_eq_iff]
      push_cast
      constructor <;> linarith
    rw [this]
    simp [hueCase]
  · simp only [rgbOf]
    rw [hueDrop_eq (n := 5) 1 (by push_cast; linarith) (by push_cast; linarith), drop_zero (by push_cast; linarith)]
    ring

example : (300 : ℝ) ≤ 330 ∧ (330 : ℝ) < 360 ∧ (0 : ℝ) < 1 ∧ (0 : ℝ) < 1 := by norm_num

theorem hueDrop_range (n h : ℝ) : 0 ≤ hueDrop n h ∧ hueDrop n h ≤ 1 := by
  simp only [hueDrop]
  exact ⟨le_max_left _ _, max_le (by norm_num) (min_le_right _ _)⟩

theorem comp_range {v s d : ℝ} (hv0 : 0 ≤ v) (hv1 : v ≤ 1) (hs0 : 0 ≤ s) (hs1 : s ≤ 1) (hd0 : 0 ≤ d) (hd1 : d ≤ 1) : 0 ≤ v - v * s * d ∧ v - v * s * d ≤ 1 := by
  have h1 : s * d ≤ 1 := mul_le_one₀ hs1 hd0 hd1
  have h2 : 0 ≤ s * d := mul_nonneg hs0 hd0
  constructor
  · nlinarith
  · nlinarith

theorem toInt_range {x : ℝ} (h0 : 0 ≤ x) (h1 : x ≤ 1) : 0 ≤ XR.toInt (XR.mul (.fin 255) (.fin x)) ∧ XR.toInt (XR.mul (.fin 255) (.fin x)) ≤ 255 := by
  have hx : (0 : ℝ) ≤ 255 * x := by positivity
  simp only [XR.mul_fin, XR.toInt, if_pos hx]
  refine ⟨Int.floor_nonneg.2 hx, ?_⟩
  have : (⌊255 * x⌋ : ℝ) ≤ 255 := (Int.floor_le _).trans (by linarith)
  exact_mod_cast this

/-- The components are bytes. -/
def Spec.Bytes (c : Int × Int × Int) : Prop := (0 ≤ c.1 ∧ c.1 ≤ 255) ∧ (0 ≤ c.2.1 ∧ c.2.1 ≤ 255) ∧ 0 ≤ c.2.2 ∧ c.2.2 ≤ 255

theorem colorOf_bytes {h s v : ℝ} (h0 : 0 ≤ h) (h1 : h ≤ 360) (hs0 : 0 ≤ s) (hs1 : s ≤ 1) (hv0 : 0 ≤ v) (hv1 : v ≤ 1) : Bytes (colorOf (hsv2rgb (XR.fin h) (.fin s) (.fin v))) := by
  have good : ∀ h : ℝ, 0 ≤ h → h < 300 → Bytes (colorOf (hsv2rgb (XR.fin h) (.fin s) (.fin v))) := by
    intro h h0 h2
    rw [C111_rgb_partial h s v h0 h2 hs0]
    have c := fun n => comp_range hv0 hv1 hs0 hs1 (hueDrop_range n h).1 (hueDrop_range n h).2
    simp only [colorOf, Bytes, rgbOf, XR.g_ofInt, Int.cast_ofNat, XR.g_mul, XR.g_toInt]
    exact ⟨toInt_range (c 5).1 (c 5).2, toInt_range (c 3).1 (c 3).2, toInt_range (c 1).1 (c 1).2⟩
  by_cases h2 : h < 300
  · exact good h h0 h2
  rcases h1.eq_or_lt with rfl | h1
  · have : hsv2rgb (XR.fin 360) (.fin s) (.fin v) = hsv2rgb (XR.fin 0) (.fin s) (.fin v) := by
      unfold hsv2rgb
      simp [XR.eq, XR.lt]
    rw [this]
    exact good 0 le_rfl (by norm_num)
  · rcases hs0.eq_or_lt with rfl | hs
    · have : hsv2rgb (XR.fin h) (.fin 0) (.fin v) = (.fin v, .fin v, .fin v) := by simp [hsv2rgb, XR.eq]
      rw [this]
      simp only [colorOf, Bytes, XR.g_ofInt, Int.cast_ofNat, XR.g_mul, XR.g_toInt]
      exact ⟨toInt_range hv0 hv1, toInt_range hv0 hv1, toInt_range hv0 hv1⟩
    · have hz : hsv2rgb (XR.fin h) (.fin s) (.fin v) = (.fin 0, .fin 0, .fin 0) := by
        rw [hsv2rgb_pos h0 h1 hs]
        have : ⌊h / 60⌋ = 5 := by
          rw [Int.floor_eq_iff]
          push_cast
          constructor <;> linarith
        rw [this]
        simp [hueCase]
      rw [hz]
      simp only [colorOf, Bytes, XR.g_ofInt, Int.cast_ofNat, XR.g_mul, XR.g_toInt]
      exact ⟨toInt_range le_rfl zero_le_one, toInt_range le_rfl zero_le_one, toInt_range le_rfl zero_le_one⟩

/-- C111: `RandTone` returns a colour with components from 0 to 255 for every hue from 0 to 360 and all numbers drawn. -/
theorem C111_tone_bytes (h s v : ℝ) (h0 : 0 ≤ h) (h1 : h ≤ 360) (hs0 : 0 ≤ s) (hs1 : s < 1) (hv0 : 0 ≤ v) (hv1 : v < 1) : Bytes (randTone (XR.fin h) (.fin s) (.fin v)) :=
  colorOf_bytes h0 h1 hs0 hs1.le hv0 hv1.le

/-- C111: so does `RandColorScale` for points of the interval. -/
theorem C111_scale_bytes (p max h s b : ℝ) (hm : 0 < max) (hp0 : 0 ≤ p) (hp1 : p ≤ max) (h0 : 0 ≤ h) (h1 : h ≤ 360) (hs0 : 0 ≤ s) (hs1 : s ≤ 1) (hb0 : 0 ≤ b) (hb1 : b ≤ 1) :
    Bytes (randColorScale (XR.fin p) (.fin max) (.fin h) (.fin s) (.fin b)) := by
  unfold randColorScale
  have hv : (GoFloat.add (GoFloat.div (GoFloat.mul (GoFloat.sub (ofInt 1) (XR.fin b)) (XR.fin p)) (XR.fin max)) (XR.fin b) : XR) = .fin ((1 - b) * p / max + b) := by
    simp [XR.div_fin hm.ne']
  rw [hv]
  have hd0 : 0 ≤ p / max := by positivity
  have hd1 : p / max ≤ 1 := (div_le_one hm).2 hp1
  have e : (1 - b) * p / max + b = (1 - b) * (p / max) + b := by ring
  refine colorOf_bytes h0 h1 hs0 hs1 ?_ ?_
  · rw [e]; nlinarith
  · rw [e]; nlinarith

example : (0 : ℝ) < 10 ∧ (0 : ℝ) ≤ 3 ∧ (3 : ℝ) ≤ 10 ∧ (0 : ℝ) ≤ 120 ∧ (120 : ℝ) ≤ 360 ∧ (0 : ℝ) ≤ 1 / 2 ∧ (1 / 2 : ℝ) ≤ 1 := by norm_num

end Gospn
