import Verif.Spec.DivFloat
import Verif.Model.Structure
import Verif.Spec.Structure
import Verif.Proofs.Structure
import Mathlib.Analysis.SpecialFunctions.Log.Basic
import Mathlib.Analysis.Complex.ExponentialBounds
/-
Error analysis of the normalisation of weights.
-/
set_option linter.unusedSectionVars false
set_option linter.unusedSimpArgs false

namespace Gospn
open Spec
variable {F : Type} [GoFloat F] {val : F → XR} {u τ Ω : ℝ}

theorem nearReal_refl {y : ℝ} : NearReal 0 y y := by simp [NearReal]

theorem Spec.NearReal.mono {a b x y : ℝ} (hy : 0 ≤ y) (hab : a ≤ b) (h : NearReal a x y) : NearReal b x y :=
  ⟨le_trans (mul_le_mul_of_nonneg_left (Real.exp_le_exp.2 (by linarith)) hy) h.1, le_trans h.2 (mul_le_mul_of_nonneg_left (Real.exp_le_exp.2 hab) hy)⟩

theorem Spec.NearReal.nonneg {a x y : ℝ} (hy : 0 ≤ y) (h : NearReal a x y) : 0 ≤ x := le_trans (mul_nonneg hy (Real.exp_pos _).le) h.1

theorem Spec.NearReal.pos {a x y : ℝ} (hy : 0 < y) (h : NearReal a x y) : 0 < x := lt_of_lt_of_le (mul_pos hy (Real.exp_pos _)) h.1

theorem Spec.NearReal.trans {a b x y z : ℝ} (h1 : NearReal a x y) (h2 : NearReal b y z) : NearReal (a + b) x z := by
  constructor
  · refine le_trans ?_ h1.1
    have := mul_le_mul_of_nonneg_right h2.1 (Real.exp_pos (-a)).le
    rwa [mul_assoc, ← Real.exp_add, show -b + -a = -(a + b) by ring] at this
  · refine le_trans h1.2 ?_
    have := mul_le_mul_of_nonneg_right h2.2 (Real.exp_pos a).le
    rwa [mul_assoc, ← Real.exp_add, show b + a = a + b by ring] at this

theorem Spec.NearReal.add {a x y x' y' : ℝ} (h1 : NearReal a x y) (h2 : NearReal a x' y') : NearReal a (x + x') (y + y') := by
  unfold NearReal at *
  rw [add_mul, add_mul]
  exact ⟨add_le_add h1.1 h2.1, add_le_add h1.2 h2.2⟩

theorem nearReal_of_rel {z y : ℝ} (hy : 0 ≤ y) (hu : 0 ≤ u) (hu2 : u ≤ 1 / 2) (h : |z - y| ≤ u * y) : NearReal (2 * u) z y := by
  have h1 := abs_le.1 h
  have e1 : Real.exp (-(2 * u)) ≤ 1 - u := by
    have hpos : 0 < 1 - u := by linarith
    rw [← Real.exp_log hpos]
    refine Real.exp_le_exp.2 ?_
    have := Real.one_sub_inv_le_log_of_pos hpos
    have h2 : (1 - u)⁻¹ ≤ 1 + 2 * u := by
      rw [inv_le_iff_one_le_mul₀ hpos]
      nlinarith
    linarith
  have e2 : 1 + u ≤ Real.exp (2 * u) := by
    have := Real.add_one_le_exp (2 * u)
    linarith
  constructor
  · have := mul_le_mul_of_nonneg_left e1 hy
    linarith [h1.1]
  · have := mul_le_mul_of_nonneg_left e2 hy
    linarith [h1.2]

theorem Spec.NearReal.div {a b x y s t : ℝ} (h1 : NearReal a x y) (h2 : NearReal b s t) (hy : 0 ≤ y) (ht : 0 < t) : NearReal (a + b) (x / s) (y / t) := by
  have hs := h2.pos ht
  have eab : Real.exp (a + b) = Real.exp a * Real.exp b := Real.exp_add a b
  have eab' : Real.exp (-(a + b)) = Real.exp (-a) * Real.exp (-b) := by rw [← Real.exp_add]; congr 1; ring
  have hbb : Real.exp (-b) * Real.exp b = 1 := by rw [← Real.exp_add]; simp
  constructor
  · rw [le_div_iff₀ hs]
    refine le_trans ?_ h1.1
    have := mul_le_mul_of_nonneg_left h2.2 (mul_nonneg (div_nonneg hy ht.le) (Real.exp_pos (-(a + b))).le)
    refine le_trans this (le_of_eq ?_)
    rw [eab']
    field_simp
    linear_combination y * hbb
  · rw [div_le_iff₀ hs]
    refine le_trans h1.2 ?_
    have := mul_le_mul_of_nonneg_left h2.1 (mul_nonneg (div_nonneg hy ht.le) (Real.exp_pos (a + b)).le)
    refine le_trans (le_of_eq ?_) this
    rw [eab]
    field_simp
    linear_combination (-y) * hbb

theorem nearReal_three {a x y : ℝ} (hy : 0 ≤ y) (ha : a ≤ 1) (h : NearReal a x y) : x ≤ 3 * y ∧ y ≤ 3 * x := by
  have he : Real.exp 1 ≤ 3 := by have := Real.exp_one_lt_d9; linarith
  have h1 : Real.exp a ≤ 3 := le_trans (Real.exp_le_exp.2 ha) he
  constructor
  · have := mul_le_mul_of_nonneg_left h1 hy
    linarith [h.2]
  · have h2 : 1 ≤ 3 * Real.exp (-a) := by
      have h3 := mul_le_mul_of_nonneg_right h1 (Real.exp_pos (-a)).le
      rw [← Real.exp_add] at h3
      simpa using h3
    have := mul_le_mul_of_nonneg_left h2 hy
    linarith [h.1]

/-- Adding up: `n` additions. -/
theorem sum_near (hF : DivFloat val u τ Ω) (hu : 0 ≤ u) (hu2 : u ≤ 1 / 2) {d : ℝ} (hd : 0 ≤ d) (w : List F) : ∀ (y : List ℝ) (acc : F) (a A : ℝ) (k : ℕ), List.Forall₂ (fun x y => ∃ r, val x = .fin r ∧ 0 ≤ y ∧ NearReal d r y) w y →
    val acc = .fin a → 0 ≤ A → NearReal (d + 2 * u * k) a A → d + 2 * u * (k + w.length : ℕ) ≤ 1 → 3 * (A + y.sum) ≤ Ω →
    ∃ s, val (w.foldl GoFloat.add acc) = .fin s ∧ NearReal (d + 2 * u * (k + w.length : ℕ)) s (A + y.sum) := by
  induction w with
  | nil =>
    intro y acc a A k hwy ha hA hn h1 h3
    cases hwy
    exact ⟨a, ha, by simpa using hn⟩
  | cons x w ih =>
    intro y acc a A k hwy ha hA hn h1 h3
    cases hwy with
    | cons hx hrest =>
    rename_i y0 y
    obtain ⟨r, hr, hy0, hxr⟩ := hx
    simp only [List.sum_cons] at h3 ⊢
    have hys : 0 ≤ y.sum := by
      refine List.sum_nonneg fun z hz => ?_
      obtain ⟨i, hi, rfl⟩ := List.getElem_of_mem hz
      have := hrest.get (i := i) (by rw [hrest.length_eq]; exact hi) hi
      obtain ⟨_, _, h, _⟩ := this
      exact h
    have hk0 : (0 : ℝ) ≤ 2 * u * k := by positivity
    have hk1 : 2 * u * (k : ℝ) ≤ 2 * u * (k + (x :: w).length : ℕ) := mul_le_mul_of_nonneg_left (by push_cast; linarith [Nat.cast_nonneg (α := ℝ) (x :: w).length]) (by positivity)
    have hsum := hn.add (hxr.mono hy0 (show d ≤ d + 2 * u * k by linarith))
    have hb := nearReal_three (by linarith) (by linarith) hsum
    obtain ⟨z, hz, hzz⟩ := hF.add acc x a r ha hr (hn.nonneg hA) (hxr.nonneg hy0) (by linarith)
    have h4 := (nearReal_of_rel (hsum.nonneg (by linarith)) hu hu2 hzz).trans hsum
    have e : 2 * u + (d + 2 * u * k) = d + 2 * u * ((k + 1 : ℕ) : ℝ) := by push_cast; ring
    rw [e] at h4
    have el : k + 1 + w.length = k + (x :: w).length := by simp only [List.length_cons]; omega
    obtain ⟨s, hs, hss⟩ := ih y (GoFloat.add acc x) z (A + y0) (k + 1) hrest hz (by linarith) h4 (by rw [el]; exact h1) (by linarith)
    rw [el] at hss
    refine ⟨s, by simpa using hs, by rw [← add_assoc]; exact hss⟩

/-- The shares of the total. -/
theorem divSum_near (hF : DivFloat val u τ Ω) (hu : 0 ≤ u) (hu2 : u ≤ 1 / 2) {d : ℝ} (hd : 0 ≤ d) {w : List F} {y : List ℝ} (hwy : List.Forall₂ (fun x y => ∃ r, val x = .fin r ∧ 0 ≤ y ∧ NearReal d r y) w y)
    (hs : 0 < y.sum) (hsmall : 2 * d + 2 * u * (w.length + 1 : ℕ) ≤ 1) (hΩ : 3 * y.sum ≤ Ω) (hΩ3 : 3 ≤ Ω) (hτ : ∀ x ∈ y, x = 0 ∨ 3 * τ ≤ x / y.sum) :
    List.Forall₂ (fun z y0 => ∃ r, val z = .fin r ∧ NearReal (2 * d + 2 * u * (w.length + 1 : ℕ)) r (y0 / y.sum)) (divSum w) y := by
  have hl0 : (0 : ℝ) ≤ 2 * u * w.length := by positivity
  have hsm : d + 2 * u * w.length + d + 2 * u ≤ 1 := by push_cast at hsmall; linarith
  obtain ⟨s, hsv, hss⟩ := sum_near hF hu hu2 hd w y (GoFloat.ofInt 0) 0 0 0 hwy hF.zero le_rfl (by simp [NearReal]) (by simp; linarith) (by simpa using hΩ)
  rw [zero_add, zero_add] at hss
  have hspos := hss.pos hs
  unfold divSum
  rw [List.forall₂_map_left_iff]
  have key : ∀ w' y', List.Forall₂ (fun x y => ∃ r, val x = .fin r ∧ 0 ≤ y ∧ NearReal d r y) w' y' → (∀ x ∈ y', x ∈ y) →
      List.Forall₂ (fun x y0 => ∃ r, val (GoFloat.div x (w.foldl GoFloat.add (GoFloat.ofInt 0))) = .fin r ∧ NearReal (2 * d + 2 * u * (w.length + 1 : ℕ)) r (y0 / y.sum)) w' y' := by
    intro w' y' h hmem
    induction h with
    | nil => exact .nil
    | cons h htl ih =>
      rename_i x y0 w' y'
      refine .cons ?_ (ih fun z hz => hmem z (by simp [hz]))
      obtain ⟨r, hr, hy0, hxr⟩ := h
      have hq := hxr.div hss hy0 hs
      have hq0 : 0 ≤ y0 / y.sum := div_nonneg hy0 hs.le
      have hq1 : y0 / y.sum ≤ 1 := by
        rw [div_le_one hs]
        have hall : ∀ z ∈ y, 0 ≤ z := by
          intro z hz
          obtain ⟨i, hi, rfl⟩ := List.getElem_of_mem hz
          obtain ⟨_, _, h, _⟩ := hwy.get (i := i) (by rw [hwy.length_eq]; exact hi) hi
          exact h
        exact List.single_le_sum hall y0 (hmem y0 (by simp))
      have h3 := nearReal_three hq0 (by linarith) hq
      obtain ⟨z, hz, hzz⟩ := hF.div x _ r s hr hsv (hxr.nonneg hy0) hspos (by
        rcases hτ y0 (hmem y0 (by simp)) with h | h
        · left
          have h1 := hxr.1
          have h2 := hxr.2
          rw [h, zero_mul] at h1 h2
          linarith
        · right
          linarith [h3.2]) (by linarith [h3.1])
      refine ⟨z, hz, ?_⟩
      have := (nearReal_of_rel (hq.nonneg hq0) hu hu2 hzz).trans hq
      have e : 2 * u + (d + (d + 2 * u * w.length)) = 2 * d + 2 * u * ((w.length + 1 : ℕ) : ℝ) := by push_cast; ring
      rwa [e] at this
  exact key w y hwy fun _ h => h

/-- The running minimum is exact. -/
theorem minZero_near (hF : DivFloat val u τ Ω) {w : List F} {r : List ℝ} (h : w.map val = r.map XR.fin) : val (minZero w) = .fin (minOrZero r) := by
  have key : ∀ (w : List F) (r : List ℝ) (m : F) (q : ℝ), w.map val = r.map XR.fin → val m = .fin q →
      val (w.foldl (fun m u => if GoFloat.lt u m then u else m) m) = .fin (r.foldl min q) := by
    intro w
    induction w with
    | nil =>
      intro r m q hw hm
      cases r with
      | nil => exact hm
      | cons a r => simp at hw
    | cons x w ih =>
      intro r m q hw hm
      cases r with
      | nil => simp at hw
      | cons a r =>
        simp only [List.map_cons, List.cons.injEq] at hw
        simp only [List.foldl_cons]
        refine ih r _ _ hw.2 ?_
        rw [hF.lt, hw.1, hm]
        by_cases h : a < q
        · simp [XR.lt, h, hw.1, min_eq_right h.le]
        · simp [XR.lt, h, hm, min_eq_left (not_lt.1 h)]
  exact key w r _ 0 h hF.zero

end Gospn
