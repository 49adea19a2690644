import Verif.Spec.Rounding
import Verif.Proofs.Log
import Verif.Proofs.Marginal
import Mathlib.Analysis.SpecialFunctions.Log.Deriv
import Mathlib.Analysis.Complex.ExponentialBounds
/-
Error analysis of log-space evaluation.
-/
set_option linter.unusedSectionVars false
set_option linter.unusedSimpArgs false

namespace Gospn
open Spec
variable {ι F : Type} [GoFloat F] {val : F → XR} {B ε : ℝ}

/-- The standard model gives a bounded error on a bounded range. -/
theorem Spec.StdFloat.roundsOn {u η Ω : ℝ} (h : StdFloat val u η Ω) (hu : 0 ≤ u) (hB : 2 * B ≤ Ω) (h3 : 3 ≤ Ω) (hB0 : 0 ≤ B) (h1 : u * (2 * B) + η ≤ ε) (h2 : u * 3 + η ≤ ε) :
    RoundsOn val B ε := by
  refine { zero := h.zero, ninf := h.ninf, lt := h.lt, isInf := h.isInf, add := ?_, add_left := h.add_left, add_right := h.add_right, sub := ?_,
           sub_left := h.sub_left, exp := ?_, exp_ninf := h.exp_ninf, log := ?_, log_zero := h.log_zero }
  · intro a b x y ha hb hx hy
    have hxy : |x + y| ≤ 2 * B := by
      have := abs_add_le x y
      linarith
    obtain ⟨z, hz, he⟩ := h.add a b x y ha hb (by linarith)
    have := mul_le_mul_of_nonneg_left hxy hu
    exact ⟨z, hz, by linarith⟩
  · intro a b x y ha hb hx hy
    have hxy : |x - y| ≤ 2 * B := by
      have := abs_sub x y
      linarith
    obtain ⟨z, hz, he⟩ := h.sub a b x y ha hb (by linarith)
    have := mul_le_mul_of_nonneg_left hxy hu
    exact ⟨z, hz, by linarith⟩
  · intro a x ha hx
    have hx3 : Real.exp x ≤ 3 := le_trans (Real.exp_le_exp.2 hx) (le_of_lt (by have := Real.exp_one_lt_d9; linarith))
    obtain ⟨z, hz, he⟩ := h.exp a x ha (by linarith)
    have := mul_le_mul_of_nonneg_left hx3 hu
    exact ⟨z, hz, by linarith⟩
  · intro a x ha hx hl
    obtain ⟨z, hz, he⟩ := h.log a x ha hx (by linarith)
    have hl2 : |Real.log x| ≤ 2 * B := by linarith
    have := mul_le_mul_of_nonneg_left hl2 hu
    exact ⟨z, hz, by linarith⟩

theorem Spec.Within.mono {e e' : ℝ} {x y : XR} (h : Within e x y) (he : e ≤ e') : Within e' x y := by
  cases x <;> cases y <;> simp only [Within] at h ⊢
  linarith

theorem Spec.Within.cases {e : ℝ} {x y : XR} (h : Within e x y) : (x = .ninf ∧ y = .ninf) ∨ ∃ a b, x = .fin a ∧ y = .fin b ∧ |a - b| ≤ e := by
  cases x <;> cases y <;> simp only [Within] at h
  · exact Or.inl ⟨rfl, rfl⟩
  · exact Or.inr ⟨_, _, rfl, rfl, h⟩

theorem Spec.Within.isLogProb {e : ℝ} {x y : XR} (h : Within e x y) : IsLogProb x ∧ IsLogProb y := by
  rcases h.cases with ⟨rfl, rfl⟩ | ⟨a, b, rfl, rfl, _⟩
  · exact ⟨trivial, trivial⟩
  · exact ⟨trivial, trivial⟩

theorem absVal_nonneg (x : XR) : 0 ≤ absVal x := by
  cases x <;> simp [absVal]

theorem Spec.RoundsOn.eps_nonneg (hR : RoundsOn val B ε) : 0 ≤ ε := by
  obtain ⟨z, _, hz⟩ := hR.exp (GoFloat.ofInt 0) 0 hR.zero (by norm_num)
  exact le_trans (abs_nonneg _) hz

/-- One weighted value. -/
theorem weighted_one (hR : RoundsOn val B ε) {v w : F} {y q : XR} {e L δ : ℝ} (hv : Within e (val v) y) (hw : Stores val L δ w q)
    (hl : L + δ + ε ≤ B) (hB : absVal y + e ≤ B) : Within (e + δ + 2 * ε) (val (GoFloat.add v (GoFloat.log w))) (XR.add y (XR.log q)) := by
  have hε := hR.eps_nonneg
  obtain ⟨r, s, hw, rfl, hr, hs, hrs, hsl⟩ := hw
  by_cases hx0 : s = 0
  · have hr0 : r = 0 := hrs.2 hx0
    subst hx0 hr0
    rw [hR.add_right v (GoFloat.log w) hv.isLogProb.1 (hR.log_zero w hw), XR.log_zero]
    rcases hv.cases with ⟨_, rfl⟩ | ⟨a, b, _, rfl, _⟩ <;> trivial
  · have hsp : 0 < s := lt_of_le_of_ne hs (Ne.symm hx0)
    have hrp : 0 < r := lt_of_le_of_ne hr fun h => hx0 (hrs.1 h.symm)
    obtain ⟨hl1, hl2⟩ := hsl hx0
    have hlr := abs_sub_abs_le_abs_sub (Real.log r) (Real.log s)
    obtain ⟨z, hz, hze⟩ := hR.log w r hw hrp (by linarith)
    rw [XR.log_pos hsp]
    rcases hv.cases with ⟨hv', rfl⟩ | ⟨a, b, hv', rfl, hab⟩
    · rw [hR.add_left v (GoFloat.log w) hv' (by rw [hz]; trivial)]
      trivial
    · simp only [absVal] at hB
      have ha : |a| ≤ B := by
        have := abs_sub_abs_le_abs_sub a b
        linarith
      have hzB : |z| ≤ B := by
        have := abs_sub_abs_le_abs_sub z (Real.log r)
        linarith
      obtain ⟨t, ht, hte⟩ := hR.add v (GoFloat.log w) a z hv' hz ha hzB
      rw [ht]
      show |t - (b + Real.log s)| ≤ e + δ + 2 * ε
      have : t - (b + Real.log s) = (t - (a + z)) + (a - b) + (z - Real.log r) + (Real.log r - Real.log s) := by ring
      rw [this]
      have h0 := abs_add_le ((t - (a + z)) + (a - b) + (z - Real.log r)) (Real.log r - Real.log s)
      have h1 := abs_add_le ((t - (a + z)) + (a - b)) (z - Real.log r)
      have h2 := abs_add_le (t - (a + z)) (a - b)
      linarith

theorem weighted_close (hR : RoundsOn val B ε) {e L δ : ℝ} : ∀ (vs : List F) (ys : List XR) (w : List F) (q : List XR), List.Forall₂ (fun v y => Within e (val v) y) vs ys →
    vs.length ≤ w.length → List.Forall₂ (Stores val L δ) w q → L + δ + ε ≤ B → (∀ y ∈ ys, absVal y + e ≤ B) →
    ∃ us zs, weighted vs w = some us ∧ weighted ys q = some zs ∧ List.Forall₂ (fun v y => Within (e + δ + 2 * ε) (val v) y) us zs := by
  intro vs
  induction vs with
  | nil =>
    intro ys w q h _ _ _ _
    cases h
    exact ⟨[], [], rfl, rfl, .nil⟩
  | cons v vs ih =>
    intro ys w q h hlen hw hL hy
    cases h with
    | @cons _ y _ ys hv h =>
      cases hw with
      | nil => simp at hlen
      | @cons w0 q0 w q hw0 hw =>
        obtain ⟨us, zs, h1, h2, h3⟩ := ih ys w q h (by simpa using hlen) hw hL (fun x hx => hy x (by simp [hx]))
        exact ⟨GoFloat.add v (GoFloat.log w0) :: us, XR.add y (XR.log q0) :: zs, by simp [weighted, h1], by simp [weighted, h2], .cons (weighted_one hR hv hw0 hL (hy y (by simp))) h3⟩

/-- The product: the sum of logarithms. -/
theorem prod_close (hR : RoundsOn val B ε) : ∀ (vs : List F) (ys : List XR) (es : List ℝ) (a : F) (b : XR) (e M : ℝ),
    Within e (val a) b → absVal b ≤ M → vs.length = ys.length → vs.length = es.length →
    (∀ (i : ℕ) v y e, vs[i]? = some v → ys[i]? = some y → es[i]? = some e → Within e (val v) y ∧ 0 ≤ e) →
    M + e + (ys.map absVal).sum + es.sum + vs.length * ε ≤ B → 0 ≤ e → 0 ≤ M →
    Within (e + es.sum + vs.length * ε) (val (vs.foldl GoFloat.add a)) (ys.foldl XR.add b) := by
  have hε := hR.eps_nonneg
  intro vs
  induction vs with
  | nil =>
    intro ys es a b e M hab _ hl1 hl2 _ _ _ _
    obtain rfl : ys = [] := List.length_eq_zero_iff.1 hl1.symm
    obtain rfl : es = [] := List.length_eq_zero_iff.1 hl2.symm
    simpa using hab
  | cons v vs ih =>
    intro ys es a b e M hab hbM hl1 hl2 h hB he hM
    cases ys with
    | nil => simp at hl1
    | cons y ys =>
      cases es with
      | nil => simp at hl2
      | cons e1 es =>
        obtain ⟨hvy, he1⟩ := h 0 v y e1 rfl rfl rfl
        have hes : 0 ≤ es.sum := by
          refine List.sum_nonneg fun x hx => ?_
          obtain ⟨i, hi, rfl⟩ := List.getElem_of_mem hx
          have hi1 : i < vs.length := by
            simp only [List.length_cons, Nat.add_right_cancel_iff] at hl2
            omega
          have hi2 : i < ys.length := by
            simp only [List.length_cons, Nat.add_right_cancel_iff] at hl1
            omega
          exact (h (i + 1) vs[i] ys[i] es[i] (by simp [hi1]) (by simp [hi2]) (by simp [hi])).2
        have hys : 0 ≤ (ys.map absVal).sum := List.sum_nonneg fun x hx => by
          obtain ⟨z, _, rfl⟩ := List.mem_map.1 hx
          exact absVal_nonneg z
        simp only [List.map_cons, List.sum_cons, List.length_cons, Nat.cast_add, Nat.cast_one] at hB
        have hn : 0 ≤ (vs.length : ℝ) * ε := mul_nonneg (Nat.cast_nonneg _) hε
        have hy0 := absVal_nonneg y
        have hstep : Within (e + e1 + ε) (val (GoFloat.add a v)) (XR.add b y) := by
          rcases hab.cases with ⟨ha', rfl⟩ | ⟨p, q, ha', rfl, hpq⟩
          · rw [hR.add_left a v ha' hvy.isLogProb.1]
            rcases hvy.cases with ⟨_, rfl⟩ | ⟨_, _, _, rfl, _⟩ <;> trivial
          · rcases hvy.cases with ⟨hv', rfl⟩ | ⟨p', q', hv', rfl, hpq'⟩
            · rw [hR.add_right a v hab.isLogProb.1 hv']
              trivial
            · simp only [absVal] at hbM hB
              have h1 := abs_sub_abs_le_abs_sub p q
              have h2 := abs_sub_abs_le_abs_sub p' q'
              have h3 := abs_nonneg q'
              have h4 : 0 ≤ |p - q| := abs_nonneg _
              obtain ⟨s, hs, hse⟩ := hR.add a v p p' ha' hv' (by nlinarith) (by nlinarith)
              rw [hs]
              show |s - (q + q')| ≤ e + e1 + ε
              have : s - (q + q') = (s - (p + p')) + (p - q) + (p' - q') := by ring
              rw [this]
              have h5 := abs_add_le ((s - (p + p')) + (p - q)) (p' - q')
              have h6 := abs_add_le (s - (p + p')) (p - q)
              linarith
        have habs : absVal (XR.add b y) ≤ M + absVal y := by
          rcases IsLogProb.cases hab.isLogProb.2 with rfl | ⟨q, rfl⟩
          · rcases IsLogProb.cases hvy.isLogProb.2 with rfl | ⟨q', rfl⟩ <;> simp [XR.add, absVal] <;> positivity
          · rcases IsLogProb.cases hvy.isLogProb.2 with rfl | ⟨q', rfl⟩
            · simp [XR.add, absVal]; exact hM
            · simp only [XR.add_fin, absVal] at hbM ⊢
              have := abs_add_le q q'
              linarith
        have := ih ys es (GoFloat.add a v) (XR.add b y) (e + e1 + ε) (M + absVal y) hstep habs (by simpa using hl1) (by simpa using hl2)
          (fun i v y e h1 h2 h3 => h (i + 1) v y e (by simpa using h1) (by simpa using h2) (by simpa using h3)) (by nlinarith) (by positivity) (by positivity)
        simp only [List.foldl_cons]
        refine this.mono (le_of_eq ?_)
        simp only [List.sum_cons, List.length_cons, Nat.cast_add, Nat.cast_one]
        ring

theorem exp_sub_le {z c : ℝ} (hε : 0 ≤ ε) (h1 : ε ≤ 1) (hc : c ≤ 0) (h : |z - c| ≤ ε) : |Real.exp z - Real.exp c| ≤ 2 * ε := by
  have hz : Real.exp z = Real.exp c * Real.exp (z - c) := by rw [← Real.exp_add]; congr 1; ring
  have hd : |z - c| ≤ 1 := le_trans h h1
  have hb := Real.abs_exp_sub_one_le hd
  rw [hz, show Real.exp c * Real.exp (z - c) - Real.exp c = Real.exp c * (Real.exp (z - c) - 1) by ring, abs_mul, abs_of_pos (Real.exp_pos c)]
  have hc1 : Real.exp c ≤ 1 := Real.exp_le_one_iff.2 hc
  calc Real.exp c * |Real.exp (z - c) - 1| ≤ 1 * |Real.exp (z - c) - 1| := mul_le_mul_of_nonneg_right hc1 (abs_nonneg _)
    _ ≤ 2 * |z - c| := by rw [one_mul]; exact hb
    _ ≤ 2 * ε := by linarith

theorem log_sub_le {s t d : ℝ} (ht : 1 ≤ t) (hd : d ≤ 1 / 2) (h : |s - t| ≤ d) : |Real.log s - Real.log t| ≤ 2 * d := by
  have hab := abs_le.1 h
  have hs : 1 / 2 ≤ s := by linarith
  have hs0 : 0 < s := by linarith
  have ht0 : 0 < t := by linarith
  have hd0 : 0 ≤ d := le_trans (abs_nonneg _) h
  rw [abs_le]
  constructor
  · have h1 := Real.log_le_sub_one_of_pos (div_pos ht0 hs0)
    rw [Real.log_div ht0.ne' hs0.ne'] at h1
    have h2 : t / s - 1 ≤ 2 * d := by
      rw [div_sub_one hs0.ne', div_le_iff₀ hs0]
      nlinarith
    linarith
  · have h1 := Real.log_le_sub_one_of_pos (div_pos hs0 ht0)
    rw [Real.log_div hs0.ne' ht0.ne'] at h1
    have h2 : s / t - 1 ≤ d := by
      rw [div_sub_one ht0.ne', div_le_iff₀ ht0]
      nlinarith
    linarith

theorem val_foldl_max (hR : RoundsOn val B ε) (l : List F) : ∀ a : F,
    val (l.foldl (fun m v => if GoFloat.lt m v then v else m) a) = (l.map val).foldl (fun m v => if XR.lt m v then v else m) (val a) := by
  induction l with
  | nil => intro a; rfl
  | cons b l ih =>
    intro a
    simp only [List.foldl_cons, List.map_cons, ih]
    rw [hR.lt a b]
    split <;> rfl

/-- One term of the sum of `LogSumExp`. -/
theorem lse_term (hR : RoundsOn val B ε) (h1 : ε ≤ 1) {v m : F} {r : ℝ} (hm : val m = .fin r) (hv : IsLogProb (val v)) (hle : unlog (val v) ≤ Real.exp r)
    (hB : absVal (val v) ≤ B) (hr : |r| ≤ B) :
    ∃ t, val (GoFloat.exp (GoFloat.sub v m)) = .fin t ∧ |t - unlog (val v) / Real.exp r| ≤ 3 * ε := by
  have hε := hR.eps_nonneg
  rcases IsLogProb.cases hv with hv' | ⟨a, hv'⟩
  · refine ⟨0, hR.exp_ninf _ (hR.sub_left v m r hv' hm), ?_⟩
    rw [hv']
    simp
    exact hε
  · rw [hv'] at hle hB ⊢
    simp only [unlog_fin, absVal] at hle hB ⊢
    obtain ⟨z, hz, hze⟩ := hR.sub v m a r hv' hm hB hr
    have har : a - r ≤ 0 := by
      have := Real.exp_le_exp.1 hle
      linarith
    obtain ⟨t, ht, hte⟩ := hR.exp _ z hz (by have := (abs_le.1 hze).2; linarith)
    refine ⟨t, ht, ?_⟩
    have h2 := exp_sub_le hε h1 har hze
    rw [← Real.exp_sub]
    have := abs_sub_le t (Real.exp z) (Real.exp (a - r))
    linarith

/-- The sum of `LogSumExp`. -/
theorem lse_sum (hR : RoundsOn val B ε) {m : F} {r : ℝ} (hm : val m = .fin r) (hr : |r| ≤ B) : ∀ (l : List F) (s : F) (x y : ℝ) (j : ℕ),
    val s = .fin x → |x - y| ≤ j * (4 * ε) → 0 ≤ y → y ≤ j → (∀ v ∈ l, IsLogProb (val v) ∧ absVal (val v) ≤ B ∧ unlog (val v) ≤ Real.exp r) →
    8 * ((j + l.length : ℕ) : ℝ) * ε ≤ 1 → ε ≤ 1 / 8 → ((j + l.length : ℕ) : ℝ) + 2 ≤ B →
    ∃ z, val (l.foldl (fun s v => GoFloat.add s (GoFloat.exp (GoFloat.sub v m))) s) = .fin z ∧
      |z - (y + (l.map fun v => unlog (val v) / Real.exp r).sum)| ≤ ((j + l.length : ℕ) : ℝ) * (4 * ε) := by
  have hε := hR.eps_nonneg
  intro l
  induction l with
  | nil => intro s x y j hs hx _ _ _ _ _ _; exact ⟨x, hs, by simpa using hx⟩
  | cons v l ih =>
    intro s x y j hs hx hy0 hyj hl h8 h1 hB
    obtain ⟨hv1, hv2, hv3⟩ := hl v (by simp)
    obtain ⟨t, ht, hte⟩ := lse_term hR (by linarith) hm hv1 hv3 hv2 hr
    have hT0 : 0 ≤ unlog (val v) / Real.exp r := div_nonneg (unlog_nonneg _) (Real.exp_pos r).le
    have hT1 : unlog (val v) / Real.exp r ≤ 1 := (div_le_one (Real.exp_pos r)).2 hv3
    have hcast : ((j + (v :: l).length : ℕ) : ℝ) = ((j + 1 + l.length : ℕ) : ℝ) := by
      congr 1
      simp only [List.length_cons]
      omega
    rw [hcast] at h8 hB ⊢
    have hjn : (j : ℝ) + 1 ≤ ((j + 1 + l.length : ℕ) : ℝ) := by
      rw [← Nat.cast_add_one]
      exact Nat.cast_le.2 (by omega)
    have hj0 : (0 : ℝ) ≤ j := Nat.cast_nonneg _
    have hj8 : 8 * (j : ℝ) * ε ≤ 1 := by nlinarith
    have hxB : |x| ≤ B := by
      have h3 := abs_sub_abs_le_abs_sub x y
      rw [abs_of_nonneg hy0] at h3
      nlinarith
    have htB : |t| ≤ B := by
      have h3 := abs_sub_abs_le_abs_sub t (unlog (val v) / Real.exp r)
      rw [abs_of_nonneg hT0] at h3
      nlinarith
    obtain ⟨q, hq, hqe⟩ := hR.add s _ x t hs ht hxB htB
    obtain ⟨z, hz, hze⟩ := ih (GoFloat.add s (GoFloat.exp (GoFloat.sub v m))) q (y + unlog (val v) / Real.exp r) (j + 1) hq
      (by
        have : q - (y + unlog (val v) / Real.exp r) = (q - (x + t)) + (x - y) + (t - unlog (val v) / Real.exp r) := by ring
        rw [this]
        have h5 := abs_add_le ((q - (x + t)) + (x - y)) (t - unlog (val v) / Real.exp r)
        have h6 := abs_add_le (q - (x + t)) (x - y)
        push_cast
        linarith)
      (by linarith) (by push_cast; linarith) (fun w hw => hl w (by simp [hw])) h8 h1 hB
    refine ⟨z, hz, ?_⟩
    simpa [add_assoc] using hze

/-- `LogSumExp` in rounded arithmetic. -/
theorem lse_round (hR : RoundsOn val B ε) {us : List F} (hne : us ≠ []) (hl : ∀ u ∈ us, IsLogProb (val u) ∧ absVal (val u) ≤ B)
    (h8 : 8 * (us.length : ℝ) * ε ≤ 1) (hB : (us.length : ℝ) + 2 ≤ B) :
    ∃ r R, logSumExp us = some r ∧ logSumExp (us.map val) = some R ∧ Within ((8 * us.length + 2) * ε) (val r) R := by
  have hε := hR.eps_nonneg
  obtain ⟨a0, a, rfl⟩ := List.exists_cons_of_ne_nil hne
  have hl' : ∀ v ∈ (a0 :: a).map val, IsLogProb v := by
    intro v hv
    obtain ⟨u, hu, rfl⟩ := List.mem_map.1 hv
    exact (hl u hu).1
  obtain ⟨R, hRs, hRp, hRu⟩ := logSumExp_spec (l := (a0 :: a).map val) (by simp) hl'
  have hmax := val_foldl_max hR (a0 :: a) a0
  obtain ⟨m1, m2, m3, m4⟩ := foldl_max_spec ((a0 :: a).map val) (val a0) (hl a0 (by simp)).1 hl'
  rw [← hmax] at m1 m2 m3 m4
  simp only [logSumExp]
  generalize (a0 :: a).foldl (fun m v => if GoFloat.lt m v = true then v else m) a0 = m at m1 m2 m3 m4
  have hmem : val m ∈ (a0 :: a).map val := by
    rcases m2 with m2 | m2
    · rw [m2]; simp
    · exact m2
  rw [hR.isInf]
  rcases IsLogProb.cases m1 with hm | ⟨r, hm⟩
  · refine ⟨m, R, by simp [hm], hRs, ?_⟩
    have : R = .ninf := by
      refine (unlog_eq_zero hRp).1 ?_
      rw [hRu]
      refine sum_eq_zero_of fun v hv => le_antisymm ?_ (unlog_nonneg v)
      have := m4 v hv
      rwa [hm] at this
    rw [hm, this]
    trivial
  · have hrB : |r| ≤ B := by
      obtain ⟨u, hu, hum⟩ := List.mem_map.1 hmem
      have := (hl u hu).2
      rw [hum, hm] at this
      exact this
    have hlen1 : (1 : ℝ) ≤ ((a0 :: a).length : ℝ) := by
      simp
    have hε8 : ε ≤ 1 / 8 := by nlinarith
    obtain ⟨z, hz, hze⟩ := lse_sum hR hm hrB (a0 :: a) (GoFloat.ofInt 0) 0 0 0 hR.zero (by simp) le_rfl (by simp)
      (fun v hv => ⟨(hl v hv).1, (hl v hv).2, by
        have := m4 (val v) (List.mem_map_of_mem hv)
        rwa [hm] at this⟩) (by rw [Nat.zero_add]; exact h8) hε8 (by rw [Nat.zero_add]; exact hB)
    rw [Nat.zero_add, zero_add] at hze
    have hsum : ((a0 :: a).map fun v => unlog (val v) / Real.exp r).sum = (((a0 :: a).map val).map unlog).sum / Real.exp r := by
      rw [← sum_div_const, List.map_map]
      rfl
    rw [hsum] at hze
    generalize hS : (((a0 :: a).map val).map unlog).sum / Real.exp r = S at hze
    have hS1 : 1 ≤ S := by
      rw [← hS, le_div_iff₀ (Real.exp_pos r), one_mul]
      have := le_sum_of_mem hmem
      rwa [hm] at this
    have hSk : S ≤ ((a0 :: a).length : ℝ) := by
      rw [← hS, div_le_iff₀ (Real.exp_pos r)]
      have : ∀ l : List XR, (∀ v ∈ l, unlog v ≤ Real.exp r) → (l.map unlog).sum ≤ l.length * Real.exp r := by
        intro l
        induction l with
        | nil => intro _; simp
        | cons b l ih =>
          intro h
          have h1 := h b (by simp)
          have h2 := ih fun v hv => h v (by simp [hv])
          simp only [List.map_cons, List.sum_cons, List.length_cons, Nat.cast_add, Nat.cast_one]
          linarith
      have := this ((a0 :: a).map val) (fun v hv => by
        have := m4 v hv
        rwa [hm] at this)
      simpa using this
    have hR2 : R = .fin (r + Real.log S) := by
      refine unlog_inj hRp trivial ?_
      rw [hRu, unlog_fin, Real.exp_add, Real.exp_log (by linarith), ← hS]
      field_simp
    have hd : ((a0 :: a).length : ℝ) * (4 * ε) ≤ 1 / 2 := by linarith
    have hz12 := abs_le.1 hze
    have hzpos : 0 < z := by linarith
    have hlogd := log_sub_le hS1 hd hze
    have hlogS : |Real.log S| ≤ ((a0 :: a).length : ℝ) := by
      rw [abs_of_nonneg (Real.log_nonneg hS1)]
      have := Real.log_le_sub_one_of_pos (show 0 < S by linarith)
      linarith
    have hlogz : |Real.log z| ≤ ((a0 :: a).length : ℝ) + 1 := by
      have := abs_sub_abs_le_abs_sub (Real.log z) (Real.log S)
      linarith
    obtain ⟨g, hg, hge⟩ := hR.log _ z hz hzpos (by linarith)
    have hgB : |g| ≤ B := by
      have := abs_sub_abs_le_abs_sub g (Real.log z)
      linarith
    obtain ⟨f, hf, hfe⟩ := hR.add _ m g r hg hm hgB hrB
    refine ⟨_, R, by rw [hm]; rfl, hRs, ?_⟩
    rw [hf, hR2]
    show |f - (r + Real.log S)| ≤ _
    have : f - (r + Real.log S) = (f - (g + r)) + (g - Real.log z) + (Real.log z - Real.log S) := by ring
    rw [this]
    have h5 := abs_add_le ((f - (g + r)) + (g - Real.log z)) (Real.log z - Real.log S)
    have h6 := abs_add_le (f - (g + r)) (g - Real.log z)
    linarith

theorem close_unlog {e : ℝ} {x y : XR} (h : Within e x y) : unlog x ≤ Real.exp e * unlog y ∧ unlog y ≤ Real.exp e * unlog x := by
  rcases h.cases with ⟨rfl, rfl⟩ | ⟨a, b, rfl, rfl, hab⟩
  · simp
  · have := abs_le.1 hab
    simp only [unlog_fin, ← Real.exp_add]
    exact ⟨Real.exp_le_exp.2 (by linarith), Real.exp_le_exp.2 (by linarith)⟩

theorem close_of_unlog {e : ℝ} {x y : XR} (hx : IsLogProb x) (hy : IsLogProb y) (h1 : unlog x ≤ Real.exp e * unlog y) (h2 : unlog y ≤ Real.exp e * unlog x) :
    Within e x y := by
  rcases IsLogProb.cases hx with rfl | ⟨a, rfl⟩ <;> rcases IsLogProb.cases hy with rfl | ⟨b, rfl⟩
  · trivial
  · simp only [unlog_fin, unlog_ninf, mul_zero] at h2
    exact absurd h2 (not_le.2 (Real.exp_pos b))
  · simp only [unlog_fin, unlog_ninf, mul_zero] at h1
    exact absurd h1 (not_le.2 (Real.exp_pos a))
  · simp only [unlog_fin, ← Real.exp_add, Real.exp_le_exp] at h1 h2
    show |a - b| ≤ e
    rw [abs_le]
    constructor <;> linarith

/-- The logarithm of a sum of exponentials moves no more than its arguments. -/
theorem lse_lipschitz {e : ℝ} {xs ys : List XR} (h : List.Forall₂ (Within e) xs ys) (hne : xs ≠ []) :
    ∃ r s, logSumExp xs = some r ∧ logSumExp ys = some s ∧ Within e r s := by
  have hx : ∀ v ∈ xs, IsLogProb v := by
    clear hne
    induction h with
    | nil => simp
    | cons h _ ih =>
      intro v hv
      rcases List.mem_cons.1 hv with rfl | hv
      · exact h.isLogProb.1
      · exact ih v hv
  have hy : ∀ v ∈ ys, IsLogProb v := by
    clear hne hx
    induction h with
    | nil => simp
    | cons h _ ih =>
      intro v hv
      rcases List.mem_cons.1 hv with rfl | hv
      · exact h.isLogProb.2
      · exact ih v hv
  have hne' : ys ≠ [] := by
    intro h0
    have := h.length_eq
    rw [h0] at this
    exact hne (List.length_eq_zero_iff.1 this)
  obtain ⟨r, hr1, hr2, hr3⟩ := logSumExp_spec hne hx
  obtain ⟨s, hs1, hs2, hs3⟩ := logSumExp_spec hne' hy
  have hsum : (xs.map unlog).sum ≤ Real.exp e * (ys.map unlog).sum ∧ (ys.map unlog).sum ≤ Real.exp e * (xs.map unlog).sum := by
    clear hr1 hs1 hr3 hs3 hne hne' hx hy
    induction h with
    | nil => simp
    | cons h _ ih =>
      have := close_unlog h
      simp only [List.map_cons, List.sum_cons, mul_add]
      constructor <;> linarith [ih.1, ih.2]
  refine ⟨r, s, hr1, hs1, close_of_unlog hr2 hs2 ?_ ?_⟩
  · rw [hr3, hs3]; exact hsum.1
  · rw [hr3, hs3]; exact hsum.2

/-- A sum node: the rounded log-sum-exp of close arguments. -/
theorem lse_close (hR : RoundsOn val B ε) {e : ℝ} {us : List F} {zs : List XR} (h : List.Forall₂ (fun v y => Within e (val v) y) us zs) (hne : us ≠ [])
    (hz : ∀ z ∈ zs, absVal z + e ≤ B) (h8 : 8 * (us.length : ℝ) * ε ≤ 1) (hB : (us.length : ℝ) + 2 ≤ B) :
    ∃ r s, logSumExp us = some r ∧ logSumExp zs = some s ∧ Within (e + (8 * us.length + 2) * ε) (val r) s := by
  have h' : List.Forall₂ (Within e) (us.map val) zs := by
    rw [List.forall₂_map_left_iff]
    exact h
  have hB0 : 0 ≤ B := by
    have : (0 : ℝ) ≤ us.length := Nat.cast_nonneg _
    linarith
  have hl : ∀ u ∈ us, IsLogProb (val u) ∧ absVal (val u) ≤ B := by
    clear h' h8 hB hne
    induction h with
    | nil => simp
    | @cons u z us zs huz _ ih =>
      intro v hv
      rcases List.mem_cons.1 hv with rfl | hv
      · refine ⟨huz.isLogProb.1, ?_⟩
        have hzB := hz z (by simp)
        have hz0 := absVal_nonneg z
        rcases huz.cases with ⟨h1, rfl⟩ | ⟨a, b, h1, rfl, hab⟩
        · rw [h1]
          exact hB0
        · rw [h1]
          simp only [absVal] at hzB ⊢
          have := abs_sub_abs_le_abs_sub a b
          linarith
      · exact ih (fun z hz' => hz z (by simp [hz'])) v hv
  obtain ⟨r, R, h1, h2, h3⟩ := lse_round hR hne hl h8 hB
  obtain ⟨r', s, h4, h5, h6⟩ := lse_lipschitz h' (by simpa using hne)
  rw [h2] at h4
  cases h4
  refine ⟨r, s, h1, h5, ?_⟩
  rcases h3.cases with ⟨e1, e2⟩ | ⟨a, b, e1, e2, hab⟩
  · rw [e2] at h6
    rw [e1]
    rcases h6.cases with ⟨_, rfl⟩ | ⟨_, _, h, _, _⟩
    · trivial
    · cases h
  · rw [e2] at h6
    rw [e1]
    rcases h6.cases with ⟨h, _⟩ | ⟨b', c, h, rfl, hbc⟩
    · cases h
    · cases h
      show |a - c| ≤ _
      have := abs_sub_le a b c
      linarith

/-! ### Networks -/

theorem weighted_length : ∀ (vs w us : List F), weighted vs w = some us → us.length = vs.length := by
  intro vs
  induction vs with
  | nil =>
    intro w us h
    simp only [weighted, Option.some.injEq] at h
    subst h
    rfl
  | cons v vs ih =>
    intro w us h
    cases w with
    | nil => simp [weighted] at h
    | cons x w =>
      simp only [weighted, Option.map_eq_some_iff] at h
      obtain ⟨us', h', rfl⟩ := h
      simp [ih w us' h']

theorem weighted_absVal {L m δ : ℝ} (hL : 0 ≤ L) (hm : 0 ≤ m) : ∀ (ys : List XR) (w : List F) (q zs : List XR), weighted ys q = some zs → (∀ y ∈ ys, IsLogProb y ∧ absVal y ≤ m) →
    List.Forall₂ (Stores val L δ) w q → ∀ z ∈ zs, IsLogProb z ∧ absVal z ≤ m + L := by
  intro ys
  induction ys with
  | nil =>
    intro w q zs h _ _ z hz
    simp only [weighted, Option.some.injEq] at h
    subst h
    simp at hz
  | cons y ys ih =>
    intro w q zs h hy hw z hz
    cases hw with
    | nil => simp [weighted] at h
    | @cons x p w q hx hw =>
      simp only [weighted, Option.map_eq_some_iff] at h
      obtain ⟨zs', h', rfl⟩ := h
      rcases List.mem_cons.1 hz with rfl | hz
      · obtain ⟨_, s, _, rfl, _, hs, _, hsL⟩ := hx
        obtain ⟨hy1, hy2⟩ := hy y (by simp)
        simp only [XR.g_add, XR.g_log]
        by_cases h0 : s = 0
        · subst h0
          rw [XR.log_zero]
          rcases IsLogProb.cases hy1 with rfl | ⟨a, rfl⟩
          · exact ⟨trivial, by simp [absVal]; linarith⟩
          · exact ⟨trivial, by simp [absVal]; linarith⟩
        · rw [XR.log_pos (lt_of_le_of_ne hs (Ne.symm h0))]
          rcases IsLogProb.cases hy1 with rfl | ⟨a, rfl⟩
          · exact ⟨trivial, by simp [absVal]; linarith⟩
          · refine ⟨trivial, ?_⟩
            simp only [XR.add_fin, absVal] at hy2 ⊢
            have := abs_add_le a (Real.log s)
            have := (hsL h0).1
            linarith
      · exact ih w q zs' h' (fun y' h => hy y' (by simp [h])) hw z hz

theorem lse_absVal {zs : List XR} {m : ℝ} {K : ℕ} (hne : zs ≠ []) (hz : ∀ z ∈ zs, IsLogProb z ∧ absVal z ≤ m) (hK : zs.length ≤ K) (hm : 0 ≤ m) {s : XR}
    (h : logSumExp zs = some s) : absVal s ≤ m + Real.log K := by
  obtain ⟨r, h1, h2, h3⟩ := logSumExp_spec hne fun v hv => (hz v hv).1
  rw [h] at h1
  cases h1
  have hK1 : (1 : ℝ) ≤ K := by
    have : 0 < zs.length := List.length_pos_iff.2 hne
    exact_mod_cast (show 1 ≤ K by omega)
  have hlK := Real.log_nonneg hK1
  rcases IsLogProb.cases h2 with rfl | ⟨r, rfl⟩
  · simp only [absVal]
    linarith
  · simp only [absVal, unlog_fin] at h3 ⊢
    have hup : (zs.map unlog).sum ≤ K * Real.exp m := by
      have : ∀ l : List XR, (∀ v ∈ l, unlog v ≤ Real.exp m) → (l.map unlog).sum ≤ l.length * Real.exp m := by
        intro l
        induction l with
        | nil => intro _; simp
        | cons b l ih =>
          intro h
          have h1 := h b (by simp)
          have h2 := ih fun v hv => h v (by simp [hv])
          simp only [List.map_cons, List.sum_cons, List.length_cons, Nat.cast_add, Nat.cast_one]
          linarith
      have h5 := this zs (fun v hv => by
        obtain ⟨hv1, hv2⟩ := hz v hv
        rcases IsLogProb.cases hv1 with rfl | ⟨a, rfl⟩
        · exact (Real.exp_pos m).le
        · exact Real.exp_le_exp.2 (le_trans (le_abs_self a) hv2))
      have h6 : (zs.length : ℝ) ≤ K := by exact_mod_cast hK
      have := mul_le_mul_of_nonneg_right h6 (Real.exp_pos m).le
      linarith
    have hlow : Real.exp (-m) ≤ (zs.map unlog).sum := by
      by_cases hall : ∀ z ∈ zs, unlog z = 0
      · rw [sum_eq_zero_of hall] at h3
        exact absurd h3 (Real.exp_ne_zero r)
      · push Not at hall
        obtain ⟨z, hzm, hz0⟩ := hall
        obtain ⟨hv1, hv2⟩ := hz z hzm
        have h7 := le_sum_of_mem hzm
        rcases IsLogProb.cases hv1 with rfl | ⟨a, rfl⟩
        · exact absurd rfl hz0
        · simp only [absVal, unlog_fin] at hv2 h7
          have : Real.exp (-m) ≤ Real.exp a := Real.exp_le_exp.2 (by have := neg_abs_le a; linarith)
          linarith
    rw [abs_le]
    constructor
    · have : Real.exp (-m) ≤ Real.exp r := by rw [h3]; exact hlow
      have := Real.exp_le_exp.1 this
      linarith
    · have : Real.exp r ≤ Real.exp (m + Real.log K) := by
        rw [h3, Real.exp_add, Real.exp_log (by linarith)]
        linarith
      exact Real.exp_le_exp.1 this

theorem prod_absVal : ∀ (ys : List XR) (b : XR), IsLogProb b → (∀ y ∈ ys, IsLogProb y) → absVal (ys.foldl XR.add b) ≤ absVal b + (ys.map absVal).sum := by
  intro ys
  induction ys with
  | nil => intro b _ _; simp
  | cons y ys ih =>
    intro b hb hy
    have h1 := add_spec hb (hy y (by simp))
    have h2 := ih (XR.add b y) h1.1 fun x hx => hy x (by simp [hx])
    simp only [List.foldl_cons, List.map_cons, List.sum_cons]
    have : absVal (XR.add b y) ≤ absVal b + absVal y := by
      rcases IsLogProb.cases hb with rfl | ⟨a, rfl⟩ <;> rcases IsLogProb.cases (hy y (by simp)) with rfl | ⟨c, rfl⟩ <;> simp [absVal]
      exact abs_add_le a c
    linarith

theorem Spec.Cost.le [Fintype ι] {N : Net ι F} {S : ι} {cost : ι → ℕ} (h : Cost N S cost) {n : ι} (hn : Reach N.ch S n) : cost n ≤ cost S := by
  induction hn with
  | refl => exact le_rfl
  | @tail a c ha hc ih =>
    refine le_trans ?_ ih
    have := h a ha
    unfold Net.ch at hc
    cases hk : N.kind a with
    | leaf l => simp [hk] at hc
    | sum cs w =>
      simp only [hk] at hc this
      have := this c hc
      omega
    | product cs =>
      simp only [hk] at hc this
      have h1 : cost c + 1 ≤ (cs.map fun c => cost c + 1).sum := List.le_sum_of_mem (List.mem_map.2 ⟨c, hc, rfl⟩)
      omega

/-- A product node. -/
theorem prod_node (hR : RoundsOn val B ε) {cs : List ι} {g : ι → F} {y : ι → XR} {cost : ι → ℕ} {A L : ℝ} {c0 : ℕ} (hA0 : 0 ≤ A) (hL : 0 ≤ L) (hεA : ε ≤ A)
    (hc0 : (cs.map fun c => cost c + 1).sum ≤ c0) (hgy : ∀ c ∈ cs, Within (A * cost c) (val (g c)) (y c)) (hya : ∀ c ∈ cs, absVal (y c) ≤ L * cost c) (hB : L * c0 + A * c0 ≤ B) :
    Within (A * c0) (val ((cs.map g).foldl GoFloat.add (GoFloat.ofInt 0))) ((cs.map y).foldl GoFloat.add (GoFloat.ofInt 0)) ∧
      absVal ((cs.map y).foldl GoFloat.add (GoFloat.ofInt 0)) ≤ L * c0 := by
  have hε := hR.eps_nonneg
  have hc0' : (cs.map fun c => (cost c : ℝ)).sum + cs.length ≤ c0 := by
    have h1 : ((cs.map fun c => cost c + 1).sum : ℝ) ≤ (c0 : ℝ) := by exact_mod_cast hc0
    have h2 : ∀ l : List ι, ((l.map fun c => cost c + 1).sum : ℝ) = (l.map fun c => (cost c : ℝ)).sum + l.length := by
      intro l
      induction l with
      | nil => simp
      | cons a l ih =>
        simp only [List.map_cons, List.sum_cons, List.length_cons]
        push_cast at ih ⊢
        rw [ih]
        ring
    rw [h2] at h1
    exact h1
  have hsumA : (cs.map fun c => A * (cost c : ℝ)).sum = A * (cs.map fun c => (cost c : ℝ)).sum := List.sum_map_mul_left ..
  have hsumL : ((cs.map y).map absVal).sum ≤ L * (cs.map fun c => (cost c : ℝ)).sum := by
    rw [← List.sum_map_mul_left, List.map_map]
    exact List.sum_le_sum fun c hc => hya c hc
  have hlen0 : (0 : ℝ) ≤ cs.length := Nat.cast_nonneg _
  have hsum0 : 0 ≤ (cs.map fun c => (cost c : ℝ)).sum := List.sum_nonneg fun x hx => by
    obtain ⟨c, _, rfl⟩ := List.mem_map.1 hx
    positivity
  have hb1 : L * (cs.map fun c => (cost c : ℝ)).sum ≤ L * c0 := mul_le_mul_of_nonneg_left (by linarith) hL
  have hb2 : A * ((cs.map fun c => (cost c : ℝ)).sum + cs.length) ≤ A * c0 := mul_le_mul_of_nonneg_left hc0' hA0
  have hb3 : (cs.length : ℝ) * ε ≤ A * cs.length := by nlinarith
  refine ⟨?_, ?_⟩
  · have := prod_close hR (cs.map g) (cs.map y) (cs.map fun c => A * (cost c : ℝ)) (GoFloat.ofInt 0) (.fin 0) 0 0 (by rw [hR.zero]; simp [Within]) (by simp [absVal])
      (by simp) (by simp)
      (fun i v z e h1 h2 h3 => by
        simp only [List.getElem?_map, Option.map_eq_some_iff] at h1 h2 h3
        obtain ⟨c, hc, rfl⟩ := h1
        obtain ⟨c', hc', rfl⟩ := h2
        obtain ⟨c'', hc'', rfl⟩ := h3
        rw [hc] at hc' hc''
        cases hc'
        cases hc''
        exact ⟨hgy c (List.mem_of_getElem? hc), by positivity⟩)
      (by
        rw [hsumA, List.length_map]
        nlinarith) le_rfl le_rfl
    rw [hsumA, List.length_map] at this
    have h0 : (GoFloat.ofInt 0 : XR) = .fin 0 := by simp
    rw [mul_add] at hb2
    rw [h0]
    refine Within.mono this ?_
    linarith
  · have := prod_absVal (cs.map y) (.fin 0) trivial (fun z hz => by
      obtain ⟨c, hc, rfl⟩ := List.mem_map.1 hz
      exact (hgy c hc).isLogProb.2)
    simp only [XR.g_ofInt, Int.cast_zero]
    simp only [absVal, abs_zero, zero_add] at this
    exact le_trans this (le_trans hsumL hb1)

/-- The computed value of every node is close to the exact one. -/
theorem value_close [Fintype ι] {N : Net ι F} {M : Net ι XR} {S : ι} {I : VarSet} {K : ℕ} {L : ℝ} {cost : ι → ℕ} (hac : Acyclic N.ch)
    (hR : RoundsOn val (L * (cost S + 1) + K + 4) ε) (hL : 0 ≤ L) (hLK : Real.log K ≤ L) (hK : 1 ≤ K) (hs : StoresNet val N S K L ε (ValueWithin val I L (2 * ε)) M) (hcost : Cost N S cost)
    (hsmall : (8 * K + 5) * ε * cost S ≤ 1) (hcS : 1 ≤ cost S) :
    ∀ n, Reach N.ch S n → ∃ v y, N.value I n = some v ∧ M.value I n = some y ∧ Within ((8 * K + 5) * ε * cost n) (val v) y ∧ absVal y ≤ L * cost n := by
  have hε := hR.eps_nonneg
  have hac' : Acyclic M.ch := by rw [funext hs.1]; exact hac
  have hK1 : (1 : ℝ) ≤ K := by exact_mod_cast hK
  have hlK := Real.log_nonneg hK1
  have hcS1 : (1 : ℝ) ≤ cost S := by exact_mod_cast hcS
  set A := (8 * (K : ℝ) + 5) * ε with hA
  have hA0 : 0 ≤ A := by positivity
  have hA1 : A ≤ 1 := by nlinarith
  have h12 : 13 * ε ≤ A := by rw [hA]; nlinarith
  have h8K : 8 * (K : ℝ) * ε ≤ 1 := by nlinarith
  obtain ⟨rank, hr⟩ := id hac
  intro n
  induction hn : rank n using Nat.strong_induction_on generalizing n with
  | _ k ih =>
    intro hreach
    have ihc : ∀ c ∈ N.ch n, ∃ v y, N.value I c = some v ∧ M.value I c = some y ∧ Within (A * cost c) (val v) y ∧ absVal y ≤ L * cost c := fun c hc =>
      ih (rank c) (by rw [← hn]; exact hr n c hc) c rfl (Relation.ReflTransGen.tail hreach hc)
    have : Nonempty F := ⟨GoFloat.ofInt 0⟩
    have : Nonempty XR := ⟨.ninf⟩
    choose! g y hg hy hgy hya using ihc
    have hcn : (cost n : ℝ) ≤ cost S := by exact_mod_cast hcost.le hreach
    have hAn : A * cost n ≤ 1 := le_trans (mul_le_mul_of_nonneg_left hcn hA0) hsmall
    have hLn : L * cost n ≤ L * cost S := mul_le_mul_of_nonneg_left hcn hL
    have hLS : 0 ≤ L * cost S := by positivity
    have hc0 := hcost n hreach
    rw [Net.value_unfold hac, Net.value_unfold hac']
    unfold Net.valueStep
    have hn2 := hs.2 n hreach
    cases hk : N.kind n with
    | leaf l =>
      cases hm : M.kind n with
      | sum ds q => rw [hk, hm] at hn2; exact absurd hn2 id
      | product ds => rw [hk, hm] at hn2; exact absurd hn2 id
      | leaf m =>
      simp only [hk] at hc0 ⊢
      have hc1 : (1 : ℝ) ≤ cost n := by exact_mod_cast hc0
      rw [hk, hm] at hn2
      obtain ⟨v, z, h1, h2, h3, h4⟩ := hn2
      exact ⟨v, z, h1, h2, h3.mono (by nlinarith), by nlinarith⟩
    | sum cs w =>
      cases hm : M.kind n with
      | leaf ds => rw [hk, hm] at hn2; exact absurd hn2 id
      | product ds => rw [hk, hm] at hn2; exact absurd hn2 id
      | sum ds q =>
      have hch : N.ch n = cs := by simp [Net.ch, hk]
      rw [hch] at hg hy hgy hya
      simp only [hk] at hc0 ⊢
      rw [hk, hm] at hn2
      obtain ⟨rfl, hne, hlenK, hlenw, hw⟩ := hn2
      rw [mapM_eq_some hg, mapM_eq_some hy]
      simp only [Option.bind_some]
      have hcn1 : (1 : ℝ) ≤ cost n := by
        obtain ⟨c, cs', rfl⟩ := List.exists_cons_of_ne_nil hne
        exact_mod_cast le_trans (Nat.le_add_left 1 _) (hc0 c (by simp))
      have hcc : ∀ c ∈ cs, (cost c : ℝ) ≤ cost n - 1 := by
        intro c hc
        have : ((cost c + 1 : ℕ) : ℝ) ≤ cost n := by exact_mod_cast hc0 c hc
        push_cast at this
        linarith
      have hLc : L * (cost n - 1) = L * cost n - L := by ring
      have hAc : A * (cost n - 1) = A * cost n - A := by ring
      have hf : List.Forall₂ (fun v z => Within (A * (cost n - 1)) (val v) z) (cs.map g) (cs.map y) := by
        rw [List.forall₂_map_left_iff, List.forall₂_map_right_iff, List.forall₂_same]
        exact fun c hc => (hgy c hc).mono (mul_le_mul_of_nonneg_left (hcc c hc) hA0)
      have hyB : ∀ z ∈ cs.map y, IsLogProb z ∧ absVal z ≤ L * (cost n - 1) := by
        intro z hz
        obtain ⟨c, hc, rfl⟩ := List.mem_map.1 hz
        exact ⟨(hgy c hc).isLogProb.2, le_trans (hya c hc) (mul_le_mul_of_nonneg_left (hcc c hc) hL)⟩
      obtain ⟨us, zs, hus, hzs, huz⟩ := weighted_close hR (cs.map g) (cs.map y) w q hf (by simpa using hlenw) hw (by nlinarith)
        (fun z hz => by
          have := (hyB z hz).2
          linarith)
      have hzB := weighted_absVal (L := L - Real.log K) (m := L * (cost n - 1)) (by linarith) (mul_nonneg hL (by linarith)) (cs.map y) w q zs hzs hyB hw
      have hlen : us.length = cs.length := by
        have := weighted_length _ _ _ hus
        simpa using this
      have hlenz : zs.length = cs.length := by rw [← huz.length_eq, hlen]
      have hlenR : (us.length : ℝ) ≤ K := by rw [hlen]; exact_mod_cast hlenK
      have hne' : us ≠ [] := by
        intro h0
        rw [h0] at hlen
        exact hne (List.length_eq_zero_iff.1 hlen.symm)
      have hnez : zs ≠ [] := by
        intro h0
        rw [h0] at hlenz
        exact hne (List.length_eq_zero_iff.1 hlenz.symm)
      obtain ⟨r, s, h1, h2, h3⟩ := lse_close hR huz hne'
        (fun z hz => by
          have := (hzB z hz).2
          nlinarith)
        (by nlinarith) (by nlinarith)
      refine ⟨r, s, by rw [hus]; exact h1, by rw [hzs]; exact h2, h3.mono ?_, ?_⟩
      · have : (8 * (us.length : ℝ) + 2) * ε ≤ (8 * K + 2) * ε := mul_le_mul_of_nonneg_right (by linarith) hε
        nlinarith
      · have := lse_absVal (K := K) hnez hzB (by rw [hlenz]; exact hlenK) (by nlinarith) h2
        nlinarith
    | product cs =>
      cases hm : M.kind n with
      | leaf ds => rw [hk, hm] at hn2; exact absurd hn2 id
      | sum ds q => rw [hk, hm] at hn2; exact absurd hn2 id
      | product ds =>
      rw [hk, hm] at hn2
      obtain rfl := hn2
      have hch : N.ch n = cs := by simp [Net.ch, hk]
      rw [hch] at hg hy hgy hya
      simp only [hk] at hc0 ⊢
      rw [mapM_eq_some hg, mapM_eq_some hy]
      simp only [Option.map_some, prodCompute]
      obtain ⟨p1, p2⟩ := prod_node hR (cs := cs) (g := g) (y := y) (cost := cost) (A := A) (L := L) (c0 := cost n) hA0 hL (by linarith) hc0 hgy hya (by nlinarith)
      exact ⟨_, _, rfl, rfl, p1, p2⟩

/-- Indicators and multinomials are accurate. -/
theorem storesLeaf_close {I : VarSet} {L δ : ℝ} (hR : RoundsOn val B ε) (hL : 0 ≤ L) (hδ : 0 ≤ δ) (hB : L + δ ≤ B) {l : Leaf F} {m : Leaf XR} (h : StoresLeaf val I L δ l m) :
    ValueWithin val I L (δ + ε) l m := by
  have hε := hR.eps_nonneg
  cases l with
  | gaussian v mu s => cases m <;> exact absurd h id
  | indicator v x =>
    cases m with
    | gaussian v mu s => exact absurd h id
    | multinomial sc v q mi mv => exact absurd h id
    | indicator v' x' =>
    obtain ⟨rfl, rfl⟩ := h
    simp only [ValueWithin, Leaf.value]
    cases I v with
    | none => exact ⟨_, _, rfl, rfl, by rw [hR.zero]; simp [Within]; linarith, by simp [absVal, hL]⟩
    | some u =>
      by_cases hu : u = x
      · simp only [hu, if_true]
        exact ⟨_, _, rfl, rfl, by rw [hR.zero]; simp [Within]; linarith, by simp [absVal, hL]⟩
      · simp only [hu, if_false]
        exact ⟨_, _, rfl, rfl, by rw [hR.ninf]; trivial, by simp [absVal, hL]⟩
  | multinomial sc v pr mi mv =>
    cases m with
    | gaussian v mu s => exact absurd h id
    | indicator v' x' => exact absurd h id
    | multinomial sc' v' q mi' mv' =>
    obtain ⟨rfl, h1, h2⟩ := h
    simp only [ValueWithin, Leaf.value]
    cases hI : I v with
    | none => exact ⟨_, _, rfl, rfl, by rw [hR.zero]; simp [Within]; linarith, by simp [absVal, hL]⟩
    | some u =>
      obtain ⟨hu0, hul⟩ := h2 u hI
      have hlt : u.toNat < pr.length := by omega
      have hlt' : u.toNat < q.length := by rw [← h1.length_eq]; exact hlt
      obtain ⟨r, s, hr1, hs1, hr0, hs0, hrs, hsl⟩ := (List.forall₂_iff_get.1 h1).2 u.toNat hlt hlt'
      simp only [List.get_eq_getElem] at hr1 hs1
      have hidx : ∀ {α : Type} (l : List α) (hl : u.toNat < l.length), goIdx l u = some l[u.toNat] := by
        intro α l hl
        simp [goIdx, Int.not_lt.2 hu0, hl]
      simp only [hidx pr hlt, hidx q hlt', Option.map_some, hs1]
      refine ⟨_, _, rfl, rfl, ?_, ?_⟩
      · by_cases h0 : s = 0
        · have := hrs.2 h0
          subst h0 this
          rw [hR.log_zero _ hr1, XR.g_log, XR.log_zero]
          trivial
        · have hsp := lt_of_le_of_ne hs0 (Ne.symm h0)
          have hrp : 0 < r := lt_of_le_of_ne hr0 fun h => h0 (hrs.1 h.symm)
          obtain ⟨h3, h4⟩ := hsl h0
          have h5 := abs_sub_abs_le_abs_sub (Real.log r) (Real.log s)
          obtain ⟨z, hz, hze⟩ := hR.log _ r hr1 hrp (by linarith)
          rw [hz, XR.g_log, XR.log_pos hsp]
          show |z - Real.log s| ≤ _
          have := abs_sub_le z (Real.log r) (Real.log s)
          linarith
      · by_cases h0 : s = 0
        · subst h0
          rw [XR.g_log, XR.log_zero]
          exact hL
        · rw [XR.g_log, XR.log_pos (lt_of_le_of_ne hs0 (Ne.symm h0))]
          exact (hsl h0).1

/-- The number of variables times the height bounds the cost. -/
theorem cost_scope [Fintype ι] {N : Net ι F} {S : ι} {rank : ι → ℕ} (hrank : ∀ u, ∀ c ∈ N.ch u, rank c < rank u) (hdec : IsDecomposable N S)
    (hsc : ∀ n, Reach N.ch S n → ∃ v, InScope N n v) : Cost N S fun n => scopeSize N n * (2 * rank n + 1) := by
  have hpos : ∀ n, Reach N.ch S n → 1 ≤ scopeSize N n := fun n hn =>
    (Set.ncard_pos (inScope_finite N n)).2 (hsc n hn)
  intro n hn
  cases hk : N.kind n with
  | leaf l =>
    have := hpos n hn
    show 1 ≤ scopeSize N n * (2 * rank n + 1)
    nlinarith
  | sum cs w =>
    intro c hc
    have hc' : c ∈ N.ch n := by simpa [Net.ch, hk] using hc
    have h1 : scopeSize N c ≤ scopeSize N n := Set.ncard_le_ncard (fun v hv => InScope.child hc' hv) (inScope_finite N n)
    have h2 := hrank n c hc'
    have h3 := hpos n hn
    show scopeSize N c * (2 * rank c + 1) + 1 ≤ scopeSize N n * (2 * rank n + 1)
    nlinarith
  | product cs =>
    have hch : N.ch n = cs := by simp [Net.ch, hk]
    have hp := hdec n hn cs hk
    have hall : ∀ l : List ι, (∀ c ∈ l, c ∈ cs) → l.Pairwise (fun c d => ∀ v, ¬ (InScope N c v ∧ InScope N d v)) →
        (l.map (scopeSize N)).sum = Set.ncard {v | ∃ c ∈ l, InScope N c v} := by
      intro l
      induction l with
      | nil => intro _ _; simp
      | cons c l ih =>
        intro hl hp
        rw [List.pairwise_cons] at hp
        have e : {v | ∃ d ∈ c :: l, InScope N d v} = {v | InScope N c v} ∪ {v | ∃ d ∈ l, InScope N d v} := by
          ext v
          simp
        have hfin : {v | ∃ d ∈ l, InScope N d v}.Finite := by
          refine Set.Finite.subset (inScope_finite N n) ?_
          rintro v ⟨d, hd, hv⟩
          exact InScope.child (by rw [hch]; exact hl d (by simp [hd])) hv
        rw [e, Set.ncard_union_eq ?_ (inScope_finite N c) hfin, ← ih (fun d hd => hl d (by simp [hd])) hp.2]
        · rfl
        · rw [Set.disjoint_left]
          rintro v hv ⟨d, hd, hdv⟩
          exact hp.1 d hd v ⟨hv, hdv⟩
    have h1 : (cs.map (scopeSize N)).sum ≤ scopeSize N n := by
      rw [hall cs (fun _ h => h) hp]
      refine Set.ncard_le_ncard ?_ (inScope_finite N n)
      rintro v ⟨d, hd, hv⟩
      exact InScope.child (by rw [hch]; exact hd) hv
    have h2 : ∀ l : List ι, (∀ c ∈ l, c ∈ cs) → (l.map fun c => scopeSize N c * (2 * rank c + 1) + 1).sum ≤ (l.map (scopeSize N)).sum * (2 * rank n) := by
      intro l
      induction l with
      | nil => intro _; simp
      | cons c l ih =>
        intro hl
        have hc := hl c (by simp)
        have h3 := ih fun d hd => hl d (by simp [hd])
        have h4 := hrank n c (by rw [hch]; exact hc)
        have h5 := hpos c (Relation.ReflTransGen.tail hn (by rw [hch]; exact hc))
        simp only [List.map_cons, List.sum_cons]
        nlinarith
    have h3 := h2 cs fun _ h => h
    show (cs.map fun c => scopeSize N c * (2 * rank c + 1) + 1).sum ≤ scopeSize N n * (2 * rank n + 1)
    nlinarith

end Gospn
