/-
Theorems about distances: C52, utils/cluster/metrics.
-/
import Verif.Model.Matrix
import Verif.Proofs.Log
import Mathlib.Analysis.InnerProductSpace.PiL2

set_option linter.unusedSectionVars false
set_option linter.unusedSimpArgs false

namespace Gospn
open GoFloat

/-- A loop over `p` that reads `q` at the same positions. -/
theorem foldlM_pair {α β σ : Type} (f : σ → α → β → σ) (q0 : List β) : ∀ (p : List α) (q pre : List β) (s : σ), q0 = pre ++ q → p.length = q.length →
    (p.zipIdx pre.length).foldlM (fun s (x : α × Nat) => (q0[x.2]?).map fun y => f s x.1 y) s = some ((p.zip q).foldl (fun s x => f s x.1 x.2) s) := by
  intro p
  induction p with
  | nil => intro q pre s _ _; simp
  | cons a p ih =>
    intro q pre s hq hl
    cases q with
    | nil => simp at hl
    | cons b q =>
      rw [List.zipIdx_cons, List.foldlM_cons]
      have hb : q0[pre.length]? = some b := by simp [hq]
      simp only [hb, Option.map_some, bind, Option.bind_some, List.zip_cons_cons, List.foldl_cons]
      have := ih q (pre ++ [b]) (f s a b) (by simp [hq]) (by simpa using hl)
      simpa using this

theorem foldlM_pair' {α β σ : Type} (f : σ → α → β → σ) (p : List α) (q : List β) (s : σ) (h : p.length = q.length) :
    p.zipIdx.foldlM (fun s (x : α × Nat) => (q[x.2]?).map fun y => f s x.1 y) s = some ((p.zip q).foldl (fun s x => f s x.1 x.2) s) := by
  have := foldlM_pair f q p q [] s rfl h
  simpa using this

/-! ### Hamming distance -/

theorem hamming_eq (p q : List Int) (h : p.length = q.length) : hamming p q = some ((((p.zip q).countP fun x => x.1 ≠ x.2) : Nat) : Int) := by
  unfold hamming
  rw [foldlM_pair' (fun (s : Int) a b => if a ≠ b then s + 1 else s) p q 0 h]
  congr 1
  have : ∀ (l : List (Int × Int)) (s : Int), l.foldl (fun s x => if x.1 ≠ x.2 then s + 1 else s) s = s + (l.countP fun x => x.1 ≠ x.2 : Nat) := by
    intro l
    induction l with
    | nil => intro s; simp
    | cons x l ih =>
      intro s
      rw [List.foldl_cons, ih, List.countP_cons]
      by_cases hx : x.1 = x.2 <;> simp [hx]
      omega
  rw [this]; simp

theorem zip_self_of_count (p q : List Int) (h : p.length = q.length) : ((p.zip q).countP fun x => x.1 ≠ x.2) = 0 ↔ p = q := by
  induction p generalizing q with
  | nil => cases q with
    | nil => simp
    | cons => simp at h
  | cons a p ih =>
    cases q with
    | nil => simp at h
    | cons b q =>
      have := ih q (by simpa using h)
      by_cases hab : a = b
      · simp only [List.zip_cons_cons, List.countP_cons, hab, ne_eq, not_true, decide_false, Bool.false_eq_true, if_false, Nat.add_zero, List.cons.injEq, true_and]
        simpa using this
      · simp [hab]

theorem count_triangle (p q r : List Int) (h1 : p.length = q.length) (h2 : q.length = r.length) :
    ((p.zip r).countP fun x => x.1 ≠ x.2) ≤ ((p.zip q).countP fun x => x.1 ≠ x.2) + ((q.zip r).countP fun x => x.1 ≠ x.2) := by
  induction p generalizing q r with
  | nil => simp
  | cons a p ih =>
    cases q with
    | nil => simp at h1
    | cons b q =>
      cases r with
      | nil => simp at h2
      | cons c r =>
        have := ih q r (by simpa using h1) (by simpa using h2)
        simp only [List.zip_cons_cons, List.countP_cons]
        by_cases hab : a = b
        · subst hab
          by_cases hac : a = c <;> simp [hac] at this ⊢ <;> omega
        · by_cases hbc : b = c
          · subst hbc
            simp [hab] at this ⊢; omega
          · by_cases hac : a = c <;> simp [hab, hbc, hac] at this ⊢ <;> omega

theorem count_symm (p q : List Int) : ((p.zip q).countP fun x => x.1 ≠ x.2) = ((q.zip p).countP fun x => x.1 ≠ x.2) := by
  rw [← List.zip_swap q p, List.countP_map]
  apply List.countP_congr
  rintro ⟨x, y⟩ _
  simp only [Function.comp_apply, Prod.swap_prod_mk, decide_eq_true_eq]
  exact ne_comm

/-- C52 for `Hamming`, on vectors of equal length: it is a metric. -/
theorem C52_hamming (n : Nat) (p q r : List Int) (hp : p.length = n) (hq : q.length = n) (hr : r.length = n) :
    ∃ a b c, hamming p q = some a ∧ hamming q r = some b ∧ hamming p r = some c ∧ 0 ≤ a ∧ (a = 0 ↔ p = q) ∧ hamming q p = some a ∧ c ≤ a + b := by
  have e1 := hamming_eq p q (by omega)
  have e2 := hamming_eq q r (by omega)
  have e3 := hamming_eq p r (by omega)
  have e4 := hamming_eq q p (by omega)
  refine ⟨_, _, _, e1, e2, e3, by omega, ?_, ?_, ?_⟩
  · rw [← zip_self_of_count p q (by omega)]; omega
  · rw [e4, count_symm]
  · have := count_triangle p q r (by omega) (by omega)
    exact_mod_cast this

noncomputable section

/-- C52 for `HammingF`: the same number, as a float. -/
theorem C52_hammingF (p q : List Int) (h : p.length = q.length) : ∃ a : Int, hamming p q = some a ∧ hammingF p q = some (XR.fin (a : ℝ)) := by
  refine ⟨_, hamming_eq p q h, ?_⟩
  unfold hammingF
  rw [foldlM_pair' (fun (s : XR) a b => if a ≠ b then add s (ofInt 1) else s) p q (ofInt 0) h]
  congr 1
  have : ∀ (l : List (Int × Int)) (s : ℝ), l.foldl (fun (s : XR) x => if x.1 ≠ x.2 then add s (ofInt 1) else s) (XR.fin s) = XR.fin (s + (l.countP fun x => x.1 ≠ x.2 : Nat)) := by
    intro l
    induction l with
    | nil => intro s; simp
    | cons x l ih =>
      intro s
      rw [List.foldl_cons, List.countP_cons]
      by_cases hx : x.1 = x.2
      · simp only [hx, ne_eq, not_true, if_false, decide_false]
        rw [ih]; simp
      · rw [if_pos hx]
        have e : add (XR.fin s) (ofInt 1) = XR.fin (s + 1) := by simp
        rw [e, ih]
        simp only [hx, ne_eq, not_false_iff, decide_true, if_true]
        push_cast; congr 1; ring
  have h0 : (ofInt 0 : XR) = XR.fin 0 := by simp
  rw [h0, this]; simp

/-! ### Euclidean distance -/

/-- The sum of the squared differences. -/
def sqDiffs (p q : List ℝ) : ℝ := ((p.zip q).map fun x => (x.1 - x.2) * (x.1 - x.2)).sum

theorem sqDiffs_nonneg (p q : List ℝ) : 0 ≤ sqDiffs p q := by
  unfold sqDiffs
  apply List.sum_nonneg
  intro x hx
  obtain ⟨y, _, rfl⟩ := List.mem_map.1 hx
  exact mul_self_nonneg _

theorem sqDiffs_fold (l : List (ℝ × ℝ)) (s : ℝ) : l.foldl (fun (s : XR) x => add s (mul (sub (XR.fin x.1) (XR.fin x.2)) (sub (XR.fin x.1) (XR.fin x.2)))) (XR.fin s) =
    XR.fin (s + (l.map fun x => (x.1 - x.2) * (x.1 - x.2)).sum) := by
  induction l generalizing s with
  | nil => simp
  | cons x l ih =>
    rw [List.foldl_cons]
    simp only [XR.g_sub, XR.g_mul, XR.g_add, XR.sub_fin, XR.mul, XR.add_fin]
    have := ih (s + (x.1 - x.2) * (x.1 - x.2))
    simp only [XR.g_sub, XR.g_mul, XR.g_add, XR.sub_fin, XR.mul, XR.add_fin] at this
    rw [this, List.map_cons, List.sum_cons, add_assoc]

theorem euclideanF_eq (p q : List ℝ) (h : p.length = q.length) : euclideanF (p.map XR.fin) (q.map XR.fin) = some (XR.fin (Real.sqrt (sqDiffs p q))) := by
  unfold euclideanF
  rw [foldlM_pair' (fun (s : XR) a b => add s (mul (sub a b) (sub a b))) _ _ (ofInt 0) (by simpa using h)]
  have h0 : (ofInt 0 : XR) = XR.fin 0 := by simp
  have h1 : ((p.map XR.fin).zip (q.map XR.fin)) = (p.zip q).map fun x => (XR.fin x.1, XR.fin x.2) := by rw [List.zip_map]; rfl
  rw [h0, h1, List.foldl_map, sqDiffs_fold]
  simp only [Option.map_some, zero_add, XR.g_sqrt, XR.sqrt]
  have := sqDiffs_nonneg p q
  unfold sqDiffs at this ⊢
  rw [if_neg (by linarith)]

theorem euclidean_eq (p q : List Int) (h : p.length = q.length) :
    (euclidean p q : Option XR) = some (XR.fin (Real.sqrt (sqDiffs (p.map fun (z : ℤ) => (z : ℝ)) (q.map fun (z : ℤ) => (z : ℝ))))) := by
  rw [← euclideanF_eq _ _ (by simpa using h)]
  unfold euclidean euclideanF
  rw [foldlM_pair' (fun (s : XR) a b => add s (mul (sub a b) (sub a b))) _ _ (ofInt 0) (by simpa using h),
    foldlM_pair' (fun (s : XR) (a b : Int) => add s (mul (ofInt (a - b)) (ofInt (a - b)))) p q (ofInt 0) h]
  have h1 : (((p.map fun (z : ℤ) => (z : ℝ)).map XR.fin).zip ((q.map fun (z : ℤ) => (z : ℝ)).map XR.fin)) = (p.zip q).map fun x => (XR.fin (x.1 : ℝ), XR.fin (x.2 : ℝ)) := by
    rw [List.map_map, List.map_map, List.zip_map]; rfl
  rw [h1, List.foldl_map]
  congr 2
  apply congrArg (fun f => List.foldl f (ofInt 0 : XR) (p.zip q))
  funext s x
  simp [XR.sub_fin]

theorem sqDiffs_dist (n : Nat) (p q : List ℝ) (hp : p.length = n) (hq : q.length = n) :
    Real.sqrt (sqDiffs p q) = dist (WithLp.toLp 2 (fun i : Fin n => p[i]'(by omega)) : EuclideanSpace ℝ (Fin n)) (WithLp.toLp 2 (fun i : Fin n => q[i]'(by omega))) := by
  rw [EuclideanSpace.dist_eq]
  congr 1
  unfold sqDiffs
  have : ((p.zip q).map fun x => (x.1 - x.2) * (x.1 - x.2)) = List.ofFn fun i : Fin n => dist (p[i]'(by omega)) (q[i]'(by omega)) ^ 2 := by
    apply List.ext_getElem
    · simp [hp, hq]
    · intro i hi hi'
      simp [Real.dist_eq, sq_abs, sq]
  rw [this, List.sum_ofFn]

theorem sqDiffs_zero (n : Nat) (p q : List ℝ) (hp : p.length = n) (hq : q.length = n) : Real.sqrt (sqDiffs p q) = 0 ↔ p = q := by
  rw [sqDiffs_dist n p q hp hq, dist_eq_zero]
  constructor
  · intro h
    apply List.ext_getElem (by omega)
    intro i hi hi'
    have := congrFun (congrArg (fun v : EuclideanSpace ℝ (Fin n) => (v : Fin n → ℝ)) h) ⟨i, by omega⟩
    simpa using this
  · rintro rfl; rfl

/-- C52 for `EuclideanF`, on vectors of equal length and in exact arithmetic: it is a metric. -/
theorem C52_euclideanF (n : Nat) (p q r : List ℝ) (hp : p.length = n) (hq : q.length = n) (hr : r.length = n) :
    ∃ a b c : ℝ, euclideanF (p.map XR.fin) (q.map XR.fin) = some (XR.fin a) ∧ euclideanF (q.map XR.fin) (r.map XR.fin) = some (XR.fin b) ∧
      euclideanF (p.map XR.fin) (r.map XR.fin) = some (XR.fin c) ∧ 0 ≤ a ∧ (a = 0 ↔ p = q) ∧ euclideanF (q.map XR.fin) (p.map XR.fin) = some (XR.fin a) ∧ c ≤ a + b := by
  refine ⟨_, _, _, euclideanF_eq p q (by omega), euclideanF_eq q r (by omega), euclideanF_eq p r (by omega), Real.sqrt_nonneg _, sqDiffs_zero n p q hp hq, ?_, ?_⟩
  · rw [euclideanF_eq q p (by omega), sqDiffs_dist n q p hq hp, sqDiffs_dist n p q hp hq, dist_comm]
  · rw [sqDiffs_dist n p r hp hr, sqDiffs_dist n p q hp hq, sqDiffs_dist n q r hq hr]
    exact dist_triangle _ _ _

/-- C52 for `Euclidean`. -/
theorem C52_euclidean (n : Nat) (p q r : List Int) (hp : p.length = n) (hq : q.length = n) (hr : r.length = n) :
    ∃ a b c : ℝ, euclidean p q = some (XR.fin a) ∧ euclidean q r = some (XR.fin b) ∧ euclidean p r = some (XR.fin c) ∧
      0 ≤ a ∧ (a = 0 ↔ p = q) ∧ euclidean q p = some (XR.fin a) ∧ c ≤ a + b := by
  have hl : ∀ l : List Int, l.length = n → (l.map fun (z : ℤ) => (z : ℝ)).length = n := fun l h => by simpa using h
  refine ⟨_, _, _, euclidean_eq p q (by omega), euclidean_eq q r (by omega), euclidean_eq p r (by omega), Real.sqrt_nonneg _, ?_, ?_, ?_⟩
  · rw [sqDiffs_zero n _ _ (hl p hp) (hl q hq)]
    constructor
    · intro h
      exact List.map_injective_iff.2 Int.cast_injective h
    · rintro rfl; rfl
  · rw [euclidean_eq q p (by omega), sqDiffs_dist n _ _ (hl q hq) (hl p hp), sqDiffs_dist n _ _ (hl p hp) (hl q hq), dist_comm]
  · rw [sqDiffs_dist n _ _ (hl p hp) (hl r hr), sqDiffs_dist n _ _ (hl p hp) (hl q hq), sqDiffs_dist n _ _ (hl q hq) (hl r hr)]
    exact dist_triangle _ _ _

example : hamming [1, 2, 3] [1, 5, 3] = some 1 := rfl

example : ∃ a b c : ℝ, euclidean [1, 2] [4, 6] = some (XR.fin a) ∧ euclidean [4, 6] [0, 0] = some (XR.fin b) ∧ euclidean [1, 2] [0, 0] = some (XR.fin c) ∧ c ≤ a + b := by
  obtain ⟨a, b, c, h1, h2, h3, _, _, _, h4⟩ := C52_euclidean 2 [1, 2] [4, 6] [0, 0] rfl rfl rfl
  exact ⟨a, b, c, h1, h2, h3, h4⟩

end
end Gospn
