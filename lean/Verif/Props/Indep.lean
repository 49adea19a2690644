/-
Theorems about independence tests: C65, C66.
-/
import Verif.Proofs.Indep
import Verif.Proofs.Log
import Verif.Props.UnionFind
import Mathlib.Algebra.Order.BigOperators.Group.Finset
import Mathlib.Algebra.BigOperators.Field
import Mathlib.Tactic.FinCases
import Mathlib.Tactic.FieldSimp
import Mathlib.Tactic.Positivity

set_option linter.unusedSectionVars false
set_option linter.unusedSimpArgs false

namespace Gospn
open Spec GoFloat

theorem mat_get {α : Type} (P Q : Nat) (f : Nat → Nat → α) (i j : Nat) (hi : i < P) (hj : j < Q) : ((mat P Q f)[i]?).bind (·[j]?) = some (f i j) := by
  simp [mat, hi, hj]

theorem tableOf_isTable (p q : Nat) (X Y : List Int) : IsTable p q X Y (mat (p + 1) (q + 1) (tableOf p q X Y)) := by
  refine ⟨by simp [mat], ?_, ?_, ?_, ?_, ?_⟩
  · intro r hr
    simp only [mat, List.mem_map] at hr
    obtain ⟨a, _, rfl⟩ := hr
    simp
  · intro i j hi hj
    rw [mat_get _ _ _ _ _ (by omega) (by omega)]
    simp [tableOf, Nat.ne_of_lt hi, Nat.ne_of_lt hj]
  · intro i hi
    rw [mat_get _ _ _ _ _ (by omega) (by omega)]
    simp [tableOf, Nat.ne_of_lt hi]
  · intro j hj
    rw [mat_get _ _ _ _ _ (by omega) (by omega)]
    simp [tableOf, Nat.ne_of_lt hj]
  · rw [mat_get _ _ _ _ _ (by omega) (by omega)]
    simp [tableOf]

/-- The contingency table of two observed variables holds the right counts and totals. -/
theorem C65_contingency (p q : Nat) (X Y : List Int) (hXY : X.length = Y.length) (hX : Categorical p X) (hY : Categorical q Y) :
    ∃ m, contingency (p : Int) (q : Int) X Y = some m ∧ IsTable p q X Y m :=
  ⟨_, contingency_eq p q X Y hXY hX hY, tableOf_isTable p q X Y⟩

/-- A table is determined by the data. -/
theorem isTable_unique {p q : Nat} {X Y : List Int} {m : List (List Int)} (h : IsTable p q X Y m) : m = mat (p + 1) (q + 1) (tableOf p q X Y) := by
  obtain ⟨h1, h2, h3, h4, h5, h6⟩ := h
  have key : ∀ i j, i < p + 1 → j < q + 1 → (m[i]?).bind (·[j]?) = some (tableOf p q X Y i j) := by
    intro i j hi hj
    unfold tableOf
    by_cases e1 : i = p
    · subst e1
      by_cases e2 : j = q
      · subst e2; simpa using h6
      · rw [if_pos rfl, if_neg e2]; exact h5 j (by omega)
    · rw [if_neg e1]
      by_cases e2 : j = q
      · subst e2; rw [if_pos rfl]; exact h4 i (by omega)
      · rw [if_neg e2]; exact h3 i j (by omega) (by omega)
  apply List.ext_getElem?
  intro i
  by_cases hi : i < p + 1
  · have hi' : i < m.length := by omega
    rw [List.getElem?_eq_getElem hi']
    have hr := h2 m[i] (List.getElem_mem hi')
    simp only [mat, List.getElem?_map, List.getElem?_range hi, Option.map_some]
    congr 1
    apply List.ext_getElem?
    intro j
    by_cases hj : j < q + 1
    · have := key i j hi hj
      rw [List.getElem?_eq_getElem hi', Option.bind_some] at this
      rw [this]; simp [hj]
    · rw [List.getElem?_eq_none (by omega), List.getElem?_eq_none (by simp; omega)]
  · rw [List.getElem?_eq_none (by omega), List.getElem?_eq_none (by simp [mat]; omega)]

theorem expectedAll_eq (p q : Nat) (f : Nat → Nat → Int) :
    expectedAll (F := XR) (p : Int) (q : Int) (mat (p + 1) (q + 1) f) = some (mat p q fun i j => XR.div (.fin ((f p j * f i q : Int) : ℝ)) (.fin ((f p q : Int) : ℝ))) := by
  unfold expectedAll
  rw [Int.toNat_natCast, Int.toNat_natCast, mapM_eq_some (g := fun i => (List.range q).map fun j => XR.div (.fin ((f p j * f i q : Int) : ℝ)) (.fin ((f p q : Int) : ℝ)))]
  · rfl
  · intro i hi
    rw [List.mem_range] at hi
    rw [mapM_eq_some (g := fun j => XR.div (.fin ((f p j * f i q : Int) : ℝ)) (.fin ((f p q : Int) : ℝ)))]
    intro j hj
    rw [List.mem_range] at hj
    unfold expectedFreq
    rw [goIdx2_mat _ _ _ _ _ (by omega) (by omega), Option.bind_some, goIdx2_mat _ _ _ _ _ (by omega) (by omega), Option.bind_some,
      goIdx2_mat _ _ _ _ _ (by omega) (by omega), Option.map_some]
    rfl

/-- A nested loop that adds the finite term `t i j`. -/
theorem goFor2_sum (p q : Nat) (body : Int → XR → Int → Option XR) (t : Nat → Nat → ℝ)
    (h : ∀ i j, i < p → j < q → ∀ s : ℝ, body (i : Int) (.fin s) (j : Int) = some (.fin (s + t i j))) :
    (goFor (p : Int) (XR.fin 0) fun s i => goFor (q : Int) s (body i)) = some (.fin (∑ i ∈ Finset.range p, ∑ j ∈ Finset.range q, t i j)) := by
  have inner : ∀ i, i < p → ∀ s : ℝ, goFor (q : Int) (XR.fin s) (body (i : Int)) = some (.fin (s + ∑ j ∈ Finset.range q, t i j)) := by
    intro i hi s
    have := goFor_state q (body (i : Int)) (fun k => XR.fin (s + ∑ j ∈ Finset.range k, t i j)) ?_
    · simpa using this
    · intro k hk
      rw [h i k hi hk, Finset.sum_range_succ, ← add_assoc]
  have := goFor_state p (fun s i => goFor (q : Int) s (body i)) (fun k => XR.fin (∑ i ∈ Finset.range k, ∑ j ∈ Finset.range q, t i j)) ?_
  · simpa using this
  · intro k hk
    rw [inner k hk, Finset.sum_range_succ]

theorem joint_le_left (X Y : List Int) (i j : Nat) : jointCount X Y i j ≤ valueCount X i := by
  induction X generalizing Y with
  | nil => simp [jointCount]
  | cons x X ih =>
    cases Y with
    | nil => simp [jointCount]
    | cons y Y =>
      have := ih Y
      unfold jointCount valueCount at *
      rw [List.zip_cons_cons, List.count_cons, List.count_cons]
      have h2 : (if ((x, y) == ((i : Int), (j : Int))) = true then 1 else 0) ≤ (if (x == (i : Int)) = true then 1 else 0) := by
        by_cases hx : x = (i : Int)
        · subst hx; simp; split <;> omega
        · rw [if_neg, if_neg (by simpa using hx)]
          rw [beq_iff_eq, Prod.mk.injEq]
          exact fun h => hx h.1
      omega

theorem joint_le_right (X Y : List Int) (i j : Nat) : jointCount X Y i j ≤ valueCount Y j := by
  rw [jointCount_swap]; exact joint_le_left Y X j i

theorem joint_le_length (X Y : List Int) (i j : Nat) : jointCount X Y i j ≤ X.length :=
  (joint_le_left X Y i j).trans (List.count_le_length)

theorem gStatistic_eq (p q : Nat) (X Y : List Int) :
    gStatistic (F := XR) (p : Int) (q : Int) (mat (p + 1) (q + 1) (tableOf p q X Y)) = some (.fin (gValue p q X Y)) := by
  unfold gStatistic
  rw [expectedAll_eq, Option.bind_some]
  have h0 : (GoFloat.ofInt 0 : XR) = .fin 0 := by simp
  rw [h0, goFor2_sum p q _ (gTerm X Y)]
  · simp only [Option.map_some, XR.g_mul, XR.g_ofInt, XR.mul_fin]
    congr 2
    unfold gValue
    push_cast; ring
  · intro i j hi hj s
    unfold gCell
    rw [goIdx2_mat _ _ _ _ _ hi hj, Option.bind_some]
    have hpj : tableOf p q X Y p j = (valueCount Y j : Int) := by simp [tableOf, Nat.ne_of_lt hj]
    have hiq : tableOf p q X Y i q = (valueCount X i : Int) := by simp [tableOf, Nat.ne_of_lt hi]
    have hpq : tableOf p q X Y p q = (X.length : Int) := by simp [tableOf]
    have hij : tableOf p q X Y i j = (jointCount X Y i j : Int) := by simp [tableOf, Nat.ne_of_lt hi, Nat.ne_of_lt hj]
    rw [hpj, hiq, hpq]
    have hg : goIdx2 (mat (p + 1) (q + 1) (tableOf p q X Y)) (i : Int) (j : Int) = some (jointCount X Y i j : Int) := by
      rw [goIdx2_mat _ _ _ _ _ (by omega) (by omega), hij]
    rw [hg]
    have hle := joint_le_length X Y i j
    rcases Nat.eq_zero_or_pos (jointCount X Y i j) with ho | ho
    · have ht : gTerm X Y i j = 0 := by unfold gTerm; rw [ho]; simp
      rw [ht, add_zero, ho]
      split
      · rfl
      · simp [XR.eq]
    · have hr : 0 < valueCount X i := by have := joint_le_left X Y i j; omega
      have hc : 0 < valueCount Y j := by have := joint_le_right X Y i j; omega
      have hn : 0 < X.length := by omega
      have ho' : (0 : ℝ) < jointCount X Y i j := by exact_mod_cast ho
      have hr' : (0 : ℝ) < valueCount X i := by exact_mod_cast hr
      have hc' : (0 : ℝ) < valueCount Y j := by exact_mod_cast hc
      have hn' : (0 : ℝ) < X.length := by exact_mod_cast hn
      have hE : XR.div (.fin (((valueCount Y j : Int) * (valueCount X i : Int) : Int) : ℝ)) (.fin (((X.length : Int) : Int) : ℝ)) =
          .fin ((valueCount X i : ℝ) * valueCount Y j / X.length) := by
        have hn0 : (((X.length : Int) : Int) : ℝ) ≠ 0 := by push_cast; exact hn'.ne'
        rw [XR.div_fin hn0]
        congr 1
        push_cast
        ring
      rw [hE]
      have he : (0 : ℝ) < (valueCount X i : ℝ) * valueCount Y j / X.length := by positivity
      simp only [XR.g_eq, XR.g_ofInt, XR.eq, Int.cast_zero, he.ne', decide_false, Bool.false_eq_true, if_false, Option.map_some,
        Int.cast_natCast, ho'.ne', XR.g_div, XR.div_fin he.ne', XR.g_log, XR.log]
      rw [if_pos (by positivity)]
      simp only [XR.g_mul, XR.mul_fin, XR.g_add, XR.add_fin]
      congr 3
      unfold gTerm
      congr 2
      field_simp

/-- The lower bound of a term: the difference of observed and expected count, exact only if they are equal. -/
theorem gTerm_bound (X Y : List Int) (hn : 0 < X.length) (i j : Nat) :
    (jointCount X Y i j : ℝ) - (valueCount X i : ℝ) * valueCount Y j / X.length ≤ gTerm X Y i j ∧
    (gTerm X Y i j = (jointCount X Y i j : ℝ) - (valueCount X i : ℝ) * valueCount Y j / X.length → X.length * jointCount X Y i j = valueCount X i * valueCount Y j) := by
  have hn' : (0 : ℝ) < X.length := by exact_mod_cast hn
  rcases Nat.eq_zero_or_pos (jointCount X Y i j) with ho | ho
  · have ht : gTerm X Y i j = 0 := by unfold gTerm; rw [ho]; simp
    rw [ht, ho]
    constructor
    · have : (0 : ℝ) ≤ (valueCount X i : ℝ) * valueCount Y j / X.length := by positivity
      push_cast; linarith
    · intro h
      have : (valueCount X i : ℝ) * valueCount Y j / X.length = 0 := by push_cast at h; linarith
      rw [div_eq_zero_iff] at this
      rcases this with h | h
      · rw [mul_zero]
        exact_mod_cast h.symm
      · exact absurd h hn'.ne'
  · have hr : 0 < valueCount X i := by have := joint_le_left X Y i j; omega
    have hc : 0 < valueCount Y j := by have := joint_le_right X Y i j; omega
    have ho' : (0 : ℝ) < jointCount X Y i j := by exact_mod_cast ho
    have hr' : (0 : ℝ) < valueCount X i := by exact_mod_cast hr
    have hc' : (0 : ℝ) < valueCount Y j := by exact_mod_cast hc
    have hx : (0 : ℝ) < (X.length : ℝ) * jointCount X Y i j / ((valueCount X i : ℝ) * valueCount Y j) := by positivity
    have heq : (jointCount X Y i j : ℝ) - (valueCount X i : ℝ) * valueCount Y j / X.length =
        jointCount X Y i j * (1 - ((X.length : ℝ) * jointCount X Y i j / ((valueCount X i : ℝ) * valueCount Y j))⁻¹) := by
      field_simp
    rw [heq]
    unfold gTerm
    constructor
    · exact mul_le_mul_of_nonneg_left (Real.one_sub_inv_le_log_of_pos hx) ho'.le
    · intro h
      have h1 := mul_left_cancel₀ ho'.ne' h
      by_contra hne
      have hx1 : ((X.length : ℝ) * jointCount X Y i j / ((valueCount X i : ℝ) * valueCount Y j))⁻¹ ≠ 1 := by
        intro e
        rw [inv_eq_one, div_eq_one_iff_eq (by positivity)] at e
        exact hne (by exact_mod_cast e)
      have h2 := Real.log_lt_sub_one_of_pos (inv_pos.2 hx) hx1
      rw [Real.log_inv] at h2
      linarith

theorem sum_diff (p q : Nat) (X Y : List Int) (hXY : X.length = Y.length) (hY : Categorical q Y) (hn : 0 < X.length) :
    ∑ i ∈ Finset.range p, ∑ j ∈ Finset.range q, ((jointCount X Y i j : ℝ) - (valueCount X i : ℝ) * valueCount Y j / X.length) = 0 := by
  have hn' : (X.length : ℝ) ≠ 0 := by have : (0 : ℝ) < X.length := by exact_mod_cast hn
                                      exact this.ne'
  have h1 : ∀ i, ∑ j ∈ Finset.range q, ((jointCount X Y i j : ℝ) - (valueCount X i : ℝ) * valueCount Y j / X.length) = 0 := by
    intro i
    rw [Finset.sum_sub_distrib, ← Finset.sum_div, ← Finset.mul_sum]
    have e1 : ∑ j ∈ Finset.range q, (jointCount X Y i j : ℝ) = valueCount X i := by exact_mod_cast sum_joint_right q X Y hXY hY i
    have e2 : ∑ j ∈ Finset.range q, (valueCount Y j : ℝ) = X.length := by
      rw [hXY]
      exact_mod_cast sum_value q Y hY
    rw [e1, e2]
    field_simp
    ring
  simp [h1]

theorem gValue_facts (p q : Nat) (X Y : List Int) (hXY : X.length = Y.length) (hY : Categorical q Y) :
    0 ≤ gValue p q X Y ∧ (gValue p q X Y = 0 ↔ ExactlyIndependent p q X Y) := by
  rcases Nat.eq_zero_or_pos X.length with h0 | hn
  · have hz : ∀ i j, jointCount X Y i j = 0 := fun i j => by have := joint_le_length X Y i j; omega
    have hv : ∀ i, valueCount X i = 0 := fun i => by
      have : valueCount X i ≤ X.length := List.count_le_length
      omega
    have : gValue p q X Y = 0 := by unfold gValue gTerm; simp [hz]
    rw [this]
    exact ⟨le_refl _, by simp only [true_iff]; intro i j _ _; rw [hz, hv]; simp⟩
  · have hs := sum_diff p q X Y hXY hY hn
    have hnn : ∀ i ∈ Finset.range p, 0 ≤ ∑ j ∈ Finset.range q, (gTerm X Y i j - ((jointCount X Y i j : ℝ) - (valueCount X i : ℝ) * valueCount Y j / X.length)) :=
      fun i _ => Finset.sum_nonneg fun j _ => by have := (gTerm_bound X Y hn i j).1; linarith
    have heq : gValue p q X Y = 2 * ∑ i ∈ Finset.range p, ∑ j ∈ Finset.range q,
        (gTerm X Y i j - ((jointCount X Y i j : ℝ) - (valueCount X i : ℝ) * valueCount Y j / X.length)) := by
      unfold gValue
      simp only [Finset.sum_sub_distrib (f := fun j => gTerm X Y _ j)]
      rw [Finset.sum_sub_distrib, hs, sub_zero]
    constructor
    · rw [heq]
      exact mul_nonneg (by norm_num) (Finset.sum_nonneg hnn)
    · constructor
      · intro h i j hi hj
        rw [heq, mul_eq_zero] at h
        have h := h.resolve_left (by norm_num)
        rw [Finset.sum_eq_zero_iff_of_nonneg hnn] at h
        have h := h i (Finset.mem_range.2 hi)
        rw [Finset.sum_eq_zero_iff_of_nonneg fun j _ => by have := (gTerm_bound X Y hn i j).1; linarith] at h
        have h := h j (Finset.mem_range.2 hj)
        exact (gTerm_bound X Y hn i j).2 (by linarith)
      · intro h
        unfold gValue
        have : ∀ i ∈ Finset.range p, ∑ j ∈ Finset.range q, gTerm X Y i j = 0 := by
          intro i hi
          apply Finset.sum_eq_zero
          intro j hj
          have e := h i j (Finset.mem_range.1 hi) (Finset.mem_range.1 hj)
          unfold gTerm
          have e' : (X.length : ℝ) * jointCount X Y i j = (valueCount X i : ℝ) * valueCount Y j := by exact_mod_cast e
          rw [e']
          rcases eq_or_ne ((valueCount X i : ℝ) * valueCount Y j) 0 with h0 | h0
          · rw [h0]; simp
          · rw [div_self h0]; simp
        rw [Finset.sum_eq_zero this, mul_zero]

theorem gValue_symm (p q : Nat) (X Y : List Int) (hXY : X.length = Y.length) : gValue p q X Y = gValue q p Y X := by
  unfold gValue
  rw [Finset.sum_comm]
  congr 2
  funext j
  congr 1
  funext i
  unfold gTerm
  rw [jointCount_swap X Y i j, hXY, mul_comm (valueCount X i : ℝ)]

/-- `GTest` on the contingency table of two observed variables compares the p-value of the log-likelihood ratio statistic with the significance level;
the statistic is never negative, zero exactly for exactly independent observations. -/
theorem C66_gTest (chi : XR → Int → XR) (sig : XR) (p q : Nat) (X Y : List Int) (hXY : X.length = Y.length) (hY : Categorical q Y)
    (m : List (List Int)) (hm : IsTable p q X Y m) :
    gTest chi (p : Int) (q : Int) m sig = some (GoFloat.le sig (GoFloat.sub (GoFloat.ofInt 1) (chi (.fin (gValue p q X Y)) (((p : Int) - 1) * ((q : Int) - 1))))) ∧
    0 ≤ gValue p q X Y ∧ (gValue p q X Y = 0 ↔ ExactlyIndependent p q X Y) := by
  refine ⟨?_, gValue_facts p q X Y hXY hY⟩
  rw [isTable_unique hm]
  unfold gTest
  rw [gStatistic_eq, Option.map_some]

/-- The verdict does not depend on the order of the two variables. -/
theorem C66_symmetric (chi : XR → Int → XR) (sig : XR) (p q : Nat) (X Y : List Int) (hXY : X.length = Y.length) (m m' : List (List Int))
    (hm : IsTable p q X Y m) (hm' : IsTable q p Y X m') : gTest chi (p : Int) (q : Int) m sig = gTest chi (q : Int) (p : Int) m' sig := by
  rw [isTable_unique hm, isTable_unique hm']
  unfold gTest
  rw [gStatistic_eq, gStatistic_eq, gValue_symm p q X Y hXY, mul_comm ((p : Int) - 1)]

/-- Exactly independent observations are declared independent at every significance level up to one. -/
theorem C66_independent (chi : XR → Int → XR) (s : ℝ) (hs : s ≤ 1) (p q : Nat) (hchi : chi (.fin 0) (((p : Int) - 1) * ((q : Int) - 1)) = .fin 0)
    (X Y : List Int) (hXY : X.length = Y.length) (hY : Categorical q Y) (hi : ExactlyIndependent p q X Y)
    (m : List (List Int)) (hm : IsTable p q X Y m) : gTest chi (p : Int) (q : Int) m (.fin s) = some true := by
  obtain ⟨h1, _, h2⟩ := C66_gTest chi (.fin s) p q X Y hXY hY m hm
  rw [h1, h2.2 hi, hchi]
  simp only [XR.g_le, XR.g_sub, XR.g_ofInt, XR.sub_fin, Int.cast_one, sub_zero, XR.lt, XR.eq]
  rcases lt_or_eq_of_le hs with h | h
  · simp [h]
  · simp [h]

/-- Four observations of a variable with two and one with three categories. -/
example : Categorical 2 [0, 1, 1, 0] ∧ Categorical 3 [2, 0, 2, 0] ∧ ExactlyIndependent 2 3 [0, 1, 1, 0] [2, 0, 2, 0] := by
  refine ⟨?_, ?_, ?_⟩
  · intro x hx; fin_cases hx <;> decide
  · intro x hx; fin_cases hx <;> decide
  · have : ∀ i < 2, ∀ j < 3, [0, 1, 1, 0].length * jointCount [0, 1, 1, 0] [2, 0, 2, 0] i j = valueCount [0, 1, 1, 0] i * valueCount [2, 0, 2, 0] j := by decide
    exact fun i j hi hj => this i hi j hj

/-- Observations that are not exactly independent. -/
example : ¬ ExactlyIndependent 2 2 [0, 1] [0, 1] := fun h => absurd (h 0 1 (by decide) (by decide)) (by decide)

theorem chiStatistic_eq (p q : Nat) (X Y : List Int) (hn : 0 < X.length) :
    chiStatistic (F := XR) (p : Int) (q : Int) (mat (p + 1) (q + 1) (tableOf p q X Y)) = some (.fin (chiValue p q X Y)) := by
  unfold chiStatistic
  rw [expectedAll_eq, Option.bind_some]
  have h0 : (GoFloat.ofInt 0 : XR) = .fin 0 := by simp
  have hn' : (0 : ℝ) < X.length := by exact_mod_cast hn
  rw [h0, goFor2_sum p q _ (fun i j => ((jointCount X Y i j : ℝ) - (valueCount X i : ℝ) * valueCount Y j / X.length) ^ 2 / ((valueCount X i : ℝ) * valueCount Y j / X.length))]
  · rfl
  · intro i j hi hj s
    unfold chiCell
    rw [goIdx2_mat _ _ _ _ _ hi hj, Option.bind_some]
    have hpj : tableOf p q X Y p j = (valueCount Y j : Int) := by simp [tableOf, Nat.ne_of_lt hj]
    have hiq : tableOf p q X Y i q = (valueCount X i : Int) := by simp [tableOf, Nat.ne_of_lt hi]
    have hpq : tableOf p q X Y p q = (X.length : Int) := by simp [tableOf]
    have hij : tableOf p q X Y i j = (jointCount X Y i j : Int) := by simp [tableOf, Nat.ne_of_lt hi, Nat.ne_of_lt hj]
    have hg : goIdx2 (mat (p + 1) (q + 1) (tableOf p q X Y)) (i : Int) (j : Int) = some (jointCount X Y i j : Int) := by
      rw [goIdx2_mat _ _ _ _ _ (by omega) (by omega), hij]
    rw [hg, hpj, hiq, hpq, Option.map_some]
    have hE : XR.div (.fin (((valueCount Y j : Int) * (valueCount X i : Int) : Int) : ℝ)) (.fin (((X.length : Int) : Int) : ℝ)) =
        .fin ((valueCount X i : ℝ) * valueCount Y j / X.length) := by
      have hn0 : (((X.length : Int) : Int) : ℝ) ≠ 0 := by push_cast; exact hn'.ne'
      rw [XR.div_fin hn0]
      congr 1
      push_cast
      ring
    rw [hE]
    rcases eq_or_ne ((valueCount X i : ℝ) * valueCount Y j / X.length) 0 with he | he
    · have hz : (valueCount X i : ℝ) * valueCount Y j = 0 := by
        rcases div_eq_zero_iff.1 he with h | h
        · exact h
        · exact absurd h hn'.ne'
      have ho : jointCount X Y i j = 0 := by
        have h1 := joint_le_left X Y i j
        have h2 := joint_le_right X Y i j
        have : valueCount X i * valueCount Y j = 0 := by exact_mod_cast hz
        rcases Nat.mul_eq_zero.1 this with h | h <;> omega
      rw [he, ho]
      simp [XR.eq]
    · simp only [XR.g_eq, XR.g_ofInt, XR.eq, Int.cast_zero, he, decide_false, Bool.false_and, Bool.false_eq_true, if_false,
        XR.g_sub, XR.sub_fin, XR.g_mul, XR.mul_fin, XR.g_div, XR.div_fin he, XR.g_add, XR.add_fin, Int.cast_natCast]
      congr 3
      ring

/-- `ChiSquareTest` compares the p-value of Pearson's statistic with the significance level; the statistic is never negative, zero exactly for exactly independent observations. -/
theorem C66_chiSquareTest (chi : XR → Int → XR) (sig : XR) (p q : Nat) (X Y : List Int) (hn : 0 < X.length)
    (m : List (List Int)) (hm : IsTable p q X Y m) :
    chiSquareTest chi (p : Int) (q : Int) m sig = some (GoFloat.le sig (GoFloat.sub (GoFloat.ofInt 1) (chi (.fin (chiValue p q X Y)) (((p : Int) - 1) * ((q : Int) - 1))))) ∧
    0 ≤ chiValue p q X Y ∧ (chiValue p q X Y = 0 ↔ ExactlyIndependent p q X Y) := by
  have hn' : (0 : ℝ) < X.length := by exact_mod_cast hn
  have hnn : ∀ i ∈ Finset.range p, ∀ j ∈ Finset.range q, (0 : ℝ) ≤
      ((jointCount X Y i j : ℝ) - (valueCount X i : ℝ) * valueCount Y j / X.length) ^ 2 / ((valueCount X i : ℝ) * valueCount Y j / X.length) := by
    intro i _ j _; positivity
  refine ⟨?_, Finset.sum_nonneg fun i hi => Finset.sum_nonneg (hnn i hi), ?_⟩
  · rw [isTable_unique hm]
    unfold chiSquareTest
    rw [chiStatistic_eq p q X Y hn, Option.map_some]
  · unfold chiValue
    rw [Finset.sum_eq_zero_iff_of_nonneg fun i hi => Finset.sum_nonneg (hnn i hi)]
    have each : ∀ i j, ((jointCount X Y i j : ℝ) - (valueCount X i : ℝ) * valueCount Y j / X.length) ^ 2 / ((valueCount X i : ℝ) * valueCount Y j / X.length) = 0 ↔
        X.length * jointCount X Y i j = valueCount X i * valueCount Y j := by
      intro i j
      rw [div_eq_zero_iff, pow_eq_zero_iff (by norm_num), sub_eq_zero]
      constructor
      · rintro (h | h)
        · rw [eq_div_iff hn'.ne'] at h
          have : (jointCount X Y i j : ℝ) * X.length = ((valueCount X i * valueCount Y j : Nat) : ℝ) := by push_cast; exact h
          rw [mul_comm]; exact_mod_cast this
        · have hz : (valueCount X i : ℝ) * valueCount Y j = 0 := by
            rcases div_eq_zero_iff.1 h with h | h
            · exact h
            · exact absurd h hn'.ne'
          have hz : valueCount X i * valueCount Y j = 0 := by exact_mod_cast hz
          have h1 := joint_le_left X Y i j
          have h2 := joint_le_right X Y i j
          have ho : jointCount X Y i j = 0 := by rcases Nat.mul_eq_zero.1 hz with h | h <;> omega
          rw [hz, ho, mul_zero]
      · intro h
        left
        rw [eq_div_iff hn'.ne', mul_comm]
        exact_mod_cast h
    constructor
    · intro h i j hi hj
      have h := h i (Finset.mem_range.2 hi)
      rw [Finset.sum_eq_zero_iff_of_nonneg (hnn i (Finset.mem_range.2 hi))] at h
      exact (each i j).1 (h j (Finset.mem_range.2 hj))
    · intro h i hi
      apply Finset.sum_eq_zero
      intro j hj
      exact (each i j).2 (h i j (Finset.mem_range.1 hi) (Finset.mem_range.1 hj))

/-- Data as the structure learner passes it: distinct variables, equally many observations, values below the number of categories. -/
def Spec.GoodVarData (data : List VarData) : Prop :=
  (data.map (·.varid)).Nodup ∧ (∀ d ∈ data, 0 ≤ d.categories ∧ Categorical d.categories.toNat d.data) ∧ ∀ d ∈ data, ∀ e ∈ data, d.data.length = e.data.length

/-- The test at significance level `pval` finds the variables at positions `i < j` dependent. -/
noncomputable def Spec.Dependent (chi : XR → Int → XR) (data : List VarData) (pval : XR) (i j : Nat) : Prop :=
  ∃ x y, i < j ∧ data[i]? = some x ∧ data[j]? = some y ∧
    GoFloat.le pval (GoFloat.sub (GoFloat.ofInt 1) (chi (.fin (gValue x.categories.toNat y.categories.toNat x.data y.data)) ((x.categories - 1) * (y.categories - 1)))) = false

theorem testPair_eq (chi : XR → Int → XR) (data : List VarData) (pval : XR) (hd : GoodVarData data) (i j : Nat) (x y : VarData) (hi : data[i]? = some x) (hj : data[j]? = some y) :
    testPair chi data pval i j = some (GoFloat.le pval (GoFloat.sub (GoFloat.ofInt 1)
      (chi (.fin (gValue x.categories.toNat y.categories.toNat x.data y.data)) ((x.categories - 1) * (y.categories - 1))))) := by
  unfold testPair
  have hx := List.mem_of_getElem? hi
  have hy := List.mem_of_getElem? hj
  rw [hi, hj, Option.bind_some, Option.bind_some]
  have ex : x.categories = (x.categories.toNat : Int) := by have := (hd.2.1 x hx).1; omega
  have ey : y.categories = (y.categories.toNat : Int) := by have := (hd.2.1 y hy).1; omega
  have hl := hd.2.2 x hx y hy
  obtain ⟨m, h1, h2⟩ := C65_contingency _ _ x.data y.data hl (hd.2.1 x hx).2 (hd.2.1 y hy).2
  rw [← ex, ← ey] at h1
  rw [h1, Option.bind_some]
  have := (C66_gTest chi pval _ _ x.data y.data hl (hd.2.1 y hy).2 m h2).1
  rw [← ex, ← ey] at this
  exact this

/-- `NewUFIndepGraph` on observed data returns the connected components of the pairs that the G-test finds dependent. -/
theorem C65_graph (chi : XR → Int → XR) (data : List VarData) (pval : XR) (hd : GoodVarData data) :
    ∃ K, newUFIndepGraphOf chi data pval = some K ∧ IsPartitionInto (data.map (·.varid)) (Relation.EqvGen (Dependent chi data pval)) K := by
  have hn : (data.map (·.varid)).length = data.length := by simp
  obtain ⟨K, _, h1, _, h2, _⟩ := C24_components (data.map (·.varid)) hd.1 fun i j => (testPair chi data pval i j).getD true
  refine ⟨K, ?_, ?_⟩
  · rw [← h1]
    unfold newUFIndepGraphOf newUFIndepGraph
    rw [hn]
    congr 1
    have hmem : ∀ pr ∈ pairsBelow data.length, pr.1 < data.length ∧ pr.2 < data.length := by
      rintro ⟨a, b⟩ h
      rw [mem_pairsBelow] at h
      exact ⟨by omega, by omega⟩
    generalize makeAll (data.map (·.varid)) = u0
    generalize pairsBelow data.length = l at hmem
    induction l generalizing u0 with
    | nil => rfl
    | cons pr l ih =>
      have hp := hmem pr (by simp)
      obtain ⟨b, hb⟩ : ∃ b, testPair chi data pval pr.1 pr.2 = some b := by
        rw [testPair_eq chi data pval hd pr.1 pr.2 data[pr.1] data[pr.2] (List.getElem?_eq_getElem hp.1) (List.getElem?_eq_getElem hp.2)]
        exact ⟨_, rfl⟩
      have ih' := fun u => ih u (fun x hx => hmem x (List.mem_cons_of_mem _ hx))
      rw [List.foldlM_cons, List.foldlM_cons]
      simp only [ih']
      congr 1
      simp only [hb, Option.bind_some, Option.getD_some]
  · have hR : dependentPairs data.length (fun i j => (testPair chi data pval i j).getD true) = Dependent chi data pval := by
      funext i j
      unfold dependentPairs Dependent
      apply propext
      constructor
      · rintro ⟨h1, h2, h3⟩
        have hi : i < data.length := by omega
        refine ⟨data[i], data[j], h1, List.getElem?_eq_getElem hi, List.getElem?_eq_getElem h2, ?_⟩
        beta_reduce at h3
        rw [testPair_eq chi data pval hd i j data[i] data[j] (List.getElem?_eq_getElem hi) (List.getElem?_eq_getElem h2)] at h3
        exact h3
      · rintro ⟨x, y, h1, h2, h3, h4⟩
        obtain ⟨hj, _⟩ := List.getElem?_eq_some_iff.1 h3
        refine ⟨h1, hj, ?_⟩
        beta_reduce
        rw [testPair_eq chi data pval hd i j x y h2 h3]
        exact h4
    rw [hn, hR] at h2
    exact h2

/-- Three variables with two, two and three categories. -/
example : GoodVarData [⟨4, 2, [0, 1]⟩, ⟨0, 2, [1, 1]⟩, ⟨7, 3, [2, 0]⟩] := by
  refine ⟨by decide, ?_, ?_⟩
  · intro d hd
    fin_cases hd <;> refine ⟨by decide, fun x hx => ?_⟩ <;> fin_cases hx <;> decide
  · intro d hd e he
    fin_cases hd <;> fin_cases he <;> rfl

end Gospn
