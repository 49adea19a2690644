/-
Contingency tables as functions of the position.
-/
import Verif.Model.Indep
import Verif.Spec.Indep
import Verif.Proofs.Data
import Verif.Proofs.Spn
import Mathlib.Algebra.BigOperators.Intervals
import Mathlib.Tactic.Ring
import Mathlib.Tactic.Linarith

set_option linter.unusedSectionVars false
set_option linter.unusedSimpArgs false

namespace Gospn
open Spec GoFloat

/-- The matrix with the entries `f i j`. -/
def mat {α : Type} (P Q : Nat) (f : Nat → Nat → α) : List (List α) := (List.range P).map fun i => (List.range Q).map (f i)

theorem goIdx_row {α : Type} (Q : Nat) (f : Nat → α) (j : Nat) (h : j < Q) : goIdx ((List.range Q).map f) (j : Int) = some (f j) := by
  rw [goIdx_nat]; simp [h]

theorem goSet_row {α : Type} (Q : Nat) (f : Nat → α) (j : Nat) (a : α) (h : j < Q) :
    goSet ((List.range Q).map f) (j : Int) a = some ((List.range Q).map (Function.update f j a)) := by
  rw [goSet_nat _ _ _ (by simpa using h), range_map_set]
  congr 1
  apply List.map_congr_left
  intro x _
  simp [Function.update_apply]

theorem goIdx2_mat {α : Type} (P Q : Nat) (f : Nat → Nat → α) (i j : Nat) (hi : i < P) (hj : j < Q) : goIdx2 (mat P Q f) (i : Int) (j : Int) = some (f i j) := by
  unfold goIdx2 mat
  rw [goIdx_row P _ i hi, Option.bind_some, goIdx_row Q _ j hj]

/-- The function with one more entry. -/
def put2 {α : Type} (f : Nat → Nat → α) (i j : Nat) (a : α) : Nat → Nat → α := Function.update f i (Function.update (f i) j a)

theorem put2_apply {α : Type} (f : Nat → Nat → α) (i j : Nat) (a : α) (x y : Nat) : put2 f i j a x y = if x = i ∧ y = j then a else f x y := by
  unfold put2
  by_cases h : x = i
  · subst h; by_cases h2 : y = j
    · subst h2; simp
    · simp [h2]
  · simp [h]

theorem goSet2_mat {α : Type} (P Q : Nat) (f : Nat → Nat → α) (i j : Nat) (a : α) (hi : i < P) (hj : j < Q) :
    goSet2 (mat P Q f) (i : Int) (j : Int) a = some (mat P Q (put2 f i j a)) := by
  unfold goSet2
  have h1 : goIdx (mat P Q f) (i : Int) = some ((List.range Q).map (f i)) := goIdx_row P _ i hi
  rw [h1, Option.bind_some, goSet_row Q _ j a hj, Option.bind_some]
  unfold mat
  rw [goSet_row P _ i _ hi]
  congr 1
  apply List.map_congr_left
  intro x _
  unfold put2
  by_cases h : x = i
  · subst h; simp
  · simp [h]

/-- A loop whose state after `k` rounds is `g k`. -/
theorem goFor_state {α : Type} (n : Nat) (body : α → Int → Option α) (g : Nat → α) (h : ∀ k, k < n → body (g k) (k : Int) = some (g (k + 1))) :
    goFor (n : Int) (g 0) body = some (g n) := by
  unfold goFor
  rw [Int.toNat_natCast]
  induction n with
  | zero => rfl
  | succ n ih =>
    rw [List.range_succ, List.foldlM_append, ih fun k hk => h k (by omega)]
    simp [h n (by omega)]

theorem replicate_eq_map {α : Type} (n : Nat) (a : α) : List.replicate n a = (List.range n).map fun _ => a := by
  simp [List.map_const']

theorem take_succ_count (X : List Int) (k : Nat) (h : k < X.length) (v : Int) : (X.take (k + 1)).count v = (X.take k).count v + if X[k] = v then 1 else 0 := by
  rw [List.take_add_one, List.getElem?_eq_getElem h, List.count_append]
  simp [List.count_cons]

theorem countPairs_eq (p q : Nat) (X Y : List Int) (hXY : X.length = Y.length) (hX : Categorical p X) (hY : Categorical q Y) :
    countPairs (p : Int) (q : Int) X Y = some (mat (p + 1) (q + 1) fun i j => (jointCount X Y i j : Int)) := by
  unfold countPairs
  have h0 : List.replicate ((p : Int) + 1).toNat (List.replicate ((q : Int) + 1).toNat (0 : Int)) =
      mat (p + 1) (q + 1) fun i j => (jointCount (X.take 0) (Y.take 0) i j : Int) := by
    have e1 : ((p : Int) + 1).toNat = p + 1 := by omega
    have e2 : ((q : Int) + 1).toNat = q + 1 := by omega
    rw [e1, e2, replicate_eq_map, replicate_eq_map]
    simp [mat, jointCount]
  rw [h0]
  have := goFor_state X.length (fun m k =>
    (goIdx X k).bind fun a => (goIdx Y k).bind fun b => (goIdx2 m a b).bind fun c => goSet2 m a b (c + 1))
    (fun k => mat (p + 1) (q + 1) fun i j => (jointCount (X.take k) (Y.take k) i j : Int)) ?_
  · rw [this]
    congr 2
    funext i j
    rw [List.take_of_length_le (Nat.le_refl _), List.take_of_length_le (by omega)]
  · intro k hk
    have hk' : k < Y.length := by omega
    rw [goIdx_nat, goIdx_nat, List.getElem?_eq_getElem hk, List.getElem?_eq_getElem hk', Option.bind_some, Option.bind_some]
    obtain ⟨ha0, ha1⟩ := hX X[k] (List.getElem_mem hk)
    obtain ⟨hb0, hb1⟩ := hY Y[k] (List.getElem_mem hk')
    obtain ⟨a, ha⟩ := Int.eq_ofNat_of_zero_le ha0
    obtain ⟨b, hb⟩ := Int.eq_ofNat_of_zero_le hb0
    rw [ha, hb, goIdx2_mat _ _ _ _ _ (by omega) (by omega), Option.bind_some, goSet2_mat _ _ _ _ _ _ (by omega) (by omega)]
    congr 2
    funext i j
    rw [put2_apply]
    unfold jointCount
    have hz : ∀ (n : Nat), (X.take n).zip (Y.take n) = (X.zip Y).take n := fun n => by
      rw [List.zip_eq_zipWith, List.zip_eq_zipWith, List.take_zipWith]
    rw [hz, hz, List.take_add_one, List.getElem?_eq_getElem (by simp; omega : k < (X.zip Y).length), List.count_append]
    have hab : (X.zip Y)[k]'(by simp; omega) = ((a : Int), (b : Int)) := by
      rw [List.getElem_zip, ha, hb]
    rw [hab]
    by_cases h : i = a ∧ j = b
    · obtain ⟨rfl, rfl⟩ := h; simp
    · rw [if_neg h]
      have : (((a : Int), (b : Int)) == ((i : Int), (j : Int))) = false := by
        rw [beq_eq_false_iff_ne]
        intro e
        rw [Prod.mk.injEq] at e
        exact h ⟨by omega, by omega⟩
      simp [List.count_cons, this]

/-- Sum of the first `n` values. -/
def sumTo (f : Nat → Int) (n : Nat) : Int := ∑ i ∈ Finset.range n, f i

theorem rowTotal_eq (P Q q : Nat) (f : Nat → Nat → Int) (x : Nat) (hx : x < P) (hq : q ≤ Q) (t : Nat → Int) :
    rowTotal (mat P Q f) (x : Int) (q : Int) ((List.range q).map t) = some ((List.range q).map (fun y => t y + f x y), sumTo (f x) q) := by
  unfold rowTotal
  have := goFor_state q (fun (st : List Int × Int) y =>
    (goIdx2 (mat P Q f) x y).bind fun c => (goIdx st.1 y).bind fun t => (goSet st.1 y (t + c)).map fun tx => (tx, st.2 + c))
    (fun k => ((List.range q).map (fun y => if y < k then t y + f x y else t y), sumTo (f x) k)) ?_
  · simp only [Nat.not_lt_zero, if_false] at this
    rw [show sumTo (f x) 0 = 0 from rfl] at this
    rw [this]
    congr 2
    apply List.map_congr_left
    intro y hy
    rw [if_pos (List.mem_range.1 hy)]
  · intro k hk
    simp only []
    rw [goIdx2_mat _ _ _ _ _ hx (by omega), Option.bind_some, goIdx_row _ _ _ hk, Option.bind_some, goSet_row _ _ _ _ hk, Option.map_some]
    congr 2
    · apply List.map_congr_left
      intro y _
      by_cases h : y = k
      · subst h; simp
      · simp only [Function.update_apply, h, if_false]
        by_cases h2 : y < k
        · rw [if_pos h2, if_pos (by omega)]
        · rw [if_neg h2, if_neg (by omega)]
    · simp [sumTo, Finset.sum_range_succ]

theorem rowTotals_eq (p q : Nat) (f : Nat → Nat → Int) :
    rowTotals (p : Int) (q : Int) (mat (p + 1) (q + 1) f) =
      some (mat (p + 1) (q + 1) (fun i j => if i < p ∧ j = q then sumTo (f i) q else f i j), (List.range q).map fun y => sumTo (fun i => f i y) p) := by
  unfold rowTotals
  have := goFor_state p (fun (st : List (List Int) × List Int) x =>
    (rowTotal st.1 x q st.2).bind fun r => (goSet2 st.1 x q r.2).map fun m => (m, r.1))
    (fun k => (mat (p + 1) (q + 1) (fun i j => if i < k ∧ j = q then sumTo (f i) q else f i j), (List.range q).map fun y => sumTo (fun i => f i y) k)) ?_
  · simp only [Nat.not_lt_zero, false_and, if_false] at this
    rw [← this]
    congr 2
    rw [Int.toNat_natCast, replicate_eq_map]
    apply List.map_congr_left
    intro y _
    rfl
  · intro k hk
    simp only []
    rw [rowTotal_eq (p + 1) (q + 1) q _ k (by omega) (by omega), Option.bind_some, goSet2_mat _ _ _ _ _ _ (by omega) (by omega), Option.map_some]
    have hr : sumTo (fun j => if k < k ∧ j = q then sumTo (f k) q else f k j) q = sumTo (f k) q := by simp
    congr 2
    · congr 1
      funext i j
      rw [put2_apply]
      simp only [Nat.lt_irrefl, false_and, if_false]
      by_cases h : i = k ∧ j = q
      · obtain ⟨rfl, rfl⟩ := h
        rw [if_pos ⟨rfl, rfl⟩, if_pos ⟨by omega, rfl⟩]
      · rw [if_neg h]
        by_cases h2 : i < k ∧ j = q
        · rw [if_pos h2, if_pos ⟨by omega, h2.2⟩]
        · rw [if_neg h2, if_neg (by omega)]
    · apply List.map_congr_left
      intro y _
      simp [sumTo, Finset.sum_range_succ]

theorem colTotals_eq (p q : Nat) (f : Nat → Nat → Int) (t : Nat → Int) :
    colTotals (p : Int) (q : Int) (mat (p + 1) (q + 1) f) ((List.range q).map t) =
      some (mat (p + 1) (q + 1) fun i j => if i = p then (if j < q then t j else if j = q then sumTo t q else f i j) else f i j) := by
  unfold colTotals
  have := goFor_state q (fun (st : List (List Int) × Int) y => (goIdx ((List.range q).map t) y).bind fun c => (goSet2 st.1 p y c).map fun m => (m, st.2 + c))
    (fun k => (mat (p + 1) (q + 1) (fun i j => if i = p ∧ j < k then t j else f i j), sumTo t k)) ?_
  · simp only [Nat.not_lt_zero, and_false, if_false] at this
    rw [show sumTo t 0 = 0 from rfl] at this
    rw [this, Option.bind_some, goSet2_mat _ _ _ _ _ _ (by omega) (by omega)]
    congr 2
    funext i j
    rw [put2_apply]
    by_cases h1 : i = p <;> by_cases h2 : j = q <;> simp [h1, h2]
  · intro k hk
    simp only []
    rw [goIdx_row _ _ _ hk, Option.bind_some, goSet2_mat _ _ _ _ _ _ (by omega) (by omega), Option.map_some]
    congr 2
    · congr 1
      funext i j
      rw [put2_apply]
      by_cases h : i = p ∧ j = k
      · obtain ⟨rfl, rfl⟩ := h; simp
      · rw [if_neg h]
        by_cases h2 : i = p ∧ j < k
        · rw [if_pos h2, if_pos ⟨h2.1, by omega⟩]
        · rw [if_neg h2, if_neg (by omega)]
    · simp [sumTo, Finset.sum_range_succ]

/-- The observations with a value of the first variable, counted by the second. -/
theorem sum_joint_right (q : Nat) (X Y : List Int) (hXY : X.length = Y.length) (hY : Categorical q Y) (i : Nat) :
    ∑ j ∈ Finset.range q, jointCount X Y i j = valueCount X i := by
  induction X generalizing Y with
  | nil => simp [jointCount, valueCount]
  | cons x X ih =>
    cases Y with
    | nil => simp at hXY
    | cons y Y =>
      have hy := hY y (by simp)
      obtain ⟨b, rfl⟩ := Int.eq_ofNat_of_zero_le hy.1
      have e : ∀ j, jointCount (x :: X) ((b : Int) :: Y) i j = jointCount X Y i j + if x = i ∧ j = b then 1 else 0 := by
        intro j
        unfold jointCount
        rw [List.zip_cons_cons, List.count_cons]
        congr 1
        by_cases h : x = (i : Int) ∧ j = b
        · obtain ⟨rfl, rfl⟩ := h; simp
        · rw [if_neg h, if_neg]
          rw [beq_iff_eq, Prod.mk.injEq]
          rintro ⟨h1, h2⟩
          exact h ⟨h1, by omega⟩
      simp only [e]
      rw [Finset.sum_add_distrib, ih Y (by simpa using hXY) (fun z hz => hY z (by simp [hz]))]
      unfold valueCount
      rw [List.count_cons]
      congr 1
      by_cases h : x = (i : Int)
      · subst h
        have hb : b < q := by have := hy.2; omega
        simp [Finset.sum_ite_eq', hb]
      · simp [h]

theorem jointCount_swap (X Y : List Int) (i j : Nat) : jointCount X Y i j = jointCount Y X j i := by
  induction X generalizing Y with
  | nil => simp [jointCount]
  | cons x X ih =>
    cases Y with
    | nil => simp [jointCount]
    | cons y Y =>
      have := ih Y
      unfold jointCount at *
      rw [List.zip_cons_cons, List.zip_cons_cons, List.count_cons, List.count_cons, this]
      congr 1
      simp only [beq_iff_eq, Prod.mk.injEq, and_comm]

theorem sum_joint_left (p : Nat) (X Y : List Int) (hXY : X.length = Y.length) (hX : Categorical p X) (j : Nat) :
    ∑ i ∈ Finset.range p, jointCount X Y i j = valueCount Y j := by
  simp only [jointCount_swap X Y]
  exact sum_joint_right p Y X hXY.symm hX j

theorem sum_value (p : Nat) (X : List Int) (hX : Categorical p X) : ∑ i ∈ Finset.range p, valueCount X i = X.length := by
  induction X with
  | nil => simp [valueCount]
  | cons x X ih =>
    have hx := hX x (by simp)
    obtain ⟨a, rfl⟩ := Int.eq_ofNat_of_zero_le hx.1
    have e : ∀ i, valueCount ((a : Int) :: X) i = valueCount X i + if i = a then 1 else 0 := by
      intro i
      unfold valueCount
      rw [List.count_cons]
      congr 1
      by_cases h : i = a
      · subst h; simp
      · rw [if_neg h, if_neg]; rw [beq_iff_eq]; omega
    simp only [e]
    rw [Finset.sum_add_distrib, ih fun z hz => hX z (by simp [hz])]
    have ha : a < p := by have := hx.2; omega
    simp [Finset.sum_ite_eq', ha]

/-- The table made by the code. -/
def tableOf (p q : Nat) (X Y : List Int) (i j : Nat) : Int :=
  if i = p then (if j = q then (X.length : Int) else (valueCount Y j : Int)) else if j = q then (valueCount X i : Int) else (jointCount X Y i j : Int)

theorem contingency_eq (p q : Nat) (X Y : List Int) (hXY : X.length = Y.length) (hX : Categorical p X) (hY : Categorical q Y) :
    contingency (p : Int) (q : Int) X Y = some (mat (p + 1) (q + 1) (tableOf p q X Y)) := by
  unfold contingency
  rw [countPairs_eq p q X Y hXY hX hY, Option.bind_some, rowTotals_eq, Option.bind_some]
  simp only []
  rw [colTotals_eq]
  congr 1
  unfold mat
  apply List.map_congr_left
  intro i hi
  apply List.map_congr_left
  intro j hj
  rw [List.mem_range] at hi hj
  have hrow : ∀ i, sumTo (fun j => (jointCount X Y i j : Int)) q = (valueCount X i : Int) := by
    intro i; unfold sumTo; rw [← sum_joint_right q X Y hXY hY i]; push_cast; rfl
  have hcol : ∀ j, sumTo (fun i => (jointCount X Y i j : Int)) p = (valueCount Y j : Int) := by
    intro j; unfold sumTo; rw [← sum_joint_left p X Y hXY hX j]; push_cast; rfl
  have htot : sumTo (fun y => sumTo (fun i => (jointCount X Y i y : Int)) p) q = (X.length : Int) := by
    simp only [hcol]
    unfold sumTo
    rw [hXY, ← sum_value q Y hY]; push_cast; rfl
  unfold tableOf
  beta_reduce
  by_cases h1 : i = p
  · subst h1
    rw [if_pos rfl, if_pos rfl]
    by_cases h2 : j < q
    · rw [if_pos h2, if_neg (by omega), hcol]
    · have : j = q := by omega
      subst this
      rw [if_neg h2, if_pos rfl, if_pos rfl, htot]
  · rw [if_neg h1, if_neg h1]
    by_cases h2 : j = q
    · subst h2
      rw [if_pos ⟨by omega, rfl⟩, if_pos rfl, hrow]
    · rw [if_neg (by omega), if_neg h2]

end Gospn
