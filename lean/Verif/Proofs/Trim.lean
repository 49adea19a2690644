import Verif.Model.Log
import Mathlib.Data.List.Basic
namespace Gospn
variable {α : Type}

theorem trimLoop_spec (isC : α → Bool) : ∀ (i : Nat) (arr : Array α) (n : Nat), i ≤ n → n ≤ arr.size →
    (∀ j x, i ≤ j → j < n → arr[j]? = some x → isC x = false) → (∀ j x, n ≤ j → arr[j]? = some x → isC x = true) →
    let r := trimLoop isC i arr n
    r.1.toList.Perm arr.toList ∧ r.2 ≤ r.1.size ∧
    (∀ j x, j < r.2 → r.1[j]? = some x → isC x = false) ∧ (∀ j x, r.2 ≤ j → r.1[j]? = some x → isC x = true) := by
  intro i
  induction i with
  | zero => intro arr n _ hn h1 h2; exact ⟨List.Perm.refl _, hn, fun j x => h1 j x (Nat.zero_le _), h2⟩
  | succ i ih =>
    intro arr n hin hn h1 h2
    have hi : i < arr.size := by omega
    have hget : arr[i]? = some arr[i] := by simp [hi]
    simp only [trimLoop, hget]
    by_cases hc : isC arr[i] = true
    · rw [if_pos hc]
      have hn1 : n - 1 < arr.size := by omega
      have hsw : arr.swapIfInBounds (n - 1) i = arr.swap (n - 1) i hn1 hi := by simp [Array.swapIfInBounds, hi, hn1]
      rw [hsw]
      have key : ∀ j, j < arr.size → (arr.swap (n - 1) i hn1 hi)[j]? =
          if j = n - 1 then some arr[i] else if j = i then some arr[n - 1] else arr[j]? := by
        intro j hj
        rw [Array.getElem?_swap]
        by_cases h1 : j = i
        · by_cases h2 : j = n - 1
          · have : i = n - 1 := by omega
            simp [this, h2]
          · simp [h1]
            intro h; exact absurd (h1.trans h) h2
        · by_cases h2 : j = n - 1
          · have : i ≠ n - 1 := fun h => h1 (h2.trans h.symm)
            simp [h2, this]
          · simp [h1, h2, Ne.symm h1, Ne.symm h2]
      have hout : ∀ j, ¬ j < arr.size → (arr.swap (n - 1) i hn1 hi)[j]? = none := by
        intro j hj; simp; omega
      obtain ⟨g1, g2, g3, g4⟩ := ih (arr.swap (n - 1) i hn1 hi) (n - 1) (by omega) (by simp; omega) (by
          intro j x hij hjn hx
          rw [key j (by omega)] at hx
          rw [if_neg (by omega)] at hx
          by_cases hji : j = i
          · rw [if_pos hji] at hx
            simp at hx
            exact h1 (n - 1) x (by omega) (by omega) (by simp [hn1, hx])
          · rw [if_neg hji] at hx
            exact h1 j x (by omega) (by omega) hx) (by
          intro j x hj hx
          by_cases hjs : j < arr.size
          · rw [key j hjs] at hx
            by_cases hjn : j = n - 1
            · rw [if_pos hjn] at hx; simp at hx; rw [← hx]; exact hc
            · rw [if_neg hjn, if_neg (by omega)] at hx
              exact h2 j x (by omega) hx
          · rw [hout j hjs] at hx; simp at hx)
      exact ⟨g1.trans (Array.swap_perm hn1 hi).toList, g2, g3, g4⟩
    · rw [if_neg hc]
      refine ih arr n (by omega) hn ?_ h2
      intro j x hij hjn hx
      by_cases hji : j = i
      · subst hji; rw [hget] at hx; simp at hx; subst hx; simpa using hc
      · exact h1 j x (by omega) hjn hx

theorem trim_spec (isC : α → Bool) (a : Array α) :
    (trim isC a).1.toList.Perm a.toList ∧ (trim isC a).2 <+: (trim isC a).1.toList ∧
    (trim isC a).2.Perm (a.toList.filter (fun x => !isC x)) := by
  obtain ⟨h1, h2, h3, h4⟩ := trimLoop_spec isC a.size a a.size (Nat.le_refl _) (Nat.le_refl _) (by intros; omega)
    (by intro j x hj hx; rw [Array.getElem?_eq_none hj] at hx; cases hx)
  refine ⟨h1, List.take_prefix _ _, ?_⟩
  simp only [trim]
  generalize trimLoop isC a.size a a.size = r at *
  have e1 : (r.1.toList.take r.2).filter (fun x => !isC x) = r.1.toList.take r.2 := by
    rw [List.filter_eq_self]
    intro x hx
    obtain ⟨j, hj⟩ := List.getElem?_of_mem hx
    rw [List.getElem?_take] at hj
    split at hj
    · rename_i hlt; simp [h3 j x hlt (by simpa using hj)]
    · simp at hj
  have e2 : (r.1.toList.drop r.2).filter (fun x => !isC x) = [] := by
    rw [List.filter_eq_nil_iff]
    intro x hx
    obtain ⟨j, hj⟩ := List.getElem?_of_mem hx
    rw [List.getElem?_drop] at hj
    simp [h4 (r.2 + j) x (by omega) (by simpa using hj)]
  have : r.1.toList.filter (fun x => !isC x) = r.1.toList.take r.2 := by
    conv_lhs => rw [← List.take_append_drop r.2 r.1.toList]
    rw [List.filter_append, e1, e2, List.append_nil]
  rw [← this]
  exact h1.filter _

end Gospn
