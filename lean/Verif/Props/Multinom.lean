import Verif.Proofs.Multinom
/-!
Property C51: multinomial leaves.
-/
namespace Gospn
open Spec GoFloat

/-- C51 for `NewCountingMultinomial`: the probability of a category is (count + 1) / (total + number of categories); these are positive and sum to one,
and the recorded mode is a most probable category, whatever `RandIntn` returns. -/
theorem C51_counting (rand : Nat → Nat) (hrand : ∀ n, 0 < n → rand n < n) (v : Int) (counts : List Int) (h : ∀ c ∈ counts, 0 ≤ c) (hne : counts ≠ []) :
    ∃ l q, newCountingMultinomial rand v counts = some l ∧ q = counts.map (fun c : Int => ((c : ℝ) + 1) / ((counts.sum : ℝ) + counts.length)) ∧
      TrueMode l v q ∧ (∀ x ∈ q, 0 < x) ∧ q.sum = 1 := by
  obtain ⟨h1, h2⟩ := smoothed_dist counts h hne
  obtain ⟨l, hl, ht⟩ := withMode_spec rand hrand v _ (fun x hx => (h1 x hx).le) (by simpa using hne)
  exact ⟨l, _, by rw [newCountingMultinomial, smoothed_spec counts h hne]; exact hl, rfl, ht, h1, h2⟩

example : (∀ n, 0 < n → (fun n => n - 1) n < n) ∧ (∀ c ∈ ([2, 0, 2] : List Int), 0 ≤ c) ∧ ([2, 0, 2] : List Int) ≠ [] :=
  ⟨fun n h => by show n - 1 < n; omega, by decide, by decide⟩

/-- C51 for `NewScopedCountingMultinomial`. -/
theorem C51_scoped (v : Int) (esc : List Int) (counts : List Int) (h : ∀ c ∈ counts, 0 ≤ c) (hne : counts ≠ []) :
    ∃ q, q = counts.map (fun c : Int => ((c : ℝ) + 1) / ((counts.sum : ℝ) + counts.length)) ∧
      TrueMode (newScopedCountingMultinomial v esc counts) v q ∧ (∀ x ∈ q, 0 < x) ∧ q.sum = 1 := by
  obtain ⟨h1, h2⟩ := smoothed_dist counts h hne
  obtain ⟨c, hc⟩ := List.exists_mem_of_ne_nil _ (show counts.map (fun c : Int => ((c : ℝ) + 1) / ((counts.sum : ℝ) + counts.length)) ≠ [] by simpa using hne)
  obtain ⟨k, m, e, hk, hm⟩ := computeMode_spec _ (fun x hx => (h1 x hx).le) ⟨c, hc, h1 c hc⟩
  refine ⟨_, rfl, ⟨esc, k, m, ?_, hk, hm⟩, h1, h2⟩
  rw [newScopedCountingMultinomial, smoothed_spec counts h hne, e]

/-- C51 for `NewEmptyMultinomial`: uniform over a positive number of categories (and a panic for none). -/
theorem C51_empty (v : Int) (m : Nat) (hm : 0 < m) :
    ∃ l q, newEmptyMultinomial v m = some l ∧ q = List.replicate m (1 / (m : ℝ)) ∧ TrueMode l v q ∧ q.sum = 1 := by
  have hm' : (m : ℝ) ≠ 0 := by exact_mod_cast hm.ne'
  have e : (List.replicate m (div (ofInt 1) (ofInt m)) : List XR) = (List.replicate m (1 / (m : ℝ))).map XR.fin := by
    rw [List.map_replicate]; congr 1
    show XR.div (.fin ((1 : ℤ) : ℝ)) (.fin ((m : ℤ) : ℝ)) = _
    rw [XR.div_fin (by exact_mod_cast hm')]; simp
  refine ⟨.multinomial [v] v ((List.replicate m (1 / (m : ℝ))).map XR.fin) 0 (.fin (1 / (m : ℝ))), _, ?_, rfl, ⟨[v], 0, 1 / m, rfl, ?_, ?_⟩, ?_⟩
  · unfold newEmptyMultinomial
    rw [e]; simp [hm]
  · simp [hm]
  · intro x hx; exact (List.eq_of_mem_replicate hx).le
  · rw [List.sum_replicate, nsmul_eq_mul]; field_simp

example : 0 < 4 := by decide

/-- C51 for `NewMultinomial`: the recorded mode is a most probable category, whatever `RandIntn` returns. -/
theorem C51_multinomial (rand : Nat → Nat) (hrand : ∀ n, 0 < n → rand n < n) (v : Int) (q : List ℝ) (h0 : ∀ x ∈ q, 0 ≤ x) (hq : q ≠ []) :
    ∃ l, newMultinomial rand v (q.map XR.fin) = some l ∧ TrueMode l v q := withMode_spec rand hrand v q h0 hq

example : (∀ x ∈ ([1 / 2, 0, 1 / 2] : List ℝ), 0 ≤ x) ∧ ([1 / 2, 0, 1 / 2] : List ℝ) ≠ [] :=
  ⟨by norm_num, List.cons_ne_nil _ _⟩

/-- C51 for `computeMode`, used when a leaf is decoded: a most probable category if some probability is positive. -/
theorem C51_computeMode (q : List ℝ) (h0 : ∀ x ∈ q, 0 ≤ x) (hp : ∃ x ∈ q, 0 < x) :
    ∃ (k : Nat) (m : ℝ), computeMode (q.map XR.fin) = (k, .fin m) ∧ q[k]? = some m ∧ ∀ x ∈ q, x ≤ m := computeMode_spec q h0 hp

/-- Every tie can be broken either way: each most probable category is the mode for some result of `RandIntn`. -/
theorem C51_ties (v : Int) (q : List ℝ) (h0 : ∀ x ∈ q, 0 ≤ x) (k : Nat) (m : ℝ) (hk : q[k]? = some m) (hm : ∀ x ∈ q, x ≤ m) :
    ∃ rand : Nat → Nat, (∀ n, 0 < n → rand n < n) ∧ newMultinomial rand v (q.map XR.fin) = some (.multinomial [v] v (q.map XR.fin) k (.fin m)) := by
  have hq : q ≠ [] := by rintro rfl; simp at hk
  obtain ⟨mi, m', miv, e, h1, h2, h3, h4⟩ := modeScan_spec q h0 hq
  have : m = m' := le_antisymm (h2 m (List.mem_of_getElem? hk)) (hm m' (List.mem_of_getElem? h1))
  subst this
  obtain ⟨j, hj, hje⟩ := List.mem_iff_getElem.1 (h4 k hk)
  refine ⟨fun n => if n = miv.length then j else 0, ?_, ?_⟩
  · intro n hn
    dsimp only
    split
    · subst_vars; exact hj
    · exact hn
  · unfold newMultinomial withMode
    rw [e]
    dsimp only
    split
    · simp [hj, hje]
    · have hl : miv.length = 1 := by omega
      have : mi = k := by
        obtain ⟨a, ha⟩ := List.length_eq_one_iff.1 hl
        have x1 := h4 mi h1
        have x2 := h4 k hk
        rw [ha] at x1 x2
        simp at x1 x2; rw [x1, x2]
      rw [this]

end Gospn
