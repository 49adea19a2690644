/-
Theorems about utils/stats.go: C50, C60.
-/
import Verif.Model.Stats
import Verif.Spec.Stats
import Verif.Proofs.Log
import Verif.Proofs.Spn
import Mathlib.Tactic.Ring
import Mathlib.Algebra.Order.Floor.Semifield
import Mathlib.Tactic.FieldSimp
import Mathlib.Tactic.Linarith
import Mathlib.Tactic.Positivity
import Mathlib.Algebra.BigOperators.Group.List.Basic

set_option linter.unusedSectionVars false
set_option linter.unusedSimpArgs false

namespace Gospn
open Spec GoFloat

/-! ### C50 -/

/-- The length of a group, in exact arithmetic. -/
theorem quantLen_eq (k m : Nat) (hm : 0 < m) : quantLen XR (k : Int) (m : Int) = if k < 2 * m then 1 else (((2 * k + m) / (2 * m) : Nat) : Int) := by
  unfold quantLen
  have h1 : ((k : Int).tdiv m ≤ 1) ↔ k < 2 * m := by
    rw [Int.tdiv_eq_ediv_of_nonneg (by omega), ← Int.natCast_ediv]
    have := Nat.div_lt_iff_lt_mul (x := k) (y := 2) hm
    omega
  by_cases h : k < 2 * m
  · rw [if_pos (h1.2 h), if_pos h]
  · rw [if_neg (fun h' => h (h1.1 h')), if_neg h]
    have hm' : (m : ℝ) ≠ 0 := by positivity
    simp only [XR.g_ofInt, XR.g_div, Int.cast_natCast, XR.div_fin hm', XR.g_round, XR.g_toInt, XR.round]
    have h0 : (0 : ℝ) ≤ (k : ℝ) / m := by positivity
    rw [if_pos h0]
    have hf : ⌊(k : ℝ) / m + 1 / 2⌋ = (((2 * k + m) / (2 * m) : Nat) : Int) := by
      have : (k : ℝ) / m + 1 / 2 = ((2 * k + m : Nat) : ℝ) / ((2 * m : Nat) : ℝ) := by
        push_cast
        field_simp
      rw [this, ← Nat.floor_div_eq_div (K := ℝ)]
      exact (Int.natCast_floor_eq_floor (by positivity)).symm
    rw [hf]
    simp only [XR.toInt]
    have : (0 : ℝ) ≤ (((((2 * k + m) / (2 * m) : Nat) : Int) : ℤ) : ℝ) := by
      exact_mod_cast Nat.zero_le _
    rw [if_pos this, Int.floor_intCast]

theorem quantGroup_eq (X : List Int) (l m i : Nat) (hi : i < m) :
    quantGroup X (l : Int) (m : Int) (i : Int) = some ((X.drop (i * l)).take (if i = m - 1 then X.length else l)) := by
  unfold quantGroup
  have hm : ((i : Int) = (m : Int) - 1) ↔ i = m - 1 := by omega
  have hil : ((i : Int) * l) = ((i * l : Nat) : Int) := by push_cast; rfl
  simp only [hm, hil]
  have hrange : ∀ n : Nat, i * l + n ≤ X.length ∨ n = 0 →
      (List.range n).mapM (fun (d : Nat) => goIdx X (((i * l : Nat) : Int) + (d : Int))) = some ((X.drop (i * l)).take n) := by
    intro n hn
    rw [mapM_eq_some (g := fun d => X.getD (i * l + d) 0)]
    · congr 1
      apply List.ext_getElem?
      intro j
      rw [List.getElem?_map, List.getElem?_take, List.getElem?_drop]
      by_cases hj : j < n
      · have : i * l + j < X.length := by omega
        simp [List.getElem?_range hj, hj, this]
      · simp [hj]
    · intro d hd
      have hd := List.mem_range.1 hd
      have : i * l + d < X.length := by omega
      rw [← Int.natCast_add]
      have h2 : ¬ (((i * l + d : Nat) : Int) < 0) := by omega
      simp only [goIdx, if_neg h2, Int.toNat_natCast]
      simp [this]
  by_cases h : i = m - 1
  · rw [if_pos h, if_pos h]
    simp only [Int.min_self]
    have : (((X.length : Int) - ((i * l : Nat) : Int)).toNat) = X.length - i * l := by omega
    rw [this, hrange _ (by omega)]
    congr 1
    rw [List.take_of_length_le (by simp), List.take_of_length_le (by simp)]
  · rw [if_neg h, if_neg h]
    have e : ((i : Int) + 1) * l = ((i * l + l : Nat) : Int) := by push_cast; ring
    rw [e]
    have : (min (((i * l + l : Nat) : Int)) (X.length : Int) - ((i * l : Nat) : Int)).toNat = min l (X.length - i * l) := by omega
    rw [this, hrange _ (by omega)]
    congr 1
    rw [← List.take_take]
    congr 1
    rw [List.take_of_length_le (by simp)]

/-- The groups. -/
def quantGroups (X : List Int) (l m : Nat) : List (List Int) :=
  (List.range m).map fun i => (X.drop (i * l)).take (if i = m - 1 then X.length else l)

theorem flatten_prefix (X : List Int) (l : Nat) : ∀ n : Nat, ((List.range n).map fun i => (X.drop (i * l)).take l).flatten = X.take (n * l) := by
  intro n
  induction n with
  | zero => simp
  | succ n ih =>
    rw [List.range_succ, List.map_append, List.flatten_append, ih]
    simp only [List.map_cons, List.map_nil, List.flatten_cons, List.flatten_nil, List.append_nil]
    rw [Nat.succ_mul, List.take_add]

theorem quantGroups_flatten (X : List Int) (l m : Nat) (hm : 0 < m) : (quantGroups X l m).flatten = X := by
  obtain ⟨m, rfl⟩ := Nat.exists_eq_add_of_lt hm
  simp only [Nat.zero_add] at *
  unfold quantGroups
  rw [List.range_succ, List.map_append, List.flatten_append]
  have : (List.range m).map (fun i => (X.drop (i * l)).take (if i = m + 1 - 1 then X.length else l)) = (List.range m).map fun i => (X.drop (i * l)).take l := by
    apply List.map_congr_left
    intro i hi
    have := List.mem_range.1 hi
    rw [if_neg (by omega)]
  rw [this, flatten_prefix]
  simp only [List.map_cons, List.map_nil, List.flatten_cons, List.flatten_nil, List.append_nil, Nat.add_sub_cancel, if_true]
  rw [List.take_of_length_le (i := X.length) (by simp)]
  exact List.take_append_drop _ _

theorem foldl_add_total {α : Type} (f : α → XR) (g : α → ℝ) (l : List α) (h : ∀ x ∈ l, f x = .fin (g x)) : ∀ a : ℝ,
    l.foldl (fun s x => GoFloat.add s (f x)) (XR.fin a) = XR.fin (a + total g l) := by
  induction l with
  | nil => intro a; simp [total]
  | cons y l ih =>
    intro a
    rw [List.foldl_cons, h y (by simp)]
    simp only [XR.g_add, XR.add_fin]
    have := ih (fun x hx => h x (by simp [hx])) (a + g y)
    simp only [XR.g_add] at this
    rw [this]
    simp [total, add_assoc]

theorem quantStats_eq (Q : List Int) (hQ : Q ≠ []) :
    (quantStats Q : List XR) = [.fin (sampleMean Q), .fin (if sampleSd Q = 0 then 1 / 2 else sampleSd Q), .fin Q.length] := by
  have hn : (Q.length : ℝ) ≠ 0 := by
    have : Q.length ≠ 0 := by simpa using hQ
    exact_mod_cast this
  have hs := foldl_add_total (fun x => (ofInt x : XR)) (fun (x : Int) => (x : ℝ)) Q (fun x _ => rfl) 0
  have hmu : (div (Q.foldl (fun s x => add s (ofInt x)) (ofInt 0)) (ofInt (Q.length : Int)) : XR) = .fin (sampleMean Q) := by
    have h0 : (ofInt 0 : XR) = .fin 0 := by simp
    rw [h0, hs]
    simp only [XR.g_ofInt, XR.g_div, Int.cast_natCast, XR.div_fin hn, zero_add, sampleMean]
  have hq := foldl_add_total (fun x => GoFloat.mul (GoFloat.sub (ofInt x : XR) (.fin (sampleMean Q))) (GoFloat.sub (ofInt x : XR) (.fin (sampleMean Q))))
    (fun (x : Int) => ((x : ℝ) - sampleMean Q) ^ 2) Q (fun x _ => by simp [pow_two]) 0
  have hsg : (sqrt (div (Q.foldl (fun s x => let d := sub (ofInt x : XR) (.fin (sampleMean Q)); add s (mul d d)) (ofInt 0)) (ofInt (Q.length : Int))) : XR) =
      .fin (sampleSd Q) := by
    have h0 : (ofInt 0 : XR) = .fin 0 := by simp
    simp only [h0]
    rw [hq]
    simp only [XR.g_ofInt, XR.g_div, Int.cast_natCast, XR.div_fin hn, zero_add, XR.g_sqrt, XR.sqrt]
    have : ¬ (total (fun (x : Int) => ((x : ℝ) - sampleMean Q) ^ 2) Q / Q.length < 0) := by
      have : 0 ≤ total (fun (x : Int) => ((x : ℝ) - sampleMean Q) ^ 2) Q := by
        unfold total
        apply List.sum_nonneg
        intro y hy
        obtain ⟨x, _, rfl⟩ := List.mem_map.1 hy
        positivity
      have : 0 ≤ total (fun (x : Int) => ((x : ℝ) - sampleMean Q) ^ 2) Q / Q.length := by positivity
      linarith
    rw [if_neg this]
    rfl
  unfold quantStats
  simp only [hmu, hsg]
  by_cases h : sampleSd Q = 0
  · simp [h, XR.eq, XR.div]
  · simp [h, XR.eq]

theorem quantStats_nil : (quantStats [] : List XR) = [.nan, .nan, .fin 0] := by
  simp [quantStats, XR.div, XR.signedInf, XR.sqrt, XR.eq]

theorem partitionQuantiles_eq (X : List Int) (m : Nat) (hm : 0 < m) :
    (partitionQuantiles X (m : Int) : Option (List (List XR))) =
      some ((quantGroups X (if X.length < 2 * m then 1 else (2 * X.length + m) / (2 * m)) m).map quantStats) := by
  unfold partitionQuantiles
  rw [if_neg (by omega), quantLen_eq _ _ hm]
  generalize hl : (if X.length < 2 * m then 1 else (2 * X.length + m) / (2 * m)) = l
  have : (if X.length < 2 * m then (1 : Int) else (((2 * X.length + m) / (2 * m) : Nat) : Int)) = (l : Int) := by
    rw [← hl]; split <;> rfl
  rw [this, Int.toNat_natCast, mapM_eq_some (g := fun i => quantStats ((X.drop (i * l)).take (if i = m - 1 then X.length else l)))]
  · unfold quantGroups
    rw [List.map_map]
    rfl
  · intro i hi
    rw [quantGroup_eq X l m i (List.mem_range.1 hi)]
    rfl

/-- C50, part: for every slice and every `m ≥ 1`, `PartitionQuantiles(X, m)` returns, for `m` consecutive groups that together are exactly `X`, mean, standard
deviation (one half if it is zero) and size of each group that is not empty and NaN, NaN, 0 for each that is. If `m ≤ len(X)`, no group is empty when `len(X) < 2m` or
`m(m-1) < 2 len(X)`. Missing: other `m`, for which the last group may be empty (`C50_refuted`). -/
theorem C50_partition_partial (X : List Int) (m : Nat) (hm : 0 < m) :
    ∃ G : List (List Int), (partitionQuantiles X (m : Int) : Option (List (List XR))) = some (G.map fun Q =>
        if Q = [] then [.nan, .nan, .fin 0] else [.fin (sampleMean Q), .fin (if sampleSd Q = 0 then 1 / 2 else sampleSd Q), .fin Q.length]) ∧
      G.length = m ∧ G.flatten = X ∧
      (m ≤ X.length → X.length < 2 * m ∨ m * (m - 1) < 2 * X.length → ∀ Q ∈ G, Q ≠ []) := by
  refine ⟨_, ?_, ?_, quantGroups_flatten X (if X.length < 2 * m then 1 else (2 * X.length + m) / (2 * m)) m hm, ?_⟩
  · rw [partitionQuantiles_eq X m hm]
    congr 1
    apply List.map_congr_left
    intro Q _
    by_cases hQ : Q = []
    · rw [if_pos hQ, hQ, quantStats_nil]
    · rw [if_neg hQ, quantStats_eq Q hQ]
  · simp [quantGroups]
  · intro h1 h2 Q hQ
    unfold quantGroups at hQ
    obtain ⟨i, hi, rfl⟩ := List.mem_map.1 hQ
    have hi := List.mem_range.1 hi
    generalize hl : (if X.length < 2 * m then 1 else (2 * X.length + m) / (2 * m)) = l
    have hl0 : 0 < l := by
      rw [← hl]
      split
      · exact Nat.one_pos
      · exact Nat.div_pos (by omega) (by omega)
    have hlast : (m - 1) * l < X.length := by
      rw [← hl]
      split
      · omega
      · rename_i h
        have h2 : m * (m - 1) < 2 * X.length := h2.resolve_left h
        have hle : 2 * m * ((2 * X.length + m) / (2 * m)) ≤ 2 * X.length + m := Nat.mul_div_le _ _
        generalize (2 * X.length + m) / (2 * m) = t at hle ⊢
        obtain ⟨n, rfl⟩ : ∃ n, m = n + 1 := ⟨m - 1, by omega⟩
        simp only [Nat.add_sub_cancel] at h2 ⊢
        -- 2 (n+1) n t ≤ n (2k + n + 1) = 2nk + n(n+1) < 2nk + 2k
        have a1 : n * (2 * (n + 1) * t) ≤ n * (2 * X.length + (n + 1)) := Nat.mul_le_mul_left n hle
        have a2 : n * (2 * (n + 1) * t) = 2 * (n + 1) * (n * t) := by ring
        have a3 : n * (2 * X.length + (n + 1)) = 2 * n * X.length + (n + 1) * n := by ring
        have a4 : 2 * (n + 1) * (n * t) < 2 * (n + 1) * X.length := by
          have : 2 * (n + 1) * X.length = 2 * n * X.length + 2 * X.length := by ring
          omega
        exact Nat.lt_of_mul_lt_mul_left a4
    have hle : i * l ≤ (m - 1) * l := Nat.mul_le_mul_right l (by omega)
    intro h
    have := congrArg List.length h
    simp only [List.length_take, List.length_drop, List.length_nil] at this
    split at this <;> omega

/-- C50 fails as stated: of any 18 values in 7 groups, the last group is empty and its mean and standard deviation are NaN. -/
theorem C50_refuted (X : List Int) (hX : X.length = 18) :
    ∃ P : List (List XR), (partitionQuantiles X 7 : Option (List (List XR))) = some P ∧ P[6]? = some [.nan, .nan, .fin 0] := by
  have := partitionQuantiles_eq X 7 (by omega)
  refine ⟨_, this, ?_⟩
  rw [hX]
  simp only [quantGroups, List.map_map]
  rw [List.getElem?_map, List.getElem?_range (by omega)]
  simp only [Option.map_some, Function.comp_apply]
  rw [List.drop_of_length_le (by rw [hX]; norm_num), List.take_nil, quantStats_nil]

/-- Ten values in three groups of 3, 3 and 4. -/
example : (3 : Nat) ≤ [5, 1, 4, 4, 4, 2, 0, 0, 9, 1].length ∧ 3 * (3 - 1) < 2 * [5, 1, 4, 4, 4, 2, 0, 0, 9, 1].length := by decide

/-! ### C60 -/

/-- C60: `MuSigma` returns what `Mean` and `StdDev` return, bit for bit. -/
theorem C60_muSigma {F : Type} [GoFloat F] (c : List Int) : (statMuSigma c : F × F) = (statMean c, statStdDev c) := rfl

theorem foldl_sum_int (c : List Int) : ∀ a : Int, c.foldl (· + ·) a = a + c.sum := by
  induction c with
  | nil => simp
  | cons x c ih => intro a; rw [List.foldl_cons, ih]; simp [add_assoc]

theorem total_div {α : Type} (f : α → ℝ) (l : List α) (n : ℝ) : total (fun x => f x / n) l = total f l / n := by
  induction l with
  | nil => simp [total]
  | cons x l ih =>
    simp only [total, List.map_cons, List.sum_cons] at ih ⊢
    rw [ih, add_div]

/-- C60: for counts that do not sum to zero `Mean` is the mean position. -/
theorem C60_mean (c : List Int) (hc : c.sum ≠ 0) : (statMean c : XR) = .fin (countMean c) := by
  have hn : ((c.sum : Int) : ℝ) ≠ 0 := by exact_mod_cast hc
  unfold statMean
  simp only [foldl_sum_int, zero_add]
  have h0 : (ofInt 0 : XR) = .fin 0 := by simp
  rw [h0, foldl_add_total _ (fun (x : Int × Nat) => (x.1 : ℝ) * x.2 / (c.sum : ℝ)) _ (fun x _ => by
    simp only [XR.g_ofInt, XR.g_div, XR.div_fin hn, XR.g_mul, XR.mul_fin, Int.cast_natCast]
    congr 1
    ring)]
  rw [zero_add, total_div]
  rfl

/-- C60: for non-negative counts that are not all zero `StdDev` is the standard deviation of the position. -/
theorem C60_stdDev (c : List Int) (h0 : ∀ x ∈ c, 0 ≤ x) (hc : c.sum ≠ 0) : (statStdDev c : XR) = .fin (countSd c) := by
  have hn : ((c.sum : Int) : ℝ) ≠ 0 := by exact_mod_cast hc
  have hm := C60_mean c hc
  have : (statStdDev c : XR) = sqrt (statSquares c c.sum (statMean c)) := by
    unfold statStdDev statMean
    simp only [foldl_sum_int, zero_add]
  rw [this, hm]
  unfold statSquares
  have hz : (ofInt 0 : XR) = .fin 0 := by simp
  simp only [hz]
  rw [foldl_add_total _ (fun (x : Int × Nat) => (x.1 : ℝ) * ((x.2 : ℝ) - countMean c) ^ 2 / (c.sum : ℝ)) _ (fun x _ => by
    simp only [XR.g_ofInt, XR.g_div, XR.div_fin hn, XR.g_mul, XR.g_sub, XR.sub_fin, XR.mul_fin, Int.cast_natCast]
    congr 1
    ring)]
  rw [zero_add, total_div]
  simp only [XR.g_sqrt, XR.sqrt]
  have hs : (0 : ℝ) ≤ (c.sum : Int) := by
    have : 0 ≤ c.sum := List.sum_nonneg h0
    exact_mod_cast this
  have ht : 0 ≤ total (fun (x : Int × Nat) => (x.1 : ℝ) * ((x.2 : ℝ) - countMean c) ^ 2) c.zipIdx := by
    unfold total
    apply List.sum_nonneg
    intro y hy
    obtain ⟨x, hx, rfl⟩ := List.mem_map.1 hy
    have : (0 : ℝ) ≤ (x.1 : ℝ) := by
      have hx1 : x.1 ∈ c := by
        obtain ⟨a, b⟩ := x
        have := List.mem_zipIdx hx
        exact this.2.2 ▸ List.getElem_mem _
      exact_mod_cast h0 _ hx1
    positivity
  rw [if_neg (not_lt.2 (div_nonneg ht hs))]
  rfl

example : (∀ x ∈ [3, 0, (4 : Int)], 0 ≤ x) ∧ [3, 0, (4 : Int)].sum ≠ 0 := by decide

end Gospn
