/-
Theorems about reading npy files: C54, C63, C64.
-/
import Verif.Model.Npy
import Verif.Proofs.Data
import Mathlib.Algebra.BigOperators.Group.Finset.Basic
import Mathlib.Algebra.BigOperators.Intervals
import Mathlib.Algebra.GroupWithZero.Action.Defs
import Mathlib.Algebra.Module.NatInt
import Mathlib.Algebra.Order.BigOperators.Group.Finset
import Mathlib.Tactic.Ring
import Mathlib.Tactic.Linarith

set_option linter.unusedSectionVars false
set_option linter.unusedSimpArgs false

namespace Gospn

/-! ### C54 -/

/-- The quota of class `i` when `n` instances are shared among `k` classes. -/
def npyQuota (n k i : Nat) : Nat := n / k + if i < n % k then 1 else 0

theorem npyQuota_sum (n k : Nat) (hk : 0 < k) : ∑ i ∈ Finset.range k, npyQuota n k i = n := by
  unfold npyQuota
  rw [Finset.sum_add_distrib, Finset.sum_const, Finset.card_range, smul_eq_mul]
  have h1 : ∑ i ∈ Finset.range k, (if i < n % k then 1 else 0) = n % k := by
    rw [← Finset.sum_filter, Finset.sum_const, smul_eq_mul, mul_one]
    have : (Finset.range k).filter (fun i => i < n % k) = Finset.range (n % k) := by
      ext i
      simp only [Finset.mem_filter, Finset.mem_range]
      have := Nat.mod_lt n hk
      omega
    rw [this, Finset.card_range]
  rw [h1]
  exact Nat.div_add_mod n k

theorem newCounts_eq (n k : Nat) (hk : 0 < k) : newCounts (n : Int) (k : Int) = some ((List.range k).map fun (i : Nat) => ((npyQuota n k i : Nat) : Int)) := by
  unfold newCounts
  rw [if_neg (by omega), Int.toNat_natCast]
  simp only [Option.some.injEq]
  apply List.map_congr_left
  intro i _
  unfold npyQuota
  rw [Int.tdiv_eq_ediv_of_nonneg (by omega), Int.tmod_eq_emod_of_nonneg (by omega), ← Int.natCast_ediv, ← Int.natCast_emod]
  split <;> split <;> omega

/-- C54: for every number of instances and at least one class, `new_counts` returns one quota per class; they sum to the number of instances and any two differ by at most one. -/
theorem C54_newCounts (n k : Nat) (hk : 0 < k) :
    ∃ c, newCounts (n : Int) (k : Int) = some c ∧ c.length = k ∧ c.sum = n ∧ ∀ x ∈ c, ∀ y ∈ c, x ≤ y + 1 := by
  refine ⟨_, newCounts_eq n k hk, by simp, ?_, ?_⟩
  · have h := npyQuota_sum n k hk
    have : ((List.range k).map fun (i : Nat) => ((npyQuota n k i : Nat) : Int)).sum = ((∑ i ∈ Finset.range k, npyQuota n k i : Nat) : Int) := by
      clear h
      have gen : ∀ m, ((List.range m).map fun (i : Nat) => ((npyQuota n k i : Nat) : Int)).sum = ((∑ i ∈ Finset.range m, npyQuota n k i : Nat) : Int) := by
        intro m
        induction m with
        | zero => simp
        | succ m ih =>
          rw [List.range_succ, List.map_append, List.sum_append, ih, Finset.sum_range_succ]
          simp
      exact gen k
    rw [this, h]
  · intro x hx y hy
    obtain ⟨i, _, rfl⟩ := List.mem_map.1 hx
    obtain ⟨j, _, rfl⟩ := List.mem_map.1 hy
    unfold npyQuota
    split <;> split <;> omega

example : 0 < 3 ∧ newCounts 11 3 = some [4, 4, 3] := by decide

/-! ### C63 -/

/-- The map from column to element of a row whose element in column `j` is `f j`, for the columns before `m`. -/
def colMap (f : Nat → Int) (m : Nat) : VarSet := fun k => if 0 ≤ k ∧ k < m then some (f k.toNat) else none

theorem colMap_succ (f : Nat → Int) (m : Nat) : (colMap f m).set (m : Int) (f m) = colMap f (m + 1) := by
  funext k
  simp only [colMap, VarSet.set]
  by_cases h : k = m
  · subst h
    have : (0 : Int) ≤ (m : Int) ∧ (m : Int) < ((m + 1 : Nat) : Int) := by omega
    rw [if_pos rfl, if_pos this, Int.toNat_natCast]
  · rw [if_neg h]
    by_cases h2 : 0 ≤ k ∧ k < (m : Int)
    · rw [if_pos h2, if_pos (by push_cast; omega)]
    · rw [if_neg h2, if_neg (by push_cast; omega)]

theorem readRow (y : Nat) (hy : 0 < y) (v : Nat → Int) (n p : Nat) (hp : p < n) (u : List (Option VarSet)) (l : List Int) (hu : u[p]? = some none) (hun : u.length = n) (hl : l.length = n) :
    (List.range y).foldlM (fun s (j : Nat) => readStep y s (v (p * y + j), p * y + j)) (u, l) =
      some (u.set p (some (colMap (fun j => v (p * y + j)) (y - 1))), l.set p (v (p * y + (y - 1)))) := by
  have hpre : ∀ m : Nat, m ≤ y - 1 → ∃ x, (List.range m).foldlM (fun s (j : Nat) => readStep y s (v (p * y + j), p * y + j)) (u, l) = some (u.set p x, l) ∧
      x.getD VarSet.empty = colMap (fun j => v (p * y + j)) m := by
    intro m
    induction m with
    | zero =>
      intro _
      refine ⟨none, ?_, ?_⟩
      · simp only [List.range_zero, List.foldlM_nil, pure]
        congr 2
        apply List.ext_getElem?
        intro i
        rw [List.getElem?_set]
        split
        · rename_i e; subst e; rw [hu, if_pos (by omega)]
        · rfl
      · funext k
        simp only [Option.getD_none, VarSet.empty, colMap]
        rw [if_neg (by push_cast; omega)]
    | succ m ih =>
      intro hm
      obtain ⟨x, h1, h2⟩ := ih (by omega)
      refine ⟨some (colMap (fun j => v (p * y + j)) (m + 1)), ?_, rfl⟩
      rw [List.range_succ, List.foldlM_append, h1]
      simp only [bind, Option.bind_some, List.foldlM_cons, List.foldlM_nil, pure, readStep]
      rw [if_neg (by omega)]
      have e1 : (p * y + m) / y = p := by rw [Nat.mul_comm, Nat.mul_add_div hy, Nat.div_eq_of_lt (by omega), Nat.add_zero]
      have e2 : (p * y + m) % y = m := by rw [Nat.mul_comm, Nat.mul_add_mod, Nat.mod_eq_of_lt (by omega)]
      simp only [e1, e2]
      rw [List.getElem?_set_self (by omega)]
      simp only [Option.bind_some, h2]
      rw [if_neg (by omega)]
      simp only [Option.bind_some, List.set_set]
      rw [← colMap_succ]
  obtain ⟨x, h1, h2⟩ := hpre (y - 1) le_rfl
  have hr : List.range y = List.range (y - 1) ++ [y - 1] := by
    conv => lhs; rw [show y = (y - 1) + 1 by omega]
    rw [List.range_succ]
  rw [hr, List.foldlM_append, h1]
  simp only [bind, Option.bind_some, List.foldlM_cons, List.foldlM_nil, pure, readStep]
  rw [if_neg (by omega)]
  have e1 : (p * y + (y - 1)) / y = p := by rw [Nat.mul_comm, Nat.mul_add_div hy, Nat.div_eq_of_lt (by omega), Nat.add_zero]
  have e2 : (p * y + (y - 1)) % y = y - 1 := by rw [Nat.mul_comm, Nat.mul_add_mod, Nat.mod_eq_of_lt (by omega)]
  simp only [e1, e2]
  rw [List.getElem?_set_self (by omega)]
  simp only [Option.bind_some, h2, if_true]
  rw [goSet_nat _ _ _ (by omega)]
  simp only [Option.map_some, Option.bind_some, List.set_set]

theorem foldlM_range_mul {α : Type} (f : α → Nat → Option α) (y : Nat) : ∀ (n : Nat) (s : α),
    (List.range (n * y)).foldlM f s = (List.range n).foldlM (fun s p => (List.range y).foldlM (fun s j => f s (p * y + j)) s) s := by
  intro n
  induction n with
  | zero => intro s; simp
  | succ n ih =>
    intro s
    rw [Nat.succ_mul, List.range_add, List.foldlM_append, ih, List.range_succ, List.foldlM_append]
    congr 1
    funext s
    rw [List.foldlM_map]
    simp

theorem readRows (y : Nat) (hy : 0 < y) (v : Nat → Int) (n : Nat) : ∀ m : Nat, m ≤ n →
    (List.range m).foldlM (fun s p => (List.range y).foldlM (fun s (j : Nat) => readStep y s (v (p * y + j), p * y + j)) s) (List.replicate n none, List.replicate n 0) =
      some ((List.range n).map (fun p => if p < m then some (colMap (fun j => v (p * y + j)) (y - 1)) else none), (List.range n).map fun p => if p < m then v (p * y + (y - 1)) else 0) := by
  intro m
  induction m with
  | zero => intro _; simp
  | succ m ih =>
    intro hm
    rw [List.range_succ, List.foldlM_append, ih (by omega)]
    simp only [bind, Option.bind_some, List.foldlM_cons, List.foldlM_nil, pure]
    rw [readRow y hy v n m (by omega) _ _ (by simp [show m < n by omega]) (by simp) (by simp)]
    simp only [Option.bind_some, range_map_set]
    congr 2
    · apply List.map_congr_left
      intro x _
      by_cases h : x = m
      · subst h; simp
      · have : x < m + 1 ↔ x < m := by omega
        simp [h, this]
    · apply List.map_congr_left
      intro x _
      by_cases h : x = m
      · subst h; simp
      · have : x < m + 1 ↔ x < m := by omega
        simp [h, this]

/-- C63: `read(r, n)` for rows of `y ≥ 1` elements returns an error if fewer than `n*y` elements are left; otherwise instance `p` has, for every column but the last, the
element of row `p` in that column, label `p` is the last element of row `p`, and the elements after these rows are left. -/
theorem C63_read (y : Nat) (hy : 0 < y) (n : Nat) (rest : List Int) :
    (rest.length < n * y → npyRead y n rest = .err) ∧
    (n * y ≤ rest.length → ∃ D L, npyRead y n rest = .ok D L (rest.drop (n * y)) ∧ D.length = n ∧ L.length = n ∧
      ∀ p < n, (∃ I, D[p]? = some I ∧ (∀ j : Nat, j < y - 1 → I (j : Int) = rest[p * y + j]?) ∧ ∀ k : Int, ¬ (0 ≤ k ∧ k < (y : Int) - 1) → I k = none) ∧ L[p]? = rest[p * y + (y - 1)]?) := by
  have hn : ¬ ((n : Int) < 0) := by omega
  constructor
  · intro h
    unfold npyRead
    rw [if_neg hn, Int.toNat_natCast, if_pos h]
  · intro h
    let v : Nat → Int := fun i => rest.getD i 0
    have hz : (rest.take (n * y)).zipIdx = (List.range (n * y)).map fun i => (v i, i) := by
      apply List.ext_getElem?
      intro i
      rw [List.getElem?_zipIdx, List.getElem?_take, List.getElem?_map]
      by_cases hi : i < n * y
      · have hi2 : i < rest.length := by omega
        simp [hi, hi2, v]
      · simp [hi]
    have hfold := readRows y hy v n n le_rfl
    rw [← foldlM_range_mul (fun s i => readStep y s (v i, i))] at hfold
    refine ⟨(List.range n).map fun p => (if p < n then some (colMap (fun j => v (p * y + j)) (y - 1)) else none).getD VarSet.empty,
      (List.range n).map fun p => if p < n then v (p * y + (y - 1)) else 0, ?_, ?_, ?_, ?_⟩
    · unfold npyRead
      rw [if_neg hn, Int.toNat_natCast, if_neg (by omega), hz, List.foldlM_map, hfold]
      simp only [List.map_map]
      rfl
    · simp
    · simp
    · intro p hp
      have hlt : ∀ j, j < y → p * y + j < rest.length := by
        intro j hj
        have := Nat.mul_le_mul_right y (show p + 1 ≤ n by omega)
        rw [Nat.succ_mul] at this
        omega
      refine ⟨⟨colMap (fun j => v (p * y + j)) (y - 1), by simp [hp], ?_, ?_⟩, ?_⟩
      · intro j hj
        unfold colMap
        rw [if_pos (by omega), Int.toNat_natCast]
        have := hlt j (by omega)
        simp [v, this]
      · intro k hk
        unfold colMap
        rw [if_neg (by omega)]
      · have := hlt (y - 1) (by omega)
        simp [hp, v, this]

example : (0 < 3 ∧ 2 * 3 ≤ [5, 6, 1, 7, 8, 0, (9 : Int)].length) ∧ ([5, 6, 1, 7, 8, 0, (9 : Int)].length < 3 * 3) := by decide

/-! ### C64 -/

/-- The label of a row: its last element. -/
def rowLabel (row : List Int) : Int := row.getLastD 0

/-- The instance of a row: all elements but the last, by column. -/
def rowData (row : List Int) : VarSet := fun k => if 0 ≤ k ∧ k < (row.length : Int) - 1 then row[k.toNat]? else none

theorem rowInstance_eq (row : List Int) (y : Nat) (h : row.length = y) : rowInstance row y = rowData row := by
  unfold rowInstance
  have gen : ∀ m, (List.range m).foldl (fun mm (j : Nat) => mm.set (j : Int) ((row[j]?).getD 0)) VarSet.empty = colMap (fun j => (row[j]?).getD 0) m := by
    intro m
    induction m with
    | zero =>
      funext k
      simp only [List.range_zero, List.foldl_nil, VarSet.empty, colMap]
      rw [if_neg (by push_cast; omega)]
    | succ m ih =>
      rw [List.range_succ, List.foldl_append, ih]
      simp only [List.foldl_cons, List.foldl_nil]
      exact colMap_succ _ m
  rw [gen]
  funext k
  unfold colMap rowData
  by_cases hk : 0 ≤ k ∧ k < ((y - 1 : Nat) : Int)
  · rw [if_pos hk, if_pos (by omega)]
    have : k.toNat < row.length := by omega
    simp [this]
  · rw [if_neg hk, if_neg (by omega)]

theorem rowLabel_eq (row : List Int) (y : Nat) (h : row.length = y) : (row[y - 1]?).getD 0 = rowLabel row := by
  unfold rowLabel
  rw [List.getLastD_eq_getLast?, List.getLast?_eq_getElem?, h]

theorem sum_dec (c g : Nat) (f : Nat → Nat) (hg : g < c) (hf : 0 < f g) :
    ∑ i ∈ Finset.range c, (if i = g then f g - 1 else f i) + 1 = ∑ i ∈ Finset.range c, f i := by
  have hmem : g ∈ Finset.range c := Finset.mem_range.2 hg
  rw [← Finset.add_sum_erase _ _ hmem, ← Finset.add_sum_erase (Finset.range c) f hmem]
  have : ∑ i ∈ (Finset.range c).erase g, (if i = g then f g - 1 else f i) = ∑ i ∈ (Finset.range c).erase g, f i :=
    Finset.sum_congr rfl (fun i hi => by rw [if_neg (Finset.ne_of_mem_erase hi)])
  rw [this, if_pos rfl]
  omega

theorem balanced_loop (n y c : Nat) (hy : 0 < y) (tail : List Int) (htail : tail.length < y) : ∀ (rows : List (List Int)) (f : Nat → Nat) (D : List VarSet) (L : List Int),
    (∀ r ∈ rows, r.length = y ∧ 0 ≤ rowLabel r ∧ rowLabel r < c) → D.length + ∑ i ∈ Finset.range c, f i = n →
    ((∀ i < c, f i ≤ (rows.map rowLabel).count (i : Int)) → ∃ (sub : List (List Int)) (rest' : List Int), sub.Sublist rows ∧
      balancedLoop n y ((List.range c).map fun (i : Nat) => ((f i : Nat) : Int)) D L (rows.flatten ++ tail) = .ok (D ++ sub.map rowData) (L ++ sub.map rowLabel) rest' ∧
      ∀ i < c, (sub.map rowLabel).count (i : Int) = f i) ∧
    ((∃ i < c, (rows.map rowLabel).count (i : Int) < f i) →
      balancedLoop n y ((List.range c).map fun (i : Nat) => ((f i : Nat) : Int)) D L (rows.flatten ++ tail) = .err) := by
  intro rows
  induction rows with
  | nil =>
    intro f D L _ hn
    constructor
    · intro h
      have h0 : ∀ i < c, f i = 0 := by intro i hi; have := h i hi; simpa using this
      refine ⟨[], tail, List.Sublist.refl _, ?_, ?_⟩
      · rw [balancedLoop]
        have : ∑ i ∈ Finset.range c, f i = 0 := Finset.sum_eq_zero (fun i hi => h0 i (Finset.mem_range.1 hi))
        rw [if_pos (by omega)]
        simp
      · intro i hi; simp [h0 i hi]
    · rintro ⟨i, hi, h⟩
      simp only [List.map_nil, List.count_nil] at h
      have : f i ≤ ∑ i ∈ Finset.range c, f i := Finset.single_le_sum (fun _ _ => Nat.zero_le _) (Finset.mem_range.2 hi)
      rw [balancedLoop, if_neg (by omega), dif_neg (by omega), dif_pos (by simpa using htail)]
  | cons r rows ih =>
    intro f D L hrows hn
    obtain ⟨hr, hl0, hl1⟩ := hrows r (by simp)
    have hrows' : ∀ r ∈ rows, r.length = y ∧ 0 ≤ rowLabel r ∧ rowLabel r < c := fun r h => hrows r (by simp [h])
    by_cases hfull : n ≤ D.length
    · have hz : ∑ i ∈ Finset.range c, f i = 0 := by omega
      have h0 : ∀ i < c, f i = 0 := by
        intro i hi
        have : f i ≤ ∑ i ∈ Finset.range c, f i := Finset.single_le_sum (fun _ _ => Nat.zero_le _) (Finset.mem_range.2 hi)
        omega
      constructor
      · intro _
        refine ⟨[], (r :: rows).flatten ++ tail, List.nil_sublist _, ?_, ?_⟩
        · rw [balancedLoop, if_pos hfull]; simp
        · intro i hi; simp [h0 i hi]
      · rintro ⟨i, hi, h⟩
        rw [h0 i hi] at h
        omega
    · obtain ⟨g, hg⟩ := Int.eq_ofNat_of_zero_le hl0
      have hgc : g < c := by omega
      have hlen : ¬ (((r :: rows).flatten ++ tail).length < y) := by simp; omega
      have htake : ((r :: rows).flatten ++ tail).take y = r := by
        rw [List.flatten_cons, List.append_assoc, ← hr, List.take_left']
        rfl
      have hdrop : ((r :: rows).flatten ++ tail).drop y = rows.flatten ++ tail := by
        rw [List.flatten_cons, List.append_assoc, ← hr, List.drop_left']
        rfl
      have hidx : goIdx ((List.range c).map fun (i : Nat) => ((f i : Nat) : Int)) (g : Int) = some ((f g : Nat) : Int) := by
        rw [goIdx_nat]; simp [hgc]
      have hstep : balancedLoop n y ((List.range c).map fun (i : Nat) => ((f i : Nat) : Int)) D L ((r :: rows).flatten ++ tail) =
          if 0 < f g then balancedLoop n y ((List.range c).map fun (i : Nat) => (((if i = g then f g - 1 else f i) : Nat) : Int)) (D ++ [rowData r]) (L ++ [rowLabel r]) (rows.flatten ++ tail)
          else balancedLoop n y ((List.range c).map fun (i : Nat) => ((f i : Nat) : Int)) D L (rows.flatten ++ tail) := by
        rw [balancedLoop, if_neg hfull, dif_neg (by omega), dif_neg hlen]
        simp only [htake, hdrop, rowLabel_eq r y hr, hg, hidx, rowInstance_eq r y hr]
        by_cases h0 : 0 < f g
        · rw [if_pos h0, if_pos (by omega), Int.toNat_natCast, range_map_set]
          congr 1
          apply List.map_congr_left
          intro i _
          split
          · omega
          · rfl
        · rw [if_neg h0, if_neg (by omega)]
      have hcount : ∀ i : Nat, ((r :: rows).map rowLabel).count (i : Int) = (rows.map rowLabel).count (i : Int) + if i = g then 1 else 0 := by
        intro i
        rw [List.map_cons, List.count_cons, hg]
        congr 1
        by_cases h : i = g
        · subst h; simp
        · have : ¬ ((g : Int) == (i : Int)) = true := by simp; omega
          rw [if_neg this, if_neg h]
      rw [hstep]
      by_cases h0 : 0 < f g
      · simp only [if_pos h0]
        obtain ⟨k1, k2⟩ := ih (fun i => if i = g then f g - 1 else f i) (D ++ [rowData r]) (L ++ [rowLabel r]) hrows' (by
          have := sum_dec c g f hgc h0
          simp only [List.length_append, List.length_cons, List.length_nil]
          omega)
        constructor
        · intro h
          obtain ⟨sub, rest', s1, s2, s3⟩ := k1 (fun i hi => by
            have := h i hi
            rw [hcount] at this
            by_cases e : i = g
            · subst e; simp only [if_true] at this ⊢; omega
            · simp only [if_neg e] at this ⊢; omega)
          refine ⟨r :: sub, rest', s1.cons_cons r, ?_, ?_⟩
          · rw [s2]; simp
          · intro i hi
            have := s3 i hi
            rw [List.map_cons, List.count_cons, this, hg]
            by_cases e : i = g
            · subst e; simp; omega
            · have : ¬ ((g : Int) == (i : Int)) = true := by simp; omega
              rw [if_neg this, if_neg e, Nat.add_zero]
        · rintro ⟨i, hi, h⟩
          refine k2 ⟨i, hi, ?_⟩
          rw [hcount] at h
          by_cases e : i = g
          · subst e; simp only [if_true] at h ⊢; omega
          · simp only [if_neg e] at h ⊢; omega
      · simp only [if_neg h0]
        obtain ⟨k1, k2⟩ := ih f D L hrows' hn
        constructor
        · intro h
          obtain ⟨sub, rest', s1, s2, s3⟩ := k1 (fun i hi => by
            have := h i hi
            rw [hcount] at this
            by_cases e : i = g
            · subst e; omega
            · simp only [if_neg e] at this; omega)
          exact ⟨sub, rest', s1.cons r, s2, s3⟩
        · rintro ⟨i, hi, h⟩
          refine k2 ⟨i, hi, ?_⟩
          rw [hcount] at h
          by_cases e : i = g
          · subst e; simp only [if_true] at h; omega
          · simp only [if_neg e] at h; omega

/-- C64: for a file of rows of `y ≥ 1` elements with labels from 0 to `c - 1`, `ReadBalanced(n, c)` returns, if every class `i` has at least its quota of rows, `n` rows of the file in
file order with exactly the quota of every class; the quotas are those of C54. Otherwise it returns an error. -/
theorem C64_readBalanced (y n c : Nat) (hy : 0 < y) (hc : 0 < c) (rows : List (List Int)) (tail : List Int) (htail : tail.length < y)
    (hrows : ∀ r ∈ rows, r.length = y ∧ 0 ≤ rowLabel r ∧ rowLabel r < c) :
    ((∀ i < c, npyQuota n c i ≤ (rows.map rowLabel).count (i : Int)) → ∃ (sub : List (List Int)) (rest' : List Int), sub.Sublist rows ∧ sub.length = n ∧
      readBalanced y n c (rows.flatten ++ tail) = .ok (sub.map rowData) (sub.map rowLabel) rest' ∧ ∀ i < c, (sub.map rowLabel).count (i : Int) = npyQuota n c i) ∧
    ((∃ i < c, (rows.map rowLabel).count (i : Int) < npyQuota n c i) → readBalanced y n c (rows.flatten ++ tail) = .err) := by
  have hun : readBalanced y n c (rows.flatten ++ tail) = balancedLoop n y ((List.range c).map fun (i : Nat) => ((npyQuota n c i : Nat) : Int)) [] [] (rows.flatten ++ tail) := by
    unfold readBalanced
    rw [if_neg (by omega), newCounts_eq n c hc]
    simp
  rw [hun]
  obtain ⟨k1, k2⟩ := balanced_loop n y c hy tail htail rows (npyQuota n c) [] [] hrows (by simpa using npyQuota_sum n c hc)
  refine ⟨fun h => ?_, k2⟩
  obtain ⟨sub, rest', s1, s2, s3⟩ := k1 h
  refine ⟨sub, rest', s1, ?_, by simpa using s2, s3⟩
  rw [← npyQuota_sum n c hc, ← Finset.sum_congr rfl (fun i hi => s3 i (Finset.mem_range.1 hi))]
  have gen : ∀ l : List Int, (∀ x ∈ l, 0 ≤ x ∧ x < (c : Int)) → l.length = ∑ i ∈ Finset.range c, l.count (i : Int) := by
    intro l
    induction l with
    | nil => intro _; simp
    | cons x l ih =>
      intro h
      obtain ⟨h0, h1⟩ := h x (by simp)
      obtain ⟨g, rfl⟩ := Int.eq_ofNat_of_zero_le h0
      have hg : g < c := by omega
      have : ∀ i ∈ Finset.range c, ((g : Int) :: l).count (i : Int) = l.count (i : Int) + if i = g then 1 else 0 := by
        intro i _
        rw [List.count_cons]
        by_cases e : i = g
        · subst e; simp
        · have : ¬ ((g : Int) == (i : Int)) = true := by simp; omega
          rw [if_neg this, if_neg e]
      rw [Finset.sum_congr rfl this, Finset.sum_add_distrib, ← ih (fun x hx => h x (by simp [hx])), Finset.sum_ite_eq' (Finset.range c) g, if_pos (Finset.mem_range.2 hg)]
      rfl
  have := gen (sub.map rowLabel) (fun x hx => by
    obtain ⟨r, hr, rfl⟩ := List.mem_map.1 hx
    exact (hrows r (s1.subset hr)).2)
  simpa using this

/-- A file of four rows with two classes and a class with its quota of rows. -/
example : (∀ r ∈ [[5, 6, 1], [7, 8, 1], [9, 9, 0], [1, 2, (1 : Int)]], r.length = 3 ∧ 0 ≤ rowLabel r ∧ rowLabel r < (2 : Nat)) ∧
    ∀ i < 2, npyQuota 3 2 i ≤ ([[5, 6, 0], [7, 8, 1], [9, 9, 0], [1, 2, (1 : Int)]].map rowLabel).count (i : Int) := by decide

end Gospn
