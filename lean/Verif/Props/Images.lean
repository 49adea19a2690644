/-
Theorems about images: C55, C61, C62.
-/
import Verif.Model.Images
import Verif.Proofs.Data
import Mathlib.Tactic.Ring
import Mathlib.Tactic.Linarith

set_option linter.unusedSectionVars false
set_option linter.unusedSimpArgs false

namespace Gospn

/-! ### C55 -/

theorem splitFold (O : VarSet) : ∀ (xs : List (Bool × Int)) (PQ : VarSet × VarSet) (k : Int),
    (xs.foldl (splitStep O) PQ).1 k = (if (true, k) ∈ xs then some (O.get k) else PQ.1 k) ∧ (xs.foldl (splitStep O) PQ).2 k = if (false, k) ∈ xs then some (O.get k) else PQ.2 k := by
  intro xs
  induction xs with
  | nil => intro PQ k; simp
  | cons x xs ih =>
    intro PQ k
    rw [List.foldl_cons]
    obtain ⟨h1, h2⟩ := ih (splitStep O PQ x) k
    rw [h1, h2]
    obtain ⟨b, p⟩ := x
    by_cases hk : k = p
    · subst hk; cases b <;> simp [splitStep, VarSet.set]
    · cases b <;> simp [splitStep, VarSet.set, hk]

theorem foldl_nested {α : Type} (f : α → Bool × Int → α) (w h : Nat) (g : Nat → Nat → Bool × Int) (a : α) :
    (List.range w).foldl (fun a x => (List.range h).foldl (fun a y => f a (g x y)) a) a =
      (((List.range w).map fun x => (List.range h).map fun y => g x y).flatten).foldl f a := by
  rw [List.foldl_flatten, List.foldl_map]
  congr 1
  funext a x
  rw [List.foldl_map]

/-- The variables of the first part that `SplitHalf` returns, for an image of width `w` and height `h` stored row by row. -/
def firstHalf (t : CmplType) (w h k : Int) : Prop :=
  match t with
  | .top => k < w * h / 2
  | .bottom => ¬ k < w * h / 2
  | .right => ¬ k % w < w / 2
  | _ => k % w < w / 2

/-- C55: for every image, that is every map with exactly the variables `0 … w*h-1`, `SplitHalf` returns two maps that have no variable in common and together are the image;
the first has the first `w*h/2` pixels (top), the others (bottom), the pixels of the first `w/2` columns (left) or the others (right). -/
theorem C55_splitHalf (O : VarSet) (t : CmplType) (w h : Int) (hw : 0 ≤ w) (hh : 0 ≤ h) (hO : ∀ k, (O k).isSome ↔ 0 ≤ k ∧ k < w * h) :
    (∀ k, (splitHalf O t w h).1 k = none ∨ (splitHalf O t w h).2 k = none) ∧
    (∀ k, ((splitHalf O t w h).1 k).or ((splitHalf O t w h).2 k) = O k) ∧
    ∀ k, ((splitHalf O t w h).1 k).isSome ↔ (0 ≤ k ∧ k < w * h) ∧ firstHalf t w h k := by
  obtain ⟨w, rfl⟩ := Int.eq_ofNat_of_zero_le hw
  obtain ⟨h, rfl⟩ := Int.eq_ofNat_of_zero_le hh
  have hget : ∀ k, 0 ≤ k ∧ k < (w : Int) * h → some (O.get k) = O k := by
    intro k hk
    obtain ⟨x, hx⟩ := Option.isSome_iff_exists.1 ((hO k).2 hk)
    simp [VarSet.get, hx]
  have hnone : ∀ k, ¬ (0 ≤ k ∧ k < (w : Int) * h) → O k = none := by
    intro k hk
    by_contra h'
    exact hk ((hO k).1 (by simpa [Option.isSome_iff_ne_none] using h'))
  -- one form for both kinds of loop
  have main : ∀ (first : Int → Prop) [DecidablePred first] (r : VarSet × VarSet), (∀ k, r.1 k = if (0 ≤ k ∧ k < (w : Int) * h) ∧ first k then some (O.get k) else none) →
      (∀ k, r.2 k = if (0 ≤ k ∧ k < (w : Int) * h) ∧ ¬ first k then some (O.get k) else none) →
      (∀ k, r.1 k = none ∨ r.2 k = none) ∧ (∀ k, (r.1 k).or (r.2 k) = O k) ∧ (∀ k, (r.1 k).isSome ↔ (0 ≤ k ∧ k < (w : Int) * h) ∧ first k) := by
    intro first _ r h1 h2
    refine ⟨fun k => ?_, fun k => ?_, fun k => ?_⟩ <;> rw [h1]
    · rw [h2]
      by_cases a : first k <;> simp [a]
    · rw [h2]
      by_cases b : 0 ≤ k ∧ k < (w : Int) * h
      · by_cases a : first k
        · simp only [b, a, and_self, not_true, and_false, if_true, if_false, Option.or_none]; exact hget k b
        · simp only [b, a, and_self, not_false_eq_true, and_true, and_false, if_true, if_false, Option.none_or]; exact hget k b
      · simp only [b, false_and, if_false, Option.or_none]; exact (hnone k b).symm
    · split <;> simp_all
  have hvert : ∀ k, let r := (List.range ((w : Int) * h).toNat).foldl (fun PQ (i : Nat) => splitStep O PQ (decide ((i : Int) < ((w : Int) * h).tdiv 2), (i : Int))) (VarSet.empty, VarSet.empty)
      (r.1 k = if (0 ≤ k ∧ k < (w : Int) * h) ∧ k < (w : Int) * h / 2 then some (O.get k) else none) ∧
      r.2 k = if (0 ≤ k ∧ k < (w : Int) * h) ∧ ¬ k < (w : Int) * h / 2 then some (O.get k) else none := by
    intro k r
    have hr : r = ((List.range ((w : Int) * h).toNat).map fun (i : Nat) => (decide ((i : Int) < ((w : Int) * h).tdiv 2), (i : Int))).foldl (splitStep O) (VarSet.empty, VarSet.empty) := by
      rw [List.foldl_map]
    obtain ⟨h1, h2⟩ := splitFold O ((List.range ((w : Int) * h).toNat).map fun (i : Nat) => (decide ((i : Int) < ((w : Int) * h).tdiv 2), (i : Int))) (VarSet.empty, VarSet.empty) k
    rw [hr, h1, h2]
    have hd : ((w : Int) * h).tdiv 2 = (w : Int) * h / 2 := Int.tdiv_eq_ediv_of_nonneg (by positivity)
    have hmem : ∀ b, (b, k) ∈ (List.range ((w : Int) * h).toNat).map (fun (i : Nat) => (decide ((i : Int) < ((w : Int) * h).tdiv 2), (i : Int))) ↔
        (0 ≤ k ∧ k < (w : Int) * h) ∧ b = decide (k < (w : Int) * h / 2) := by
      intro b
      simp only [List.mem_map, List.mem_range, Prod.mk.injEq, hd]
      constructor
      · rintro ⟨i, hi, rfl, rfl⟩
        exact ⟨⟨by omega, by omega⟩, rfl⟩
      · rintro ⟨⟨h0, h1⟩, rfl⟩
        exact ⟨k.toNat, by omega, by rw [Int.toNat_of_nonneg h0], Int.toNat_of_nonneg h0⟩
    simp only [hmem, VarSet.empty]
    constructor
    · simp
    · simp
  have hhor : ∀ k, let r := (List.range (w : Int).toNat).foldl (fun PQ (x : Nat) =>
        (List.range (h : Int).toNat).foldl (fun PQ (y : Nat) => splitStep O PQ (decide ((x : Int) < (w : Int).tdiv 2), (x : Int) + (y : Int) * w)) PQ) (VarSet.empty, VarSet.empty)
      (r.1 k = if (0 ≤ k ∧ k < (w : Int) * h) ∧ k % w < (w : Int) / 2 then some (O.get k) else none) ∧
      r.2 k = if (0 ≤ k ∧ k < (w : Int) * h) ∧ ¬ k % w < (w : Int) / 2 then some (O.get k) else none := by
    intro k r
    have hr : r = _ := foldl_nested (splitStep O) w h (fun x y => (decide ((x : Int) < (w : Int).tdiv 2), (x : Int) + (y : Int) * w)) (VarSet.empty, VarSet.empty)
    obtain ⟨h1, h2⟩ := splitFold O (((List.range w).map fun (x : Nat) => (List.range h).map fun (y : Nat) => (decide ((x : Int) < (w : Int).tdiv 2), (x : Int) + (y : Int) * w)).flatten)
      (VarSet.empty, VarSet.empty) k
    rw [hr, h1, h2]
    have hd : (w : Int).tdiv 2 = (w : Int) / 2 := Int.tdiv_eq_ediv_of_nonneg (by positivity)
    have hmem : ∀ b, (b, k) ∈ ((List.range w).map fun (x : Nat) => (List.range h).map fun (y : Nat) => (decide ((x : Int) < (w : Int).tdiv 2), (x : Int) + (y : Int) * w)).flatten ↔
        (0 ≤ k ∧ k < (w : Int) * h) ∧ b = decide (k % w < (w : Int) / 2) := by
      intro b
      simp only [List.mem_flatten, List.mem_map, List.mem_range, hd]
      constructor
      · rintro ⟨l, ⟨x, hx, rfl⟩, hl⟩
        obtain ⟨y, hy, hl⟩ := List.mem_map.1 hl
        have hy := List.mem_range.1 hy
        simp only [Prod.mk.injEq] at hl
        obtain ⟨rfl, rfl⟩ := hl
        have h3 : ((x : Int) + (y : Int) * w) % w = x := by
          rw [Int.add_mul_emod_self_right]
          exact Int.emod_eq_of_lt (by omega) (by omega)
        rw [h3]
        refine ⟨⟨by positivity, ?_⟩, rfl⟩
        have : ((y : Int) + 1) * w ≤ h * w := by
          apply mul_le_mul_of_nonneg_right <;> omega
        have e : ((y : Int) + 1) * w = y * w + w := by ring
        have e2 : (h : Int) * w = w * h := by ring
        omega
      · rintro ⟨⟨h0, h1⟩, rfl⟩
        have hw0 : 0 < w := by
          rcases Nat.eq_zero_or_pos w with rfl | h
          · simp at h1; omega
          · exact h
        have hw1 : (0 : Int) < w := by omega
        have m0 := Int.emod_nonneg k (show (w : Int) ≠ 0 by omega)
        have m1 := Int.emod_lt_of_pos k hw1
        have d0 : 0 ≤ k / w := Int.ediv_nonneg h0 (by omega)
        have d1 : k / w < h := Int.ediv_lt_of_lt_mul hw1 (by rw [mul_comm]; exact h1)
        refine ⟨_, ⟨(k % w).toNat, by omega, rfl⟩, List.mem_map.2 ⟨(k / w).toNat, List.mem_range.2 (by omega), ?_⟩⟩
        rw [Int.toNat_of_nonneg m0, Int.toNat_of_nonneg d0]
        have := Int.emod_add_mul_ediv k w
        rw [show k % w + k / w * w = k by rw [mul_comm]; exact this]
    simp only [hmem, VarSet.empty]
    constructor
    · simp
    · simp
  cases t with
  | top =>
    exact main (fun k => k < (w : Int) * h / 2) _ (fun k => (hvert k).1) (fun k => (hvert k).2)
  | bottom =>
    refine main (fun k => ¬ k < (w : Int) * h / 2) _ (fun k => (hvert k).2) (fun k => ?_)
    simp only [not_not]
    exact (hvert k).1
  | left => exact main (fun k => k % (w : Int) < (w : Int) / 2) _ (fun k => (hhor k).1) (fun k => (hhor k).2)
  | other => exact main (fun k => k % (w : Int) < (w : Int) / 2) _ (fun k => (hhor k).1) (fun k => (hhor k).2)
  | right =>
    refine main (fun k => ¬ k % (w : Int) < (w : Int) / 2) _ (fun k => (hhor k).2) (fun k => ?_)
    simp only [not_not]
    exact (hhor k).1

/-- An image of width 3 and height 1. -/
example : ∀ k, ((fun k => if 0 ≤ k ∧ k < 3 * 1 then some (k * k) else none : VarSet) k).isSome ↔ 0 ≤ k ∧ k < (3 : Int) * 1 := by
  intro k
  by_cases h : 0 ≤ k ∧ k < 3 * 1 <;> simp [h]

/-! ### C61 -/

/-- The number of pixels of the image before position `i` of the drawing. -/
def drawn (mid : Int → Bool) : Nat → Nat
  | 0 => 0
  | i + 1 => drawn mid i + if mid (i : Int) then 0 else 1

theorem cmplFold (mid : Int → Bool) (draw : Int → Int × Int × Int) : ∀ n : Nat,
    (List.range n).foldl (cmplStep mid draw) ([], 0) =
      ((List.range n).map fun (i : Nat) => if mid (i : Int) then red else draw (drawn mid i : Int), (drawn mid n : Int)) := by
  intro n
  induction n with
  | zero => rfl
  | succ n ih =>
    rw [List.range_succ, List.foldl_append, ih, List.map_append]
    simp only [List.foldl_cons, List.foldl_nil, cmplStep, drawn, List.map_cons, List.map_nil]
    by_cases h : mid (n : Int)
    · simp [h]
    · simp [h]

/-- A red column at `m` in a drawing of width `W`: position `(r, c)` comes after `r` rows of `W - 1` pixels. -/
theorem drawn_column (W m : Nat) (hm : m < W) (mid : Int → Bool) (hmid : ∀ r c : Nat, c < W → (mid ((r * W + c : Nat) : Int) = true ↔ c = m)) :
    ∀ r c : Nat, c ≤ W → drawn mid (r * W + c) = r * (W - 1) + if c ≤ m then c else c - 1 := by
  have row : ∀ r c : Nat, c ≤ W → drawn mid (r * W + c) = drawn mid (r * W) + if c ≤ m then c else c - 1 := by
    intro r c
    induction c with
    | zero => simp
    | succ c ih =>
      intro hc
      rw [← Nat.add_assoc, drawn, ih (by omega)]
      have := hmid r c (by omega)
      by_cases h : c = m
      · rw [if_pos (this.2 h)]
        subst h
        simp
      · rw [if_neg (fun h' => h (this.1 h'))]
        split <;> split <;> omega
  intro r c hc
  rw [row r c hc]
  congr 1
  induction r with
  | zero => simp [drawn]
  | succ r ih =>
    rw [Nat.succ_mul, row r W le_rfl, ih, if_neg (by omega), Nat.succ_mul]

/-- A red row at `m` in a drawing of width `W`. -/
theorem drawn_row (W m : Nat) (mid : Int → Bool) (hmid : ∀ r c : Nat, c < W → (mid ((r * W + c : Nat) : Int) = true ↔ r = m)) :
    ∀ r c : Nat, c ≤ W → drawn mid (r * W + c) = (if r ≤ m then r else r - 1) * W + if r = m then 0 else c := by
  have row : ∀ r c : Nat, c ≤ W → drawn mid (r * W + c) = drawn mid (r * W) + if r = m then 0 else c := by
    intro r c
    induction c with
    | zero => simp
    | succ c ih =>
      intro hc
      rw [← Nat.add_assoc, drawn, ih (by omega)]
      have := hmid r c (by omega)
      by_cases h : r = m
      · rw [if_pos (this.2 h), if_pos h, if_pos h]
      · rw [if_neg (fun h' => h (this.1 h')), if_neg h, if_neg h]
        omega
  intro r c hc
  rw [row r c hc]
  congr 1
  induction r with
  | zero => simp [drawn]
  | succ r ih =>
    rw [Nat.succ_mul, row r W le_rfl, ih]
    by_cases h : r = m
    · subst h; simp
    · rw [if_neg h]
      by_cases h2 : r ≤ m
      · rw [if_pos h2, if_pos (by omega), Nat.succ_mul]
      · rw [if_neg h2, if_neg (by omega)]
        have : r + 1 - 1 = (r - 1) + 1 := by omega
        rw [this, Nat.succ_mul]

/-- The colour that a drawing of an image, `w` pixels wide and `h` pixels high with a red line through the middle, has at row `r` and column `c`. -/
def Shows (draw : Int → Int × Int × Int) (t : CmplType) (w h : Nat) (r c : Nat) (col : Int × Int × Int) : Prop :=
  if t = .top ∨ t = .bottom then col = if r = (h + 1) / 2 then red else draw (((if r < (h + 1) / 2 then r else r - 1) * w + c : Nat) : Int)
  else col = if c = (w + 1) / 2 then red else draw ((r * w + (if c < (w + 1) / 2 then c else c - 1) : Nat) : Int)

theorem range_map_get {α : Type} (f : Nat → α) (n i : Nat) (h : i < n) : ((List.range n).map f)[i]? = some (f i) := by
  simp [h]

theorem imgCmpl_spec (draw : Int → Int × Int × Int) (t : CmplType) (w h : Nat) (max : Int) :
    ∃ (W H : Nat), (imgCmpl draw t w h max).width = W ∧ (imgCmpl draw t w h max).height = H ∧
      (W = if t = .top ∨ t = .bottom then w else w + 1) ∧ (H = if t = .top ∨ t = .bottom then h + 1 else h) ∧
      (imgCmpl draw t w h max).pixels.length = W * H ∧
      ∀ r c : Nat, r < H → c < W → ∃ col, (imgCmpl draw t w h max).pixels[r * W + c]? = some col ∧ Shows draw t w h r c col := by
  by_cases ht : t = .top ∨ t = .bottom
  · have hf : cmplFrame t w h = ((w : Int), ((h + 1 : Nat) : Int), fun p => decide (p ≥ (w : Int) * ((h : Int) + 1).tdiv 2) && decide (p < (w : Int) * ((h : Int) + 1).tdiv 2 + w)) := by
      unfold cmplFrame; rw [if_pos ht]; rfl
    have hq : (w : Int) * ((h : Int) + 1).tdiv 2 = ((((h + 1) / 2) * w : Nat) : Int) := by
      rw [Int.tdiv_eq_ediv_of_nonneg (by omega)]
      push_cast
      ring
    rw [hq] at hf
    generalize hmd : (fun p => decide (p ≥ ((((h + 1) / 2) * w : Nat) : Int)) && decide (p < ((((h + 1) / 2) * w : Nat) : Int) + w) : Int → Bool) = mid at hf
    have hmid : ∀ r c : Nat, c < w → (mid ((r * w + c : Nat) : Int) = true ↔ r = (h + 1) / 2) := by
      intro r c hc
      rw [← hmd]
      simp only [Bool.and_eq_true, decide_eq_true_iff]
      generalize (h + 1) / 2 = m
      constructor
      · rintro ⟨h1, h2⟩
        have h1 : m * w ≤ r * w + c := by exact_mod_cast h1
        have h2 : r * w + c < m * w + w := by exact_mod_cast h2
        rcases Nat.lt_trichotomy r m with h | h | h
        · have := Nat.mul_le_mul_right w (show r + 1 ≤ m by omega)
          rw [Nat.succ_mul] at this
          omega
        · exact h
        · have := Nat.mul_le_mul_right w (show m + 1 ≤ r by omega)
          rw [Nat.succ_mul] at this
          omega
      · rintro rfl
        constructor
        · push_cast; omega
        · push_cast; omega
    refine ⟨w, h + 1, ?_, ?_, by rw [if_pos ht], by rw [if_pos ht], ?_, ?_⟩
    · simp [imgCmpl, hf]
    · simp [imgCmpl, hf]
    · simp only [imgCmpl, hf, cmplFold, List.length_map, List.length_range]
      rw [← Int.natCast_mul, Int.toNat_natCast]
    · intro r c hr hc
      have hlt : r * w + c < w * (h + 1) := by
        have := Nat.mul_le_mul_right w (show r + 1 ≤ h + 1 by omega)
        rw [Nat.succ_mul] at this
        rw [Nat.mul_comm w]
        omega
      refine ⟨if mid ((r * w + c : Nat) : Int) then red else draw (drawn mid (r * w + c) : Int), ?_, ?_⟩
      · simp only [imgCmpl, hf, cmplFold]
        rw [← Int.natCast_mul, Int.toNat_natCast]
        exact range_map_get _ _ _ hlt
      · unfold Shows
        rw [if_pos ht, drawn_row w ((h + 1) / 2) mid hmid r c hc.le]
        by_cases hrm : r = (h + 1) / 2
        · rw [if_pos ((hmid r c hc).2 hrm), if_pos hrm]
        · rw [if_neg (fun h' => hrm ((hmid r c hc).1 h')), if_neg hrm, if_neg hrm]
          congr 4
          by_cases h2 : r < (h + 1) / 2
          · rw [if_pos h2, if_pos h2.le]
          · rw [if_neg h2, if_neg (by omega)]
  · have hf : cmplFrame t w h = (((w + 1 : Nat) : Int), (h : Int), fun p => decide (p.tmod ((w + 1 : Nat) : Int) = ((w + 1 : Nat) : Int).tdiv 2)) := by
      unfold cmplFrame; rw [if_neg ht]; rfl
    generalize hmd : (fun p => decide (p.tmod ((w + 1 : Nat) : Int) = ((w + 1 : Nat) : Int).tdiv 2) : Int → Bool) = mid at hf
    have hmid : ∀ r c : Nat, c < w + 1 → (mid ((r * (w + 1) + c : Nat) : Int) = true ↔ c = (w + 1) / 2) := by
      intro r c hc
      rw [← hmd]
      simp only [decide_eq_true_iff]
      rw [Int.tmod_eq_emod_of_nonneg (by omega), Int.tdiv_eq_ediv_of_nonneg (by omega), ← Int.natCast_emod, Nat.mul_comm, Nat.mul_add_mod, Nat.mod_eq_of_lt hc]
      omega
    refine ⟨w + 1, h, ?_, ?_, by rw [if_neg ht], by rw [if_neg ht], ?_, ?_⟩
    · simp [imgCmpl, hf]
    · simp [imgCmpl, hf]
    · simp only [imgCmpl, hf, cmplFold, List.length_map, List.length_range]
      rw [← Int.natCast_mul, Int.toNat_natCast]
    · intro r c hr hc
      have hlt : r * (w + 1) + c < (w + 1) * h := by
        have := Nat.mul_le_mul_right (w + 1) (show r + 1 ≤ h by omega)
        rw [Nat.succ_mul] at this
        rw [Nat.mul_comm (w + 1)]
        omega
      refine ⟨if mid ((r * (w + 1) + c : Nat) : Int) then red else draw (drawn mid (r * (w + 1) + c) : Int), ?_, ?_⟩
      · simp only [imgCmpl, hf, cmplFold]
        rw [← Int.natCast_mul, Int.toNat_natCast]
        exact range_map_get _ _ _ hlt
      · unfold Shows
        rw [if_neg ht, drawn_column (w + 1) ((w + 1) / 2) (by omega) mid hmid r c hc.le]
        by_cases hrm : c = (w + 1) / 2
        · rw [if_pos ((hmid r c hc).2 hrm), if_pos hrm]
        · rw [if_neg (fun h' => hrm ((hmid r c hc).1 h')), if_neg hrm]
          congr 4
          exact propext (by omega)

/-- C61, part: `ImgCmplToPGM` draws every pixel of the image once, at its place, around a red row (top, bottom) or column (otherwise): grey where the
original has the pixel, green in the value of the completion otherwise. -/
theorem C61_pgm_partial (orig cmpl : VarSet) (t : CmplType) (w h : Nat) (max : Int) :
    ∃ (W H : Nat), (imgCmplToPGM orig cmpl t w h max).width = W ∧ (imgCmplToPGM orig cmpl t w h max).height = H ∧
      (W = if t = .top ∨ t = .bottom then w else w + 1) ∧ (H = if t = .top ∨ t = .bottom then h + 1 else h) ∧
      (imgCmplToPGM orig cmpl t w h max).pixels.length = W * H ∧
      ∀ r c : Nat, r < H → c < W → ∃ col, (imgCmplToPGM orig cmpl t w h max).pixels[r * W + c]? = some col ∧
        Shows (fun j => match orig j with
          | some v => (v, v, v)
          | none => (0, (cmpl j).getD 0, 0)) t w h r c col :=
  imgCmpl_spec _ t w h (max - 1)

/-- C61 for `ImgCmplToPPM`: blue and white for the original, green and white for the completion. -/
theorem C61_ppm (orig cmpl : VarSet) (t : CmplType) (w h : Nat) :
    ∃ (W H : Nat), (imgCmplToPPM orig cmpl t w h).width = W ∧ (imgCmplToPPM orig cmpl t w h).height = H ∧
      (W = if t = .top ∨ t = .bottom then w else w + 1) ∧ (H = if t = .top ∨ t = .bottom then h + 1 else h) ∧
      (imgCmplToPPM orig cmpl t w h).pixels.length = W * H ∧
      ∀ r c : Nat, r < H → c < W → ∃ col, (imgCmplToPPM orig cmpl t w h).pixels[r * W + c]? = some col ∧
        Shows (fun j => match orig j with
          | some v => if v = 1 then (0, 0, 255) else (255, 255, 255)
          | none => if (cmpl j).getD 0 = 1 then (0, 255, 0) else (255, 255, 255)) t w h r c col :=
  imgCmpl_spec _ t w h 255

/-- C61 fails for `ImgCmplToPGM` as stated: whatever the image, the red line has samples above the declared maximum if there are fewer than 256 shades. -/
theorem C61_refuted (orig cmpl : VarSet) (t : CmplType) (w h : Nat) (hw : 0 < w) (hh : 0 < h) (max : Int) (hm : max < 256) :
    ∃ p ∈ (imgCmplToPGM orig cmpl t w h max).pixels, (imgCmplToPGM orig cmpl t w h max).max < p.1 := by
  obtain ⟨W, H, _, _, hW, hH, _, hp⟩ := C61_pgm_partial orig cmpl t w h max
  by_cases ht : t = .top ∨ t = .bottom
  · rw [if_pos ht] at hW hH
    obtain ⟨col, h1, h2⟩ := hp ((h + 1) / 2) 0 (by omega) (by omega)
    unfold Shows at h2
    rw [if_pos ht, if_pos rfl] at h2
    refine ⟨col, List.mem_of_getElem? h1, ?_⟩
    rw [h2]
    show max - 1 < 255
    omega
  · rw [if_neg ht] at hW hH
    obtain ⟨col, h1, h2⟩ := hp 0 ((w + 1) / 2) (by omega) (by omega)
    unfold Shows at h2
    rw [if_neg ht, if_pos rfl] at h2
    refine ⟨col, List.mem_of_getElem? h1, ?_⟩
    rw [h2]
    show max - 1 < 255
    omega

/-! ### C62 -/

/-- C62: for a state with exactly the variables `0 … n-1`, in whatever order the map is visited, sample `i` written by `VarSetToPGM`, `VarSetToPBM` and `VarSetToPPM` is the value of
variable `i`; any state with another set of variables panics. -/
theorem C62_statePixels (state : VarSet) (ks : List Int) (_hnd : ks.Nodup) (hks : ∀ k, k ∈ ks ↔ (state k).isSome) :
    ((∀ k, (state k).isSome ↔ 0 ≤ k ∧ k < ks.length) → statePixels ks state = some ((List.range ks.length).map fun (i : Nat) => (state (i : Int)).getD 0)) ∧
    ((∃ k, (state k).isSome ∧ ¬ (0 ≤ k ∧ k < ks.length)) → statePixels ks state = none) := by
  have gen : ∀ (l : List Int) (px : List Int), (∀ k ∈ l, 0 ≤ k ∧ k < px.length) →
      ∃ px', l.foldlM (fun px k => goSet px k (state.get k)) px = some px' ∧ px'.length = px.length ∧
        ∀ i : Nat, i < px.length → px'[i]? = if (i : Int) ∈ l then some (state.get (i : Int)) else px[i]? := by
    intro l
    induction l with
    | nil => intro px _; exact ⟨px, rfl, rfl, by simp⟩
    | cons k l ih =>
      intro px hl
      have hk := hl k (by simp)
      obtain ⟨px', h1, h2, h3⟩ := ih (px.set k.toNat (state.get k)) (fun j hj => by rw [List.length_set]; exact hl j (by simp [hj]))
      refine ⟨px', ?_, by simpa using h2, ?_⟩
      · rw [List.foldlM_cons]
        simp only [goSet, if_pos hk, bind, Option.bind_some]
        exact h1
      · intro i hi
        rw [h3 i (by simpa using hi)]
        by_cases hm : (i : Int) ∈ l
        · simp [hm]
        · by_cases hik : (i : Int) = k
          · have : k.toNat = i := by omega
            simp [hm, hik, this, hi]
          · have : k.toNat ≠ i := by omega
            simp [hm, hik, List.getElem?_set_ne this]
  constructor
  · intro hfull
    unfold statePixels
    obtain ⟨px', h1, h2, h3⟩ := gen ks (List.replicate ks.length 0) (fun k hk => by rw [List.length_replicate]; exact (hfull k).1 ((hks k).1 hk))
    rw [h1]
    congr 1
    rw [List.length_replicate] at h2 h3
    apply List.ext_getElem?
    intro i
    by_cases hi : i < ks.length
    · rw [h3 i hi, if_pos ((hks i).2 ((hfull i).2 ⟨by omega, by omega⟩)), range_map_get _ _ _ hi]
      rfl
    · rw [List.getElem?_eq_none (by omega), List.getElem?_eq_none (by simpa using hi)]
  · rintro ⟨k, hk, hout⟩
    have hmem := (hks k).2 hk
    have bad : ∀ (l : List Int) (px : List Int), k ∈ l → px.length = ks.length → l.foldlM (fun px k => goSet px k (state.get k)) px = none := by
      intro l
      induction l with
      | nil => intro px h; cases h
      | cons j l ih =>
        intro px hj hpx
        rw [List.foldlM_cons]
        by_cases h : 0 ≤ j ∧ j < px.length
        · simp only [goSet, if_pos h, bind, Option.bind_some]
          refine ih _ ?_ (by simpa using hpx)
          rcases List.mem_cons.1 hj with rfl | h'
          · rw [hpx] at h; exact absurd h hout
          · exact h'
        · simp only [goSet, if_neg h, bind, Option.bind_none]
    exact bad ks _ hmem (by simp)

/-- A state of three variables and one of its iteration orders. -/
example : [2, 0, (1 : Int)].Nodup ∧ (∀ k, k ∈ [2, 0, (1 : Int)] ↔ ((fun k => if 0 ≤ k ∧ k < 3 then some (7 * k) else none : VarSet) k).isSome) := by
  refine ⟨by decide, fun k => ?_⟩
  by_cases h : 0 ≤ k ∧ k < 3
  · simp only [h, and_self, if_true, Option.isSome_some, iff_true, List.mem_cons, List.not_mem_nil, or_false]
    omega
  · simp only [h, if_false, List.mem_cons, List.not_mem_nil, or_false, Option.isSome_none, Bool.false_eq_true, iff_false]
    omega

end Gospn
