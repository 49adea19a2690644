/-
The order in which learn/poon/poon.go goes through the regions: each comes after the parts it can be cut into.
-/
import Verif.Proofs.PoonFirst
import Mathlib.Tactic.Ring

set_option linter.unusedSectionVars false
set_option linter.unusedSimpArgs false

namespace Gospn
open Spec GoFloat

theorem mul_succ_le {a b r : Nat} (h : a < b) : a * r + r ≤ b * r := by
  have := Nat.mul_le_mul_right r h
  rw [Nat.succ_mul] at this
  exact this

theorem coarseRects_eq (W H r : Nat) (hr : 0 < r) : coarseRects (W * r) (H * r) r =
    (List.range W).flatMap fun a => (List.range H).flatMap fun b =>
      if a = 0 ∧ b = 0 then []
      else (List.range (W - a)).flatMap fun i => (List.range (H - b)).map fun j =>
        (⟨i * r, j * r, i * r + (a + 1) * r, j * r + (b + 1) * r⟩, decide (a + 1 = W ∧ b + 1 = H)) := by
  unfold coarseRects
  rw [Nat.mul_div_cancel _ hr, Nat.mul_div_cancel _ hr]
  apply List.flatMap_congr
  intro a ha
  apply List.flatMap_congr
  intro b hb
  rw [List.mem_range] at ha hb
  have h1 : (W * r - (a + 1) * r) / r + 1 = W - a := by
    rw [← Nat.sub_mul, Nat.mul_div_cancel _ hr]; omega
  have h2 : (H * r - (b + 1) * r) / r + 1 = H - b := by
    rw [← Nat.sub_mul, Nat.mul_div_cancel _ hr]; omega
  rw [h1, h2]

theorem mem_coarseRects {W H r : Nat} (hr : 0 < r) {k : Rect} {b : Bool} : (k, b) ∈ coarseRects (W * r) (H * r) r ↔
    (∃ i i' j j', i < i' ∧ i' ≤ W ∧ j < j' ∧ j' ≤ H ∧ ¬ (i' = i + 1 ∧ j' = j + 1) ∧ k = ⟨i * r, j * r, i' * r, j' * r⟩) ∧ b = decide (k = ⟨0, 0, W * r, H * r⟩) := by
  rw [coarseRects_eq W H r hr]
  simp only [List.mem_flatMap, List.mem_range]
  have inj : ∀ {a b : Nat}, a * r = b * r → a = b := fun h => Nat.eq_of_mul_eq_mul_right hr h
  constructor
  · rintro ⟨a, ha, c, hc, h⟩
    split at h
    · cases h
    · rename_i hne
      simp only [List.mem_flatMap, List.mem_range, List.mem_map] at h
      obtain ⟨i, hi, j, hj, h⟩ := h
      rw [Prod.mk.injEq] at h
      obtain ⟨rfl, rfl⟩ := h
      constructor
      · refine ⟨i, i + (a + 1), j, j + (c + 1), by omega, by omega, by omega, by omega, by omega, ?_⟩
        simp only [Rect.mk.injEq, true_and]
        constructor <;> ring
      · congr 1
        simp only [Rect.mk.injEq, eq_iff_iff]
        constructor
        · rintro ⟨rfl, rfl⟩
          have : i = 0 := by omega
          have : j = 0 := by omega
          subst i j
          simp
        · rintro ⟨h1, h2, h3, h4⟩
          rw [h1] at h3
          rw [h2] at h4
          rw [Nat.zero_add] at h3 h4
          exact ⟨inj h3, inj h4⟩
  · rintro ⟨⟨i, i', j, j', h1, h2, h3, h4, h5, rfl⟩, rfl⟩
    refine ⟨i' - i - 1, by omega, j' - j - 1, by omega, ?_⟩
    rw [if_neg (by omega)]
    simp only [List.mem_flatMap, List.mem_range, List.mem_map]
    refine ⟨i, by omega, j, by omega, ?_⟩
    rw [Prod.mk.injEq]
    have e1 : i * r + (i' - i - 1 + 1) * r = i' * r := by rw [← Nat.add_mul]; congr 1; omega
    have e2 : j * r + (j' - j - 1 + 1) * r = j' * r := by rw [← Nat.add_mul]; congr 1; omega
    rw [e1, e2]
    refine ⟨rfl, ?_⟩
    congr 1
    simp only [Rect.mk.injEq, eq_iff_iff]
    constructor
    · rintro ⟨g1, g2⟩
      have : i = 0 := by omega
      have : j = 0 := by omega
      subst i j
      refine ⟨by simp, by simp, ?_, ?_⟩ <;> congr 1 <;> omega
    · rintro ⟨g1, g2, g3, g4⟩
      have := inj g3
      have := inj g4
      have h5 : i = 0 := inj (by simpa using g1)
      have h6 : j = 0 := inj (by simpa using g2)
      omega

theorem mem_coarse {W H r : Nat} (hr : 0 < r) {k : Rect} : k ∈ (coarseRects (W * r) (H * r) r).map (·.1) ↔
    ∃ i i' j j', i < i' ∧ i' ≤ W ∧ j < j' ∧ j' ≤ H ∧ ¬ (i' = i + 1 ∧ j' = j + 1) ∧ k = ⟨i * r, j * r, i' * r, j' * r⟩ := by
  constructor
  · intro h
    obtain ⟨⟨k', b⟩, hb, rfl⟩ := List.mem_map.1 h
    exact ((mem_coarseRects hr).1 hb).1
  · intro h
    exact List.mem_map.2 ⟨(k, _), (mem_coarseRects hr).2 ⟨h, rfl⟩, rfl⟩

/-- No region comes before one that is inside it: regions of several blocks. -/
theorem coarse_order {W H r : Nat} (hr : 0 < r) : ((coarseRects (W * r) (H * r) r).map (·.1)).Pairwise fun a b => ¬ b.Inside a := by
  rw [List.pairwise_map, coarseRects_eq W H r hr, List.pairwise_flatMap]
  have lt_range : ∀ n, (List.range n).Pairwise (· < ·) := fun n => List.pairwise_lt_range
  refine ⟨?_, (lt_range W).imp ?_⟩
  · intro a _
    rw [List.pairwise_flatMap]
    refine ⟨?_, (lt_range H).imp ?_⟩
    · intro b _
      split
      · exact List.Pairwise.nil
      rw [List.pairwise_flatMap]
      refine ⟨?_, (lt_range _).imp ?_⟩
      · intro i _
        rw [List.pairwise_map]
        refine (lt_range _).imp ?_
        intro j j' hj h
        have := mul_succ_le (r := r) hj
        unfold Rect.Inside at h
        dsimp only at h
        omega
      · intro i i' hi x hx y hy h
        obtain ⟨j, _, rfl⟩ := List.mem_map.1 hx
        obtain ⟨j', _, rfl⟩ := List.mem_map.1 hy
        have := mul_succ_le (r := r) hi
        unfold Rect.Inside at h
        dsimp only at h
        omega
    · intro b b' hb x hx y hy h
      split at hx
      · cases hx
      split at hy
      · cases hy
      simp only [List.mem_flatMap, List.mem_map] at hx hy
      obtain ⟨i, _, j, _, rfl⟩ := hx
      obtain ⟨i', _, j', _, rfl⟩ := hy
      have := mul_succ_le (r := r) (show b + 1 < b' + 1 by omega)
      unfold Rect.Inside at h
      dsimp only at h
      omega
  · intro a a' ha x hx y hy h
    simp only [List.mem_flatMap] at hx hy
    obtain ⟨b, _, hx⟩ := hx
    obtain ⟨b', _, hy⟩ := hy
    split at hx
    · cases hx
    split at hy
    · cases hy
    simp only [List.mem_flatMap, List.mem_map] at hx hy
    obtain ⟨i, _, j, _, rfl⟩ := hx
    obtain ⟨i', _, j', _, rfl⟩ := hy
    have := mul_succ_le (r := r) (show a + 1 < a' + 1 by omega)
    unfold Rect.Inside at h
    dsimp only at h
    omega

/-- No region comes before one that is inside it: regions within a block. -/
theorem fine_order {w h r : Nat} (hr : 0 < r) : (fineRects w h r).Pairwise fun a b => ¬ b.Inside a := by
  have lt_range : ∀ n, (List.range n).Pairwise (· < ·) := fun n => List.pairwise_lt_range
  unfold fineRects
  rw [List.pairwise_flatMap]
  refine ⟨?_, (lt_range _).imp ?_⟩
  · intro ca _
    rw [List.pairwise_flatMap]
    refine ⟨?_, (lt_range _).imp ?_⟩
    · intro cb _
      rw [List.pairwise_flatMap]
      refine ⟨?_, (lt_range _).imp ?_⟩
      · intro x _
        rw [List.pairwise_flatMap]
        refine ⟨?_, (lt_range _).imp ?_⟩
        · intro y _
          rw [List.pairwise_flatMap]
          refine ⟨?_, (lt_range _).imp ?_⟩
          · intro i _
            rw [List.pairwise_map]
            refine (lt_range _).imp ?_
            intro j j' hj h
            unfold Rect.Inside at h
            dsimp only at h
            omega
          · intro i i' hi x hx y hy h
            obtain ⟨j, _, rfl⟩ := List.mem_map.1 hx
            obtain ⟨j', _, rfl⟩ := List.mem_map.1 hy
            unfold Rect.Inside at h
            dsimp only at h
            omega
        · intro y y' hy u hu v hv h
          simp only [List.mem_flatMap, List.mem_map] at hu hv
          obtain ⟨i, _, j, _, rfl⟩ := hu
          obtain ⟨i', _, j', _, rfl⟩ := hv
          unfold Rect.Inside at h
          dsimp only at h
          omega
      · intro x x' hx u hu v hv h
        simp only [List.mem_flatMap, List.mem_map] at hu hv
        obtain ⟨y, _, i, _, j, _, rfl⟩ := hu
        obtain ⟨y', _, i', _, j', _, rfl⟩ := hv
        unfold Rect.Inside at h
        dsimp only at h
        omega
    · intro cb cb' hcb u hu v hv h
      simp only [List.mem_flatMap, List.mem_map, List.mem_range] at hu hv
      obtain ⟨x, hx, y, hy, i, hi, j, hj, rfl⟩ := hu
      obtain ⟨x', hx', y', hy', i', hi', j', hj', rfl⟩ := hv
      have := mul_succ_le (r := r) hcb
      unfold Rect.Inside at h
      dsimp only at h
      omega
  · intro ca ca' hca u hu v hv h
    simp only [List.mem_flatMap, List.mem_map, List.mem_range] at hu hv
    obtain ⟨cb, _, x, hx, y, hy, i, hi, j, hj, rfl⟩ := hu
    obtain ⟨cb', _, x', hx', y', hy', i', hi', j', hj', rfl⟩ := hv
    have := mul_succ_le (r := r) hca
    unfold Rect.Inside at h
    dsimp only at h
    omega

/-- The regions with sums, in the order of `mapInference`. -/
def sumRects (w h r : Nat) : List Rect := ((fineRects w h r).filter fun k => !k.isUnit) ++ (coarseRects w h r).map (·.1)

theorem fine_small {w h r : Nat} {k : Rect} (hk : k ∈ fineRects w h r) : k.x2 - k.x1 ≤ r ∧ k.y2 - k.y1 ≤ r := by
  obtain ⟨ca, hca, cb, hcb, h1, h2, h3, h4, h5, h6⟩ := mem_fineRects.1 hk
  rw [Nat.add_mul] at h3 h6
  omega

theorem coarse_large {W H r : Nat} (hr : 0 < r) {k : Rect} (hk : k ∈ (coarseRects (W * r) (H * r) r).map (·.1)) :
    r ≤ k.x2 - k.x1 ∧ r ≤ k.y2 - k.y1 ∧ (2 * r ≤ k.x2 - k.x1 ∨ 2 * r ≤ k.y2 - k.y1) := by
  obtain ⟨i, i', j, j', h1, h2, h3, h4, h5, rfl⟩ := (mem_coarse hr).1 hk
  dsimp only
  have a1 := mul_succ_le (r := r) h1
  have a2 := mul_succ_le (r := r) h3
  by_cases hi : i' = i + 1
  · have hj : j + 1 < j' := by omega
    have := mul_succ_le (r := r) hj
    rw [Nat.succ_mul] at this
    omega
  · have hj : i + 1 < i' := by omega
    have := mul_succ_le (r := r) hj
    rw [Nat.succ_mul] at this
    omega

theorem sumRects_order {W H r : Nat} (hr : 0 < r) : (sumRects (W * r) (H * r) r).Pairwise fun a b => ¬ b.Inside a := by
  unfold sumRects
  rw [List.pairwise_append]
  refine ⟨(fine_order hr).filter _, coarse_order hr, ?_⟩
  intro a ha b hb h
  have h1 := fine_small (List.mem_filter.1 ha).1
  have h2 := coarse_large hr hb
  unfold Rect.Inside at h
  omega

theorem cuts_mem_form {a b step x : Nat} (h : x ∈ cuts a b step) : ∃ t, x = a + (t + 1) * step := by
  unfold cuts at h
  obtain ⟨i, _, rfl⟩ := List.mem_map.1 h
  exact ⟨i, rfl⟩

theorem cuts_ne {a b step : Nat} (hs : 0 < step) (h : a + step < b) : cuts a b step ≠ [] := by
  unfold cuts
  have : 1 ≤ (b - a - 1) / step := (Nat.le_div_iff_mul_le hs).2 (by omega)
  simp
  omega

/-- The step of a region: 1 within a block. -/
def stepOf (r : Nat) (k : Rect) : Nat := if k.x2 - k.x1 ≤ r ∧ k.y2 - k.y1 ≤ r then 1 else r

/-- A unit region of the image. -/
def IsPixel (w h : Nat) (k : Rect) : Prop := ∃ x y, x < w ∧ y < h ∧ k = ⟨x, y, x + 1, y + 1⟩

theorem block_fine {W H r : Nat} (hr : 0 < r) {i j : Nat} (hi : i < W) (hj : j < H) :
    (⟨i * r, j * r, (i + 1) * r, (j + 1) * r⟩ : Rect) ∈ fineRects (W * r) (H * r) r := by
  refine mem_fineRects.2 ⟨i, by rwa [Nat.mul_div_cancel _ hr], j, by rwa [Nat.mul_div_cancel _ hr], ?_⟩
  dsimp only
  simp only [Nat.add_mul]
  omega

theorem unit_pixel {w h r : Nat} {k : Rect} (hk : k ∈ fineRects w h r) (hu : k.isUnit = true) : IsPixel w h k := by
  have h1 := isUnit_iff.1 hu
  have h2 := fine_within hk
  refine ⟨k.x1, k.y1, by omega, by omega, ?_⟩
  rw [← h1.1, ← h1.2]

theorem fine_done {w h r : Nat} {k : Rect} (hk : k ∈ fineRects w h r) : IsPixel w h k ∨ k ∈ sumRects w h r := by
  cases hu : k.isUnit with
  | true => exact Or.inl (unit_pixel hk hu)
  | false => exact Or.inr (List.mem_append_left _ (List.mem_filter.2 ⟨hk, by simp [hu]⟩))

theorem grid_done {W H r : Nat} (hr : 0 < r) {i i' j j' : Nat} (h1 : i < i') (h2 : i' ≤ W) (h3 : j < j') (h4 : j' ≤ H) :
    IsPixel (W * r) (H * r) ⟨i * r, j * r, i' * r, j' * r⟩ ∨ (⟨i * r, j * r, i' * r, j' * r⟩ : Rect) ∈ sumRects (W * r) (H * r) r := by
  by_cases h : i' = i + 1 ∧ j' = j + 1
  · obtain ⟨rfl, rfl⟩ := h
    exact fine_done (block_fine hr (by omega) (by omega))
  · exact Or.inr (List.mem_append_right _ ((mem_coarse hr).2 ⟨i, i', j, j', h1, h2, h3, h4, h, rfl⟩))

theorem sumRects_cases {W H r : Nat} (hr : 0 < r) {k : Rect} (hk : k ∈ sumRects (W * r) (H * r) r) :
    (k ∈ fineRects (W * r) (H * r) r ∧ k.isUnit = false ∧ stepOf r k = 1) ∨
    ((∃ i i' j j', i < i' ∧ i' ≤ W ∧ j < j' ∧ j' ≤ H ∧ ¬ (i' = i + 1 ∧ j' = j + 1) ∧ k = ⟨i * r, j * r, i' * r, j' * r⟩) ∧ stepOf r k = r) := by
  rcases List.mem_append.1 hk with h | h
  · obtain ⟨h1, h2⟩ := List.mem_filter.1 h
    left
    refine ⟨h1, by simpa using h2, ?_⟩
    unfold stepOf
    rw [if_pos (fine_small h1)]
  · right
    refine ⟨(mem_coarse hr).1 h, ?_⟩
    have := coarse_large hr h
    unfold stepOf
    rw [if_neg (by omega)]

theorem sumRects_splits {W H r : Nat} (hr : 0 < r) {k : Rect} (hk : k ∈ sumRects (W * r) (H * r) r) : splits k (stepOf r k) ≠ [] := by
  have key : ∀ s, 0 < s → (k.x1 + s < k.x2 ∨ k.y1 + s < k.y2) → splits k s ≠ [] := by
    intro s hs h h0
    unfold splits at h0
    rw [List.append_eq_nil_iff, List.map_eq_nil_iff, List.map_eq_nil_iff] at h0
    rcases h with h | h
    · exact cuts_ne hs h h0.1
    · exact cuts_ne hs h h0.2
  rcases sumRects_cases hr hk with ⟨h1, h2, h3⟩ | ⟨⟨i, i', j, j', h1, h2, h3, h4, h5, rfl⟩, h6⟩
  · rw [h3]
    apply key 1 (by omega)
    have hw := fine_within h1
    have : ¬ (k.x2 = k.x1 + 1 ∧ k.y2 = k.y1 + 1) := by
      rw [← isUnit_iff, h2]
      simp
    omega
  · rw [h6]
    apply key r hr
    dsimp only
    have a1 := mul_succ_le (r := r) h1
    have a2 := mul_succ_le (r := r) h3
    by_cases hi : i' = i + 1
    · have hj : j + 1 < j' := by omega
      have := mul_succ_le (r := r) hj
      rw [Nat.succ_mul] at this
      omega
    · have hj : i + 1 < i' := by omega
      have := mul_succ_le (r := r) hj
      rw [Nat.succ_mul] at this
      omega

/-- The parts of a region are pixels or regions. -/
theorem sumRects_parts {W H r : Nat} (hr : 0 < r) {k : Rect} (hk : k ∈ sumRects (W * r) (H * r) r) {pq : Rect × Rect} (hpq : pq ∈ splits k (stepOf r k)) :
    (IsPixel (W * r) (H * r) pq.1 ∨ pq.1 ∈ sumRects (W * r) (H * r) r) ∧ (IsPixel (W * r) (H * r) pq.2 ∨ pq.2 ∈ sumRects (W * r) (H * r) r) := by
  rcases sumRects_cases hr hk with ⟨h1, h2, h3⟩ | ⟨⟨i, i', j, j', h1, h2, h3, h4, h5, rfl⟩, h6⟩
  · have hs := mem_splits hpq
    obtain ⟨ca, hca, cb, hcb, g1, g2, g3, g4, g5, g6⟩ := mem_fineRects.1 h1
    obtain ⟨p, q⟩ := pq
    have hp : p ∈ fineRects (W * r) (H * r) r ∧ q ∈ fineRects (W * r) (H * r) r := by
      constructor
      all_goals
        refine mem_fineRects.2 ⟨ca, hca, cb, hcb, ?_⟩
        rcases hs with ⟨x, e1, e2, e3, e4⟩ | ⟨y, e1, e2, e3, e4⟩ <;> dsimp only at e3 e4 <;> subst e3 e4 <;> dsimp only <;> omega
    exact ⟨fine_done hp.1, fine_done hp.2⟩
  · rw [h6] at hpq
    have lt : ∀ {a b : Nat}, a * r < b * r → a < b := fun h => Nat.lt_of_mul_lt_mul_right h
    unfold splits at hpq
    rcases List.mem_append.1 hpq with hpq | hpq
    · obtain ⟨x, hx, rfl⟩ := List.mem_map.1 hpq
      obtain ⟨t, rfl⟩ := cuts_mem_form hx
      have hb := mem_cuts hx
      dsimp only at hb ⊢
      have e : i * r + (t + 1) * r = (i + t + 1) * r := by ring
      rw [e] at hb ⊢
      exact ⟨grid_done hr (lt hb.2) h2 h3 h4, grid_done hr (by omega) (by have := lt hb.2; omega) h3 h4⟩
    · obtain ⟨y, hy, rfl⟩ := List.mem_map.1 hpq
      obtain ⟨t, rfl⟩ := cuts_mem_form hy
      have hb := mem_cuts hy
      dsimp only at hb ⊢
      have e : j * r + (t + 1) * r = (j + t + 1) * r := by ring
      rw [e] at hb ⊢
      exact ⟨grid_done hr h1 h2 (lt hb.2) h4, grid_done hr h1 h2 (by omega) (by have := lt hb.2; omega)⟩

theorem sumRects_not_pixel {W H r : Nat} (hr : 1 < r) {k : Rect} (hk : k ∈ sumRects (W * r) (H * r) r) : ¬ IsPixel (W * r) (H * r) k := by
  rintro ⟨x, y, _, _, rfl⟩
  rcases sumRects_cases (by omega) hk with ⟨h1, h2, h3⟩ | ⟨⟨i, i', j, j', h1, h2, h3, h4, h5, h6⟩, _⟩
  · rw [isUnit_iff.2 ⟨rfl, rfl⟩] at h2
    cases h2
  · rw [Rect.mk.injEq] at h6
    have := mul_succ_le (r := r) h1
    omega

end Gospn
