/-
Theorems about regions of images: C53.
-/
import Verif.Model.Poon
import Mathlib.Tactic.Ring
import Mathlib.Tactic.Linarith
import Mathlib.Tactic.Positivity

namespace Gospn

theorem toU64_nat (n : Nat) (h : n < 2 ^ 64) : toU64 (n : Int) = n := by unfold toU64; omega

theorem u64_small (n : Nat) (h : n < 2 ^ 64) : u64 n = n := Nat.mod_eq_of_lt h

theorem ofU64_small (n : Nat) (h : n < 2 ^ 63) : ofU64 n = n := by unfold ofU64; rw [if_pos h]

/-- A step of decoding takes a quotient. -/
theorem step_back (k m r W : Nat) (hW : 0 < W) (hr : r < W) (hk : k = m * W + r) (hk64 : k < 2 ^ 64) (hr63 : r < 2 ^ 63) :
    ofU64 (k % W) = r ∧ u64 (k + 2 ^ 64 - toU64 (ofU64 (k % W))) / W = m := by
  have h1 : k % W = r := by rw [hk, Nat.mul_comm, Nat.mul_add_mod, Nat.mod_eq_of_lt hr]
  rw [h1, ofU64_small _ hr63, toU64_nat _ (by omega)]
  refine ⟨rfl, ?_⟩
  have : u64 (k + 2 ^ 64 - r) = m * W := by
    have hle : r ≤ k := by omega
    have : k + 2 ^ 64 - r = m * W + 2 ^ 64 := by omega
    rw [this]
    unfold u64
    rw [Nat.add_mod_right, Nat.mod_eq_of_lt (by omega)]
  rw [this, Nat.mul_div_cancel _ hW]

/-- C53: for an image whose codes fit in 64 bits, decoding gives back the coordinates of every rectangle within it, so two rectangles with the same code are the same. -/
theorem C53_decode_encode (w h : Nat) (hfit : (h + 1) * (w + 1) * (w + 1) * (h + 1) ≤ 2 ^ 64) (x1 y1 x2 y2 : Nat) (hx1 : x1 ≤ w) (hy1 : y1 ≤ h) (hx2 : x2 ≤ w) (hy2 : y2 ≤ h) :
    decodeRegion w h (encodeRegion w h x1 y1 x2 y2) = some ((x1 : Int), (y1 : Int), (x2 : Int), (y2 : Int)) := by
  have bound : ∀ a b m n : Nat, a < m → b < n → a * n + b < m * n := by
    intro a b m n ha hb
    have := Nat.mul_le_mul_right n (show a + 1 ≤ m by omega)
    rw [Nat.succ_mul] at this
    omega
  have b1 := bound y1 x1 (h + 1) (w + 1) (by omega) (by omega)
  have b2 := bound (y1 * (w + 1) + x1) x2 ((h + 1) * (w + 1)) (w + 1) b1 (by omega)
  have b3 := bound ((y1 * (w + 1) + x1) * (w + 1) + x2) y2 ((h + 1) * (w + 1) * (w + 1)) (h + 1) b2 (by omega)
  have hw1 : 1 ≤ w + 1 := by omega
  have hh1 : 1 ≤ h + 1 := by omega
  -- every intermediate number is below 2^64
  have c2 : (h + 1) * (w + 1) * (w + 1) ≤ (h + 1) * (w + 1) * (w + 1) * (h + 1) := Nat.le_mul_of_pos_right _ hh1
  have c1 : (h + 1) * (w + 1) ≤ (h + 1) * (w + 1) * (w + 1) := Nat.le_mul_of_pos_right _ hw1
  have d1 : h + 1 ≤ (h + 1) * (w + 1) := Nat.le_mul_of_pos_right _ hw1
  have d2 : w + 1 ≤ (h + 1) * (w + 1) := Nat.le_mul_of_pos_left _ hh1
  -- a side of the image is below 2^33
  have s1 : w < 2 ^ 63 := by
    by_contra hge
    have h1 : 2 ^ 63 ≤ w + 1 := by omega
    have h2 : (w + 1) * (w + 1) ≤ (h + 1) * (w + 1) * (w + 1) := by
      rw [Nat.mul_assoc]
      exact Nat.le_mul_of_pos_left _ hh1
    have h3 : 2 ^ 63 * (w + 1) ≤ (w + 1) * (w + 1) := Nat.mul_le_mul_right _ h1
    omega
  have s2 : h < 2 ^ 63 := by
    by_contra hge
    have h1 : 2 ^ 63 ≤ h + 1 := by omega
    have h2 : (h + 1) * (h + 1) ≤ (h + 1) * (w + 1) * (w + 1) * (h + 1) := by
      apply Nat.mul_le_mul_right
      omega
    have h3 : 2 ^ 63 * (h + 1) ≤ (h + 1) * (h + 1) := Nat.mul_le_mul_right _ h1
    omega
  have ew : toU64 ((w : Int) + 1) = w + 1 := toU64_nat (w + 1) (by omega)
  have eh : toU64 ((h : Int) + 1) = h + 1 := toU64_nat (h + 1) (by omega)
  have e : encodeRegion w h x1 y1 x2 y2 = ((y1 * (w + 1) + x1) * (w + 1) + x2) * (h + 1) + y2 := by
    unfold encodeRegion
    simp only [ew, eh]
    rw [toU64_nat y1 (by omega), toU64_nat x1 (by omega), toU64_nat x2 (by omega), toU64_nat y2 (by omega)]
    rw [u64_small (y1 * (w + 1)) (by omega), u64_small (y1 * (w + 1) + x1) (by omega), u64_small ((y1 * (w + 1) + x1) * (w + 1)) (by omega),
      u64_small ((y1 * (w + 1) + x1) * (w + 1) + x2) (by omega), u64_small (((y1 * (w + 1) + x1) * (w + 1) + x2) * (h + 1)) (by omega), u64_small _ (by omega)]
  rw [e]
  unfold decodeRegion
  simp only [ew, eh]
  rw [if_neg (by omega)]
  obtain ⟨p1, q1⟩ := step_back (((y1 * (w + 1) + x1) * (w + 1) + x2) * (h + 1) + y2) ((y1 * (w + 1) + x1) * (w + 1) + x2) y2 (h + 1) hh1 (by omega) rfl (by omega) (by omega)
  obtain ⟨p2, q2⟩ := step_back ((y1 * (w + 1) + x1) * (w + 1) + x2) (y1 * (w + 1) + x1) x2 (w + 1) hw1 (by omega) rfl (by omega) (by omega)
  obtain ⟨p3, q3⟩ := step_back (y1 * (w + 1) + x1) y1 x1 (w + 1) hw1 (by omega) rfl (by omega) (by omega)
  rw [q1, q2, q3, p1, p2, p3, ofU64_small y1 (by omega)]

theorem C53_injective (w h : Nat) (hfit : (h + 1) * (w + 1) * (w + 1) * (h + 1) ≤ 2 ^ 64) (x1 y1 x2 y2 a1 b1 a2 b2 : Nat) (hx1 : x1 ≤ w) (hy1 : y1 ≤ h) (hx2 : x2 ≤ w) (hy2 : y2 ≤ h)
    (ha1 : a1 ≤ w) (hb1 : b1 ≤ h) (ha2 : a2 ≤ w) (hb2 : b2 ≤ h) (he : encodeRegion w h x1 y1 x2 y2 = encodeRegion w h a1 b1 a2 b2) : x1 = a1 ∧ y1 = b1 ∧ x2 = a2 ∧ y2 = b2 := by
  have h1 := C53_decode_encode w h hfit x1 y1 x2 y2 hx1 hy1 hx2 hy2
  have h2 := C53_decode_encode w h hfit a1 b1 a2 b2 ha1 hb1 ha2 hb2
  rw [he, h2, Option.some.injEq, Prod.mk.injEq, Prod.mk.injEq, Prod.mk.injEq] at h1
  omega

/-- Images of one million pixels fit. -/
example : (1000 + 1) * (1000 + 1) * (1000 + 1) * (1000 + 1) ≤ 2 ^ 64 := by norm_num

end Gospn
