/-
Rectangles of pixels of an image and how one is cut in two.
-/
import Verif.Model.PoonStruct
import Verif.Spec.Spn

namespace Gospn.Spec

/-- `p` and `q` are what a vertical or a horizontal cut through `k` leaves on its two sides. -/
def SplitOf (k p q : Rect) : Prop :=
  (∃ x, k.x1 < x ∧ x < k.x2 ∧ p = ⟨x, k.y1, k.x2, k.y2⟩ ∧ q = ⟨k.x1, k.y1, x, k.y2⟩) ∨
  (∃ y, k.y1 < y ∧ y < k.y2 ∧ p = ⟨k.x1, y, k.x2, k.y2⟩ ∧ q = ⟨k.x1, k.y1, k.x2, y⟩)

/-- The variable of the pixel in column `x` and row `y` of an image of width `w`. -/
def pixelVar (w x y : Nat) : Int := (x : Int) + (y : Int) * (w : Int)

/-- `v` is the variable of a pixel of the rectangle. -/
def PixelIn (w : Nat) (k : Rect) (v : Int) : Prop := ∃ x y, k.x1 ≤ x ∧ x < k.x2 ∧ k.y1 ≤ y ∧ y < k.y2 ∧ v = pixelVar w x y

end Gospn.Spec
