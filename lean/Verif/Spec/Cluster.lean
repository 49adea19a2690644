/-
What a clustering of the rows of a matrix is.
-/
import Mathlib.Data.List.Basic
import Mathlib.Data.Real.Sqrt

namespace Gospn.Spec

/-- `C` is a partition of the rows of `data` into `k` maps from row numbers to rows: every row is in exactly one of them, under its number, and there is
nothing else in them. -/
def PartitionsRows {α : Type} (k : Nat) (data : List (List α)) (C : List (Nat → Option (List α))) : Prop :=
  C.length = k ∧
  (∀ (i : Nat) (row : List α), data[i]? = some row → ∃ (c : Nat) (G : Nat → Option (List α)), C[c]? = some G ∧ G i = some row ∧
    ∀ (c' : Nat) (G' : Nat → Option (List α)), C[c']? = some G' → c' ≠ c → G' i = none) ∧
  ∀ (i : Nat), data[i]? = none → ∀ G ∈ C, G i = none

/-- Number of positions in which two rows differ. -/
def rowDiff (p q : List Int) : Nat := (p.zip q).countP fun x => x.1 ≠ x.2

/-- Every row is in a cluster whose centre is nearest to it. -/
def NearestCentres (centres : List (List Int)) (data : List (List Int)) (C : List (Nat → Option (List Int))) : Prop :=
  ∀ (i : Nat) (row : List Int), data[i]? = some row → ∀ (c : Nat) (G : Nat → Option (List Int)) (m : List Int), C[c]? = some G → G i ≠ none →
    centres[c]? = some m → ∀ m' ∈ centres, rowDiff m row ≤ rowDiff m' row

/-- All rows have the same length. -/
def RowsOfLength {α : Type} (W : Nat) (data : List (List α)) : Prop := ∀ row ∈ data, row.length = W

/-- Square of the Euclidean distance of two rows. -/
def sqDist (p q : List ℝ) : ℝ := ((p.zip q).map fun x => (x.1 - x.2) ^ 2).sum

/-- `v` is the mean of the rows of `data` with numbers in `rows`: each entry, times their number, is the sum of their entries. -/
def IsCentroid (n : Nat) (data : List (List ℝ)) (rows : List Nat) (v : List ℝ) : Prop :=
  v.length = n ∧ ∀ j < n, v.getD j 0 * rows.length = (rows.map fun i => (data.getD i []).getD j 0).sum

end Gospn.Spec
