import Mathlib.Analysis.Real.Sqrt
/-
Mean and standard deviation.
-/
namespace Gospn.Spec

/-- Sum of the values of `f`. -/
noncomputable def total {α : Type} (f : α → ℝ) (l : List α) : ℝ := (l.map f).sum

/-- Mean of a sample. -/
noncomputable def sampleMean (Q : List Int) : ℝ := total (fun (x : Int) => (x : ℝ)) Q / Q.length

/-- Standard deviation of a sample (of the whole population: division by the size). -/
noncomputable def sampleSd (Q : List Int) : ℝ := Real.sqrt (total (fun (x : Int) => ((x : ℝ) - sampleMean Q) ^ 2) Q / Q.length)

/-- Mean of a random position `i` that has the probability `c[i] / sum of c`. -/
noncomputable def countMean (c : List Int) : ℝ := total (fun (x : Int × Nat) => (x.1 : ℝ) * x.2) c.zipIdx / (c.sum : ℝ)

/-- Its standard deviation. -/
noncomputable def countSd (c : List Int) : ℝ := Real.sqrt (total (fun (x : Int × Nat) => (x.1 : ℝ) * ((x.2 : ℝ) - countMean c) ^ 2) c.zipIdx / (c.sum : ℝ))

end Gospn.Spec
