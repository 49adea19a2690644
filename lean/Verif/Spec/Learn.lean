import Verif.Spec.Derive
import Verif.Spec.Hard
import Verif.Spec.Structure
import Verif.Model.Learn
import Mathlib.Data.Set.Finite.Basic
/-
What learning may do to a network, and what a run of gradient ascent is.
-/
namespace Gospn.Spec
open Gospn
variable {ι F : Type}

/-- `N'` is `N` with other weights at the sum nodes below `S` (as many as before); nothing else differs. -/
def OnlyWeights (S : ι) (N N' : Net ι F) : Prop :=
  ∀ n, match N.kind n with
    | .sum cs w => ∃ w' : List F, N'.kind n = .sum cs w' ∧ w'.length = w.length ∧ (¬ Reach N.ch S n → w' = w)
    | k => N'.kind n = k

/-- `p` gives the leaves below `S` the probabilities they have under the instance `I`. -/
def LeafProbs (N : Net ι XR) (S : ι) (I : VarSet) (p : ι → ℝ) : Prop :=
  ∀ n l, Reach N.ch S n → N.kind n = .leaf l → ∃ x, l.value I = some x ∧ IsLogProb x ∧ p n = unlog x

/-- One step of gradient ascent on the probability of the instance `I`: every weight moves by `eta` times the partial derivative with respect to it of the value of `S`, taken
at the weights of `N`; then the weights of each sum node are divided by their sum if `norm` is set. -/
def AscentStep [DecidableEq ι] (S : ι) (eta : ℝ) (norm : Bool) (I : VarSet) (N N' : Net ι XR) : Prop :=
  OnlyWeights S N N' ∧ ∃ p, IsValuation N S p ∧ LeafProbs N S I p ∧
    ∀ n, Reach N.ch S n → ∀ cs w, N.kind n = .sum cs w → ∃ r r' : List ℝ, w = r.map XR.fin ∧ r'.length = r.length ∧
      N'.kind n = .sum cs ((if norm then r'.map (· / r'.sum) else r').map XR.fin) ∧
      ∀ j a, r[j]? = some a → ∃ d, IsWeightPartial N S p n j a d ∧ r'[j]? = some (a + eta * d)

/-- A run of gradient ascent: one step per instance of the list, each at the weights the one before has left. -/
inductive AscentRun [DecidableEq ι] (S : ι) (eta : ℝ) (norm : Bool) : List VarSet → Net ι XR → Net ι XR → Prop
  | nil (N : Net ι XR) : AscentRun S eta norm [] N N
  | cons {I : VarSet} {D : List VarSet} {N N' N'' : Net ι XR} : AscentStep S eta norm I N N' → AscentRun S eta norm D N' N'' → AscentRun S eta norm (I :: D) N N''

/-- Ranging over a map meets every key exactly once, in whatever order. -/
structure RangesAll (mo : RangeOrder ι F) : Prop where
  outer : ∀ t T, (mo.outer t T).Nodup ∧ ∀ s, s ∈ mo.outer t T ↔ T s ≠ none
  inner : ∀ t s m, {i : Int | m i ≠ none}.Finite → (mo.inner t s m).Nodup ∧ ∀ i, i ∈ mo.inner t s m ↔ m i ≠ none

/-- `d` is the partial derivative of the probability `S` gives the instance `I` with respect to weight `j` of `n`, which is `a` now. -/
def IsGradient [DecidableEq ι] (N : Net ι XR) (S : ι) (I : VarSet) (n : ι) (j : Nat) (a d : ℝ) : Prop :=
  ∃ p, IsValuation N S p ∧ LeafProbs N S I p ∧ IsWeightPartial N S p n j a d

/-- One step of regularised gradient ascent on a block of instances: every weight `a` moves by `eta / b` times the sum over the block of the derivatives at the weights of `N`, less `2 * lambda * a`;
then the weights of each sum node are divided by their sum if `norm` is set. -/
def BatchStep [DecidableEq ι] (S : ι) (eta lambda b : ℝ) (norm : Bool) (B : List VarSet) (N N' : Net ι XR) : Prop :=
  OnlyWeights S N N' ∧ ∀ n, Reach N.ch S n → ∀ cs w, N.kind n = .sum cs w → ∃ r r' : List ℝ, w = r.map XR.fin ∧ r'.length = r.length ∧
    N'.kind n = .sum cs ((if norm then r'.map (· / r'.sum) else r').map XR.fin) ∧
    ∀ j a, r[j]? = some a → ∃ ds, List.Forall₂ (fun I d => IsGradient N S I n j a d) B ds ∧ r'[j]? = some (a + eta / b * ds.sum - 2 * lambda * a)

/-- A run of batch steps, one per block, each at the weights the one before has left. -/
inductive BatchRun [DecidableEq ι] (S : ι) (eta lambda b : ℝ) (norm : Bool) : List (List VarSet) → Net ι XR → Net ι XR → Prop
  | nil (N : Net ι XR) : BatchRun S eta lambda b norm [] N N
  | cons {B : List VarSet} {Bs : List (List VarSet)} {N N' N'' : Net ι XR} : BatchStep S eta lambda b norm B N N' → BatchRun S eta lambda b norm Bs N' N'' →
      BatchRun S eta lambda b norm (B :: Bs) N N''

/-- The data set cut into consecutive blocks of `b` instances; only the last may be shorter. -/
def IsBlocking {α : Type} (b : Nat) (data : List α) (blocks : List (List α)) : Prop :=
  blocks.flatten = data ∧ (∀ B ∈ blocks, B ≠ [] ∧ B.length ≤ b) ∧ ∀ B ∈ blocks.dropLast, B.length = b

/-- All weights of sum nodes below `S` are positive, one per child, and there are children. -/
def PosWeights (N : Net ι XR) (S : ι) : Prop :=
  ∀ n, Reach N.ch S n → ∀ cs w, N.kind n = .sum cs w → cs ≠ [] ∧ ∃ r : List ℝ, w = r.map XR.fin ∧ r.length = cs.length ∧ ∀ x ∈ r, 0 < x

/-- `q` are the MAP probabilities of the nodes below `S` under `I`: those of the leaves are given, a product multiplies, a sum takes the greatest weighted one. -/
def IsMaxValuation (N : Net ι XR) (S : ι) (I : VarSet) (q : ι → ℝ) : Prop :=
  ∀ n, Reach N.ch S n → match N.kind n with
    | .leaf l => ∃ x, l.max I = some x ∧ IsLogProb x ∧ q n = unlog x
    | .sum cs w => IsGreatest {y | ∃ (j : Nat) (c : ι) (a : ℝ), cs[j]? = some c ∧ w[j]? = some (.fin a) ∧ y = a * q c} (q n)
    | .product cs => q n = (cs.map q).prod

/-- `choice` picks at every sum node of its trace a child of greatest weighted MAP probability. -/
def IsMapTrace (N : Net ι XR) (S : ι) (I : VarSet) (choice : ι → Nat) : Prop :=
  ∃ q, IsMaxValuation N S I q ∧ ∀ n cs w, OnTrace N choice S n → N.kind n = .sum cs w → ∃ c a, cs[choice n]? = some c ∧ w[choice n]? = some (.fin a) ∧ q n = a * q c

open Classical in
/-- How many of the traces go through edge `j` of `n`. -/
noncomputable def hits (N : Net ι XR) (S : ι) (chs : List (ι → Nat)) (n : ι) (j : Nat) : Nat := chs.countP fun ch => decide (OnTrace N ch S n ∧ ch n = j)

/-- One step of hard gradient ascent with the given traces: a weight `a` of an edge that `h > 0` of them go through becomes `a + eta * h / (a * b) - 2 * lambda * a`, the others stay; at sum nodes that
a trace meets the weights are then divided by their sum if `norm` is set. -/
def HardUpdate (S : ι) (eta lambda b : ℝ) (norm : Bool) (chs : List (ι → Nat)) (N N' : Net ι XR) : Prop :=
  OnlyWeights S N N' ∧ ∀ n, Reach N.ch S n → ∀ cs w, N.kind n = .sum cs w → ((∀ j, hits N S chs n j = 0) → N'.kind n = N.kind n) ∧
    ((∃ j, hits N S chs n j ≠ 0) → ∃ r r' : List ℝ, w = r.map XR.fin ∧ r'.length = r.length ∧ N'.kind n = .sum cs ((if norm then r'.map (· / r'.sum) else r').map XR.fin) ∧
      ∀ j a, r[j]? = some a → r'[j]? = some (if hits N S chs n j = 0 then a else a + eta * hits N S chs n j / (a * b) - 2 * lambda * a))

/-- A run of hard gradient ascent: one step per block, with a MAP trace for each instance of the block at the weights the step before has left. -/
inductive HardRun (S : ι) (eta lambda b : ℝ) (norm : Bool) : List (List VarSet) → Net ι XR → Net ι XR → Prop
  | nil (N : Net ι XR) : HardRun S eta lambda b norm [] N N
  | cons {B : List VarSet} {Bs : List (List VarSet)} {N N' N'' : Net ι XR} (chs : List (ι → Nat)) : List.Forall₂ (fun I ch => IsMapTrace N S I ch) B chs →
      HardUpdate S eta lambda b norm chs N N' → HardRun S eta lambda b norm Bs N' N'' → HardRun S eta lambda b norm (B :: Bs) N N''

/-- The instance without values for the variables `Y`. -/
def hide (Y : List Int) (I : VarSet) : VarSet := fun u => if u ∈ Y then none else I u

/-- One contrastive step with the traces `chs` and `chs'`: a weight `a` of an edge that `delta ≠ 0` more of `chs` than of `chs'` go through becomes `a + eta * delta / (a * b) - 2 * lambda * a`, the others
stay. If `norm` is set, at sum nodes that a trace of either kind meets the least weight is then subtracted from all if it is negative, and the weights are divided by their sum: they are NaN if that is zero. -/
def ContrastUpdate (S : ι) (eta lambda b : ℝ) (norm : Bool) (chs chs' : List (ι → Nat)) (N N' : Net ι XR) : Prop :=
  OnlyWeights S N N' ∧ ∀ n, Reach N.ch S n → ∀ cs w, N.kind n = .sum cs w →
    ((∀ j, hits N S chs n j = 0 ∧ hits N S chs' n j = 0) → N'.kind n = N.kind n) ∧
    ((∃ j, hits N S chs n j ≠ 0 ∨ hits N S chs' n j ≠ 0) → ∃ r r' : List ℝ, w = r.map XR.fin ∧ r'.length = r.length ∧
      (norm = false → N'.kind n = .sum cs (r'.map XR.fin)) ∧
      (norm = true → 0 < (shiftNonneg r').sum → N'.kind n = .sum cs (((shiftNonneg r').map (· / (shiftNonneg r').sum)).map XR.fin)) ∧
      (norm = true → (shiftNonneg r').sum = 0 → N'.kind n = .sum cs (r'.map fun _ => .nan)) ∧
      ∀ j a, r[j]? = some a → r'[j]? = some (if hits N S chs n j = hits N S chs' n j then a
        else a + eta * ((hits N S chs n j : ℝ) - hits N S chs' n j) / (a * b) - 2 * lambda * a))

/-- A run of contrastive steps: one per block, with a MAP trace for each instance of the block as it is and one without the values of `Y`, at the weights the step before has left. -/
inductive ContrastRun (S : ι) (eta lambda b : ℝ) (norm : Bool) (Y : List Int) : List (List VarSet) → Net ι XR → Net ι XR → Prop
  | nil (N : Net ι XR) : ContrastRun S eta lambda b norm Y [] N N
  | cons {B : List VarSet} {Bs : List (List VarSet)} {N N' N'' : Net ι XR} (chs chs' : List (ι → Nat)) : List.Forall₂ (fun I ch => IsMapTrace N S I ch) B chs →
      List.Forall₂ (fun I ch => IsMapTrace N S (hide Y I) ch) B chs' → ContrastUpdate S eta lambda b norm chs chs' N N' → ContrastRun S eta lambda b norm Y Bs N' N'' →
      ContrastRun S eta lambda b norm Y (B :: Bs) N N''

end Gospn.Spec
