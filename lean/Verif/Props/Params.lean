import Verif.Model.Learn
import Verif.Proofs.Log
/-
Properties of the parameters bound to nodes and of the functions `Generative` and `Discriminative` that choose a learning routine by them.
-/
set_option linter.unusedSectionVars false
namespace Gospn

namespace Spec
/-- What a user may do with the parameters of nodes. -/
inductive ParamOp (ι : Type)
  | bind (n : ι) (p : Nat)
  | unbind (n : ι)
  | parameters (n : ι)

/-- The operation gives `n` parameters or takes them away. -/
def ParamOp.sets {ι : Type} (n : ι) : ParamOp ι → Prop
  | .bind m _ => m = n
  | .unbind m => m = n
  | .parameters _ => False

/-- `n` is a sum or a product. -/
def IsInner {ι F : Type} (N : Net ι F) (n : ι) : Prop := ∀ l, N.kind n ≠ .leaf l
end Spec

open Spec GoFloat

section
variable {ι F : Type} [DecidableEq ι] [GoFloat F]

/-- `parameters.Bind(n, p)`, `parameters.Unbind(n)` and `n.Parameters()`, the first two of which a user calls with the node. -/
def Net.paramOp (N : Net ι F) (B : Bindings ι F) : ParamOp ι → Bindings ι F
  | .bind n p => B.bind (.obj n) p
  | .unbind n => B.unbind (.obj n)
  | .parameters n => (N.parameters B n).2

theorem Net.paramOp_keeps (N : Net ι F) (B : Bindings ι F) (op : ParamOp ι) : ∃ l, (N.paramOp B op).heap = B.heap ++ l := by
  cases op with
  | bind n p => exact ⟨[], by simp [Net.paramOp, Bindings.bind]⟩
  | unbind n => exact ⟨[], by simp [Net.paramOp, Bindings.unbind]⟩
  | parameters n =>
    simp only [Net.paramOp, Net.parameters]
    cases B.retrieve (N.paramKey n) with
    | none => exact ⟨[Params.default], rfl⟩
    | some p => exact ⟨[], by simp⟩

theorem Net.paramOps_keep (N : Net ι F) (ops : List (ParamOp ι)) (B : Bindings ι F) : ∃ l, (ops.foldl N.paramOp B).heap = B.heap ++ l := by
  induction ops generalizing B with
  | nil => exact ⟨[], by simp⟩
  | cons op ops ih =>
    obtain ⟨l, hl⟩ := N.paramOp_keeps B op
    obtain ⟨l', hl'⟩ := ih (N.paramOp B op)
    exact ⟨l ++ l', by rw [List.foldl_cons, hl', hl, List.append_assoc]⟩

theorem Net.paramOp_map (N : Net ι F) (B : Bindings ι F) (op : ParamOp ι) (n : ι) (p : Nat) (hop : ¬ op.sets n) (hB : B.map (.obj n) = some p) : (N.paramOp B op).map (.obj n) = some p := by
  cases op with
  | bind m q =>
    have : m ≠ n := hop
    simp [Net.paramOp, Bindings.bind, Function.update_apply, Ne.symm this, hB]
  | unbind m =>
    have : m ≠ n := hop
    simp [Net.paramOp, Bindings.unbind, Function.update_apply, Ne.symm this, hB]
  | parameters m =>
    simp only [Net.paramOp, Net.parameters]
    cases hr : B.retrieve (N.paramKey m) with
    | some q => exact hB
    | none =>
      simp only [Bindings.alloc, Bindings.bind, Function.update_apply]
      rw [if_neg, hB]
      intro h
      rw [← h] at hr
      simp [Bindings.retrieve, hB] at hr

theorem Net.paramOps_map (N : Net ι F) (n : ι) (p : Nat) (ops : List (ParamOp ι)) (hop : ∀ op ∈ ops, ¬ op.sets n) (B : Bindings ι F) (hB : B.map (.obj n) = some p) :
    (ops.foldl N.paramOp B).map (.obj n) = some p := by
  induction ops generalizing B with
  | nil => exact hB
  | cons op ops ih => exact ih (fun o ho => hop o (by simp [ho])) _ (N.paramOp_map B op n p (hop op (by simp)) hB)

theorem Net.paramKey_inner {N : Net ι F} {n : ι} (h : IsInner N n) : N.paramKey n = .obj n := by
  cases hk : N.kind n with
  | leaf l => exact absurd hk (h l)
  | sum cs w => simp [Net.paramKey, hk]
  | product cs => simp [Net.paramKey, hk]

/-- C73, part: what is bound to a sum or product node is what its method `Parameters` returns, whatever is done with other nodes in between and however often `Parameters` has been called; the
object itself is left alone. Missing: leaves (`C73_leaf_refuted`). -/
theorem C73_bound_partial (N : Net ι F) (n : ι) (hn : IsInner N n) (B : Bindings ι F) (p : Nat) (P : Params F) (ops : List (ParamOp ι)) (hop : ∀ op ∈ ops, ¬ op.sets n)
    (hp : B.heap[p]? = some P) :
    let B' := ops.foldl N.paramOp (N.paramOp B (.bind n p))
    (N.parameters B' n).1 = p ∧ (N.parameters B' n).2.heap[p]? = some P ∧ B'.exists_ (.obj n) = true ∧ B'.retrieve (.obj n) = some p := by
  intro B'
  have h1 : B'.map (.obj n) = some p := N.paramOps_map n p ops hop _ (by simp [Net.paramOp, Bindings.bind])
  obtain ⟨l, hl⟩ := N.paramOps_keep ops (N.paramOp B (.bind n p))
  have h2 : B'.heap[p]? = some P := by
    show (ops.foldl N.paramOp (N.paramOp B (.bind n p))).heap[p]? = some P
    rw [hl, List.getElem?_append_left]
    · exact hp
    · exact (List.getElem?_eq_some_iff.1 hp).1
  have h3 : N.parameters B' n = (p, B') := by
    simp only [Net.parameters, N.paramKey_inner hn, Bindings.retrieve, h1]
  refine ⟨by rw [h3], by rw [h3]; exact h2, by simp [Bindings.exists_, h1], h1⟩

/-- C73: a sum or product node without parameters gets new default ones, and keeps this object from then on. -/
theorem C73_default (N : Net ι F) (n : ι) (hn : IsInner N n) (B : Bindings ι F) (hB : B.map (.obj n) = none) (ops : List (ParamOp ι)) (hop : ∀ op ∈ ops, ¬ op.sets n) :
    let r := N.parameters B n
    let B' := ops.foldl N.paramOp r.2
    r.1 = B.heap.length ∧ (N.parameters B' n).1 = r.1 ∧ B'.heap[r.1]? = some Params.default := by
  intro r B'
  have hr : r = (B.heap.length, (⟨Function.update B.map (.obj n) (some B.heap.length), B.heap ++ [Params.default]⟩ : Bindings ι F)) := by
    simp only [r, Net.parameters, N.paramKey_inner hn, Bindings.retrieve, hB, Bindings.alloc, Bindings.bind]
  have h1 : B'.map (.obj n) = some r.1 := N.paramOps_map n r.1 ops hop _ (by rw [hr]; simp)
  obtain ⟨l, hl⟩ := N.paramOps_keep ops r.2
  refine ⟨by rw [hr], by simp only [Net.parameters, N.paramKey_inner hn, Bindings.retrieve, h1], ?_⟩
  show (ops.foldl N.paramOp r.2).heap[r.1]? = _
  rw [hl, hr]
  simp

/-- C73: after `Unbind` a node has no parameters. -/
theorem C73_unbind (N : Net ι F) (n : ι) (B : Bindings ι F) : (N.paramOp B (.unbind n)).exists_ (.obj n) = false ∧ (N.paramOp B (.unbind n)).retrieve (.obj n) = none := by
  simp [Net.paramOp, Bindings.unbind, Bindings.exists_, Bindings.retrieve]

/-- C73 is false for leaves: their method `Parameters` looks up the embedded `Node`, so what was bound to the leaf is not found and defaults are returned instead. -/
theorem C73_leaf_refuted (N : Net ι F) (n : ι) (l : Leaf F) (hn : N.kind n = .leaf l) (B : Bindings ι F) (hB : B.map (.node n) = none) (p : Nat) (hp : p < B.heap.length) :
    let r := N.parameters (N.paramOp B (.bind n p)) n
    r.1 ≠ p ∧ r.2.heap[r.1]? = some Params.default := by
  intro r
  have hk : N.paramKey n = .node n := by simp [Net.paramKey, hn]
  have hr : r = (B.heap.length, (⟨Function.update (Function.update B.map (.obj n) (some p)) (.node n) (some B.heap.length), B.heap ++ [Params.default]⟩ : Bindings ι F)) := by
    simp only [r, Net.parameters, hk, Bindings.retrieve, Net.paramOp, Bindings.bind, Function.update_apply]
    simp [hB, Bindings.alloc]
  rw [hr]
  exact ⟨by simp; omega, by simp⟩

/-- A network with a sum, a product and a leaf, and a binding. -/
example : ∃ (N : Net (Fin 3) XR) (B : Bindings (Fin 3) XR) (p : Nat) (P : Params XR) (ops : List (ParamOp (Fin 3))), IsInner N 0 ∧ (∃ l, N.kind 2 = .leaf l) ∧ B.heap[p]? = some P ∧
    B.map (.node 2) = none ∧ ops ≠ [] ∧ ∀ op ∈ ops, ¬ op.sets 0 := by
  refine ⟨⟨![.sum [1] [.fin 1], .product [2], .leaf (.indicator 0 1)]⟩, ⟨fun _ => none, [Params.default]⟩, 0, Params.default, [.bind 1 0, .parameters 0, .unbind 2], ?_, ⟨_, rfl⟩, rfl, rfl, by simp, ?_⟩
  · intro l; simp
  · simp [ParamOp.sets]

variable [Fintype ι]

/-- C73, part: with parameters bound to the root, `Generative` runs the routine they name: hard or soft gradient descent, in batches if `BatchSize` is more than one, with their learning rate,
regularisation, number of iterations and normalisation. Missing: learning types for expectation maximisation, see `C73_em_refuted`. -/
theorem C73_generative_partial (N : Net ι F) (S : ι) (hS : IsInner N S) (D : List VarSet) (B : Bindings ι F) (p : Nat) (P : Params F) (hp : B.heap[p]? = some P) (hb : B.map (.obj S) = some p)
    (mo : RangeOrder ι F) (pick : Nat → ι → Nat → Nat) :
    (P.learningType = 1 → P.batchSize ≤ 1 → N.generative S D B mo pick = (N.generativeGD S P P.eta D false P.normalize).map (·, B)) ∧
    (P.learningType = 1 → 1 < P.batchSize → N.generative S D B mo pick = (N.generativeBGD S P P.eta D false P.normalize P.batchSize mo).map (·, B)) ∧
    (P.learningType = 0 → P.batchSize ≤ 1 → N.generative S D B mo pick = (N.generativeHardGD S P P.eta D P.normalize mo pick).map (·, B)) ∧
    (P.learningType = 0 → 1 < P.batchSize → N.generative S D B mo pick = (N.generativeHardBGD S P P.eta D P.normalize P.batchSize mo pick).map (·, B)) := by
  have h3 : N.parameters B S = (p, B) := by
    simp only [Net.parameters, N.paramKey_inner hS, Bindings.retrieve, hb]
  have key : N.generative S D B mo pick = (if learnHardness P.learningType = 0 then
      if P.batchSize > 1 then N.generativeHardBGD S P P.eta D P.normalize P.batchSize mo pick else N.generativeHardGD S P P.eta D P.normalize mo pick
    else
      if P.batchSize > 1 then N.generativeBGD S P P.eta D false P.normalize P.batchSize mo else N.generativeGD S P P.eta D false P.normalize).map (·, B) := by
    unfold Net.generative
    simp only [Bindings.retrieve, hb, hp, Option.map_some, Option.bind_some, h3]
  refine ⟨fun h1 h2 => ?_, fun h1 h2 => ?_, fun h1 h2 => ?_, fun h1 h2 => ?_⟩ <;> rw [key] <;> simp [h1, learnHardness, h2, not_lt.2, Int.not_lt.2]

/-- C73 is false for soft and hard expectation maximisation (learning types 3 and 2, method EM, against GD for 0 and 1): gradient descent runs instead. -/
theorem C73_em_refuted (N : Net ι F) (S : ι) (hS : IsInner N S) (D : List VarSet) (B : Bindings ι F) (p : Nat) (P : Params F) (hp : B.heap[p]? = some P) (hb : B.map (.obj S) = some p)
    (mo : RangeOrder ι F) (pick : Nat → ι → Nat → Nat) (hP : P.batchSize ≤ 1) :
    learnMethod 0 = 0 ∧ learnMethod 1 = 0 ∧ learnMethod 3 = 1 ∧ learnMethod 2 = 1 ∧ (P.learningType = 3 → N.generative S D B mo pick = (N.generativeGD S P P.eta D false P.normalize).map (·, B)) ∧
    (P.learningType = 2 → N.generative S D B mo pick = (N.generativeHardGD S P P.eta D P.normalize mo pick).map (·, B)) := by
  have h3 : N.parameters B S = (p, B) := by
    simp only [Net.parameters, N.paramKey_inner hS, Bindings.retrieve, hb]
  refine ⟨rfl, rfl, rfl, rfl, fun h => ?_, fun h => ?_⟩ <;> unfold Net.generative <;>
    simp [Bindings.retrieve, hb, hp, h3, h, learnHardness, not_lt.2 hP]

/-- C73: without parameters the root gets the default ones and soft gradient descent without batches runs. -/
theorem C73_generative_default (N : Net ι F) (S : ι) (hS : IsInner N S) (D : List VarSet) (B : Bindings ι F) (hb : B.map (.obj S) = none) (mo : RangeOrder ι F) (pick : Nat → ι → Nat → Nat) :
    ∃ B', N.generative S D B mo pick = (N.generativeGD S Params.default Params.default.eta D false true).map (·, B') := by
  refine ⟨(N.parameters (B.alloc Params.default).2 S).2, ?_⟩
  unfold Net.generative
  simp [Bindings.retrieve, hb, Net.parameters, N.paramKey_inner hS, Bindings.alloc, Bindings.bind, Params.default, learnHardness]

/-- C73, part: `Discriminative` likewise runs the routine named by the parameters bound to the root. Missing: expectation maximisation, as for `Generative`. -/
theorem C73_discriminative_partial (N : Net ι F) (S : ι) (hS : IsInner N S) (D : List VarSet) (Y : List Int) (B : Bindings ι F) (p : Nat) (P : Params F) (hp : B.heap[p]? = some P)
    (hb : B.map (.obj S) = some p) (mo : RangeOrder ι F) (pick : Nat → ι → Nat → Nat) :
    (P.learningType = 1 → P.batchSize ≤ 1 → N.discriminative S D Y B mo pick = (N.discriminativeGD S P P.eta D Y P.normalize).map (·, B)) ∧
    (P.learningType = 1 → 1 < P.batchSize → N.discriminative S D Y B mo pick = (N.discriminativeBGD S P P.eta D Y P.normalize P.batchSize mo).map (·, B)) ∧
    (P.learningType = 0 → P.batchSize ≤ 1 → N.discriminative S D Y B mo pick = (N.discriminativeHardGD S P P.eta D Y P.normalize mo pick).map (·, B)) ∧
    (P.learningType = 0 → 1 < P.batchSize → N.discriminative S D Y B mo pick = (N.discriminativeHardBGD S P P.eta D Y P.normalize P.batchSize mo pick).map (·, B)) := by
  have h3 : N.parameters B S = (p, B) := by
    simp only [Net.parameters, N.paramKey_inner hS, Bindings.retrieve, hb]
  have key : N.discriminative S D Y B mo pick = (if learnHardness P.learningType = 0 then
      if P.batchSize > 1 then N.discriminativeHardBGD S P P.eta D Y P.normalize P.batchSize mo pick else N.discriminativeHardGD S P P.eta D Y P.normalize mo pick
    else
      if P.batchSize > 1 then N.discriminativeBGD S P P.eta D Y P.normalize P.batchSize mo else N.discriminativeGD S P P.eta D Y P.normalize).map (·, B) := by
    unfold Net.discriminative
    simp only [Bindings.retrieve, hb, hp, Option.map_some, Option.bind_some, h3]
  refine ⟨fun h1 h2 => ?_, fun h1 h2 => ?_, fun h1 h2 => ?_, fun h1 h2 => ?_⟩ <;> rw [key] <;> simp [h1, learnHardness, h2, not_lt.2, Int.not_lt.2]

end
end Gospn
