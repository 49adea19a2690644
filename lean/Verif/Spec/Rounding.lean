import Verif.Model.Spn
import Verif.Model.Real
import Verif.Spec.Spn
import Mathlib.Data.Set.Card
/-
Rounding: an arithmetic whose numbers stand for extended reals and whose operations are off by a bounded error.
-/
namespace Gospn.Spec
open Gospn GoFloat
variable {ι F : Type}

/-- The standard model of floating point arithmetic with gradual underflow. `val` is the number a float stands for. Operations on
infinities and comparisons are exact. A real result of absolute value at most `Ω` is rounded with relative error `u` and, for underflow, absolute
error `η`. For float64, `u` is 2⁻⁵³ for addition and subtraction and a small multiple of it for exp and log, and `Ω` is about 1.8e308. -/
structure StdFloat [GoFloat F] (val : F → XR) (u η Ω : ℝ) : Prop where
  zero : val (ofInt 0) = .fin 0
  ninf : val ninf = .ninf
  lt : ∀ a b, GoFloat.lt a b = XR.lt (val a) (val b)
  isInf : ∀ a, GoFloat.isInf a = XR.isInf (val a)
  add : ∀ a b x y, val a = .fin x → val b = .fin y → |x + y| ≤ Ω → ∃ z, val (add a b) = .fin z ∧ |z - (x + y)| ≤ u * |x + y| + η
  add_left : ∀ a b, val a = .ninf → IsLogProb (val b) → val (GoFloat.add a b) = .ninf
  add_right : ∀ a b, IsLogProb (val a) → val b = .ninf → val (GoFloat.add a b) = .ninf
  sub : ∀ a b x y, val a = .fin x → val b = .fin y → |x - y| ≤ Ω → ∃ z, val (sub a b) = .fin z ∧ |z - (x - y)| ≤ u * |x - y| + η
  sub_left : ∀ a b y, val a = .ninf → val b = .fin y → val (GoFloat.sub a b) = .ninf
  exp : ∀ a x, val a = .fin x → Real.exp x ≤ Ω → ∃ z, val (exp a) = .fin z ∧ |z - Real.exp x| ≤ u * Real.exp x + η
  exp_ninf : ∀ a, val a = .ninf → val (GoFloat.exp a) = .fin 0
  log : ∀ a x, val a = .fin x → 0 < x → |Real.log x| ≤ Ω → ∃ z, val (log a) = .fin z ∧ |z - Real.log x| ≤ u * |Real.log x| + η
  log_zero : ∀ a, val a = .fin 0 → val (GoFloat.log a) = .ninf

/-- On numbers of absolute value at most `B` the operations are off by at most `ε`. -/
structure RoundsOn [GoFloat F] (val : F → XR) (B ε : ℝ) : Prop where
  zero : val (ofInt 0) = .fin 0
  ninf : val ninf = .ninf
  lt : ∀ a b, GoFloat.lt a b = XR.lt (val a) (val b)
  isInf : ∀ a, GoFloat.isInf a = XR.isInf (val a)
  add : ∀ a b x y, val a = .fin x → val b = .fin y → |x| ≤ B → |y| ≤ B → ∃ z, val (add a b) = .fin z ∧ |z - (x + y)| ≤ ε
  add_left : ∀ a b, val a = .ninf → IsLogProb (val b) → val (GoFloat.add a b) = .ninf
  add_right : ∀ a b, IsLogProb (val a) → val b = .ninf → val (GoFloat.add a b) = .ninf
  sub : ∀ a b x y, val a = .fin x → val b = .fin y → |x| ≤ B → |y| ≤ B → ∃ z, val (sub a b) = .fin z ∧ |z - (x - y)| ≤ ε
  sub_left : ∀ a b y, val a = .ninf → val b = .fin y → val (GoFloat.sub a b) = .ninf
  exp : ∀ a x, val a = .fin x → x ≤ 1 → ∃ z, val (exp a) = .fin z ∧ |z - Real.exp x| ≤ ε
  exp_ninf : ∀ a, val a = .ninf → val (GoFloat.exp a) = .fin 0
  log : ∀ a x, val a = .fin x → 0 < x → |Real.log x| ≤ B → ∃ z, val (log a) = .fin z ∧ |z - Real.log x| ≤ ε
  log_zero : ∀ a, val a = .fin 0 → val (GoFloat.log a) = .ninf

/-- Two logarithms of probabilities that differ by at most `e`; minus infinity is only close to itself. -/
def Within (e : ℝ) : XR → XR → Prop
  | .ninf, .ninf => True
  | .fin a, .fin b => |a - b| ≤ e
  | _, _ => False

/-- The absolute value of a finite number, 0 for the others. -/
noncomputable def absVal : XR → ℝ
  | .fin a => |a|
  | _ => 0

/-- The stored weight or probability `x` is meant to be `y`: both are zero, or `y` is positive with a logarithm of absolute value at most `L`, and the stored one is off by at most `δ` in the
logarithm, that is by about the relative error `δ`. -/
def Stores (val : F → XR) (L δ : ℝ) (x : F) (y : XR) : Prop :=
  ∃ r s : ℝ, val x = .fin r ∧ y = .fin s ∧ 0 ≤ r ∧ 0 ≤ s ∧ (r = 0 ↔ s = 0) ∧ (s ≠ 0 → |Real.log s| ≤ L ∧ |Real.log r - Real.log s| ≤ δ)

/-- What is stored at a node of a network and what is meant: sums with between 1 and `K` children and weights that are neither tiny nor huge, products, and leaves related by `P`. -/
def StoresNode (val : F → XR) (K : ℕ) (L δ : ℝ) (P : Leaf F → Leaf XR → Prop) : Kind ι F → Kind ι XR → Prop
  | .sum cs w, .sum ds q => cs = ds ∧ cs ≠ [] ∧ cs.length ≤ K ∧ cs.length ≤ w.length ∧ List.Forall₂ (Stores val (L - Real.log K) δ) w q
  | .product cs, .product ds => cs = ds
  | .leaf l, .leaf m => P l m
  | _, _ => False

/-- The network `N` of floats is meant to be the network `M` of real numbers. -/
def StoresNet (val : F → XR) (N : Net ι F) (S : ι) (K : ℕ) (L δ : ℝ) (P : Leaf F → Leaf XR → Prop) (M : Net ι XR) : Prop :=
  (∀ n, M.ch n = N.ch n) ∧ ∀ n, Reach N.ch S n → StoresNode val K L δ P (N.kind n) (M.kind n)

/-- The value of a leaf is off by at most `δ`, and it is minus infinity or at most `L` in absolute value. -/
def ValueWithin [GoFloat F] (val : F → XR) (I : VarSet) (L δ : ℝ) (l : Leaf F) (m : Leaf XR) : Prop :=
  ∃ v y, l.value I = some v ∧ m.value I = some y ∧ Within δ (val v) y ∧ absVal y ≤ L

/-- The MAP value of a leaf is off by at most `δ`, and it is minus infinity or at most `L` in absolute value. -/
def MaxWithin [GoFloat F] (val : F → XR) (I : VarSet) (L δ : ℝ) (l : Leaf F) (m : Leaf XR) : Prop :=
  ∃ v y, l.max I = some v ∧ m.max I = some y ∧ Within δ (val v) y ∧ absVal y ≤ L

/-- The leaves are about the same variable, and the value `ArgMax` reports for it, in case of positive probability, is in the domain, agrees with the evidence, and has the reported probability up to `δ`. -/
def ModeWithin [GoFloat F] (val : F → XR) (dom : Int → Set Int) (I : VarSet) (δ : ℝ) (l : Leaf F) (m : Leaf XR) : Prop :=
  leafVar m = leafVar l ∧ ∀ v a, l.max I = some v → val v = .fin a → ∃ x, l.argMax I = some (VarSet.single (leafVar l) x, v) ∧ x ∈ dom (leafVar l) ∧
    (∀ z, I (leafVar l) = some z → z = x) ∧ ∃ y, m.max (VarSet.single (leafVar l) x) = some y ∧ Within δ (val v) y

/-- An indicator, or a multinomial with stored probabilities and a category for the value of its variable. -/
def StoresLeaf (val : F → XR) (I : VarSet) (L δ : ℝ) : Leaf F → Leaf XR → Prop
  | .indicator v x, .indicator v' x' => v = v' ∧ x = x'
  | .multinomial _ v pr _ _, .multinomial _ v' q _ _ => v = v' ∧ List.Forall₂ (Stores val L δ) pr q ∧ ∀ u, I v = some u → 0 ≤ u ∧ u < pr.length
  | _, _ => False

/-- The same for MAP queries: the indicator is of the value 0 or its variable is known, and the multinomial records as its mode a category whose stored probability no other one exceeds. This need not be the
mode of the distribution that is meant. -/
def StoresModeLeaf [GoFloat F] (val : F → XR) (dom : Int → Set Int) (I : VarSet) (L δ : ℝ) : Leaf F → Leaf XR → Prop
  | .indicator v x, .indicator v' x' => v = v' ∧ x = x' ∧ (I v ≠ none ∨ (x = 0 ∧ 0 ∈ dom v))
  | .multinomial _ v pr mi mv, .multinomial _ v' q _ _ => v = v' ∧ List.Forall₂ (Stores val L δ) pr q ∧
      ∃ k : ℕ, mi = k ∧ pr[k]? = some mv ∧ (∀ p ∈ pr, GoFloat.lt mv p = false) ∧ (k : Int) ∈ dom v
  | _, _ => False

/-- A bound on the number of roundings that matter: at a sum only the worst child counts, at a product all of them do. -/
def Cost (N : Net ι F) (S : ι) (cost : ι → ℕ) : Prop :=
  ∀ n, Reach N.ch S n → match N.kind n with
    | .leaf _ => 1 ≤ cost n
    | .sum cs _ => ∀ c ∈ cs, cost c + 1 ≤ cost n
    | .product cs => (cs.map fun c => cost c + 1).sum ≤ cost n

/-- The number of variables in the scope of a node. -/
noncomputable def scopeSize (N : Net ι F) (n : ι) : ℕ := Set.ncard {v | InScope N n v}

end Gospn.Spec
