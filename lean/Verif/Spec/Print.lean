import Verif.Model.Print
import Verif.Spec.Graph
import Mathlib.Analysis.Real.Sqrt
/-
What a text representation of a network is, and the mean and the standard deviation of a distribution on 0, 1, ….
-/
namespace Gospn.Spec
open Gospn
variable {ι F : Type}

/-- The numbers printed for a leaf: of a Gaussian its parameters, of a multinomial what `Multinomial.MuSigma` returns (C107). -/
def leafNumbers [GoFloat F] : Leaf F → F × F
  | .gaussian _ mu sigma => (mu, sigma)
  | .multinomial _ _ pr _ _ => multinomMuSigma pr
  | .indicator _ _ => (GoFloat.ofInt 0, GoFloat.ofInt 0)

/-- `out` has one block for every node in `ns`, the nodes below `S` with `S` first; nodes have different names, which tell what they are; a block lists the names of the children in
order, with the weights in the case of a sum, and the two numbers of a leaf. -/
structure Prints [GoFloat F] (N : Net ι F) (S : ι) (out : List (PBlock F)) (ns : List ι) (name : ι → PName) : Prop where
  nodes : ListsReachable N.ch S ns
  first : ns.head? = some S
  names : ∀ n m, Reach N.ch S n → Reach N.ch S m → name n = name m → n = m
  sums : ∀ n, Reach N.ch S n → ((name n).1 = .S ↔ ∃ cs w, N.kind n = .sum cs w)
  products : ∀ n, Reach N.ch S n → ((name n).1 = .P ↔ ∃ cs, N.kind n = .product cs)
  blocks : out.map (·.name) = ns.map name
  sum : ∀ n b cs w, (n, b) ∈ ns.zip out → N.kind n = .sum cs w → b.body = .kids ((cs.map name).zip (w.map some))
  product : ∀ n b cs, (n, b) ∈ ns.zip out → N.kind n = .product cs → b.body = .kids (cs.map fun c => (name c, none))
  leaf : ∀ n b l, (n, b) ∈ ns.zip out → N.kind n = .leaf l → b.body = .leaf (leafNumbers l).1 (leafNumbers l).2

/-- Below `S` and below `S'` the two networks are the same up to the identity of the nodes and up to leaves with the same two numbers. -/
structure SameText {κ : Type} [GoFloat F] (N : Net ι F) (S : ι) (N' : Net κ F) (S' : κ) (φ : ι → κ) : Prop where
  root : φ S = S'
  maps : ∀ n, Reach N.ch S n → Reach N'.ch S' (φ n)
  inj : ∀ n m, Reach N.ch S n → Reach N.ch S m → φ n = φ m → n = m
  surj : ∀ k, Reach N'.ch S' k → ∃ n, Reach N.ch S n ∧ φ n = k
  sum : ∀ n cs w, Reach N.ch S n → N.kind n = .sum cs w → N'.kind (φ n) = .sum (cs.map φ) w
  product : ∀ n cs, Reach N.ch S n → N.kind n = .product cs → N'.kind (φ n) = .product (cs.map φ)
  leaf : ∀ n l, Reach N.ch S n → N.kind n = .leaf l → ∃ l', N'.kind (φ n) = .leaf l' ∧ leafNumbers l' = leafNumbers l

/-- Mean of the distribution with the probabilities `q` on 0, 1, …. -/
noncomputable def distMean (q : List ℝ) : ℝ := (q.zipIdx.map fun p => p.1 * (p.2 : ℝ)).sum

/-- Its variance. -/
noncomputable def distVar (q : List ℝ) : ℝ := (q.zipIdx.map fun p => p.1 * ((p.2 : ℝ) - distMean q) ^ 2).sum

end Gospn.Spec
