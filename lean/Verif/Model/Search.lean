import Verif.Model.Topo
/-
Model of /repo/spn/search.go, and of the worklist loop that many functions of the repository share:

    C.Give(G); V[G] = true
    for !C.Empty() {
      s := C.Take().(SPN)
      ... work on s, which says which children are to be looked at ...
      for _, c := range <those children> { if !V[c] { C.Give(c); V[c] = true } }
    }
-/
namespace Gospn
variable {ι : Type} [DecidableEq ι]

/-- `for _, c := range cs { if !V[c] { C.Give(c); V[c] = true } }`
(spn/search.go:21-26; spn/utils.go:247-252, 297-302, 545-550; learn/derive.go:77-82, 128-133, 186-191, 259-264, 294-299). -/
def giveNew (cs : List ι) (C : Coll ι) (V : Finset ι) : Coll ι × Finset ι :=
  cs.foldl (fun (C, V) c => if c ∈ V then (C, V) else (C.give c, insert c V)) (C, V)

/-- The worklist loop. `act x s` is the work on node `s` in outside state `x`: `none` is a panic, `some (x', none)` is a `return` out of the loop, and
`some (x', some cs)` goes on with the children `cs`. Each node is taken at most once, so fuel equal to the number of nodes is enough
(`workLoop_dynamic` in Verif/Proofs/Search.lean). -/
def workLoop {σ : Type} (act : σ → ι → Option (σ × Option (List ι))) : Nat → Coll ι → Finset ι → σ → Option σ
  | 0, _, _, x => some x
  | fuel + 1, C, V, x =>
    match C.items with
    | [] => some x
    | s :: rest =>
      match act x s with
      | none => none
      | some (x', none) => some x'
      | some (x', some cs) =>
        let (C', V') := giveNew cs { C with items := rest } V
        workLoop act fuel C' V' x'

/-- The loop started at `G`: `C.Give(G); V[G] = true` on an empty collection. -/
def work {σ : Type} [Fintype ι] (act : σ → ι → Option (σ × Option (List ι))) (isStack : Bool) (G : ι) (x : σ) : Option σ :=
  workLoop act (Fintype.card ι) ⟨isStack, [G]⟩ {G} x

/-- spn/search.go:10-28 `searchFunc`. The callback reads and writes outside state; its integer result is the second component. -/
def searchFunc {σ : Type} [Fintype ι] (ch : ι → List ι) (isStack : Bool) (G : ι) (f : σ → ι → σ × Int) (x : σ) : Option σ :=
  work (fun x u =>
    let r := f x u
    if r.2 > 0 then some (r.1, none) else some (r.1, some (if r.2 = 0 then ch u else []))) isStack G x

/-- spn/search.go:32 `BreadthFirst`. -/
def breadthFirst {σ : Type} [Fintype ι] (ch : ι → List ι) (G : ι) (f : σ → ι → σ × Int) (x : σ) : Option σ :=
  searchFunc ch false G f x

/-- spn/search.go:36 `DepthFirst`. -/
def depthFirst {σ : Type} [Fintype ι] (ch : ι → List ι) (G : ι) (f : σ → ι → σ × Int) (x : σ) : Option σ :=
  searchFunc ch true G f x

/-- The result of `Type()`: "sum" (spn/sum.go:113), "product" (spn/product.go:20), "leaf" (spn/indicator.go:25, spn/multinom.go:147,
spn/gaussian.go:115). The embedded `Node`'s "node" (spn/node.go:89-91) is overridden by every node type of the package. -/
inductive NodeType | sum | product | leaf
  deriving DecidableEq, Repr

/-- spn/search.go:40-53 `CountNodes`: numbers of sums, products and others. -/
def countNodes [Fintype ι] (ch : ι → List ι) (ty : ι → NodeType) (G : ι) : Option (Nat × Nat × Nat) :=
  breadthFirst ch G (fun (s, p, l) S =>
    match ty S with
    | .sum => ((s + 1, p, l), 0)
    | .product => ((s, p + 1, l), 0)
    | .leaf => ((s, p, l + 1), 0)) (0, 0, 0)

end Gospn
