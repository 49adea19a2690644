import Verif.Model.Spn
/-
Building a network by hand: `AddChild`, `AddWeight` and `AddChildW`.

`NewSum` (spn/sum.go:18-20) and `NewProduct` (spn/product.go:15-17) return nodes without children and weights. A new node is connected to nothing, so that it does not matter when it is made: the nodes are given from the
start, and the calls change them.
-/
namespace Gospn
variable {ι F : Type}

/-- A call that changes a node. -/
inductive BuildOp (ι F : Type)
  /-- `p.AddChild(c)` -/
  | addChild (p c : ι)
  /-- `p.AddWeight(w)` -/
  | addWeight (p : ι) (w : F)
  /-- `p.AddChildW(c, w)` -/
  | addChildW (p c : ι) (w : F)

/-- `p.AddChild(c)`: spn/sum.go:121-123, spn/product.go:86-88. The model has no leaves with children: `none`. -/
def Net.addChild [DecidableEq ι] (N : Net ι F) (p c : ι) : Option (Net ι F) :=
  match N.kind p with
  | .sum cs w => some ⟨Function.update N.kind p (.sum (cs ++ [c]) w)⟩
  | .product cs => some ⟨Function.update N.kind p (.product (cs ++ [c]))⟩
  | .leaf _ => none

/-- `p.AddWeight(w)`: spn/sum.go:23-25, a method of sums only. -/
def Net.addWeight [DecidableEq ι] (N : Net ι F) (p : ι) (w : F) : Option (Net ι F) :=
  match N.kind p with
  | .sum cs ws => some ⟨Function.update N.kind p (.sum cs (ws ++ [w]))⟩
  | _ => none

/-- One call; `AddChildW` is spn/sum.go:28-31, a method of sums only. -/
def Net.build1 [DecidableEq ι] (N : Net ι F) : BuildOp ι F → Option (Net ι F)
  | .addChild p c => N.addChild p c
  | .addWeight p w => N.addWeight p w
  | .addChildW p c w =>
    match N.kind p with
    | .sum _ _ => (N.addChild p c).bind fun N => N.addWeight p w
    | _ => none

/-- The calls of a program, in order. -/
def Net.build [DecidableEq ι] (N : Net ι F) (ops : List (BuildOp ι F)) : Option (Net ι F) := ops.foldlM Net.build1 N

end Gospn
