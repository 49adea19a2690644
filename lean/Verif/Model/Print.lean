import Verif.Model.Spn
import Verif.Model.Topo
import Verif.Model.Multinom
/-
Model of `PrintSPN` (/repo/spn/print.go:16-88) and of the statistics of a multinomial that it prints (/repo/spn/multinom.go:185-217).

Simplifications: the file is the list of its blocks instead of its text, so a number is the number and not its five decimals; creating the file succeeds.
A panic is `none`. The queue is the list of its elements, oldest first (C14).
-/
namespace Gospn
open GoFloat
variable {ι F : Type}

section Stats
variable [GoFloat F]

/-- spn/multinom.go:185-192 `Multinomial.Mean`; `pr` are the probabilities. -/
def multinomMean (pr : List F) : F := pr.zipIdx.foldl (fun mu p => add mu (mul p.1 (ofInt p.2))) (ofInt 0)

/-- spn/multinom.go:197-201, 210-214: the sum of squares; the probabilities do not occur in it. -/
def multinomSquares (pr : List F) (mu : F) : F :=
  pr.zipIdx.foldl (fun sd p => let d := sub (ofInt p.2) mu; add sd (mul d d)) (ofInt 0)

/-- spn/multinom.go:195-204 `Multinomial.StdDev`. -/
def multinomStdDev (pr : List F) : F := sqrt (div (multinomSquares pr (multinomMean pr)) (ofInt pr.length))

/-- spn/multinom.go:207-217 `Multinomial.MuSigma`. -/
def multinomMuSigma (pr : List F) : F × F :=
  let mu := multinomMean pr
  (mu, sqrt (div (multinomSquares pr mu) (ofInt pr.length)))

end Stats

/-- The letters `S`, `P`, `L` (spn/print.go:32-39). -/
inductive PLetter | S | P | L
  deriving DecidableEq, Repr

/-- The labels: a letter and a number (spn/print.go:40). -/
abbrev PName := PLetter × Nat

/-- spn/print.go:29-39: the letter of a node. -/
def Kind.letter : Kind ι F → PLetter
  | .sum _ _ => .S
  | .product _ => .P
  | .leaf _ => .L

/-- What is between the brackets (spn/print.go:56-85): two numbers, or a list of labels, with weights in the case of a sum. -/
inductive PBody (F : Type)
  | leaf (mu sigma : F)
  | kids (l : List (PName × Option F))

/-- A block of the file. -/
structure PBlock (F : Type) where
  name : PName
  body : PBody F

variable [DecidableEq ι]

/-- The map `L` and the counters `T` (spn/print.go:25-26). -/
structure LabelSt (ι : Type) where
  L : ι → Option PName
  T : PLetter → Nat

/-- spn/print.go:28-43: the function called for every node. -/
def labelStep (N : Net ι F) (st : LabelSt ι) (z : ι) : LabelSt ι :=
  let c := (N.kind z).letter
  ⟨Function.update st.L z (some (c, st.T c)), Function.update st.T c (st.T c + 1)⟩

/-- spn/print.go:25-43: all labels. -/
def printLabels [Fintype ι] (N : Net ι F) (S : ι) : ι → Option PName :=
  (topSortTarjanFunc N.ch S none (fun st z => (labelStep N st z, true)) (⟨fun _ => none, fun _ => 0⟩ : LabelSt ι)).2.L

/-- spn/print.go:61-69: mean and deviation of a leaf. A leaf that is neither a multinomial nor a Gaussian fails the type assertion in line 67. -/
def Leaf.muSigma [GoFloat F] : Leaf F → Option (F × F)
  | .multinomial _ _ pr _ _ => some (multinomMuSigma pr)
  | .gaussian _ mu sigma => some (mu, sigma)
  | .indicator _ _ => none

/-- spn/print.go:73-76: the lines for the children of a sum; fewer weights than children is an index out of range. A missing label would print as nothing. -/
def sumLines (L : ι → Option PName) : List ι → List F → Option (List (PName × Option F))
  | [], _ => some []
  | _ :: _, [] => none
  | c :: cs, w :: ws => (L c).bind fun n => (sumLines L cs ws).map ((n, some w) :: ·)

/-- spn/print.go:53-86: the block of a node. -/
def printBlock [GoFloat F] (N : Net ι F) (L : ι → Option PName) (s : ι) : Option (PBlock F) :=
  (L s).bind fun n => match N.kind s with
    | .leaf l => l.muSigma.map fun p => ⟨n, .leaf p.1 p.2⟩
    | .sum cs w => (sumLines L cs w).map fun k => ⟨n, .kids k⟩
    | .product cs => (cs.mapM L).map fun k => ⟨n, .kids (k.map fun c => (c, none))⟩

/-- spn/print.go:80-83: children not seen before join the queue. -/
def joinQueue (cs : List ι) (Q : List ι) (V : Finset ι) : List ι × Finset ι :=
  cs.foldl (fun (Q, V) c => if c ∈ V then (Q, V) else (Q ++ [c], insert c V)) (Q, V)

/-- spn/print.go:51-87: the loop, with at most `fuel` rounds. The children of a leaf are not looked at. -/
def printLoop [GoFloat F] (N : Net ι F) (L : ι → Option PName) : Nat → List ι → Finset ι → Option (List (PBlock F))
  | _, [], _ => some []
  | 0, _ :: _, _ => none
  | fuel + 1, s :: Q, V =>
    (printBlock N L s).bind fun b =>
      let r := joinQueue (N.ch s) Q V
      (printLoop N L fuel r.1 r.2).map (b :: ·)

/-- spn/print.go:16-88 `PrintSPN`. -/
def printSPN [GoFloat F] [Fintype ι] (N : Net ι F) (S : ι) : Option (List (PBlock F)) :=
  printLoop N (printLabels N S) (Fintype.card ι) [S] {S}

end Gospn
