/-
Classification scores: score/score.go. Slices of predictions are explicit: (array, length) with arrays in a memory, so that sharing is visible.
-/
import Verif.Model.Data

namespace Gospn

/-- score/score.go:24-27 `Pair`. -/
structure Pair where
  predicted : Int
  expected : Int
  deriving DecidableEq, Repr

/-- A slice of predictions: nil, or the number of an array in memory and a length (the slices of score.go all start at index 0). The capacity is the length of the array. -/
abbrev PSlice := Option (Nat × Nat)

/-- The arrays in memory. -/
abbrev Arrays := List (List Pair)

/-- The elements of a slice. -/
def readSlice (A : Arrays) : PSlice → List Pair
  | none => []
  | some (a, n) => ((A[a]?).getD []).take n

/-- The capacity of a slice. -/
def sliceCap (A : Arrays) : PSlice → Nat
  | none => 0
  | some (a, _) => ((A[a]?).getD []).length

/-- Go's `append(s, xs...)`: in place if the capacity suffices; otherwise in a new array with capacity `grow cap needed` (at least `needed`).
The growth rule is the run-time system's choice and a parameter here. Elements beyond the new length of a new array are zero. -/
def goAppend (grow : Nat → Nat → Nat) (A : Arrays) (s : PSlice) (xs : List Pair) : Arrays × PSlice :=
  match s with
  | none =>
    if xs = [] then (A, none)
    else (A ++ [xs ++ List.replicate (grow 0 xs.length - xs.length) ⟨0, 0⟩], some (A.length, xs.length))
  | some (a, n) =>
    let arr := (A[a]?).getD []
    if n + xs.length ≤ arr.length then (List.set A a (arr.take n ++ xs ++ arr.drop (n + xs.length)), some (a, n + xs.length))
    else (A ++ [arr.take n ++ xs ++ List.replicate (grow arr.length (n + xs.length) - (n + xs.length)) ⟨0, 0⟩], some (A.length, n + xs.length))

/-- score/score.go:16-21 `S`. -/
structure ScoreObj where
  hits : Int
  misses : Int
  total : Int
  preds : PSlice

/-- The scores allocated so far, by number, and the arrays. -/
structure ScoreMem where
  arrs : Arrays
  objs : List ScoreObj

/-- score/score.go:30 `NewScore`. -/
def ScoreMem.new (m : ScoreMem) : ScoreMem := { m with objs := m.objs ++ [⟨0, 0, 0, none⟩] }

/-- score/score.go:42-50 `Register`. -/
def ScoreMem.register (grow : Nat → Nat → Nat) (m : ScoreMem) (s : Nat) (predicted expected : Int) : Option ScoreMem :=
  (m.objs[s]?).map fun o =>
    let o := if predicted = expected then { o with hits := o.hits + 1 } else { o with misses := o.misses + 1 }
    let r := goAppend grow m.arrs o.preds [⟨predicted, expected⟩]
    ⟨r.1, m.objs.set s { o with total := o.total + 1, preds := r.2 }⟩

/-- score/score.go:194-199 `Merge`. -/
def ScoreMem.merge (grow : Nat → Nat → Nat) (m : ScoreMem) (s t : Nat) : Option ScoreMem :=
  (m.objs[s]?).bind fun o => (m.objs[t]?).map fun p =>
    let r := goAppend grow m.arrs o.preds (readSlice m.arrs p.preds)
    ⟨r.1, m.objs.set s ⟨o.hits + p.hits, o.misses + p.misses, o.total + p.total, r.2⟩⟩

/-- score/score.go:203-210 `Add`; the result is the last score. -/
def ScoreMem.add (grow : Nat → Nat → Nat) (m : ScoreMem) (s t : Nat) : Option ScoreMem :=
  (m.objs[s]?).bind fun o => (m.objs[t]?).map fun p =>
    let r := goAppend grow m.arrs o.preds (readSlice m.arrs p.preds)
    ⟨r.1, m.objs ++ [⟨o.hits + p.hits, o.misses + p.misses, o.total + p.total, r.2⟩]⟩

/-- score/score.go:223-226 `Clear`. -/
def ScoreMem.clear (m : ScoreMem) (s : Nat) : Option ScoreMem :=
  (m.objs[s]?).map fun _ => { m with objs := m.objs.set s ⟨0, 0, 0, none⟩ }

/-- The calls a program can make. -/
inductive ScoreOp
  | new
  | register (s : Nat) (predicted expected : Int)
  | merge (s t : Nat)
  | add (s t : Nat)
  | clear (s : Nat)
  deriving DecidableEq

def ScoreMem.step (grow : Nat → Nat → Nat) (m : ScoreMem) : ScoreOp → Option ScoreMem
  | .new => some m.new
  | .register s p e => m.register grow s p e
  | .merge s t => m.merge grow s t
  | .add s t => m.add grow s t
  | .clear s => m.clear s

/-- A sequence of calls; the growth rule may differ from call to call. -/
def ScoreMem.run (grow : Nat → Nat → Nat → Nat) : Nat → ScoreMem → List ScoreOp → Option ScoreMem
  | _, m, [] => some m
  | t, m, op :: ops => (m.step (grow t) op).bind fun m => ScoreMem.run grow (t + 1) m ops

def ScoreMem.start : ScoreMem := ⟨[], []⟩

/-- The predictions of score `s`. -/
def ScoreMem.preds (m : ScoreMem) (s : Nat) : List Pair := ((m.objs[s]?).map fun o => readSlice m.arrs o.preds).getD []

/-- score/score.go:182-191 `ConfusionMatrix`: increments of `M[p.Expected][p.Predicted]`. -/
def confusionStep (M : List (List Int)) (p : Pair) : Option (List (List Int)) :=
  (goIdx M p.expected).bind fun row => (goIdx row p.predicted).bind fun x => (goSet row p.predicted (x + 1)).bind fun row => goSet M p.expected row

def confusionMatrix (preds : List Pair) (c : Int) : Option (List (List Int)) :=
  if c < 0 then none else preds.foldlM confusionStep (List.replicate c.toNat (List.replicate c.toNat (0 : Int)))

end Gospn
