/-
Model of io/input.go: the readers of data files. A file is its text; `none` is a panic.

After a line that is too long the real scanner, if asked once more, hands out a truncated line. Only the step from the loop over definitions to the loop over rows
asks once more (the first loop ended at the long line); the line kept is then a definition, and reading it as numbers panics, with or without the extra line.

The table of variables is kept as a list of (Varid, Categories) with one entry for each id.
-/
import Verif.Model.Text
import Verif.Model.Matrix

namespace Gospn

/-- `sc[varid] = &learn.Variable{Varid: varid, Categories: cats}`. -/
def putVariable (sc : List (Int × Int)) (v : Int × Int) : List (Int × Int) := sc.filter (fun x => x.1 ≠ v.1) ++ [v]

/-- io/input.go:60-61, 132-133, 229-230: `fmt.Sscanf(line, "var %d %d", &varid, &cats)`; what cannot be read stays 0. -/
def scanVar (line : Str) : Int × Int :=
  match (scanLit ['v', 'a', 'r'] line).bind scanBlank with
  | none => (0, 0)
  | some s => match scanInt s with
    | none => (0, 0)
    | some (v, s) => match (scanBlank s).bind scanInt with
      | none => (v, 0)
      | some (c, _) => (v, c)

/-- io/input.go:51-63, 123-135, 220-232: the variable definitions. Result: the table, the last line scanned and the lines to come. `line[0]` panics on an empty
line. -/
def readVars : List Str → List (Int × Int) → Str → Option (List (Int × Int) × Str × List Str)
  | [], sc, line => some (sc, line, [])
  | [] :: _, _, _ => none
  | (c :: l) :: ls, sc, _ => if c ≠ 'v' then some (sc, c :: l, ls) else readVars ls (putVariable sc (scanVar (c :: l))) (c :: l)

/-- io/input.go:73-80: the `n` integers of a line. -/
def readLine (n : Nat) (line : Str) : Option (List Int) :=
  (List.range n).mapM fun j => ((splitRuns isComma line)[j]?).bind atoi

/-- io/input.go:70-93: the rows; `line` is always the line before the one scanned. -/
def readLines {α : Type} (f : Str → Option α) (line : Str) (ls : List Str) : Option (List α) :=
  (ls.foldlM (fun (s : List α × Str) l => (f s.2).map fun r => (s.1 ++ [r], l)) ([], line)).bind fun s => (f s.2).map fun r => s.1 ++ [r]

/-- io/input.go:37-105 `ParseData`. -/
def parseData (text : Str) : Option (List (Int × Int) × List VarSet) :=
  (readVars (scanLines text) [] []).bind fun r =>
  (readLines (readLine r.1.length) r.2.1 r.2.2).map fun data => (r.1, matrixToData data)

/-- io/input.go:148-157: a line and its label; an unreadable label is 0. -/
def readLabelled (n : Nat) (line : Str) : Option (List Int × Int) :=
  (readLine n line).bind fun row => ((splitRuns isComma line)[n]?).map fun t => (row, (atoi t).getD 0)

/-- io/input.go:109-184 `ParseDataNL`; the length of the rows must not be negative. -/
def parseDataNL (text : Str) : Option (List (Int × Int) × List VarSet × List Int) :=
  (readVars (scanLines text) [] []).bind fun r =>
  if r.1.length = 0 then none else
  (readLines (readLabelled (r.1.length - 1)) r.2.1 r.2.2).map fun data =>
    (r.1.filter (fun x => x.1 ≠ (r.1.length : Int) - 1), matrixToData (data.map Prod.fst), data.map Prod.snd)

/-- io/input.go:205-218: the labels of an evidence file. -/
def readLabels (line : Str) : Option (List Int) :=
  let k := (((scanLit ['l', 'a', 'b', 'e', 'l', 's'] line).bind scanBlank).bind scanInt).elim 0 Prod.fst
  if k < 0 then none else
  (List.range k.toNat).mapM fun i => ((splitAt1 (· = ' ') line)[i + 2]?).bind atoi

/-- io/input.go:191-274 `ParseEvidence`. -/
def parseEvidence (text : Str) : Option (List (Int × Int) × List VarSet × List Int) :=
  (readLabels ((scanLines text).headD [])).bind fun labels =>
  (readVars ((scanLines text).drop 1) [] ((scanLines text).headD [])).bind fun r =>
  (readLines (readLine r.1.length) r.2.1 r.2.2).map fun data => (r.1, matrixToData data, labels)

/-! ### ParsePartitionedData -/

/-- io/input.go:311-316: draw the next row that has not been drawn. `none` if the draws run out. -/
def drawRow (taken : List Nat) : List Nat → Option (Nat × List Nat)
  | [] => none
  | l :: ls => if l ∈ taken then drawRow taken ls else some (l, ls)

/-- io/input.go:310-318: `m` draws. -/
def drawRows : Nat → List Nat → List Nat → Option (List Nat)
  | 0, _, taken => some taken
  | m + 1, draws, taken => (drawRow taken draws).bind fun r => drawRows m r.2 (taken ++ [r.1])

/-- io/input.go:321-325: remove the rows numbered `dels`, in increasing order. -/
def deleteRows {α : Type} (fdata : List α) (dels : List Nat) : Option (List α) :=
  dels.zipIdx.foldlM (fun (l : List α) (x : Nat × Nat) => if x.2 ≤ x.1 ∧ x.1 - x.2 < l.length then some (l.eraseIdx (x.1 - x.2)) else none) fdata

/-- io/input.go:303-334 `ParsePartitionedData` after the call of `ParseData`. `m` is `int((1 - p) * float64(n))`, `draws` are the results of `rint(n)`. -/
def partitionParsed (vars : List (Int × Int)) (fdata : List VarSet) (m : Int) (draws : List Nat) : Option (List (Int × Int) × List VarSet × List VarSet × List Int) :=
  if m < 0 then none else
  (drawRows m.toNat draws []).bind fun taken =>
  (taken.mapM fun l => fdata[l]?).bind fun test =>
  (deleteRows fdata (taken.mergeSort (fun a b => decide (a ≤ b)))).map fun train =>
  let k := (vars.length : Int) - 1
  (vars, train, test.map (fun t => t.del k), test.map (fun t => t.get k))

/-- io/input.go:289-335 `ParsePartitionedData`. -/
def parsePartitionedData {F : Type} [GoFloat F] (text : Str) (p : F) (draws : List Nat) :
    Option (List (Int × Int) × List VarSet × List VarSet × List Int) :=
  (parseData text).bind fun r =>
  partitionParsed r.1 r.2 (GoFloat.toInt (GoFloat.mul (GoFloat.sub (GoFloat.ofInt 1) p) (GoFloat.ofInt (r.2.length : Nat)))) draws

end Gospn
