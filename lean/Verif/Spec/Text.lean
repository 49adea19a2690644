/-
What the text of a data file means.
-/
import Mathlib.Data.Int.Basic
import Mathlib.Data.List.Forall2

namespace Gospn.Spec

/-- An integer in decimal notation. -/
def decimal (v : Int) : List Char := (toString v).toList

/-- The integers of 64 bits. -/
def Int64Range (v : Int) : Prop := -2 ^ 63 ≤ v ∧ v < 2 ^ 63

/-- Lines, each ended by a newline. -/
def unlines (ls : List (List Char)) : List Char := ls.flatMap fun l => l ++ ['\n']

/-- The characters that separate the values of a row. -/
def IsSep (c : Char) : Prop := c = ',' ∨ c = ' ' ∨ c = '\t'

/-- The line writes the integers `vs`: in decimal notation, each followed by separators; none are needed after the last one. -/
inductive WritesRow : List Int → List Char → Prop
  | last (v : Int) (sep : List Char) (h : ∀ c ∈ sep, IsSep c) : WritesRow [v] (decimal v ++ sep)
  | cons (v : Int) (sep : List Char) (vs : List Int) (l : List Char) (hne : sep ≠ []) (h : ∀ c ∈ sep, IsSep c) (hl : WritesRow vs l) :
      WritesRow (v :: vs) (decimal v ++ (sep ++ l))

/-- The line `var id categories`. -/
def declLine (d : Int × Int) : List Char := "var ".toList ++ (decimal d.1 ++ (' ' :: decimal d.2))

/-- The instance in which variable `j` has the value number `j` of the row. -/
def lineInstance (vs : List Int) : Int → Option Int := fun k => if 0 ≤ k then vs[k.toNat]? else none

/-- A data file: definitions of variables with different numbers, and lines that write the rows. -/
structure DataFile (decls : List (Int × Int)) (rows : List (List Int)) (lines : List (List Char)) : Prop where
  ids : (decls.map Prod.fst).Nodup
  declRange : ∀ d ∈ decls, Int64Range d.1 ∧ Int64Range d.2
  written : List.Forall₂ WritesRow rows lines
  rowRange : ∀ r ∈ rows, ∀ v ∈ r, Int64Range v

/-- The text of the file. -/
def dataText (decls : List (Int × Int)) (lines : List (List Char)) : List Char := unlines (decls.map declLine ++ lines)

/-- The first line of an evidence file: `labels n l1 … ln`. -/
def labelLine (ls : List Int) : List Char := "labels ".toList ++ (decimal ls.length ++ ls.flatMap fun l => ' ' :: decimal l)

end Gospn.Spec
