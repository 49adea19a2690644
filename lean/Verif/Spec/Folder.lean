/-
Texts of images in the formats PGM (P2) and PBM (P1), and what a folder of images means as a dataset.
-/
import Verif.Spec.Text

namespace Gospn.Spec

/-- Lines with newlines between them (an empty last line stands for a newline at the end of the text). -/
def joinLines : List (List Char) → List Char
  | [] => []
  | [l] => l
  | l :: l' :: ls => l ++ '\n' :: joinLines (l' :: ls)

/-- The line writes the integers `vs` in decimal notation, with blanks between them and possibly before and after. -/
inductive BlankRow : List Int → List Char → Prop
  | done (n : Nat) : BlankRow [] (List.replicate n ' ')
  | last (n : Nat) (v : Int) : BlankRow [v] (List.replicate n ' ' ++ decimal v)
  | more (n : Nat) (v : Int) (vs : List Int) (l : List Char) (h : BlankRow vs l) : BlankRow (v :: vs) (List.replicate n ' ' ++ (decimal v ++ ' ' :: l))

/-- The line writes the integers `vs`, at least one, with single blanks between them and no others. -/
inductive TightRow : List Int → List Char → Prop
  | last (v : Int) : TightRow [v] (decimal v)
  | more (v : Int) (vs : List Int) (l : List Char) (h : TightRow vs l) : TightRow (v :: vs) (decimal v ++ ' ' :: l)

/-- A text with the PGM image of width `w`, height `h`, maximum `max` and pixels `px`, whose lines are written according to `R`. No line is longer than the buffer
of a Go scanner. -/
structure PgmText (R : List Int → List Char → Prop) (w h max : Int) (px : List Int) (text : List Char) : Prop where
  size : 0 ≤ w ∧ 0 ≤ h ∧ (px.length : Int) = w * h
  range : Int64Range w ∧ Int64Range h ∧ Int64Range max ∧ ∀ v ∈ px, Int64Range v
  lines : ∃ (rows : List (List Int)) (body : List (List Char)), List.Forall₂ R rows body ∧ rows.flatten = px ∧ (∀ l ∈ body, l.length < 65536) ∧
    text = joinLines ("P2".toList :: (decimal w ++ ' ' :: decimal h) :: decimal max :: body)

/-- A text with a PGM image. -/
def PgmFile : Int → Int → Int → List Int → List Char → Prop := PgmText BlankRow

/-- The line writes the bits `vs`, with blanks anywhere except before the first one. -/
inductive BitRow : List Int → List Char → Prop
  | nil : BitRow [] []
  | bit (v : Int) (hv : v = 0 ∨ v = 1) (n : Nat) (vs : List Int) (l : List Char) (h : BitRow vs l) : BitRow (v :: vs) (decimal v ++ (List.replicate n ' ' ++ l))

/-- A text with the PBM image of width `w`, height `h` and pixels `px`. -/
structure PbmFile (w h : Int) (px : List Int) (text : List Char) : Prop where
  size : 0 ≤ w ∧ 0 ≤ h ∧ (px.length : Int) = w * h
  range : Int64Range w ∧ Int64Range h
  lines : ∃ (rows : List (List Int)) (body : List (List Char)), List.Forall₂ BitRow rows body ∧ rows.flatten = px ∧ (∀ l ∈ body, l.length < 65536) ∧
    text = joinLines ("P1".toList :: (decimal w ++ ' ' :: decimal h) :: body)

/-- The variables of a dataset of images with `n` pixels of `c` colours. -/
def pixelVars (n : Nat) (c : Int) : List (Int × Int) := (List.range n).map fun (i : Nat) => ((i : Int), c)

/-- The rows of a dataset of images: the pixels of each image, and the number of its class. -/
def classRows (imgs : List (List (List Int))) : List (List Int) := imgs.zipIdx.flatMap fun x => x.1.map fun px => px ++ [(x.2 : Int)]

/-- The line of a row, with single blanks. -/
def tightLine : List Int → List Char
  | [] => []
  | [v] => decimal v
  | v :: v' :: vs => decimal v ++ ' ' :: tightLine (v' :: vs)

/-- The number of the first image of each class, if the classes are listed one after the other. -/
def startIndices (imgs : List (List (List Int))) : List Int := (List.range imgs.length).map fun i => (((imgs.take i).map List.length).sum : Int)

end Gospn.Spec
