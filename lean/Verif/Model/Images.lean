/-
Images: io/images.go, and the pixels that io/pgm.go, io/pbm.go and io/ppm.go write. Files are modelled as header and samples; white space between samples is left out.
-/
import Verif.Model.Data

namespace Gospn

/-- io/output.go:14-25 `CmplType`: a string, of which only these four have a meaning. -/
inductive CmplType where
  | top | bottom | left | right | other
  deriving DecidableEq

/-- The loop bodies io/images.go:14-18 and 27-32. -/
def splitStep (O : VarSet) (PQ : VarSet × VarSet) (x : Bool × Int) : VarSet × VarSet :=
  if x.1 then (PQ.1.set x.2 (O.get x.2), PQ.2) else (PQ.1, PQ.2.set x.2 (O.get x.2))

/-- io/images.go:9-39 `SplitHalf`. -/
def splitHalf (O : VarSet) (t : CmplType) (w h : Int) : VarSet × VarSet :=
  let n := w * h
  if t = .top ∨ t = .bottom then
    let r := (List.range n.toNat).foldl (fun PQ (i : Nat) => splitStep O PQ (decide ((i : Int) < n.tdiv 2), (i : Int))) (VarSet.empty, VarSet.empty)
    if t = .bottom then (r.2, r.1) else r
  else
    let r := (List.range w.toNat).foldl (fun PQ (x : Nat) =>
      (List.range h.toNat).foldl (fun PQ (y : Nat) => splitStep O PQ (decide ((x : Int) < w.tdiv 2), (x : Int) + (y : Int) * w)) PQ) (VarSet.empty, VarSet.empty)
    if t = .right then (r.2, r.1) else r

/-- A plain ("P3") colour image. -/
structure Ppm where
  width : Int
  height : Int
  max : Int
  pixels : List (Int × Int × Int)

/-- common/color.go:36-42. -/
def red : Int × Int × Int := (255, 0, 0)
def green : Int × Int × Int := (0, 255, 0)
def blue : Int × Int × Int := (0, 0, 255)
def white : Int × Int × Int := (255, 255, 255)

/-- io/pgm.go:568-581 and io/pbm.go:426-439: width and height of the drawing and the test for the red line. -/
def cmplFrame (t : CmplType) (w h : Int) : Int × Int × (Int → Bool) :=
  if t = .top ∨ t = .bottom then
    let h := h + 1
    (w, h, fun p => let q := w * h.tdiv 2; decide (p ≥ q) && decide (p < q + w))
  else
    let w := w + 1
    (w, h, fun p => decide (p.tmod w = w.tdiv 2))

/-- Loop body of io/pgm.go:587-601 and io/pbm.go:444-466: the state is the pixels so far and `j`; `draw j` is the colour of pixel `j` of the image. -/
def cmplStep (mid : Int → Bool) (draw : Int → Int × Int × Int) (s : List (Int × Int × Int) × Int) (i : Nat) : List (Int × Int × Int) × Int :=
  if mid (i : Int) then (s.1 ++ [red], s.2) else (s.1 ++ [draw s.2], s.2 + 1)

/-- Both functions, for a given colouring and declared maximum. -/
def imgCmpl (draw : Int → Int × Int × Int) (t : CmplType) (w h max : Int) : Ppm :=
  let f := cmplFrame t w h
  ⟨f.1, f.2.1, max, ((List.range (f.1 * f.2.1).toNat).foldl (cmplStep f.2.2 draw) ([], 0)).1⟩

/-- io/pgm.go:560-603 `ImgCmplToPGM`. -/
def imgCmplToPGM (orig cmpl : VarSet) (t : CmplType) (w h max : Int) : Ppm :=
  imgCmpl (fun j => match orig j with
    | some v => (v, v, v)
    | none => (0, cmpl.get j, 0)) t w h (max - 1)

/-- io/pbm.go:418-468 `ImgCmplToPPM`. -/
def imgCmplToPPM (orig cmpl : VarSet) (t : CmplType) (w h : Int) : Ppm :=
  imgCmpl (fun j => match orig j with
    | some v => if v = 1 then blue else white
    | none => if cmpl.get j = 1 then green else white) t w h 255

/-- The samples that io/pgm.go:530-556 `VarSetToPGM` and io/pbm.go:391-414 `VarSetToPBM` write, and those of which io/ppm.go:12-38 `VarSetToPPM` writes three copies each.
`ks` is the iteration order of the map `state`; a variable outside `0 … len(state) - 1` is an index out of range. -/
def statePixels (ks : List Int) (state : VarSet) : Option (List Int) :=
  ks.foldlM (fun px k => goSet px k (state.get k)) (List.replicate ks.length (0 : Int))

end Gospn
