/-
Model of the functions that compile folders of images into data files: io/pgm.go (PGMFToData, BufferedPGMFToData, PGMFToEvidence), io/pbm.go (PBMFToData,
PBMToData, PBMFToEvidence), and the text that VarSetToPGM and VarSetToPBM write. A folder is the list of its entries in the order in which the system lists them;
the result is the text of the file that is written. Errors of the file system are left out.
-/
import Verif.Model.Input
import Verif.Model.Images

namespace Gospn

/-- An entry of the superdirectory; `files` are the texts of the files in it, if it is a directory. -/
structure DirEntry where
  name : Str
  isDir : Bool
  files : List Str

/-- io/pgm.go:36-60, 187-211, 390-409; io/pbm.go:32-56, 258-277: the positions to remove. `cmarks` is one more than the number of marks after the first. -/
def markEntries (sub : List DirEntry) : List Int :=
  (sub.zipIdx.foldl (fun (s : List Int × Int) (x : DirEntry × Nat) =>
    if x.1.name = ['c', 'o', 'm', 'p', 'i', 'l', 'e', 'd'] ∨ x.1.isDir = false then
      (if 0 < s.1.length then (s.1 ++ [(x.2 : Int) - s.2], s.2 + 1) else (s.1 ++ [(x.2 : Int)], s.2))
    else s) ([], 1)).1

/-- io/pgm.go:62-66, 213-217, 411-415; io/pbm.go:58-62, 279-283: remove the marked entries, one after the other. -/
def removeMarked (sub : List DirEntry) : Option (List DirEntry) :=
  (markEntries sub).foldlM (fun (l : List DirEntry) (j : Int) => if 0 ≤ j ∧ j < l.length then some (l.eraseIdx j.toNat) else none) sub

/-- io/pgm.go:68-101, 220-243; io/pbm.go:64-97: the files with the number of their subdirectory. -/
def labelledFiles (dirs : List DirEntry) : List (Str × Nat) := dirs.zipIdx.flatMap fun x => x.1.files.map fun f => (f, x.2)

/-- io/pgm.go:131, io/pbm.go:127: `fmt.Sscanf(line, "%d %d", &w, &h)` with `w, h := -1, -1`. -/
def scanPair (line : Str) : Int × Int :=
  match scanInt line with
  | none => (-1, -1)
  | some (w, s) => match (scanBlank s).bind scanInt with
    | none => (w, -1)
    | some (h, _) => (w, h)

/-- io/pgm.go:133: `fmt.Sscanf(line, "%d", &max)` with `max := -1`. -/
def scanOne (line : Str) : Int := (scanInt line).elim (-1) Prod.fst

/-- io/pgm.go:125-133: width, height and maximum of an image. -/
def pgmHeader (text : Str) : Int × Int × Int :=
  let w := scanPair ((scanLines text).getD 1 [])
  (w.1, w.2, scanOne ((scanLines text).getD 2 []))

/-- io/pgm.go:143-147, io/pbm.go:136-140: the pixel variables that are declared. The product is the exact one, not modulo 2^64. -/
def pgmDecls (w h max : Int) : List (Int × Int) := (List.range (w * h).toNat).map fun (i : Nat) => ((i : Int), max + 1)

/-- io/pgm.go:146, 148: `fmt.Fprintf(out, "var %d %d\n", …)`. -/
def declText (d : Int × Int) : Str := ['v', 'a', 'r', ' '] ++ itoa d.1 ++ [' '] ++ itoa d.2 ++ ['\n']

/-- io/pgm.go:151-162: what is written for the body of an image. -/
def pgmBody (text : Str) : Str :=
  ((scanLines text).drop 3).flatMap fun line => (splitAt1 (· = ' ') line).flatMap fun t => (atoi t).elim [] fun v => itoa v ++ [' ']

/-- io/pgm.go:20-168 `PGMFToData`. `instreams[0]` panics if there is no file. -/
def pgmFToData (sub : List DirEntry) : Option (Str × Int × Int × Int) :=
  (removeMarked sub).bind fun dirs =>
  let fs := labelledFiles dirs
  (fs[0]?).map fun f0 =>
  let hd := pgmHeader f0.1
  let tt := hd.1 * hd.2.1
  ((pgmDecls hd.1 hd.2.1 hd.2.2).flatMap declText ++ declText (tt, dirs.length) ++ fs.flatMap fun f => pgmBody f.1 ++ itoa f.2 ++ ['\n'], hd)

/-- io/pgm.go:171-371 `BufferedPGMFToData`: the first file is written first, the others in the order `ord` in which the goroutines get the mutex. -/
def bufferedPgmFToData (ord : List (Str × Nat) → List (Str × Nat)) (sub : List DirEntry) : Option (Str × Int × Int × Int) :=
  (removeMarked sub).bind fun dirs =>
  let fs := labelledFiles dirs
  (fs[0]?).map fun f0 =>
  let hd := pgmHeader f0.1
  let tt := hd.1 * hd.2.1
  ((pgmDecls hd.1 hd.2.1 hd.2.2).flatMap declText ++ declText (tt, dirs.length) ++ (f0 :: ord (fs.drop 1)).flatMap fun f => pgmBody f.1 ++ itoa f.2 ++ ['\n'], hd)

/-- io/pgm.go:419-453, io/pbm.go:287-321: `slabels`. -/
def startLabels (dirs : List DirEntry) : List Int := dirs.zipIdx.map fun x => ((x.1.files.length : Int) * x.2)

/-- io/pgm.go:495-503, io/pbm.go:360-368: the line of labels. -/
def labelText (ls : List Int) : Str :=
  ['l', 'a', 'b', 'e', 'l', 's', ' '] ++ itoa ls.length ++ [' '] ++
    ls.zipIdx.flatMap fun x => if x.2 + 1 = ls.length then itoa x.1 ++ ['\n'] else itoa x.1 ++ [' ']

/-- io/pgm.go:514-522: what is written for the body of an image; what cannot be read is written as 0. -/
def pgmEvidenceBody (text : Str) : Str :=
  ((scanLines text).drop 3).flatMap fun line => (splitAt1 (· = ' ') line).flatMap fun t => itoa ((atoi t).getD 0) ++ [' ']

/-- io/pgm.go:374-528 `PGMFToEvidence`. -/
def pgmFToEvidence (sub : List DirEntry) : Option (Str × Int × Int × Int) :=
  (removeMarked sub).bind fun dirs =>
  let fs := labelledFiles dirs
  (fs[0]?).map fun f0 =>
  let hd := pgmHeader f0.1
  (labelText (startLabels dirs) ++ (pgmDecls hd.1 hd.2.1 hd.2.2).flatMap declText ++ fs.flatMap fun f => pgmEvidenceBody f.1 ++ ['\n'], hd)

/-- io/pbm.go:144-152, 223-231, 377-385: each character of the body, followed by a blank. The code goes by bytes; the same for the ASCII text of an image. -/
def pbmBody (text : Str) : Str := ((scanLines text).drop 2).flatMap fun line => line.flatMap fun c => [c, ' ']

/-- io/pbm.go:16-156 `PBMFToData`. -/
def pbmFToData (sub : List DirEntry) : Option Str :=
  (removeMarked sub).bind fun dirs =>
  let fs := labelledFiles dirs
  (fs[0]?).map fun f0 =>
  let wh := scanPair ((scanLines f0.1).getD 1 [])
  (pgmDecls wh.1 wh.2 1).flatMap declText ++ declText (wh.1 * wh.2, dirs.length) ++ fs.flatMap fun f => pbmBody f.1 ++ itoa f.2 ++ ['\n']

/-- io/pbm.go:160-239 `PBMToData`. -/
def pbmToData (files : List Str) (cls : Int) : Option Str :=
  (files[0]?).map fun f0 =>
  let wh := scanPair ((scanLines f0).getD 1 [])
  (pgmDecls wh.1 wh.2 1).flatMap declText ++ files.flatMap fun f => pbmBody f ++ (if 0 < cls then itoa cls else []) ++ ['\n']

/-- io/pbm.go:242-389 `PBMFToEvidence`. -/
def pbmFToEvidence (sub : List DirEntry) : Option Str :=
  (removeMarked sub).bind fun dirs =>
  let fs := labelledFiles dirs
  (fs[0]?).map fun f0 =>
  let wh := scanPair ((scanLines f0.1).getD 1 [])
  labelText (startLabels dirs) ++ (pgmDecls wh.1 wh.2 1).flatMap declText ++ fs.flatMap fun f => pbmBody f.1 ++ ['\n']

/-- io/pgm.go:531-556 `VarSetToPGM`: the text, for `w ≠ 0` (the remainder by 0 panics). `px` are the pixels (`statePixels`). The line ends come before the last pixel of each line of the image. -/
def pgmText (px : List Int) (w h max : Int) : Str :=
  ['P', '2', '\n'] ++ itoa w ++ [' '] ++ itoa h ++ ['\n'] ++ itoa max ++ ['\n'] ++
    px.zipIdx.flatMap fun x => (if ((x.2 : Int) + 1).tmod w = 0 then ['\n'] else []) ++ itoa x.1 ++ [' ']

/-- io/pbm.go:392-414 `VarSetToPBM`: the text. -/
def pbmText (px : List Int) (w h : Int) : Str :=
  ['P', '1', '\n'] ++ itoa w ++ [' '] ++ itoa h ++ ['\n'] ++ px.zipIdx.flatMap fun x => (if x.2 % 71 = 0 then ['\n'] else []) ++ itoa x.1

end Gospn
