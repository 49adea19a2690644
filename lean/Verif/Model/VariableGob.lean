/-
Encoding and decoding of variables: learn/variable.go:24-34. Strings are ASCII strings as in Model/Text.

Simplification: fmt's scanning of integers also accepts other bases and underscores; only decimal notation is modelled, which is what the encoder writes.
-/
import Verif.Model.Text

namespace Gospn

/-- learn/variable.go:13-20 `Variable`. -/
structure NamedVar where
  varid : Int
  categories : Int
  name : Str
  deriving DecidableEq

/-- learn/variable.go:24-28 `GobEncode`: Fprintln writes the operands with a blank between them and a newline. -/
def encodeVar (v : NamedVar) : Str := itoa v.varid ++ ' ' :: (itoa v.categories ++ ' ' :: (v.name ++ ['\n']))

/-- fmt, `SkipSpace` for Fscanln: a newline is an error. -/
def skipBlanks : Str → Option Str
  | [] => some []
  | c :: s => if c = '\n' then none else if isBlank c then skipBlanks s else some (c :: s)

/-- fmt, the end of Fscanln: nothing but blanks up to a newline or the end of the text. -/
def endOfLine : Str → Bool
  | [] => true
  | c :: s => if c = '\n' then true else if isBlank c then endOfLine s else false

/-- Fscanln with an integer. -/
def scanIntLn (s : Str) : Option (Int × Str) := (skipBlanks s).bind scanInt

/-- Fscanln with a string: the characters up to the next blank; the end of the text is an error. -/
def scanStrLn (s : Str) : Option (Str × Str) :=
  (skipBlanks s).bind fun t => if t = [] then none else some (t.takeWhile fun c => !isBlank c, t.dropWhile fun c => !isBlank c)

/-- learn/variable.go:30-34 `GobDecode`; `none` is an error. -/
def decodeVar (s : Str) : Option NamedVar :=
  (scanIntLn s).bind fun a => (scanIntLn a.2).bind fun b => (scanStrLn b.2).bind fun c =>
    if endOfLine c.2 then some ⟨a.1, b.1, c.1⟩ else none

end Gospn
