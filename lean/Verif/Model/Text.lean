/-
Text: the functions of Go's library that the readers and writers of io/ use, on strings of ASCII characters. Integers are read as 64-bit ints.

These are models of the library, not of the repository: strconv.Itoa (and fmt's %d), strconv.Atoi, strings.Split with a one-character separator, strings.FieldsFunc,
regexp.Split for the expression `[\,\s]+`, the parts of fmt.Sscanf needed for formats of literals, blanks and %d, and bufio.Scanner with lines.
-/
import Mathlib.Data.Nat.Digits.Defs
import Mathlib.Data.Int.Basic

namespace Gospn

/-- A string. -/
abbrev Str := List Char

/-- The decimal digit `d`. -/
def decDigit (d : Nat) : Char := Char.ofNat (48 + d)

/-- Decimal notation of a natural number. -/
def natStr (n : Nat) : Str := if n = 0 then ['0'] else ((Nat.digits 10 n).map decDigit).reverse

/-- strconv.Itoa, and %d. -/
def itoa (z : Int) : Str := if z < 0 then '-' :: natStr z.natAbs else natStr z.natAbs

def isDec (c : Char) : Bool := decide (48 ≤ c.toNat) && decide (c.toNat ≤ 57)

/-- The value of a non-empty string of digits. -/
def natOfStr (s : Str) : Option Nat :=
  if s = [] then none else s.foldlM (fun a c => if isDec c then some (a * 10 + (c.toNat - 48)) else none) 0

/-- The range of `int`. -/
def inInt64 (v : Int) : Bool := decide (-9223372036854775808 ≤ v) && decide (v ≤ 9223372036854775807)

/-- An optional sign: whether it is a minus, and what follows. -/
def takeSign : Str → Bool × Str
  | [] => (false, [])
  | c :: s => if c = '-' then (true, s) else if c = '+' then (false, s) else (false, c :: s)

/-- A signed number, if it is in range. -/
def signedOf (neg : Bool) (n : Nat) : Option Int :=
  let v : Int := if neg then -(n : Int) else n
  if inInt64 v then some v else none

/-- strconv.Atoi; `none` is an error. -/
def atoi (s : Str) : Option Int := (natOfStr (takeSign s).2).bind (signedOf (takeSign s).1)

/-- `[\,\s]`. -/
def isComma (c : Char) : Bool := c = ',' || c = ' ' || c = '\t' || c = '\n' || c = '\x0c' || c = '\r'

/-- White space for fmt. -/
def isBlank (c : Char) : Bool := c = ' ' || c = '\t' || c = '\n' || c = '\x0b' || c = '\x0c' || c = '\r'

/-- Put a character before the first string of a list. -/
def consFirst (c : Char) : List Str → List Str
  | [] => [[c]]
  | t :: ts => (c :: t) :: ts

/-- strings.Split with a one-character separator. -/
def splitAt1 (p : Char → Bool) : Str → List Str
  | [] => [[]]
  | c :: s => if p c then [] :: splitAt1 p s else consFirst c (splitAt1 p s)

/-- regexp.Split at maximal runs of separators: the last separator of a run makes the cut. -/
def splitRuns (p : Char → Bool) : Str → List Str
  | [] => [[]]
  | c :: s =>
    if p c then (if (s.head?).any p then splitRuns p s else [] :: splitRuns p s)
    else consFirst c (splitRuns p s)

/-- strings.FieldsFunc: the non-empty pieces between separators. -/
def fieldsFunc (p : Char → Bool) (s : Str) : List Str := (splitAt1 p s).filter (· ≠ [])

/-- fmt.Sscanf: a literal of the format. -/
def scanLit : Str → Str → Option Str
  | [], s => some s
  | _ :: _, [] => none
  | f :: fs, c :: s => if f = c then scanLit fs s else none

/-- fmt.Sscanf: a blank of the format; it needs a blank or the end of the input. -/
def scanBlank : Str → Option Str
  | [] => some []
  | c :: s => if isBlank c then some (s.dropWhile isBlank) else none

/-- fmt.Sscanf: %d. -/
def scanInt (s : Str) : Option (Int × Str) :=
  let t := takeSign (s.dropWhile isBlank)
  ((natOfStr (t.2.takeWhile isDec)).bind (signedOf t.1)).map fun v => (v, t.2.dropWhile isDec)

/-- bufio.Scanner with the default split function: the lines of a text, without `\n` and a preceding `\r`. A line that does not fit into the buffer of 65536
bytes ends the scan. -/
def dropCR (l : Str) : Str := if l.getLast? = some '\r' then l.dropLast else l

def scanLines (text : Str) : List Str :=
  let ls := splitAt1 (· = '\n') text
  let ls := if ls.getLast? = some [] then ls.dropLast else ls
  (ls.takeWhile fun l => l.length < 65536).map dropCR

end Gospn
