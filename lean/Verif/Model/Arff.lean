/-
Model of io/arff.go. A file is its text (ASCII); `none` is a panic.
-/
import Verif.Model.Text
import Verif.Model.Data
import Verif.Model.Folder

namespace Gospn

/-- strings.ToLower. -/
def lowerStr (s : Str) : Str := s.map Char.toLower

/-- strings.Fields. -/
def wordFields (s : Str) : List Str := fieldsFunc isBlank s

/-- io/arff.go:237, 241, 252: the type of an attribute. -/
inductive ArffKind where
  | numeric | str | cls
  deriving DecidableEq

/-- What the code keeps for an attribute: `typs[j]`, `sc[j].Name`, `sc[j].Categories`, `labels[j]` and `counts[j]`. -/
structure ArffAttr where
  kind : ArffKind
  name : Str
  cats : Int
  dict : Str → Option Int
  count : Int

/-- io/arff.go:230-254: an attribute. -/
def arffAttr (line : Str) : Option ArffAttr :=
  ((wordFields line)[1]?).map fun n =>
  let typ := ((wordFields line).drop 2).flatten
  if lowerStr typ = ['n', 'u', 'm', 'e', 'r', 'i', 'c'] then ⟨.numeric, n, 0, fun _ => none, 0⟩
  else if lowerStr typ = ['s', 't', 'r', 'i', 'n', 'g'] then ⟨.str, n, 0, fun _ => none, 0⟩
  else
    let l := fieldsFunc (fun c => c = ' ' || c = ',' || c = '{' || c = '}') typ
    ⟨.cls, n, l.length, l.zipIdx.foldl (fun d x => Function.update d x.1 (some (x.2 : Int))) (fun _ => none), 0⟩

/-- io/arff.go:268-297: a value. The new number of categories is the exact `v + 1`, not modulo 2^64. -/
def arffCell (a : ArffAttr) (tk : Str) : Option (ArffAttr × Int) :=
  match a.kind with
  | .numeric => (atoi tk).map fun v => (if v + 1 > a.cats then { a with cats := v + 1 } else a, v)
  | .str =>
    match a.dict tk with
    | some c => some (a, c)
    | none => some ({ a with cats := a.cats + 1, dict := Function.update a.dict tk (some a.count), count := a.count + 1 }, a.count)
  | .cls =>
    match a.dict tk with
    | some c => some (a, c)
    | none => some ({ a with dict := Function.update a.dict tk (some a.count), count := a.count + 1 }, a.count)

/-- io/arff.go:262-298: a line of data. `typs[j]` panics if there are more values than attributes. -/
def arffRow (attrs : List ArffAttr) (line : Str) : Option (List ArffAttr × VarSet) :=
  (fieldsFunc (fun c => c = ' ' || c = ',') line).zipIdx.foldlM (fun (s : List ArffAttr × VarSet) (x : Str × Nat) =>
    (s.1[x.2]?).bind fun a => (arffCell a x.1).map fun r => (s.1.set x.2 r.1, s.2.set (x.2 : Int) r.2)) (attrs, VarSet.empty)

/-- The variables of the loop: name, attributes, whether in the data section, and the instances. -/
structure ArffState where
  name : Str
  attrs : List ArffAttr
  data : Bool
  vals : List VarSet

/-- io/arff.go:213-301: a line. -/
def arffLine (st : ArffState) (line : Str) : Option ArffState :=
  if line.head? = some '%' then some st
  else if st.data = false then
    if ['@', 'r', 'e', 'l', 'a', 't', 'i', 'o', 'n'].isPrefixOf (lowerStr line) then ((wordFields line)[1]?).map fun n => { st with name := n }
    else if ['@', 'a', 't', 't', 'r', 'i', 'b', 'u', 't', 'e'].isPrefixOf (lowerStr line) then (arffAttr line).map fun a => { st with attrs := st.attrs ++ [a] }
    else if ['@', 'd', 'a', 't', 'a'].isPrefixOf (lowerStr line) then some { st with data := true }
    else some st
  else (arffRow st.attrs line).map fun r => { st with attrs := r.1, vals := st.vals ++ [r.2] }

/-- io/arff.go:197-303 `ParseArff`: the name, the attributes with `sc` and `labels`, the instances. -/
def parseArff (text : Str) : Option ArffState := (scanLines text).foldlM arffLine ⟨[], [], false, []⟩

/-! ### ARFFToData -/

/-- io/arff.go:85-97: an instance, with each value replaced by the position of an equal class. `classes[i]` panics if there are too many values. -/
def arffInstance (classes : List (List Str)) (line : Str) : Option (List Str) :=
  (splitAt1 (· = ',') line).zipIdx.mapM fun x => (classes[x.2]?).map fun cs =>
    cs.zipIdx.foldl (fun v y => if x.1 = y.1 then itoa y.2 else v) x.1

/-- io/arff.go:49-100: the lines; the state is the data flag, the classes and the instances. -/
def arffDataLine (s : Bool × List (List Str) × List (List Str)) (line : Str) : Option (Bool × List (List Str) × List (List Str)) :=
  if s.1 = false then
    let header := splitAt1 (· = ' ') line
    if header.length ≠ 1 then
      if header.headD [] = ['@', 'a', 't', 't', 'r', 'i', 'b', 'u', 't', 'e'] then
        ((splitAt1 (· = '{') line)[1]?).map fun t => (s.1, s.2.1 ++ [splitAt1 (· = ',') ((splitAt1 (· = '}') t).headD [])], s.2.2)
      else some s
    else if header.headD [] = ['@', 'd', 'a', 't', 'a'] then some (true, s.2) else some s
  else (arffInstance s.2.1 line).map fun i => (s.1, s.2.1, s.2.2 ++ [i])

/-- io/arff.go:16-153 `ARFFToData`: the text of the data file. The last value of each instance is written twice. -/
def arffToData (text : Str) : Option Str :=
  ((scanLines text).foldlM arffDataLine (false, [], [])).map fun s =>
  s.2.1.zipIdx.flatMap (fun x => declText ((x.2 : Int), (x.1.length : Int))) ++
    s.2.2.flatMap fun inst => inst.flatMap (fun v => v ++ [' ']) ++ (inst.getLast?.getD []) ++ [' ', '\n']

end Gospn
