/-
What an ARFF file means.
-/
import Verif.Spec.Text

namespace Gospn.Spec

/-- The type of an attribute. -/
inductive ArffType where
  | numeric
  | string
  | nominal (labels : List (List Char))

def IsSpace (c : Char) : Prop := c = ' ' ∨ c = '\t'

/-- The word `w`, in lower, upper or mixed case. -/
def AnyCase (w : String) (s : List Char) : Prop := s.map Char.toLower = w.toList

/-- Words with commas between them. -/
def commaList : List (List Char) → List Char
  | [] => []
  | [l] => l
  | l :: l' :: ls => l ++ ',' :: commaList (l' :: ls)

/-- A label: not empty, without blanks, commas and braces. -/
def IsLabel (l : List Char) : Prop := l ≠ [] ∧ ∀ c ∈ l, ¬ IsSpace c ∧ c ≠ ',' ∧ c ≠ '{' ∧ c ≠ '}' ∧ c ≠ '\n' ∧ c ≠ '\r' ∧ c ≠ '\x0b' ∧ c ≠ '\x0c'

/-- `s` is the text of a type. White space is allowed everywhere. -/
def TypeText (t : ArffType) (s : List Char) : Prop :=
  (∀ c ∈ s, c ≠ '\n' ∧ c ≠ '\r' ∧ c ≠ '\x0b' ∧ c ≠ '\x0c') ∧
  ∃ u, s.filter (fun c => !(c = ' ' || c = '\t')) = u ∧
  match t with
  | .numeric => AnyCase "numeric" u
  | .string => AnyCase "string" u
  | .nominal ls => (∀ l ∈ ls, IsLabel l) ∧ ls.Nodup ∧ u = '{' :: commaList ls ++ ['}']

/-- A word: not empty, without white space. -/
def IsWord (s : List Char) : Prop := s ≠ [] ∧ ∀ c ∈ s, ¬ IsSpace c ∧ c ≠ '\n' ∧ c ≠ '\r' ∧ c ≠ '\x0b' ∧ c ≠ '\x0c'

/-- Some white space. -/
def IsGap (s : List Char) : Prop := s ≠ [] ∧ ∀ c ∈ s, IsSpace c

/-- `@attribute name type`. -/
def AttrLine (d : List Char × ArffType) (l : List Char) : Prop :=
  IsWord d.1 ∧ ∃ kw g g' t, AnyCase "@attribute" kw ∧ IsGap g ∧ IsGap g' ∧ TypeText d.2 t ∧ l = kw ++ (g ++ (d.1 ++ (g' ++ t)))

/-- `@relation name`. -/
def RelationLine (name l : List Char) : Prop :=
  IsWord name ∧ ∃ kw g t, AnyCase "@relation" kw ∧ IsGap g ∧ (∀ c ∈ t, IsSpace c) ∧ l = kw ++ (g ++ (name ++ t))

/-- A comment, or any other line in the header that has no meaning. -/
def SkipLine (l : List Char) : Prop := l.head? ≠ some '@' ∧ '\n' ∉ l ∧ '\r' ∉ l

/-- The lines that define the attributes, among lines without meaning. -/
inductive ArffHeader : List (List Char × ArffType) → List (List Char) → Prop
  | nil : ArffHeader [] []
  | skip (l : List Char) {ds ls} (hl : SkipLine l) (h : ArffHeader ds ls) : ArffHeader ds (l :: ls)
  | attr (d : List Char × ArffType) (l : List Char) {ds ls} (hl : AttrLine d l) (h : ArffHeader ds ls) : ArffHeader (d :: ds) (l :: ls)

/-- A value: not empty, without blanks and commas. -/
def IsToken (t : List Char) : Prop := t ≠ [] ∧ ∀ c ∈ t, c ≠ ' ' ∧ c ≠ ',' ∧ c ≠ '\n' ∧ c ≠ '\r'

def IsComma (c : Char) : Prop := c = ' ' ∨ c = ','

/-- The line writes the values `ts`, with blanks and commas between them and possibly before and after. -/
inductive TokenRow : List (List Char) → List Char → Prop
  | done (s : List Char) (h : ∀ c ∈ s, IsComma c) : TokenRow [] s
  | last (s : List Char) (h : ∀ c ∈ s, IsComma c) (t : List Char) (ht : IsToken t) : TokenRow [t] (s ++ t)
  | more (s : List Char) (h : ∀ c ∈ s, IsComma c) (t : List Char) (ht : IsToken t) (c : Char) (hc : IsComma c) (ts : List (List Char)) (l : List Char)
      (hl : TokenRow ts l) : TokenRow (t :: ts) (s ++ (t ++ c :: l))

/-- The lines of data, among comments. -/
inductive ArffRows : List (List (List Char)) → List (List Char) → Prop
  | nil : ArffRows [] []
  | comment (l : List Char) {rs ls} (hc : '\n' ∉ l ∧ '\r' ∉ l) (h : ArffRows rs ls) : ArffRows rs (('%' :: l) :: ls)
  | row (r : List (List Char)) (l : List Char) {rs ls} (hl : TokenRow r l) (hp : l.head? ≠ some '%') (h : ArffRows rs ls) : ArffRows (r :: rs) (l :: ls)

/-- An ARFF file. -/
structure ArffFile (name : List Char) (decls : List (List Char × ArffType)) (rows : List (List (List Char))) (text : List Char) : Prop where
  ex : ∃ pre rel head kw more data, (∀ l ∈ pre, SkipLine l) ∧ RelationLine name rel ∧ ArffHeader decls head ∧
    AnyCase "@data" kw ∧ ('\n' ∉ more ∧ '\r' ∉ more) ∧ ArffRows rows data ∧
    (∀ l ∈ pre ++ rel :: head ++ (kw ++ more) :: data, l.length < 65536) ∧
    text = unlines (pre ++ rel :: head ++ (kw ++ more) :: data)

/-- What `ParseArff` should return for a column of values: the codes of the values, the number of categories, and the code of each label. -/
def ColumnCode : ArffType → List (List Char) → List Int → Int → (List Char → Option Int) → Prop
  | .numeric, col, codes, cats, dict => col = codes.map decimal ∧ (∀ v ∈ codes, v < cats) ∧ (cats = 0 ∨ 0 ≤ cats ∧ cats - 1 ∈ codes) ∧ ∀ t, dict t = none
  | .string, col, codes, cats, dict => ∃ names : List (List Char), names.Nodup ∧ (∀ t, t ∈ names ↔ t ∈ col) ∧ cats = names.length ∧
      codes = col.map (fun t => (names.idxOf t : Int)) ∧ ∀ t, dict t = if t ∈ names then some (names.idxOf t : Int) else none
  | .nominal ls, col, codes, cats, dict => cats = ls.length ∧ codes = col.map (fun t => (ls.idxOf t : Int)) ∧ ∀ t, dict t = if t ∈ ls then some (ls.idxOf t : Int) else none

/-- What a column must satisfy: numbers of 64 bits, declared labels. -/
def GoodColumn : ArffType → List (List Char) → Prop
  | .numeric, col => ∃ vs : List Int, col = vs.map decimal ∧ ∀ v ∈ vs, Int64Range v
  | .string, _ => True
  | .nominal ls, col => ∀ t ∈ col, t ∈ ls

/-- `@attribute name {l1,…,ln}`, in lower case and without blanks between the labels. -/
def NominalLine (ls : List (List Char)) (l : List Char) : Prop :=
  ∃ name more, '{' ∉ name ∧ '\n' ∉ name ∧ '\r' ∉ name ∧ '\n' ∉ more ∧ '\r' ∉ more ∧ l = "@attribute ".toList ++ (name ++ ('{' :: (commaList ls ++ '}' :: more)))

/-- A strictly written file of nominal attributes: lines that mean nothing, the attributes, `@data`, and the values with commas between them. -/
structure NominalFile (decls : List (List (List Char))) (rows : List (List (List Char))) (text : List Char) : Prop where
  labels : ∀ ls ∈ decls, ls ≠ [] ∧ ls.Nodup ∧ ∀ l ∈ ls, IsLabel l
  values : ∀ r ∈ rows, List.Forall₂ (fun ls t => t ∈ ls) decls r
  ex : ∃ pre head, (∀ l ∈ pre, ¬ "@attribute ".toList <+: l ∧ l ≠ "@data".toList ∧ '\n' ∉ l ∧ '\r' ∉ l) ∧ List.Forall₂ NominalLine decls head ∧
    (∀ l ∈ pre ++ (head ++ "@data".toList :: rows.map commaList), l.length < 65536) ∧ text = unlines (pre ++ (head ++ "@data".toList :: rows.map commaList))

/-- The positions of the values among the labels. -/
def labelCodes (decls : List (List (List Char))) (r : List (List Char)) : List Int := List.zipWith (fun ls t => (ls.idxOf t : Int)) decls r

end Gospn.Spec
