import Verif.Web.Page

/-!
# Which cells of the summary are highlighted (trcweb/render.go, trcweb/assets/traces.html)

The style sheet of the page has a rule whose selector is made of the classes that `highlightClasses` returns.  Browsers drop
a rule whose selector is not well-formed.  `sha256hex` is a parameter.
-/

namespace Trc.Web

/-- `categoryClass`, render.go:247-249. -/
def categoryClass (sha : String → List Char) (category : String) : List Char := ['c', 'a', 't', 'e', 'g', 'o', 'r', 'y', '-'] ++ sha category

/-- `"min-" + d.String()`, render.go:263 and traces.html:136, 194. -/
def minClass (d : Duration) : List Char := ['m', 'i', 'n', '-'] ++ durationString d

/-- `highlightClasses`, render.go:251-269. -/
def highlightClasses (sha : String → List Char) (f : Filter) : List (List Char) :=
  if f.ids.length > 0 then []
  else
    (if f.category ≠ "" then [categoryClass sha f.category] else []) ++
    (if f.isActive then [['a', 'c', 't', 'i', 'v', 'e']] else []) ++
    (match f.minDuration with
     | some d => [minClass d]
     | none => []) ++
    (if f.isErrored then [['e', 'r', 'r', 'o', 'r', 'e', 'd']] else [])

/-- Two hyphens in a row. -/
def doubleHyphen : List Char → Bool
  | '-' :: '-' :: _ => true
  | _ :: s => doubleHyphen s
  | [] => false

/-- `cssValueFilter` of html/template, for values of letters, digits, points and hyphens. -/
def cssValue (s : List Char) : List Char := if doubleHyphen s then ['Z', 'g', 'o', 't', 'm', 'p', 'l', 'Z'] else s

/-- `{{ range $highlight_classes }}.{{.}}{{ end }}`, traces.html:14-16. -/
def selectorText (classes : List (List Char)) : List Char := classes.flatMap fun c => '.' :: cssValue c

/-- A character that can begin an identifier of CSS. -/
def nameStart (c : Char) : Bool :=
  (97 ≤ c.toNat && c.toNat ≤ 122) || (65 ≤ c.toNat && c.toNat ≤ 90) || c == '_' || 128 ≤ c.toNat

/-- A character that can be in an identifier of CSS. -/
def nameChar (c : Char) : Bool := nameStart c || isDigit c || c == '-'

/-- The beginning of an identifier. -/
def startsIdent : List Char → Bool
  | '-' :: c :: _ => nameStart c || c == '-'
  | c :: _ => nameStart c
  | [] => false

/-- A sequence of class selectors, as a browser reads it; `none` if it is not well-formed. -/
def parseSelector : Nat → List Char → Option (List (List Char))
  | _, [] => some []
  | 0, _ :: _ => none
  | n + 1, c :: s =>
    if c = '.' ∧ startsIdent s then (parseSelector n (s.dropWhile nameChar)).map (s.takeWhile nameChar :: ·) else none

/-- The columns of the summary, traces.html:127-163 and 182-231. -/
inductive Column where
  | name
  | active
  | bucket (min : Duration)
  | errored
  | total
  | separator
  | oldest
  | newest
  | rate
deriving DecidableEq

/-- The classes of a cell of the header, traces.html:127-163. -/
def headerClasses : Column → List (List Char)
  | .name => [['c', 'a', 't', 'e', 'g', 'o', 'r', 'y'], ['t', 'e', 'x', 't']]
  | .active => [['a', 'c', 't', 'i', 'v', 'e']]
  | .bucket d => [['b', 'u', 'c', 'k', 'e', 't'], minClass d]
  | .errored => [['e', 'r', 'r', 'o', 'r', 'e', 'd']]
  | .total => [['t', 'o', 't', 'a', 'l']]
  | .separator => [['s', 'e', 'p', 'a', 'r', 'a', 't', 'o', 'r']]
  | .oldest => [['o', 'l', 'd', 'e', 's', 't']]
  | .newest => [['n', 'e', 'w', 'e', 's', 't']]
  | .rate => [['r', 'a', 't', 'e'], ['n', 'u', 'm', 'e', 'r', 'i', 'c']]

/-- The classes of a cell of a row, traces.html:182-231. -/
def rowClasses (sha : String → List Char) (category : String) : Column → List (List Char)
  | .name => [['c', 'a', 't', 'e', 'g', 'o', 'r', 'y'], ['t', 'e', 'x', 't'], categoryClass sha category]
  | .active => [['a', 'c', 't', 'i', 'v', 'e'], ['c', 'o', 'u', 'n', 't'], ['p', 'r', 'o', 'g', 'r', 'e', 's', 's'],
      ['a', 'c', 't', 'i', 'v', 'e'], categoryClass sha category]
  | .bucket d => [['b', 'u', 'c', 'k', 'e', 't'], ['c', 'o', 'u', 'n', 't'], ['p', 'r', 'o', 'g', 'r', 'e', 's', 's'],
      minClass d, categoryClass sha category]
  | .errored => [['e', 'r', 'r', 'o', 'r', 'e', 'd'], ['c', 'o', 'u', 'n', 't'], ['p', 'r', 'o', 'g', 'r', 'e', 's', 's'],
      categoryClass sha category]
  | .total => [['t', 'o', 't', 'a', 'l'], ['c', 'o', 'u', 'n', 't'], categoryClass sha category]
  | .separator => [['s', 'e', 'p', 'a', 'r', 'a', 't', 'o', 'r'], categoryClass sha category]
  | .oldest => [['o', 'l', 'd', 'e', 's', 't'], categoryClass sha category]
  | .newest => [['n', 'e', 'w', 'e', 's', 't'], categoryClass sha category]
  | .rate => [['r', 'a', 't', 'e'], ['n', 'u', 'm', 'e', 'r', 'i', 'c'], categoryClass sha category]

/-- A cell of the summary: in the header, or in the row of a category, which may be the last one. -/
inductive Place where
  | header (col : Column)
  | row (category : String) (last : Bool) (col : Column)

def Place.classes (sha : String → List Char) : Place → List (List Char)
  | .header col => headerClasses col
  | .row category _ col => rowClasses sha category col

/-- The cell is highlighted, traces.html:11-32.  (The rows themselves have the classes `header` and `category`, which are
not among those of the selector.) -/
def cellHighlighted (sha : String → List Char) (f : Filter) (p : Place) : Bool :=
  let classes := highlightClasses sha f
  if classes ≠ [] then
    match parseSelector (selectorText classes).length (selectorText classes) with
    | none => false
    | some wanted => wanted.all fun c => (p.classes sha).contains c
  else if f.ids = [] then
    match p with
    | .row _ last _ => last
    | .header _ => false
  else false

end Trc.Web
